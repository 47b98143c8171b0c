import Verif.Model.HeapManager
import Verif.Proof.HeapMatchBook
import Verif.Proof.Ops
/-
The pointer-level operations on one book against the operations.
-/

namespace CppTrader
namespace Ptr

variable {W : Col → List Level}

/-- The operation ended: the heap represents the new state. -/
structure Done (W : Col → List Level) (n : Nat) (s' : Core) (hs' : HCore) : Prop where
  r : R W .idle s' hs'
  slot : hs'.slot = n

theorem R.hold {s : Core} {hs : HCore} (r : R W .idle s hs) {t : Order} (hf : Fly s t) : R W (.temp t) s { hs with temp := t } :=
  ⟨r.inv, fun u hu => (by cases hu; exact hf), r.rep, r.slot, r.book, r.ev, rfl⟩

theorem R.letGo {s : Core} {hs : HCore} {t : Order} (r : R W (.temp t) s hs) : R W .idle s hs :=
  ⟨r.inv, fun u hu => (by cases hu), r.rep, r.slot, r.book, r.ev, trivial⟩

theorem finish_run {s s' : Core} {hs : HCore} {e : ErrorCode} (m : Bool) (r : R W .idle s hs) (run : s.finish m = .ok (s', e)) :
    ∃ hs', hs.finish m = .ok (hs', e) ∧ Done W hs.slot s' hs' := by
  unfold Core.finish at run
  unfold HCore.finish
  cases m with
  | false =>
    cases run
    exact ⟨_, rfl, r.reset.r, r.reset.slot⟩
  | true =>
    simp only [if_true] at run ⊢
    obtain ⟨s1, h1, run⟩ := bind_inv run
    obtain ⟨hs1, q1, g⟩ := matchBook_run r h1
    rw [q1, Except.bind_ok]
    cases run
    exact ⟨_, rfl, g.r.reset.r, g.r.reset.slot.trans g.slot⟩

theorem Done.pre {hs hs1 hs' : HCore} {s' : Core} (h : hs1.slot = hs.slot) (d : Done W hs1.slot s' hs') : Done W hs.slot s' hs' := ⟨d.r, d.slot.trans h⟩

theorem R.outRead {s : Core} {hs : HCore} {a : Nat} {t : Order} (r : R W (.out a t) s hs) : ∃ n, hs.order a = .ok n ∧ n.order = t := by
  obtain ⟨⟨n, hn, hno⟩, _⟩ := r.rep.outOk a t rfl
  exact ⟨n, order_eq hn, hno⟩

/-- An order outside of the map is destroyed. -/
theorem R.releaseOut {s : Core} {hs : HCore} {a : Nat} {t : Order} (r : R W (.out a t) s hs) :
    ∃ h', hs.heap.releaseOrder a = .ok h' ∧ R W .idle s { hs with heap := h' } := by
  obtain ⟨h', e, rep, _⟩ := r.rep.releaseOut
  exact ⟨h', e, r.inv, fun u hu => (by cases hu), rep, r.slot, r.book, r.ev, trivial⟩

theorem insertNode_run {s s' : Core} {hs : HCore} {a : Nat} {t : Order} {e : ErrorCode} (m : Bool) (r : R W (.out a t) s hs) (hok : OrderOK t)
    (run : s.insertNew m t = .ok (s', e)) : ∃ hs', hs.insertNode m a = .ok (hs', e) ∧ Done W hs.slot s' hs' := by
  obtain ⟨n, hn, hno⟩ := r.outRead
  unfold Core.insertNew at run
  unfold HCore.insertNode
  rw [hn, Except.bind_ok, hno]
  cases ho : s.orders t.id with
  | some x =>
    rw [ho] at run
    obtain ⟨b, hb⟩ := r.rep.fwd t.id x ho
    rw [hb]
    dsimp only at run ⊢
    have c := r.emit (.deleteOrder t)
    obtain ⟨h', e1, r'⟩ := c.r.releaseOut
    rw [e1, Except.bind_ok]
    cases run
    exact ⟨_, rfl, r', rfl⟩
  | none =>
    rw [ho] at run
    have hb : hs.heap.orders t.id = none := by
      cases hc : hs.heap.orders t.id with
      | none => rfl
      | some b =>
        obtain ⟨m, _, _, h3⟩ := r.rep.back t.id b hc
        have h3' : s.orders t.id = some m.order := h3
        rw [ho] at h3'; cases h3'
    rw [hb]
    dsimp only at run ⊢
    obtain ⟨s1, h1, run⟩ := bind_inv run
    have rk : R W (.kept a t) s { hs with heap := hs.heap.insert t.id a } :=
      ⟨r.inv, fun u hu => r.fly u hu, r.rep.putIn ho, r.slot, r.book, r.ev, setX_same _ _ _, ho⟩
    obtain ⟨hs1, k, q1, _, g, _⟩ := link_run rk hok h1
    rw [q1, Except.bind_ok]
    obtain ⟨hs2, q2, d⟩ := finish_run m g.r run
    exact ⟨hs2, q2, d.pre g.slot⟩

theorem insertNew_run {s s' : Core} {hs : HCore} {t : Order} {e : ErrorCode} (m : Bool) (r : R W (.temp t) s hs) (hok : OrderOK t)
    (run : s.insertNew m t = .ok (s', e)) : ∃ hs', hs.insertNew m = .ok (hs', e) ∧ Done W hs.slot s' hs' := by
  have ht : hs.temp = t := r.seat
  have ro : R W (.out (hs.heap.createOrder t).2 t) s { hs with heap := (hs.heap.createOrder t).1 } :=
    ⟨r.inv, fun u hu => r.fly u hu, r.rep.create t, r.slot, r.book, r.ev, trivial⟩
  obtain ⟨hs', q, d⟩ := insertNode_run m ro hok run
  refine ⟨hs', ?_, d⟩
  unfold HCore.insertNew
  rw [ht]
  rw [← q, ← ht]

theorem matchIf_run {f : Seat} {s s' : Core} {hs : HCore} {t t' : Order} (m : Bool) (r : R W f s hs) (ht : f.taker = some t) (run : s.matchIf m t = .ok (s', t')) :
    ∃ hs', hs.matchIf m f.loc = .ok hs' ∧ R W (f.set t') s' hs' ∧ hs'.slot = hs.slot := by
  unfold Core.matchIf at run
  unfold HCore.matchIf
  cases m with
  | false => cases run; exact ⟨hs, rfl, by rw [Seat.set_self ht]; exact r, rfl⟩
  | true =>
    obtain ⟨hs', q, c, _⟩ := matchOrder_run r ht run
    exact ⟨hs', q, c.r, c.slot⟩

theorem matchIf_sim {m : Bool} {s s' : Core} {t t' : Order} (hi : Inv s) (hf : Fly s t) (hpos : 0 < t.leaves) (run : s.matchIf m t = .ok (s', t')) :
    t'.type = t.type ∧ t'.tif = t.tif ∧ t'.id = t.id := by
  unfold Core.matchIf at run
  cases m with
  | false => cases run; exact ⟨rfl, rfl, rfl⟩
  | true =>
    obtain ⟨s2, t2, e1, _, x, y, e3⟩ := matchOrder_ok hi hf hpos
    simp only [if_true] at run
    rw [e1] at run
    cases run
    rw [e3]; exact ⟨rfl, rfl, rfl⟩

theorem leave_run {s s' : Core} {hs : HCore} {t : Order} {e : ErrorCode} (m : Bool) (r : R W (.temp t) s hs)
    (run : (s.emit (.deleteOrder t)).finish m = .ok (s', e)) : ∃ hs', (hs.emit (.deleteOrder hs.temp)).finish m = .ok (hs', e) ∧ Done W hs.slot s' hs' := by
  rw [show hs.temp = t from r.seat]
  obtain ⟨hs', q, d⟩ := finish_run m (r.emit (.deleteOrder t)).r.letGo run
  exact ⟨hs', q, d⟩

theorem addMarket_run {s s' : Core} {hs : HCore} {o : Order} {e : ErrorCode} (m : Bool) (r : R W .idle s hs) (hf : Fly s o)
    (run : s.addMarket m o = .ok (s', e)) : ∃ hs', hs.addMarket m o = .ok (hs', e) ∧ Done W hs.slot s' hs' := by
  unfold Core.addMarket at run
  unfold HCore.addMarket
  have r1 := ((r.hold hf).emit (.addOrder o)).r
  cases m with
  | false => exact leave_run false r1 run
  | true =>
    simp only [if_true] at run ⊢
    obtain ⟨⟨s1, t1⟩, h1, run⟩ := bind_inv run
    obtain ⟨hs1, q1, c1, _⟩ := matchMarket_run r1 rfl h1
    obtain ⟨hs2, q2, d⟩ := leave_run true c1.r run
    exact ⟨hs2, (congrArg (· >>= fun s : HCore => (s.emit (.deleteOrder s.temp)).finish true) q1).trans q2, d.pre c1.slot⟩

theorem restOrCancel_run {s s' : Core} {hs : HCore} {t : Order} {e : ErrorCode} (m : Bool) (r : R W (.temp t) s hs) (hty : t.type = .limit)
    (run : s.restOrCancel m t = .ok (s', e)) : ∃ hs', hs.restOrCancel m = .ok (hs', e) ∧ Done W hs.slot s' hs' := by
  unfold Core.restOrCancel at run
  unfold HCore.restOrCancel
  rw [show hs.temp = t from r.seat]
  by_cases h : (decide (t.leaves > 0) && !t.isIOC && !t.isFOK) = true
  · rw [if_pos h] at run ⊢
    refine insertNew_run m r ?_ run
    simp only [Bool.and_eq_true, decide_eq_true_eq, Bool.not_eq_true'] at h
    refine (r.fly t rfl).orderOK h.1.1 (by rw [hty]; simp) ?_
    intro _
    have h1 := h.1.2
    have h2 := h.2
    unfold Order.isIOC at h1
    unfold Order.isFOK at h2
    cases hq : t.tif <;> simp [hq] at h1 h2 ⊢
  · rw [if_neg h] at run ⊢
    have := leave_run m r run
    rw [show hs.temp = t from r.seat] at this
    exact this

theorem addLimit_run {s s' : Core} {hs : HCore} {o : Order} {e : ErrorCode} (m : Bool) (r : R W .idle s hs) (hf : Fly s o) (hpos : 0 < o.leaves) (hty : o.type = .limit)
    (run : s.addLimit m o = .ok (s', e)) : ∃ hs', hs.addLimit m o = .ok (hs', e) ∧ Done W hs.slot s' hs' := by
  unfold Core.addLimit at run
  unfold HCore.addLimit
  have r1 := ((r.hold hf).emit (.addOrder o)).r
  obtain ⟨⟨s1, t1⟩, h1, run⟩ := bind_inv run
  obtain ⟨hs1, q1, r2, hsl⟩ := matchIf_run m r1 rfl h1
  have hs := matchIf_sim r1.inv (r1.fly o rfl) hpos h1
  obtain ⟨hs2, q2, d⟩ := restOrCancel_run m r2 (hs.1.trans hty) run
  exact ⟨hs2, (congrArg (· >>= fun s : HCore => s.restOrCancel m) q1).trans q2, d.pre hsl⟩

theorem initTrailing_run {s : Core} {hs : HCore} (r : R W .idle s hs) (o : Order) : hs.initTrailing o = .ok (Core.initTrailing s.book o) := by
  unfold HCore.initTrailing Core.initTrailing
  by_cases h : o.isTrailing = true
  · rw [if_pos h, if_pos h, r.calcTrailing, Except.bind_ok]
  · rw [if_neg h, if_neg h]

theorem triggered_run {f : Seat} {s : Core} {hs : HCore} (r : R W f s hs) (o : Order) : hs.triggered o = .ok (Core.triggered s.book o) := by
  unfold HCore.triggered Core.triggered
  by_cases h : o.isBuy = true
  · rw [if_pos h, if_pos h, r.marketAsk, Except.bind_ok]
  · rw [if_neg h, if_neg h, r.marketBid, Except.bind_ok]

theorem restStop_run {s s' : Core} {hs : HCore} {t : Order} {e : ErrorCode} (m : Bool) (r : R W (.temp t) s hs) (h1 : t.type ≠ .market) (h2 : t.type ≠ .limit)
    (run : (if t.leaves > 0 then s.insertNew m t else (s.emit (.deleteOrder t)).finish m) = .ok (s', e)) : ∃ hs', hs.restStop m = .ok (hs', e) ∧ Done W hs.slot s' hs' := by
  unfold HCore.restStop
  rw [show hs.temp = t from r.seat]
  by_cases h : t.leaves > 0
  · rw [if_pos h] at run ⊢
    exact insertNew_run m r ((r.fly t rfl).orderOK h h1 (fun e => absurd e h2)) run
  · rw [if_neg h] at run ⊢
    have := leave_run m r run
    rw [show hs.temp = t from r.seat] at this
    exact this

/-- A new order is changed and reported. -/
theorem R.turn {s : Core} {hs : HCore} {o t : Order} (r : R W (.temp o) s hs) (hf : Fly s t) :
    R W (.temp t) (s.emit (.updateOrder t)) ({ hs with temp := t }.emit (.updateOrder t)) :=
  ((r.letGo.hold hf).emit (.updateOrder t)).r

theorem fly_trailing {s : Core} {o : Order} (hi : Inv s) (hf : Fly s o) (hok : o.isTrailing = true → o.TrailOK) :
    Fly s (Core.initTrailing s.book o) ∧ (Core.initTrailing s.book o).type = o.type ∧ (Core.initTrailing s.book o).leaves = o.leaves := by
  obtain ⟨g1, g2, g3, g4, g5, g6, g7, g8, g9⟩ := initTrailing_props hi hf.repr hok
  generalize Core.initTrailing s.book o = u at *
  exact ⟨⟨g1, by rw [g2]; exact hf.idPos, by rw [g3]; exact hf.sym, by rw [g4]; exact hf.vol, fun h => g7.2 (hok (by rw [← isTrailing_congr g5]; exact h))⟩, g5, g4⟩

theorem addStop_run {s s' : Core} {hs : HCore} {o : Order} {e : ErrorCode} (m : Bool) (r : R W .idle s hs) (hf : Fly s o) (h1 : o.type ≠ .market) (h2 : o.type ≠ .limit)
    (run : s.addStop m o = .ok (s', e)) : ∃ hs', hs.addStop m o = .ok (hs', e) ∧ Done W hs.slot s' hs' := by
  unfold Core.addStop at run
  unfold HCore.addStop
  rw [initTrailing_run r, Except.bind_ok]
  obtain ⟨hfu, hty, _⟩ := fly_trailing r.inv hf hf.trail
  dsimp only at run ⊢
  generalize Core.initTrailing s.book o = u at *
  have r1 := ((r.hold hfu).emit (.addOrder u)).r
  have hb : (s.emit (.addOrder u)).book = s.book := rfl
  rw [← hty] at h1 h2
  cases m with
  | false => exact restStop_run false r1 h1 h2 run
  | true =>
    simp only [if_true, Bool.true_and] at run ⊢
    have ht := triggered_run r1 u
    rw [show HCore.triggered _ (HCore.emit { hs with temp := u } (.addOrder u)).temp = _ from ht, Except.bind_ok]
    by_cases hc : Core.triggered (s.emit (.addOrder u)).book u = true
    · rw [if_pos hc] at run ⊢
      obtain ⟨⟨s1, t1⟩, w1, run⟩ := bind_inv run
      have r2 := r1.turn (fly_market (r1.fly u rfl))
      obtain ⟨hs1, q1, c1, _⟩ := matchMarket_run r2 rfl w1
      obtain ⟨hs2, q2, d⟩ := leave_run true c1.r run
      exact ⟨hs2, (congrArg (· >>= fun s : HCore => (s.emit (.deleteOrder s.temp)).finish true) q1).trans q2, d.pre c1.slot⟩
    · rw [if_neg hc] at run ⊢
      exact restStop_run true r1 h1 h2 run

theorem addStopLimit_run {s s' : Core} {hs : HCore} {o : Order} {e : ErrorCode} (m : Bool) (r : R W .idle s hs) (hf : Fly s o) (hpos : 0 < o.leaves) (h1 : o.type ≠ .market) (h2 : o.type ≠ .limit)
    (run : s.addStopLimit m o = .ok (s', e)) : ∃ hs', hs.addStopLimit m o = .ok (hs', e) ∧ Done W hs.slot s' hs' := by
  unfold Core.addStopLimit at run
  unfold HCore.addStopLimit
  rw [initTrailing_run r, Except.bind_ok]
  obtain ⟨hfu, hty, hlu⟩ := fly_trailing r.inv hf hf.trail
  dsimp only at run ⊢
  generalize Core.initTrailing s.book o = u at *
  have r1 := ((r.hold hfu).emit (.addOrder u)).r
  rw [← hty] at h1 h2
  cases m with
  | false => exact restStop_run false r1 h1 h2 run
  | true =>
    simp only [if_true, Bool.true_and] at run ⊢
    have ht := triggered_run r1 u
    rw [show HCore.triggered _ (HCore.emit { hs with temp := u } (.addOrder u)).temp = _ from ht, Except.bind_ok]
    by_cases hc : Core.triggered (s.emit (.addOrder u)).book u = true
    · rw [if_pos hc] at run ⊢
      obtain ⟨⟨s1, t1⟩, w1, run⟩ := bind_inv run
      have r2 := r1.turn (fly_limit (r1.fly u rfl))
      obtain ⟨hs1, q1, c1, _⟩ := matchOrder_run r2 rfl w1
      have hsim := matchIf_sim (m := true) r2.inv (r2.fly _ rfl) (by show 0 < u.leaves; omega) w1
      obtain ⟨hs2, q2, d⟩ := restOrCancel_run true c1.r hsim.1 run
      exact ⟨hs2, (congrArg (· >>= fun s : HCore => s.restOrCancel true) q1).trans q2, d.pre c1.slot⟩
    · rw [if_neg hc] at run ⊢
      exact restStop_run true r1 h1 h2 run

theorem addAny_run {s s' : Core} {hs : HCore} {o : Order} {e : ErrorCode} (m : Bool) (r : R W .idle s hs) (hf : Fly s o) (hpos : 0 < o.leaves)
    (run : s.addAny m o = .ok (s', e)) : ∃ hs', hs.addAny m o = .ok (hs', e) ∧ Done W hs.slot s' hs' := by
  unfold Core.addAny at run
  unfold HCore.addAny
  cases hty : o.type <;> simp only [hty] at run ⊢
  · exact addMarket_run m r hf run
  · exact addLimit_run m r hf hpos hty run
  · exact addStop_run m r hf (by rw [hty]; simp) (by rw [hty]; simp) run
  · exact addStopLimit_run m r hf hpos (by rw [hty]; simp) (by rw [hty]; simp) run
  · exact addStop_run m r hf (by rw [hty]; simp) (by rw [hty]; simp) run
  · exact addStopLimit_run m r hf hpos (by rw [hty]; simp) (by rw [hty]; simp) run

theorem reduceOp_run {s s' : Core} {hs : HCore} {id a q : Nat} {o : Order} {e : ErrorCode} (m : Bool) (r : R W .idle s hs) (ho : s.orders id = some o)
    (hsym : o.symbolId = s.book.symbol.id) (ha : hs.heap.orders id = some a) (run : s.reduceOp m o q = .ok (s', e)) :
    ∃ hs', hs.reduceOp m id a q = .ok (hs', e) ∧ Done W hs.slot s' hs' := by
  unfold Core.reduceOp at run
  unfold HCore.reduceOp
  obtain ⟨s1, h1, run⟩ := bind_inv run
  obtain ⟨hs1, k, q1, _, c, _⟩ := reduceBody_run r ho hsym ha h1
  rw [q1, Except.bind_ok]
  obtain ⟨hs2, q2, d⟩ := finish_run m c.r run
  exact ⟨hs2, q2, d.pre c.slot⟩

theorem deleteOp_run {s s' : Core} {hs : HCore} {id a : Nat} {o : Order} {e : ErrorCode} (m : Bool) (r : R W .idle s hs) (ho : s.orders id = some o)
    (hsym : o.symbolId = s.book.symbol.id) (ha : hs.heap.orders id = some a) (run : s.deleteOp m o = .ok (s', e)) :
    ∃ hs', hs.deleteOp m id a = .ok (hs', e) ∧ Done W hs.slot s' hs' := by
  unfold Core.deleteOp at run
  unfold HCore.deleteOp
  obtain ⟨s1, h1, run⟩ := bind_inv run
  obtain ⟨hs1, k, q1, _, c, _⟩ := deleteBody_run r ho hsym ha h1
  rw [q1, Except.bind_ok]
  obtain ⟨hs2, q2, d⟩ := finish_run m c.r run
  exact ⟨hs2, q2, d.pre c.slot⟩

theorem ev_nil (hs : HCore) : { hs with ev := hs.ev ++ [] } = hs := by cases hs; simp

theorem drop_emit {hs hs' : HCore} {id a : Nat} (e : Event) (h : hs.drop id a = .ok hs') : (hs.emit e).drop id a = .ok (hs'.emit e) := by
  unfold HCore.drop at h ⊢
  obtain ⟨h1, q, run⟩ := bind_inv h
  rw [show ((hs.emit e).heap.erase id).releaseOrder a = .ok h1 from q, Except.bind_ok]
  have run := Except.ok.inj run
  rw [← run]; rfl

theorem executeOp_run {s s' : Core} {hs : HCore} {id a p qty : Nat} {o : Order} {e : ErrorCode} (m : Bool) (r : R W .idle s hs) (ho : s.orders id = some o)
    (hsym : o.symbolId = s.book.symbol.id) (ha : hs.heap.orders id = some a) (run : s.executeOp m o p qty = .ok (s', e)) :
    ∃ hs', hs.executeOp m id a p qty = .ok (hs', e) ∧ Done W hs.slot s' hs' := by
  obtain ⟨hM, a', n, ha', hn, hno, hid⟩ := r.addr ho
  have := orders_some ha ha'
  subst this
  unfold Core.executeOp at run
  dsimp only at run
  have c1 := r.emit (.exec o p (min qty o.leaves))
  have c2 := c1.r.setPrices o.side p
  obtain ⟨s1, h1, run⟩ := bind_inv run
  have hle : min qty o.leaves ≤ o.leaves := Nat.min_le_right _ _
  have hok := Inv.okAfter r.inv ho (q := min qty o.leaves)
  obtain ⟨hs1, k, q1, hk, c3, _, _⟩ := shrink_run (s := (s.emit (.exec o p (min qty o.leaves))).setPrices o.side p) (s' := s1)
    (o := o) (o' := { o with executed := add64 o.executed (min qty o.leaves), leaves := o.leaves - min qty o.leaves }) (q := min qty o.leaves) (e := [])
    c2.r ho (by rw [hsym]; exact congrArg Symbol.id (updatePrices_symbol ..).symm) ((by cases o.side <;> exact ha) : ((hs.emit (.exec o p (min qty o.leaves))).setPrices o.side p).heap.orders id = some a) rfl rfl rfl rfl hle rfl rfl
    (fun h => by
      obtain ⟨g1, g2, g3, g4, g5, g6⟩ := hok h
      refine ⟨?_, g2, h, g4, g5, g6⟩
      have := add64_lt o.executed (min qty o.leaves)
      unfold Order.Repr64 at *
      simp only at g1 ⊢
      omega) (by
      have : ({ (s.emit (.exec o p (min qty o.leaves))).setPrices o.side p with ev := ((s.emit (.exec o p (min qty o.leaves))).setPrices o.side p).ev ++ [] } : Core) = (s.emit (.exec o p (min qty o.leaves))).setPrices o.side p := by
        rw [List.append_nil]
      rw [this]
      exact h1)
  have hslot : hs1.slot = hs.slot := c3.slot.trans (c2.slot.trans c1.slot)
  unfold HCore.executeOp HCore.order
  rw [order_eq hn, Except.bind_ok]
  dsimp only
  rw [hno]
  dsimp only at q1
  obtain ⟨hs2, w2, q1⟩ := bind_inv q1
  rw [w2, Except.bind_ok]
  rw [ev_nil] at q1
  obtain ⟨hs3, w3, q1⟩ := bind_inv q1
  rw [w3, Except.bind_ok]
  by_cases hl : o.leaves - min qty o.leaves > 0
  · rw [if_pos hl] at run q1 ⊢
    have q1 := Except.ok.inj q1
    subst q1
    obtain ⟨hs4, q4, d⟩ := finish_run m (c3.r.emit _).r run
    exact ⟨hs4, q4, d.pre hslot⟩
  · rw [if_neg hl] at run q1 ⊢
    rw [drop_emit _ q1, Except.bind_ok]
    obtain ⟨hs4, q4, d⟩ := finish_run m (c3.r.emit _).r run
    exact ⟨hs4, q4, d.pre hslot⟩

theorem dropEmpty_run {s s' : Core} {hs : HCore} {a : Nat} {t : Order} {e : ErrorCode} (m : Bool) (r : R W (.kept a t) s hs)
    (run : (s.emit (.deleteOrder t)).finish m = .ok (s', e)) : ∃ hs', hs.dropEmpty m t.id a = .ok (hs', e) ∧ Done W hs.slot s' hs' := by
  obtain ⟨n, hn, hno⟩ := kept_read r
  obtain ⟨hs1, q1, g⟩ := discard_run r
  unfold HCore.dropEmpty
  rw [hn, Except.bind_ok, hno]
  have q : (hs.emit (.deleteOrder t)).drop t.id a = .ok hs1 := by
    unfold HCore.dropFound at q1
    rw [show (hs.emit (.deleteOrder t)).order a = .ok n from hn, Except.bind_ok, hno, show (hs.emit (.deleteOrder t)).heap.orders t.id = some a from r.seat.1] at q1
    exact q1
  rw [q, Except.bind_ok]
  obtain ⟨hs2, q2, d⟩ := finish_run m g.r run
  exact ⟨hs2, q2, d.pre g.slot⟩

theorem modifyOp_run {s s' : Core} {hs : HCore} {id a p q : Nat} {mit : Bool} {o : Order} {e : ErrorCode} (m : Bool) (r : R W .idle s hs) (ho : s.orders id = some o)
    (hsym : o.symbolId = s.book.symbol.id) (ha : hs.heap.orders id = some a) (hp : p < W64) (hq : q < W64) (hvol : Core.volume s.book + q < W64)
    (run : s.modifyOp m o p q mit = .ok (s', e)) : ∃ hs', hs.modifyOp m id a p q mit = .ok (hs', e) ∧ Done W hs.slot s' hs' := by
  have hid := (r.inv.orders id o ho).1
  have hok := (r.inv.orders id o ho).2
  unfold Core.modifyOp at run
  obtain ⟨s1, h1, run⟩ := bind_inv run
  obtain ⟨hs1, k, q1, hk, c1, _, hord, hoo⟩ := pick_run r ho hsym ha h1
  obtain ⟨_, s1', _, h1', _, _, _, hv, _⟩ := r.inv.unlink ho hsym
  rw [h1] at h1'
  have h1' := Except.ok.inj h1'
  subst h1'
  have hle := modified_leaves_le o p q mit
  have hfo := c1.r.fly o rfl
  have hft : Fly s1 (Core.modified o p q mit) := by
    refine ⟨?_, hfo.idPos, hfo.sym, ?_, hfo.trail⟩
    · have := hok.repr
      unfold Order.Repr64 at *
      refine ⟨this.1, this.2.1, hp, this.2.2.2.1, hq, this.2.2.2.2.2.1, by omega, this.2.2.2.2.2.2.2⟩
    · omega
  obtain ⟨hs2, q2, c2, _⟩ := c1.r.store rfl (t' := Core.modified o p q mit) rfl hft
  obtain ⟨n, hn, hno⟩ := kept_read c1.r
  unfold HCore.modifyOp
  rw [q1, Except.bind_ok, hn, Except.bind_ok]
  dsimp only at run ⊢
  rw [hno, show hs1.write a (Core.modified o p q mit) = .ok hs2 from q2, Except.bind_ok]
  have hsl : hs2.slot = hs.slot := c2.slot.trans c1.slot
  have hti : (Core.modified o p q mit).id = id := hid
  have hty : (Core.modified o p q mit).type = o.type := rfl
  have htf : (Core.modified o p q mit).tif = o.tif := rfl
  have r2 : R W (.kept a (Core.modified o p q mit)) s1 hs2 := c2.r
  generalize Core.modified o p q mit = t at *
  by_cases hpos : t.leaves > 0
  · rw [if_pos hpos] at run ⊢
    obtain ⟨⟨s3, t3⟩, h3, run⟩ := bind_inv run
    have r2' := (r2.emit (.updateOrder t)).r
    obtain ⟨hs3, q3, r3, hsl3⟩ := matchIf_run m r2' rfl h3
    have hsim := matchIf_sim r2'.inv (r2'.fly t rfl) hpos h3
    rw [show HCore.matchIf m _ (.node a) = _ from q3, Except.bind_ok]
    obtain ⟨n3, hn3, hno3⟩ := kept_read r3
    rw [hn3, Except.bind_ok, hno3]
    dsimp only at run
    have hsl' : hs3.slot = hs.slot := hsl3.trans hsl
    by_cases hl : t3.leaves > 0
    · rw [if_pos hl] at run ⊢
      obtain ⟨s4, h4, run⟩ := bind_inv run
      have hok3 : OrderOK t3 := (r3.fly t3 rfl).orderOK hl (by rw [hsim.1, hty]; exact hok.notMarket) (by rw [hsim.1, hsim.2.1, hty, htf]; exact hok.tif)
      obtain ⟨hs4, k4, q4, _, g, _⟩ := link_run r3 hok3 h4
      rw [q4, Except.bind_ok]
      obtain ⟨hs5, q5, d⟩ := finish_run m g.r run
      exact ⟨hs5, q5, d.pre (g.slot.trans hsl')⟩
    · rw [if_neg hl] at run ⊢
      obtain ⟨hs5, q5, d⟩ := dropEmpty_run m r3 run
      rw [hsim.2.2, hti] at q5
      exact ⟨hs5, q5, d.pre hsl'⟩
  · rw [if_neg hpos] at run ⊢
    obtain ⟨hs5, q5, d⟩ := dropEmpty_run m r2 run
    rw [hti] at q5
    exact ⟨hs5, q5, d.pre hsl⟩

theorem replaceOp_run {s s' : Core} {hs : HCore} {id a newId p q : Nat} {o : Order} {e : ErrorCode} (m : Bool) (r : R W .idle s hs) (ho : s.orders id = some o)
    (hsym : o.symbolId = s.book.symbol.id) (ha : hs.heap.orders id = some a) (hlim : o.type = .limit) (hn0 : 0 < newId) (hn : newId < W64) (hp : p < W64) (hq0 : 0 < q) (hq : q < W64)
    (hvol : Core.volume s.book + q < W64)
    (run : s.replaceOp m o newId p q = .ok (s', e)) : ∃ hs', hs.replaceOp m id a newId p q = .ok (hs', e) ∧ Done W hs.slot s' hs' := by
  have hid := (r.inv.orders id o ho).1
  have hok := (r.inv.orders id o ho).2
  unfold Core.replaceOp at run
  obtain ⟨s1, h1, run⟩ := bind_inv run
  obtain ⟨hs1, k, q1, hk, c1, _, hord, hoo⟩ := pick_run r ho hsym ha h1
  obtain ⟨_, s1', _, h1', _, _, _, hv, _⟩ := r.inv.unlink ho hsym
  rw [h1] at h1'
  have h1' := Except.ok.inj h1'
  subst h1'
  have hfo := c1.r.fly o rfl
  obtain ⟨n, hnn, hno⟩ := kept_read c1.r
  unfold HCore.replaceOp
  rw [q1, Except.bind_ok, hnn, Except.bind_ok]
  dsimp only at run ⊢
  rw [hno]
  have r2 := (c1.r.emit (.deleteOrder o)).r
  have hmap : setO (Seat.map (.kept a o) s1.orders) o.id none = s1.orders := by
    show setO (setO s1.orders o.id (some o)) o.id none = _
    rw [setO_again]; exact setO_self r2.seat.2
  have r3 : R W (.out a o) (s1.emit (.deleteOrder o)) { hs1.emit (.deleteOrder o) with heap := (hs1.emit (.deleteOrder o)).heap.erase id } := by
    refine ⟨r2.inv, fun u hu => r2.fly u hu, ?_, r2.slot, r2.book, r2.ev, trivial⟩
    have := r2.rep.takeOut (i := o.id) (a := a) (o := o) (setO_at' _ _ _) r2.seat.1 (r2.unlinked rfl)
    rw [hid] at this hmap
    show Rep _ s1.orders _ _
    rw [← hmap]; exact this
  generalize ht : ({ o with id := newId, price := p, quantity := q, executed := 0, leaves := q } : Order) = t at *
  have hrep : t.Repr64 := by
    have := hok.repr
    rw [← ht]
    unfold Order.Repr64 at *
    refine ⟨hn, this.2.1, hp, this.2.2.2.1, hq, by simp, hq, this.2.2.2.2.2.2.2⟩
  have hty : t.type = .limit := by rw [← ht]; exact hlim
  have htf : t.tif = o.tif := by rw [← ht]
  have hpos : 0 < t.leaves := by rw [← ht]; exact hq0
  have hft : Fly (s1.emit (.deleteOrder o)) t := by
    refine ⟨hrep, by rw [← ht]; exact hn0, by rw [← ht]; exact hfo.sym, ?_, fun h => by rw [← ht] at h ⊢; exact hok.trail h⟩
    show Core.volume s1.book + t.leaves < _
    have : t.leaves = q := by rw [← ht]
    omega
  obtain ⟨e4, rep4⟩ := Rep.writeOut (a := a) (t := o) r3.rep t
  have r4 : R W (.out a t) (s1.emit (.deleteOrder o)) { { hs1.emit (.deleteOrder o) with heap := (hs1.emit (.deleteOrder o)).heap.erase id } with
      heap := upd ((hs1.emit (.deleteOrder o)).heap.erase id) (some a) (fun n => { n with order := t }) } :=
    ⟨r3.inv, fun u hu => (by cases hu; exact hft), rep4, r3.slot, r3.book, r3.ev, trivial⟩
  unfold HCore.write
  dsimp only
  rw [show Heap.write ((hs1.emit (.deleteOrder o)).heap.erase id) a t = _ from e4, Except.bind_ok, Except.bind_ok]
  have r5 := (r4.emit (.addOrder t)).r
  obtain ⟨⟨s6, t6⟩, h6, run⟩ := bind_inv run
  obtain ⟨hs6, q6, r6, hsl⟩ := matchIf_run m r5 rfl h6
  have hsim := matchIf_sim r5.inv (r5.fly t rfl) hpos h6
  rw [show HCore.matchIf m _ (.node a) = _ from q6, Except.bind_ok]
  obtain ⟨n6, hn6, hno6⟩ := r6.outRead
  rw [hn6, Except.bind_ok, hno6]
  dsimp only at run
  have hsl' : hs6.slot = hs.slot := hsl.trans c1.slot
  by_cases hl : t6.leaves > 0
  · rw [if_pos hl] at run ⊢
    have hok6 : OrderOK t6 := (r6.fly t6 rfl).orderOK hl (by rw [hsim.1, hty]; simp) (fun _ => by rw [hsim.2.1, htf]; exact hok.tif hlim)
    obtain ⟨hs7, q7, d⟩ := insertNode_run m r6 hok6 run
    exact ⟨hs7, q7, d.pre hsl'⟩
  · rw [if_neg hl] at run ⊢
    have r7 := (r6.emit (.deleteOrder t6)).r
    obtain ⟨h', e7, r8⟩ := r7.releaseOut
    rw [e7, Except.bind_ok]
    obtain ⟨hs9, q9, d⟩ := finish_run m r8 run
    exact ⟨hs9, q9, d.pre hsl'⟩

end Ptr
end CppTrader
