import Verif.Proof.HeapMatch
import Verif.Proof.Recalc
/-
Market orders and stop orders on pointers.
-/

namespace CppTrader
namespace Ptr

variable {W : Col → List Level}

theorem matchMarket_run {f : Seat} {s s' : Core} {hs : HCore} {t t' : Order} (r : R W f s hs) (ht : f.taker = some t) (run : s.matchMarket t = .ok (s', t')) :
    ∃ hs', hs.matchMarket f.loc = .ok hs' ∧ Cut W f s hs (f.set t') s' hs' ∧ (∀ k', k'.isLimit = false → s'.book.lv k' = s.book.lv k') := by
  have hfly := r.fly t ht
  unfold Core.matchMarket at run
  unfold HCore.matchMarket
  rw [r.read ht, Except.bind_ok]
  have key : ∀ p, Core.marketLimit s.book t = some p → s.matchOrder { t with price := p } = .ok (s', t') →
      ∃ hs', (hs.store f.loc { t with price := p } >>= fun s => s.matchOrder f.loc) = .ok hs' ∧ Cut W f s hs (f.set t') s' hs' ∧
        (∀ k', k'.isLimit = false → s'.book.lv k' = s.book.lv k') := by
    intro p hp run
    obtain ⟨hs1, e1, c1, _⟩ := r.store ht (t' := { t with price := p }) rfl (fly_price hfly (marketLimit_lt r.inv hfly.repr hp))
    obtain ⟨hs2, e2, c2, oth⟩ := matchOrder_run c1.r (Seat.set_taker ht) run
    rw [Seat.set_loc] at e2
    rw [Seat.set_set] at c2
    exact ⟨hs2, by rw [e1]; exact e2, c1.trans c2, oth⟩
  have none' : Core.marketLimit s.book t = none → s' = s ∧ t' = t := by
    intro h
    rw [h] at run
    obtain ⟨e1, e2⟩ := Prod.mk.inj (Except.ok.inj run)
    exact ⟨e1.symm, e2.symm⟩
  by_cases hb : t.isBuy = true
  · rw [if_pos hb, r.bestPrice, Except.bind_ok]
    cases hbest : s.book.best .ask with
    | none =>
      obtain ⟨e1, e2⟩ := none' (by unfold Core.marketLimit; rw [if_pos hb, hbest])
      subst e1; subst e2
      exact ⟨hs, rfl, by rw [Seat.set_self ht]; exact .refl r, fun _ _ => rfl⟩
    | some p =>
      have hml : Core.marketLimit s.book t = some (if p > MAX64 - t.slippage then MAX64 else p + t.slippage) := by
        unfold Core.marketLimit; rw [if_pos hb, hbest]
      rw [hml] at run
      exact key _ hml run
  · rw [if_neg hb, r.bestPrice, Except.bind_ok]
    cases hbest : s.book.best .bid with
    | none =>
      obtain ⟨e1, e2⟩ := none' (by unfold Core.marketLimit; rw [if_neg hb, hbest])
      subst e1; subst e2
      exact ⟨hs, rfl, by rw [Seat.set_self ht]; exact .refl r, fun _ _ => rfl⟩
    | some p =>
      have hml : Core.marketLimit s.book t = some (if p < t.slippage then 0 else p - t.slippage) := by
        unfold Core.marketLimit; rw [if_neg hb, hbest]
      rw [hml] at run
      exact key _ hml run

theorem fly_market {s : Core} {o : Order} (h : Fly s o) : Fly s (Core.toMarket o) := by
  refine ⟨?_, h.idPos, h.sym, h.vol, fun e => by cases e⟩
  have := h.repr
  unfold Order.Repr64 Core.toMarket at *
  simp only; omega

theorem fly_limit {s : Core} {o : Order} (h : Fly s o) : Fly s (Core.toLimit o) := by
  refine ⟨?_, h.idPos, h.sym, h.vol, fun e => by cases e⟩
  have := h.repr
  unfold Order.Repr64 Core.toLimit at *
  simp only; omega

theorem R.emit_lv (s : Core) (e : Event) : (s.emit e).book = s.book := rfl

theorem kept_read {s : Core} {hs : HCore} {a : Nat} {t : Order} (r : R W (.kept a t) s hs) : ∃ n, hs.order a = .ok n ∧ n.order = t := by
  obtain ⟨n, hn, hno, _⟩ := r.rep.nodeAt (i := t.id) (a := a) (o := t) (setO_at' _ _ _) r.seat.1
  exact ⟨n, order_eq hn, hno⟩

/-- Take a stop order out of the book and change its type. -/
theorem convert_run {s s1 : Core} {hs : HCore} (r : R W .idle s hs) {k : Kind} {p id a : Nat} {rest : List Nat} {o o' : Order} (hT : Tail s.book k p (id :: rest)) (ho : s.orders id = some o)
    (ha : hs.heap.orders id = some a) (hid : o'.id = o.id) (hfly : ∀ s, Fly s o → Fly s o') (run : s.unlink o = .ok s1) :
    ∃ hs1 n hs2, hs.unlink a = .ok hs1 ∧ hs1.order a = .ok n ∧ n.order = o ∧ hs1.write a o' = .ok hs2 ∧
      Go W .idle s hs (.kept a o') (s1.emit (.updateOrder o')) (hs2.emit (.updateOrder o')) ∧ Tail s1.book k p rest := by
  obtain ⟨_, x, hx, _, hxo, _, _, hkind, _, hsym⟩ := r.first hT
  rw [ho] at hxo
  have hxo := Option.some.inj hxo
  subst hxo
  obtain ⟨hs1, k', e1, hk1, c1, b1, ord1, _⟩ := pick_run r ho hsym ha run
  rw [hkind] at hk1
  have hk1 := Option.some.inj hk1
  subst hk1
  obtain ⟨n, hn, hno⟩ := kept_read c1.r
  obtain ⟨hs2, e2, c2, _⟩ := c1.r.store (t' := o') rfl hid (hfly _ (c1.r.fly _ rfl))
  have c3 := c2.r.emit (.updateOrder o')
  exact ⟨hs1, n, hs2, e1, hn, hno, e2, ((c1.trans c2).trans c3).go, b1.tail r.inv c1.r.inv (fun i hi => by rw [ord1]; exact setO_off _ _ hi) hT⟩

theorem activateStop_run {s s' : Core} {hs : HCore} (r : R W .idle s hs) {k : Kind} (hk : k.isLimit = false) {p id a : Nat} {rest : List Nat} {o : Order}
    (hT : Tail s.book k p (id :: rest)) (ho : s.orders id = some o) (ha : hs.heap.orders id = some a) (run : s.activateStop o = .ok s') :
    ∃ hs', hs.activateStop a = .ok hs' ∧ Go W .idle s hs .idle s' hs' ∧ Tail s'.book k p rest := by
  unfold Core.activateStop at run
  obtain ⟨s1, r1, run⟩ := bind_inv run
  dsimp only at run
  obtain ⟨⟨s2, t2⟩, r2, run⟩ := bind_inv run
  have run := Except.ok.inj run
  subst run
  obtain ⟨hs1, n, hs2, e1, e2, e3, e4, g1, hT1⟩ := convert_run (o' := Core.toMarket o) r hT ho ha rfl (fun _ h => fly_market h) r1
  obtain ⟨hs3, e5, c3, oth⟩ := matchMarket_run g1.r rfl r2
  obtain ⟨n3, q1, q2⟩ := kept_read c3.r
  obtain ⟨hs4, e6, g4⟩ := discard_run c3.r
  refine ⟨hs4, ?_, (g1.trans c3.go).trans g4, hT1.same (oth k hk)⟩
  unfold HCore.activateStop
  rw [e1, Except.bind_ok, e2, Except.bind_ok, e3, e4, Except.bind_ok]
  dsimp only
  rw [show (hs2.emit (.updateOrder (Core.toMarket o))).matchMarket (.node a) = _ from e5, Except.bind_ok, q1, Except.bind_ok, q2]
  exact e6

theorem activateStopLimit_run {s s' : Core} {hs : HCore} (r : R W .idle s hs) {k : Kind} (hk : k.isLimit = false) {p id a : Nat} {rest : List Nat} {o : Order}
    (hT : Tail s.book k p (id :: rest)) (ho : s.orders id = some o) (ha : hs.heap.orders id = some a) (run : s.activateStopLimit o = .ok s') :
    ∃ hs', hs.activateStopLimit a = .ok hs' ∧ Go W .idle s hs .idle s' hs' ∧ Tail s'.book k p rest := by
  unfold Core.activateStopLimit at run
  obtain ⟨s1, r1, run⟩ := bind_inv run
  dsimp only at run
  obtain ⟨⟨s2, t2⟩, r2, run⟩ := bind_inv run
  dsimp only at run
  obtain ⟨hs1, n, hs2, e1, e2, e3, e4, g1, hT1⟩ := convert_run (o' := Core.toLimit o) r hT ho ha rfl (fun _ h => fly_limit h) r1
  obtain ⟨hs3, e5, c3, oth⟩ := matchOrder_run g1.r rfl r2
  obtain ⟨n3, q1, q2⟩ := kept_read c3.r
  have hT2 : Tail s2.book k p rest := hT1.same (oth k hk)
  have pre : hs.activateStopLimit a = if n3.order.leaves > 0 && !n3.order.isIOC && !n3.order.isFOK then hs3.link a else (hs3.emit (.deleteOrder n3.order)).dropFound a := by
    unfold HCore.activateStopLimit
    rw [e1, Except.bind_ok, e2, Except.bind_ok, e3, e4, Except.bind_ok]
    dsimp only
    rw [show (hs2.emit (.updateOrder (Core.toLimit o))).matchOrder (.node a) = _ from e5, Except.bind_ok, q1, Except.bind_ok]
  rw [pre, q2]
  by_cases hrest : (decide (t2.leaves > 0) && !t2.isIOC && !t2.isFOK) = true
  · rw [if_pos hrest] at run ⊢
    obtain ⟨s2', t2', m1, _, m3⟩ := matchOrder_ok (t := Core.toLimit o) g1.r.inv (g1.r.fly _ rfl) (r.inv.orders id o ho).2.leaves
    rw [r2] at m1
    obtain ⟨z1, z2⟩ := Prod.mk.inj (Except.ok.inj m1)
    subst z1; subst z2
    have htl : t2.type = .limit := by obtain ⟨e, l, rfl⟩ := m3; rfl
    simp only [Bool.and_eq_true, decide_eq_true_eq, Bool.not_eq_true'] at hrest
    have hok : OrderOK t2 := (c3.r.fly t2 rfl).orderOK hrest.1.1 (by rw [htl]; simp) (by
      intro _
      have h1 := hrest.1.2
      have h2 := hrest.2
      unfold Order.isIOC at h1; unfold Order.isFOK at h2
      cases ht : t2.tif <;> simp_all)
    obtain ⟨hs4, k4, e6, hk4, g4, _, _, _, _, oth4⟩ := link_run c3.r hok run
    refine ⟨hs4, e6, (g1.trans c3.go).trans g4, hT2.same (oth4 k ?_)⟩
    intro e
    have := (kind_type hk4).2 htl
    rw [← e, hk] at this; cases this
  · rw [if_neg hrest] at run ⊢
    have run := Except.ok.inj run
    subst run
    obtain ⟨hs4, e6, g4⟩ := discard_run c3.r
    exact ⟨hs4, e6, (g1.trans c3.go).trans g4, hT2⟩

theorem activateOrder_run {s s' : Core} {hs : HCore} (r : R W .idle s hs) {k : Kind} (hk : k.isLimit = false) {p id a : Nat} {rest : List Nat}
    (hT : Tail s.book k p (id :: rest)) (ha : hs.heap.orders id = some a) (run : s.activateOrder id = .ok s') :
    ∃ hs', hs.activateOrder a = .ok hs' ∧ Go W .idle s hs .idle s' hs' ∧ Tail s'.book k p rest := by
  unfold Core.activateOrder at run
  obtain ⟨o, ho, run⟩ := bind_inv run
  have ho := get_inv ho
  obtain ⟨_, a', n, ha', hn, hno, hid⟩ := r.addr ho
  have := orders_some ha ha'
  subst this
  unfold HCore.activateOrder
  rw [show hs.order a = .ok n from order_eq hn, Except.bind_ok, hno]
  cases ht : o.type <;> simp only [ht] at run ⊢
  · cases run
  · cases run
  · exact activateStop_run r hk hT ho ha run
  · exact activateStopLimit_run r hk hT ho ha run
  · exact activateStop_run r hk hT ho ha run
  · exact activateStopLimit_run r hk hT ho ha run

theorem activateIds_run {k : Kind} (hk : k.isLimit = false) {p : Nat} (ids : List Nat) : ∀ {s s' : Core} {hs : HCore} {n : Nat} {b b' : Bool}, R W .idle s hs → ids.length < n →
    Tail s.book k p ids → Core.activateIds ids s b = .ok (s', b') →
    ∃ hs', HCore.activateIds n (ptr hs.heap ids) hs b = .ok (hs', b') ∧ Go W .idle s hs .idle s' hs' := by
  induction ids with
  | nil =>
    intro s s' hs n b b' r hn _ run
    unfold Core.activateIds at run
    obtain ⟨e1, e2⟩ := Prod.mk.inj (Except.ok.inj run)
    subst e1; subst e2
    cases n with
    | zero => cases hn
    | succ n => exact ⟨hs, rfl, (Cut.refl r).go⟩
  | cons id rest ih =>
    intro s s' hs n b b' r hn hT run
    cases n with
    | zero => cases hn
    | succ n =>
      obtain ⟨a, x, h1, h2, h3, h4, _⟩ := r.first hT
      have he : ptr hs.heap (id :: rest) = some a := h1
      rw [he]
      unfold Core.activateIds at run
      unfold HCore.activateIds
      obtain ⟨s1, r1, run⟩ := bind_inv run
      obtain ⟨hs1, e1, g1, hT1⟩ := activateOrder_run r hk hT h1 r1
      obtain ⟨hs2, e2, g2⟩ := ih (n := n) g1.r (by simp at hn; omega) hT1 run
      refine ⟨hs2, ?_, g1.trans g2⟩
      rw [show hs.order a = .ok x from order_eq h2, Except.bind_ok, e1, Except.bind_ok, h4, g1.r.ptr_mono (f' := .idle) g1.mono hT1]
      exact e2

theorem activateLevel_run {s s' : Core} {hs : HCore} (r : R W .idle s hs) {k : Kind} (hk : k.isLimit = false) {p : Nat} {b : Bool} (run : s.activateLevel k p = .ok (s', b)) :
    ∃ hs', hs.activateLevel k p = .ok (hs', b) ∧ Go W .idle s hs .idle s' hs' := by
  unfold Core.activateLevel at run
  unfold HCore.activateLevel
  rw [r.best] at run
  have htop := r.top k
  cases hx : s.book.lv k with
  | nil =>
    rw [hx] at run htop
    have hnone : hs.heap.best (hs.col k) = none := htop
    obtain ⟨e1, e2⟩ := Prod.mk.inj (Except.ok.inj run)
    subst e1; subst e2
    exact ⟨hs, by rw [hnone], (Cut.refl r).go⟩
  | cons l ls =>
    rw [hx] at run htop
    obtain ⟨la, e, hla, hlev, hnext⟩ := r.level (pre := []) hx htop
    have e' : hs.heap.best (hs.col k) = some la := e
    have hl : l ∈ s.book.lv k := by rw [hx]; simp
    rw [e']
    dsimp only [List.head?_cons, Option.map_some] at run ⊢
    rw [hlev, Except.bind_ok]
    show ∃ hs', (if (if k.isBidType then p ≤ l.price else l.price ≤ p) then _ else _) = _ ∧ _
    by_cases hc : (if k.isBidType then p ≤ l.price else l.price ≤ p)
    · rw [if_pos hc] at run ⊢
      rw [findLevel_head] at run
      exact activateIds_run hk (p := l.price) l.ids (n := (lnodeOf hs.heap k l).count + 1) r (by
        show _ < l.count + 1
        rw [r.count hl]; omega) (Tail.whole hl) run
    · rw [if_neg hc] at run ⊢
      obtain ⟨e1, e2⟩ := Prod.mk.inj (Except.ok.inj run)
      subst e1; subst e2
      exact ⟨hs, rfl, (Cut.refl r).go⟩

/-! ### Market prices -/

theorem R.marketBid {f : Seat} {s : Core} {hs : HCore} (r : R W f s hs) : hs.marketBid = .ok s.book.marketBid := by
  unfold HCore.marketBid Book.marketBid
  rw [r.bestPrice, Except.bind_ok, r.book]; rfl
theorem R.marketAsk {f : Seat} {s : Core} {hs : HCore} (r : R W f s hs) : hs.marketAsk = .ok s.book.marketAsk := by
  unfold HCore.marketAsk Book.marketAsk
  rw [r.bestPrice, Except.bind_ok, r.book]; rfl
theorem R.marketTrailBid {f : Seat} {s : Core} {hs : HCore} (r : R W f s hs) : hs.marketTrailBid = .ok s.book.marketTrailBid := by
  unfold HCore.marketTrailBid Book.marketTrailBid
  rw [r.bestPrice, Except.bind_ok, r.book]; rfl
theorem R.marketTrailAsk {f : Seat} {s : Core} {hs : HCore} (r : R W f s hs) : hs.marketTrailAsk = .ok s.book.marketTrailAsk := by
  unfold HCore.marketTrailAsk Book.marketTrailAsk
  rw [r.bestPrice, Except.bind_ok, r.book]; rfl
theorem R.calcTrailing {f : Seat} {s : Core} {hs : HCore} (r : R W f s hs) (o : Order) : hs.calcTrailing o = .ok (s.book.calcTrailing o) := by
  unfold HCore.calcTrailing Book.calcTrailing
  by_cases hb : o.isBuy = true
  · rw [if_pos hb, if_pos hb, r.marketTrailAsk, Except.bind_ok]
  · rw [if_neg hb, if_neg hb, r.marketTrailBid, Except.bind_ok]

end Ptr
end CppTrader
