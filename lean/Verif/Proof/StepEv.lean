import Verif.Proof.Events
/-
The events raised by elementary steps and sequences of steps.
-/

namespace CppTrader
open Core

/-- Events of a change of one book. -/
structure Ev (s s' : Core) (evs : List Event) : Prop where
  ev : s'.ev = s.ev ++ evs
  sym : ∀ e ∈ evs, e.symbol = s.book.symbol.id
  lv : LvEv s.book s'.book evs
  bsym : s'.book.symbol = s.book.symbol
  feed : BookFeed evs

theorem Ev.trans {s s1 s2 xs ys} (h : Ev s s1 xs) (h' : Ev s1 s2 ys) : Ev s s2 (xs ++ ys) :=
  ⟨by rw [h'.ev, h.ev, List.append_assoc], fun e he => by
    rcases List.mem_append.1 he with he | he
    · exact h.sym e he
    · rw [h'.sym e he, h.bsym], h.lv.trans h'.lv h.bsym, h'.bsym.trans h.bsym, h.feed.append h'.feed⟩

theorem Ev.silent {s s' : Core} (h1 : s'.ev = s.ev) (h2 : s'.book.lv = s.book.lv) (h3 : s'.book.symbol = s.book.symbol) : Ev s s' [] :=
  ⟨by simp [h1], by simp, .nil h2, h3, .nil⟩

theorem Ev.refl (s : Core) : Ev s s [] := .silent rfl rfl rfl

theorem isOrder_notLevel {e : Event} (h : e.isOrder = true) : e.notLevel := by cases e <;> first | trivial | cases h

theorem Ev.emit (s : Core) {e : Event} (h1 : e.isOrder = true) (h2 : e.symbol = s.book.symbol.id) : Ev s (s.emit e) [e] :=
  ⟨rfl, by simp [h2], .other (isOrder_notLevel h1) rfl, rfl, .order _ _ h1 .nil⟩

theorem PrimEv.toEv {s s' evs} (h : PrimEv s s' evs) (hs : s'.book.symbol = s.book.symbol) : Ev s s' evs :=
  ⟨h.ev, fun e he => (h.level e he).2, h.lv, hs, h.feed⟩

theorem Ev.exec (s : Core) {o : Order} {p q : Nat} (h : o.symbolId = s.book.symbol.id) :
    Ev s ((s.emit (.exec o p q)).setPrices o.side p) [.exec o p q] := by
  have h1 := Ev.emit s (e := .exec o p q) rfl h
  have h2 : Ev (s.emit (.exec o p q)) ((s.emit (.exec o p q)).setPrices o.side p) [] :=
    .silent rfl (updatePrices_lv ..) (updatePrices_symbol ..)
  exact h1.trans h2

theorem Inv.of_reset {s : Core} (h : Inv s.reset) : Inv s :=
  ⟨h.book.book_congr rfl rfl rfl, h.orders, h.vol⟩

theorem OrderView.set_set (v : OrderView) (i x y) : (v.set i x).set i y = v.set i y := by
  funext j; unfold OrderView.set; split <;> rfl
theorem OrderView.set_self {v : OrderView} {i x} (h : v i = x) : v.set i x = v := by
  funext j; unfold OrderView.set; split <;> simp_all
@[simp] theorem OrderView.set_at (v : OrderView) (i x) : (v.set i x) i = x := by simp [OrderView.set]
theorem OrderView.set_ne (v : OrderView) {i j x} (h : j ≠ i) : (v.set i x) j = v j := by simp [OrderView.set, h]

/-- Replay of the order feed. -/
abbrev OrdEv (sc : Scope) (f : OrderView) (evs : List Event) (f' : OrderView) : Prop := Replays (OrderView.ok sc) OrderView.next f evs f'

theorem reduceBody_ev {s s' : Core} {o : Order} {q : Nat} (hi : Inv s') (hsym : s'.book.symbol = s.book.symbol)
    (hs : o.symbolId = s.book.symbol.id)
    (run : s.reduceBody o q = .ok s') : ∃ lvs, (∀ e ∈ lvs, e.isLevel) ∧
      Ev s s' ((if o.leaves - min q o.leaves > 0 then .updateOrder { o with leaves := o.leaves - min q o.leaves } else
        .deleteOrder { o with leaves := o.leaves - min q o.leaves }) :: lvs) := by
  unfold Core.reduceBody at run
  simp only at run
  obtain ⟨lvs, h⟩ := shrink_ev hi run
  refine ⟨lvs, fun e he => (h.level e he).1, ?_⟩
  have h1 := Ev.emit s (e := if o.leaves - min q o.leaves > 0 then .updateOrder { o with leaves := o.leaves - min q o.leaves } else
        .deleteOrder { o with leaves := o.leaves - min q o.leaves }) (by split <;> rfl) (by split <;> exact hs)
  exact h1.trans (h.toEv hsym)

/-- Events of the execution of a resting order. -/
theorem Fill.events {s o p q s'} (f : Fill s o p q s') (hi : Inv s) :
    ∃ evs, Ev s s' evs ∧ execsOf evs = [(o, p, q)] ∧ addsOf evs = [] ∧
      ∀ (sc : Scope) (v : OrderView), v o.id = some o → OrdEv sc v evs (v.set o.id (afterFill o q)) := by
  have heff := f.eff hi
  have hid : o.id ≠ 0 := by have := (hi.orders _ o f.pre.mem).2.idPos; omega
  obtain ⟨s1, a0, h1, a1, a2, a3⟩ := hi.execResting (price := p) (q := q) f.pre.mem
  have ho1 : s1.orders o.id = some (o.withExec (add64 o.executed q)) := by rw [a1]; simp
  have hsy : s1.book.symbol = s.book.symbol := by rw [a2, updatePrices_symbol]
  have hs1 : (o.withExec (add64 o.executed q)).symbolId = s1.book.symbol.id := by rw [hsy]; exact f.pre.sym
  have e1 : Ev s s1 [.exec o p q] := ⟨a3, by simp [Event.symbol, f.pre.sym], .other trivial (by rw [a2, updatePrices_lv]), hsy, .order _ _ rfl .nil⟩
  have hpos := f.pre.pos
  have hle := f.pre.le
  have hx : ∀ (sc : Scope) (v : OrderView), v o.id = some o → v.ok sc (.exec o p q) :=
    fun sc v hv => ⟨⟨o, hv, .inl rfl⟩, hpos, hle⟩
  cases f with
  | red pre run =>
    unfold Core.execRed at run
    rw [a0, Except.bind_ok] at run
    unfold Core.reduceRec at run
    have : ¬ (o.id = 0 ∨ q = 0) := by omega
    simp only [this, if_false, ho1] at run
    have : ¬ ((o.withExec (add64 o.executed q)).symbolId ≠ s1.book.symbol.id) := by simp [hs1]
    simp only [this, if_false] at run
    cases hr : s1.reduceBody (o.withExec (add64 o.executed q)) q with
    | error x => rw [hr] at run; cases run
    | ok s2 =>
      rw [hr] at run
      have run' : s2.reset = s' := by cases run; rfl
      subst run'
      have hs2 : s2.book.symbol = s1.book.symbol := by
        have h1 : s2.book.symbol = s.book.symbol := heff.same.symbol
        rw [h1, hsy]
      obtain ⟨lvs, b1, b2⟩ := reduceBody_ev heff.inv.of_reset hs2 hs1 hr
      have b3 := (e1.trans b2).trans (Ev.silent (s := s2) (s' := s2.reset) rfl rfl rfl)
      rw [List.append_nil] at b3
      have hl : (o.withExec (add64 o.executed q)).leaves = o.leaves := rfl
      have hmin : min q o.leaves = q := by omega
      simp only [hl, hmin] at b3
      refine ⟨_, b3, ?_, ?_, ?_⟩
      · have := execsOf_levels b1
        rw [List.singleton_append]
        show (o, p, q) :: execsOf (_ :: lvs) = _
        split <;> simp [execsOf, this]
      · have := addsOf_levels b1
        rw [List.singleton_append]
        show addsOf (_ :: lvs) = _
        split <;> simp [addsOf, this]
      · intro sc v hv
        refine ⟨hx sc v hv, ?_⟩
        show OrdEv sc (v.set o.id (some (o.afterExec q))) _ _
        refine ⟨?_, ?_⟩
        · split
          · exact ⟨o.afterExec q, by simp [Order.withExec], .same⟩
          · exact ⟨o.afterExec q, by simp [Order.withExec], .known (.inl rfl)⟩
        · have h2 := orders_levels (sc := sc) b1 (v.set o.id (afterFill o q))
          have e : OrderView.next (v.set o.id (some (o.afterExec q)))
              (if o.leaves - q > 0 then .updateOrder { o.withExec (add64 o.executed q) with leaves := o.leaves - q }
                else .deleteOrder { o.withExec (add64 o.executed q) with leaves := o.leaves - q }) = v.set o.id (afterFill o q) := by
            unfold afterFill
            by_cases hz : o.leaves = q
            · have : ¬ (o.leaves - q > 0) := by omega
              rw [if_neg this, if_pos hz]
              exact OrderView.set_set ..
            · have : o.leaves - q > 0 := by omega
              rw [if_pos this, if_neg hz]
              exact OrderView.set_set ..
          rw [e]; exact h2
  | del pre all run =>
    unfold Core.execDel at run
    rw [a0, Except.bind_ok] at run
    unfold Core.deleteRec at run
    simp only [hid, if_false, ho1] at run
    have : ¬ ((o.withExec (add64 o.executed q)).symbolId ≠ s1.book.symbol.id) := by simp [hs1]
    simp only [this, if_false, Core.deleteBody] at run
    cases hr : s1.unlink (o.withExec (add64 o.executed q)) with
    | error x => rw [hr] at run; cases run
    | ok s2 =>
      rw [hr] at run
      have run' : (s2.emit (.deleteOrder (o.withExec (add64 o.executed q)))).reset = s' := by cases run; rfl
      subst run'
      have hi2 : Inv s2 := by
        have := heff.inv.of_reset
        exact ⟨this.book, this.orders, this.vol⟩
      have hs2 : s2.book.symbol = s1.book.symbol := by
        have h1 : s2.book.symbol = s.book.symbol := heff.same.symbol
        rw [h1, hsy]
      obtain ⟨lvs, b1⟩ := unlink_ev hi2 hr
      have b2 := Ev.emit s2 (e := .deleteOrder (o.withExec (add64 o.executed q))) rfl
        (by rw [hs2]; exact hs1)
      have b3 := ((e1.trans (b1.toEv hs2)).trans b2).trans (Ev.silent (s := s2.emit (.deleteOrder (o.withExec (add64 o.executed q))))
        (s' := (s2.emit (.deleteOrder (o.withExec (add64 o.executed q)))).reset) rfl rfl rfl)
      rw [List.append_nil] at b3
      refine ⟨_, b3, ?_, ?_, ?_⟩
      · have := execsOf_levels fun e he => (b1.level e he).1
        rw [execsOf_append, execsOf_append, this]; rfl
      · have := addsOf_levels fun e he => (b1.level e he).1
        rw [addsOf_append, addsOf_append, this]; rfl
      · intro sc v hv
        have h2 := orders_levels (sc := sc) (fun e he => (b1.level e he).1) (v.set o.id (some (o.afterExec q)))
        have h3 : OrdEv sc v [.exec o p q] (v.set o.id (some (o.afterExec q))) := ⟨hx sc v hv, rfl⟩
        refine (h3.append h2).append ⟨⟨o.afterExec q, by simp [Order.withExec], .filled o.leaves ?_⟩, ?_⟩
        · show o.leaves - q = 0; omega
        show (v.set o.id _).set o.id none = _
        rw [OrderView.set_set]
        unfold afterFill; rw [if_pos all.symm]

/-- The view of the order map. -/
theorem setO_eq (m : Nat → Option Order) (i v) : setO m i v = OrderView.set m i v := rfl

/-- The client's view when the order map is `m` and `t` is in flight: `t` is not in the map, and known to
the client up to the price bound of a market order. -/
def Over (v : OrderView) (m : Nat → Option Order) : Option Order → Prop
  | none => v = m
  | some t => m t.id = none ∧ ∃ x : Order, v = OrderView.set m t.id (some x) ∧ x.sameBut t

theorem Over.at {v m t o} (h : Over v m t) (hm : m o.id = some o) : v o.id = some o := by
  cases t with
  | none => rw [show v = m from h]; exact hm
  | some t =>
    obtain ⟨h1, x, rfl, _⟩ := h
    rw [OrderView.set_ne, hm]
    intro e; rw [← e, hm] at h1; cases h1

theorem Over.change {v m t} {o : Order} {a} (h : Over v m t) (hm : m o.id = some o) : Over (v.set o.id a) (setO m o.id a) t := by
  cases t with
  | none => rw [show v = m from h]; rfl
  | some t =>
    obtain ⟨h1, x, rfl, h2⟩ := h
    have hne : t.id ≠ o.id := by intro e; rw [e, hm] at h1; cases h1
    refine ⟨by rw [setO_other _ _ hne]; exact h1, x, ?_, h2⟩
    funext i
    unfold OrderView.set setO
    by_cases e1 : i = o.id
    · have : ¬ i = t.id := by intro e; exact hne (e.symm.trans e1)
      simp [e1, Ne.symm hne]
    · simp [e1]

/-- Events of executions of several resting orders. -/
theorem Fills.events {p s xs s'} (f : Fills p s xs s') (hi : Inv s) :
    ∃ evs, Ev s s' evs ∧ execsOf evs = xs.map (fun x => (x.1, p, x.2)) ∧ addsOf evs = [] ∧
      ∀ (sc : Scope) (v : OrderView) (t), Over v s.orders t → ∃ v', OrdEv sc v evs v' ∧ Over v' s'.orders t := by
  induction f with
  | nil s => exact ⟨[], .refl s, rfl, rfl, fun sc v t hv => ⟨v, rfl, hv⟩⟩
  | cons f fs ih =>
    rename_i s o q s1 xs s2
    obtain ⟨e1, a1, a2, a4, a3⟩ := f.events hi
    have heff := f.eff hi
    obtain ⟨e2, b1, b2, b4, b3⟩ := ih heff.inv
    refine ⟨e1 ++ e2, a1.trans b1, by rw [execsOf_append, a2, b2]; rfl, by rw [addsOf_append, a4, b4]; rfl, ?_⟩
    intro sc v t hv
    obtain ⟨v', c1, c2⟩ := b3 sc _ t (by rw [heff.orders]; exact hv.change f.pre.mem)
    exact ⟨v', (a3 sc v (hv.at f.pre.mem)).append c1, c2⟩

/-- The executions of a step. -/
def Lbl.execs : Lbl → List (Order × Nat × Nat)
  | .trade t o q => [(o, o.price, q), (t, o.price, q)]
  | .sweep t xs => xs.map (fun x => (x.1, t.price, x.2)) ++ [(t, t.price, t.leaves)]
  | .pair e r => [(e, e.price, e.leaves), (r, e.price, e.leaves)]
  | .cross p xs ys => xs.map (fun x => (x.1, p, x.2)) ++ ys.map (fun x => (x.1, p, x.2))
  | .execute o p q => [(o, p, q)]
  | _ => []

/-- The orders added by a step. -/
def Lbl.adds : Lbl → List Order
  | .arrive o => [o]
  | _ => []

/-- Orders arrive under unused ids. -/
def Lbl.freshIn (l : Lbl) (m : Nat → Option Order) : Prop := ∀ o, l = .arrive o → m o.id = none

/-- Steps that modify or reduce an order on request are within the scope. -/
def Lbl.inScope (sc : Scope) : Lbl → Prop
  | .modify _ _ => sc.mod = true
  | .vanish _ _ => sc.mod = true
  | .reduce _ _ => sc.red = true
  | .activate _ _ => sc.act = true
  | .retrail _ _ => sc.act = true
  | _ => True

/-- Events of a step. -/
structure StepEv (l : Lbl) (s : Core) (t : Option Order) (s' : Core) (t' : Option Order) (evs : List Event) : Prop where
  ev : Ev s s' evs
  execs : execsOf evs = l.execs
  adds : addsOf evs = l.adds
  orders : ∀ (sc : Scope) (v : OrderView), l.inScope sc → Over v s.orders t → l.freshIn s.orders →
    ∃ v', OrdEv sc v evs v' ∧ Over v' s'.orders t'

theorem sameBut_refl (o : Order) : o.sameBut o := .inl rfl

theorem sameBut_leaves {x o : Order} (h : x.sameBut o) : x.executed = o.executed ∧ x.symbolId = o.symbolId ∧ x.side = o.side ∧
    x.id = o.id := by
  rcases h with rfl | ⟨_, h⟩
  · exact ⟨rfl, rfl, rfl, rfl⟩
  · rw [h]; exact ⟨rfl, rfl, rfl, rfl⟩

/-- One event about the order in flight. -/
theorem Over.fly {v m} {t : Order} (h : Over v m (some t)) : m t.id = none ∧ ∃ x, v t.id = some x ∧ x.sameBut t := by
  obtain ⟨h1, x, rfl, h2⟩ := h
  exact ⟨h1, x, by simp, h2⟩

theorem Over.update {v m} {t t' : Order} (h : Over v m (some t)) (hid : t'.id = t.id) : Over (v.set t'.id (some t')) m (some t') := by
  obtain ⟨h1, x, rfl, h2⟩ := h
  rw [hid, OrderView.set_set]
  exact ⟨by rw [hid]; exact h1, t', by rw [hid], sameBut_refl _⟩

theorem Over.drop {v m} {t : Order} (h : Over v m (some t)) {i} (hid : i = t.id) : Over (v.set i none) m none := by
  obtain ⟨h1, x, rfl, h2⟩ := h
  rw [hid, OrderView.set_set]
  exact OrderView.set_self h1

theorem execTaker_events {s1 : Core} {t : Order} {p q : Nat} (hsym : t.symbolId = s1.book.symbol.id) (hq : 0 < q) (hle : q ≤ t.leaves) :
    Ev s1 (s1.execTaker t p q).1 [.exec t p q] ∧
      ∀ (sc : Scope) (v : OrderView), Over v s1.orders (some t) →
        ∃ v', OrdEv sc v [.exec t p q] v' ∧ Over v' s1.orders (some (s1.execTaker t p q).2) := by
  refine ⟨.exec s1 hsym, ?_⟩
  intro sc v hv
  obtain ⟨h1, x, h2, h3⟩ := hv.fly
  exact ⟨_, ⟨⟨⟨x, h2, h3⟩, hq, hle⟩, rfl⟩, hv.update (t' := (s1.execTaker t p q).2) rfl⟩

theorem Step.events {l s t s' t'} (st : Step l s t s' t') (hc : CInv s t) : ∃ evs, StepEv l s t s' t' evs := by
  obtain ⟨hi, hf⟩ := hc
  cases st with
  | trade fill head side reach qty nf na =>
    rename_i t o q s1
    obtain ⟨e1, a1, a2, a4, a3⟩ := fill.events hi
    have heff := fill.eff hi
    obtain ⟨b1, b2⟩ := execTaker_events (s1 := s1) (t := t) (p := o.price) (q := q)
      (by rw [heff.same.symbol]; exact (hf t rfl).sym) fill.pre.pos (by omega)
    refine ⟨_, a1.trans b1, by rw [execsOf_append, a2]; rfl, by rw [addsOf_append, a4]; rfl, ?_⟩
    intro sc v hsc hv _
    obtain ⟨v', c1, c2⟩ := b2 sc _ (by rw [heff.orders]; exact hv.change fill.pre.mem)
    exact ⟨v', (a3 sc v (hv.at fill.pre.mem)).append c1, c2⟩
  | sweep fills sum pos sides tif =>
    rename_i t xs s1
    obtain ⟨e1, a1, a2, a4, a3⟩ := fills.events hi
    obtain ⟨b1, b2⟩ := execTaker_events (s1 := s1) (t := t) (p := t.price) (q := t.leaves)
      (by rw [(fills.inv hi).2.2]; exact (hf t rfl).sym) pos (Nat.le_refl _)
    refine ⟨_, a1.trans b1, by rw [execsOf_append, a2]; rfl, by rw [addsOf_append, a4]; rfl, ?_⟩
    intro sc v hsc hv _
    obtain ⟨v1, d1, d2⟩ := a3 sc v _ hv
    obtain ⟨v', c1, c2⟩ := b2 sc _ d2
    exact ⟨v', d1.append c1, c2⟩
  | pair fe fr side ne nae nar crossed =>
    rename_i e r s1
    obtain ⟨e1, a1, a2, a4, a3⟩ := fe.events hi
    have heff := fe.eff hi
    obtain ⟨e2, b1, b2, b4, b3⟩ := fr.events heff.inv
    have heff2 := fr.eff heff.inv
    refine ⟨_, a1.trans b1, by rw [execsOf_append, a2, b2]; rfl, by rw [addsOf_append, a4, b4]; rfl, ?_⟩
    intro sc v hsc hv _
    have h1 := hv.change (o := e) (a := afterFill e e.leaves) fe.pre.mem
    rw [← heff.orders] at h1
    have h2 := h1.change (o := r) (a := afterFill r e.leaves) fr.pre.mem
    rw [← heff2.orders] at h2
    exact ⟨_, (a3 sc v (hv.at fe.pre.mem)).append (b3 sc _ (h1.at fr.pre.mem)), h2⟩
  | cross f1 f2 ne aon side =>
    obtain ⟨e1, a1, a2, a4, a3⟩ := f1.events hi
    obtain ⟨e2, b1, b2, b4, b3⟩ := f2.events (f1.inv hi).1
    refine ⟨_, a1.trans b1, by rw [execsOf_append, a2, b2]; rfl, by rw [addsOf_append, a4, b4]; rfl, ?_⟩
    intro sc v hsc hv _
    obtain ⟨v1, d1, d2⟩ := a3 sc v _ hv
    obtain ⟨v2, d3, d4⟩ := b3 sc v1 _ d2
    exact ⟨v2, d1.append d3, d4⟩
  | take mem sym run =>
    rename_i o
    obtain ⟨k, a1, a2, a3, a4, a5, a6⟩ := hi.take mem sym run
    obtain ⟨lvs, b1⟩ := unlink_ev a2 run
    have hl : ∀ e ∈ lvs, e.isLevel := fun e he => (b1.level e he).1
    refine ⟨lvs, b1.toEv a4.symbol, execsOf_levels hl, addsOf_levels hl, ?_⟩
    intro sc v hsc hv _
    refine ⟨v, orders_levels hl v, ?_⟩
    rw [show v = s.orders from hv, a3.orders]
    refine ⟨by simp, o, ?_, sameBut_refl _⟩
    funext i; unfold OrderView.set setO; split
    · rename_i e; rw [e]; exact mem
    · rfl
  | put fresh pos nm tif run =>
    rename_i t
    obtain ⟨k, a1, a2, a3, a4, _⟩ := hi.put (hf _ rfl) fresh pos nm tif run
    obtain ⟨lvs, b1⟩ := link_ev a2 run
    have hl : ∀ e ∈ lvs, e.isLevel := fun e he => (b1.level e he).1
    refine ⟨lvs, b1.toEv a4.symbol, execsOf_levels hl, addsOf_levels hl, ?_⟩
    intro sc v hsc hv _
    refine ⟨v, orders_levels hl v, ?_⟩
    obtain ⟨h1, x, rfl, h2⟩ := hv
    rw [a3.orders]
    rcases h2 with rfl | ⟨h2, _⟩
    · rfl
    · exact absurd h2 nm
  | cancel =>
    rename_i t
    refine ⟨_, Ev.emit s (e := .deleteOrder t) rfl (hf _ rfl).sym, rfl, rfl, ?_⟩
    intro sc v hsc hv _
    obtain ⟨h1, x, h2, h3⟩ := hv.fly
    exact ⟨_, ⟨⟨x, h2, .known h3⟩, rfl⟩, hv.drop rfl⟩
  | activate ty trig =>
    rename_i o t
    have hid : t.id = o.id ∧ t.executed = o.executed ∧ t.symbolId = o.symbolId ∧ t.side = o.side := by
      rcases ty with ⟨_, rfl⟩ | ⟨_, rfl⟩ <;> exact ⟨rfl, rfl, rfl, rfl⟩
    refine ⟨_, Ev.emit s (e := .updateOrder t) rfl (hid.2.2.1.trans (hf _ rfl).sym), rfl, rfl, ?_⟩
    intro sc v hsc hv _
    obtain ⟨h1, x, h2, h3⟩ := hv.fly
    have hx : x = o := by
      rcases h3 with rfl | ⟨h3, _⟩
      · rfl
      · rcases ty with ⟨ty, _⟩ | ⟨ty, _⟩ <;>
          simp [Order.isStop, Order.isTrailingStop, Order.isStopLimit, Order.isTrailingStopLimit, h3] at ty
    subst hx
    refine ⟨_, ⟨⟨x, by rw [hid.1]; exact h2, ?_⟩, rfl⟩, hv.update hid.1⟩
    rcases ty with ⟨ty, rfl⟩ | ⟨ty, rfl⟩
    · have : toMarket x = { x with type := .market, price := 0, stopPrice := 0, tif := if x.tif = .fok then .fok else .ioc } := by
        unfold toMarket Order.isFOK; simp only [decide_eq_true_eq]
      rw [this]
      exact .toMarket (by simpa [Order.isStop, Order.isTrailingStop] using ty) hsc
    · exact .toLimit (by simpa [Order.isStopLimit, Order.isTrailingStopLimit] using ty) hsc
  | bound ty lim =>
    rename_i t p
    refine ⟨[], .refl _, rfl, rfl, ?_⟩
    intro sc v hsc hv _
    refine ⟨v, rfl, ?_⟩
    obtain ⟨h1, x, h2, h3⟩ := hv
    refine ⟨h1, x, h2, .inr ⟨ty, ?_⟩⟩
    rcases h3 with rfl | ⟨_, h3⟩
    · rfl
    · rw [h3]
  | retrail ty ne =>
    rename_i o
    generalize ht : Core.retrail o (s.book.calcTrailing o) = t
    have hid : t.id = o.id ∧ t.executed = o.executed ∧ t.symbolId = o.symbolId ∧ t.side = o.side := by
      rw [← ht]; exact ⟨retrail_id .., by unfold Core.retrail; split <;> rfl, retrail_symbolId .., retrail_side ..⟩
    refine ⟨_, Ev.emit s (e := .updateOrder t) rfl (hid.2.2.1.trans (hf _ rfl).sym), rfl, rfl, ?_⟩
    intro sc v hsc hv _
    obtain ⟨h1, x, h2, h3⟩ := hv.fly
    have hx : x = o := by
      rcases h3 with rfl | ⟨h3, _⟩
      · rfl
      · simp [Order.isTrailing, Order.isTrailingStop, Order.isTrailingStopLimit, h3] at ty
    subst hx
    refine ⟨_, ⟨⟨x, by rw [hid.1]; exact h2, ?_⟩, rfl⟩, hv.update hid.1⟩
    have hdir := calcTrailing_trails hi.trailBid_lt (hf _ rfl).repr ((hf _ rfl).trail ty) ne
    rw [← ht]
    have hty : x.type = .trailingStop ∨ x.type = .trailingStopLimit := by
      simpa [Order.isTrailing, Order.isTrailingStop, Order.isTrailingStopLimit] using ty
    rcases hty with hty | hty
    · rw [show Core.retrail x (s.book.calcTrailing x) = { x with stopPrice := s.book.calcTrailing x } by
        unfold Core.retrail; rw [hty]]
      exact .trailStop _ hty hdir hsc
    · rw [show Core.retrail x (s.book.calcTrailing x) =
          { x with stopPrice := s.book.calcTrailing x, price := add64 (s.book.calcTrailing x) (sub64 x.price x.stopPrice) } by
        unfold Core.retrail; rw [hty]]
      exact .trailStopLimit _ hty hdir hsc
  | mark => exact ⟨[], .silent rfl rfl rfl, rfl, rfl, fun _ v _ hv _ => ⟨v, rfl, hv⟩⟩
  | reset => exact ⟨[], .silent rfl rfl rfl, rfl, rfl, fun _ v _ hv _ => ⟨v, rfl, hv⟩⟩
  | arrive rep idp sym vol tr =>
    rename_i o
    refine ⟨_, Ev.emit s (e := .addOrder o) rfl sym, rfl, rfl, ?_⟩
    intro sc v hsc hv hfr
    have hn := hfr o rfl
    rw [show v = s.orders from hv]
    exact ⟨_, ⟨hn, rfl⟩, hn, o, rfl, sameBut_refl _⟩
  | reduce mem sym pos run =>
    rename_i o q
    obtain ⟨k, a1, a2, a3, a4, _⟩ := hi.reduce mem sym run
    obtain ⟨lvs, hl, b1⟩ := reduceBody_ev a2 a4.symbol sym run
    refine ⟨_, b1, ?_, ?_, ?_⟩
    · have := execsOf_levels hl
      split <;> simp [execsOf, this, Lbl.execs]
    · have := addsOf_levels hl
      split <;> simp [addsOf, this, Lbl.adds]
    · intro sc v hsc hv _
      rw [show v = s.orders from hv, show Over = Over from rfl]
      refine ⟨s'.orders, ⟨?_, ?_⟩, rfl⟩
      · split
        · exact ⟨o, mem, .reduced (min q o.leaves) (by omega) hsc⟩
        · rename_i hz
          rw [show o.leaves - min q o.leaves = 0 by omega]
          exact ⟨o, mem, .reduced hsc⟩
      · have h2 := orders_levels (sc := sc) hl s'.orders
        have e : OrderView.next s.orders (if o.leaves - min q o.leaves > 0 then .updateOrder { o with leaves := o.leaves - min q o.leaves } else
            .deleteOrder { o with leaves := o.leaves - min q o.leaves }) = s'.orders := by
          rw [a3.orders]
          by_cases hz : o.leaves - min q o.leaves = 0
          · rw [if_neg (by omega), if_pos hz]; rfl
          · rw [if_pos (by omega), if_neg hz]; rfl
        rw [e]; exact h2
  | execute mem sym pos le run =>
    rename_i o p q s1
    obtain ⟨k, s2, a1, a2, a3, a4, a5, _⟩ := hi.execute_ok mem sym p q le
    have run' : (s.reported o p q).shrink (o.filled q) q
        (o.hiddenQty - (o.filled q).hiddenQty) (o.visibleQty - (o.filled q).visibleQty) = .ok s1 := run
    rw [run'] at a2; cases a2
    obtain ⟨lvs, b1⟩ := shrink_ev a3 run'
    have hl : ∀ e ∈ lvs, e.isLevel := fun e he => (b1.level e he).1
    have hsy : s1.book.symbol = s.book.symbol := a5.symbol.trans (updatePrices_symbol ..)
    have c1 := Ev.exec s (o := o) (p := p) (q := q) sym
    have c2 : Ev (s.reported o p q) s1 lvs := b1.toEv a5.symbol
    have c3 := Ev.emit s1 (e := if (o.filled q).leaves > 0 then .updateOrder (o.filled q) else .deleteOrder (o.filled q))
      (by split <;> rfl) (by rw [hsy]; split <;> exact sym)
    refine ⟨_, (c1.trans c2).trans c3, ?_, ?_, ?_⟩
    · rw [execsOf_append, execsOf_append, execsOf_levels hl]
      split <;> rfl
    · rw [addsOf_append, addsOf_append, addsOf_levels hl]
      split <;> rfl
    · intro sc v hsc hv _
      rw [show v = s.orders from hv]
      have d1 : OrdEv sc s.orders [.exec o p q] (OrderView.set s.orders o.id (some (o.afterExec q))) :=
        ⟨⟨⟨o, mem, sameBut_refl _⟩, pos, le⟩, rfl⟩
      refine ⟨s1.orders, (d1.append (orders_levels hl _)).append ⟨?_, ?_⟩, rfl⟩
      · split
        · exact ⟨o.afterExec q, by simp [Order.filled], .same⟩
        · exact ⟨o.afterExec q, by simp [Order.filled], .known (.inl rfl)⟩
      · show _ = _
        rw [a4.orders]
        show _ = setO s.orders o.id _
        unfold afterFill
        have hz : (o.filled q).leaves = o.leaves - q := rfl
        by_cases e : o.leaves = q
        · rw [if_neg (by omega), if_pos e]; exact OrderView.set_set ..
        · rw [if_pos (by omega), if_neg e]; exact OrderView.set_set ..
  | modify rep pos vol =>
    rename_i o p q mit
    refine ⟨_, Ev.emit s (e := .updateOrder (Core.modified o p q mit)) rfl (hf _ rfl).sym, rfl, rfl, ?_⟩
    intro sc v hsc hv _
    obtain ⟨h1, x, h2, h3⟩ := hv.fly
    refine ⟨_, ⟨⟨x, h2, ?_⟩, rfl⟩, hv.update rfl⟩
    have e : modified o p q mit = { x with price := p, quantity := q, leaves := (modified o p q mit).leaves } := by
      rcases h3 with rfl | ⟨_, h3⟩
      · rfl
      · rw [h3]; rfl
    rw [e]
    refine .modified p q _ ?_ hsc
    have he : x.executed = o.executed := (sameBut_leaves h3).1
    unfold modified
    cases mit
    · exact .inl rfl
    · right
      simp only [if_true, he]
      split <;> omega
  | vanish zero =>
    rename_i o p q mit
    refine ⟨_, Ev.emit s (e := .deleteOrder (Core.modified o p q mit)) rfl (hf _ rfl).sym, rfl, rfl, ?_⟩
    intro sc v hsc hv _
    obtain ⟨h1, x, h2, h3⟩ := hv.fly
    refine ⟨_, ⟨⟨x, h2, ?_⟩, rfl⟩, hv.drop rfl⟩
    have he : x.executed = o.executed := (sameBut_leaves h3).1
    have e : modified o p q mit = { x with price := p, quantity := q, leaves := 0 } := by
      rw [← zero]
      rcases h3 with rfl | ⟨_, h3⟩
      · rfl
      · rw [h3]; rfl
    rw [e]
    refine .mitigated p q ?_ hsc
    unfold modified at zero
    cases mit
    · have : q = 0 := zero
      omega
    · simp only [if_true] at zero
      split at zero <;> omega

end CppTrader
