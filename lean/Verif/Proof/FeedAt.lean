import Verif.Proof.Feeds
/-
The order feed of one order, whatever ids other orders are submitted under.
-/

namespace CppTrader
open Core

theorem OrderView.ok_at {sc : Scope} {v w : OrderView} {i : Nat} {e : Event} (he : e.concerns i = true) (h : v i = w i) (hv : v.ok sc e) : w.ok sc e := by
  cases e <;> simp only [Event.concerns, decide_eq_true_eq, Bool.false_eq_true] at he
  case addOrder o => subst he; exact h.symm.trans hv
  case updateOrder o => subst he; obtain ⟨x, h1, h2⟩ := hv; exact ⟨x, h.symm.trans h1, h2⟩
  case deleteOrder o => subst he; obtain ⟨x, h1, h2⟩ := hv; exact ⟨x, h.symm.trans h1, h2⟩
  case exec o p q => subst he; obtain ⟨⟨x, h1, h2⟩, h3⟩ := hv; exact ⟨⟨x, h.symm.trans h1, h2⟩, h3⟩

theorem OrderView.next_at {v w : OrderView} {i : Nat} (e : Event) (h : v i = w i) : v.next e i = w.next e i := by
  cases e <;> simp only [OrderView.next, OrderView.set] <;> first | exact h | (split <;> first | rfl | exact h)

theorem OrderView.next_other {v : OrderView} {i : Nat} {e : Event} (he : e.concerns i = false) : v.next e i = v i := by
  cases e <;> simp only [Event.concerns, decide_eq_false_iff_not] at he <;> simp only [OrderView.next] <;>
    exact OrderView.set_ne _ (fun h => he h.symm)

/-- The callbacks about order `i` lead from `x` to `x'`. -/
def OrdAt (sc : Scope) (i : Nat) (x : Option Order) (evs : List Event) (x' : Option Order) : Prop :=
  ∀ v : OrderView, v i = x → ∃ v', OrdEv sc v (evs.filter (·.concerns i)) v' ∧ v' i = x'

theorem OrdAt.append {sc i x x1 x2 e1 e2} (h : OrdAt sc i x e1 x1) (h' : OrdAt sc i x1 e2 x2) : OrdAt sc i x (e1 ++ e2) x2 := by
  intro v hv
  obtain ⟨v1, a, b⟩ := h v hv
  obtain ⟨v2, c, d⟩ := h' v1 b
  exact ⟨v2, by rw [List.filter_append]; exact a.append c, d⟩

theorem OrdAt.nil (sc i x) : OrdAt sc i x [] x := fun v hv => ⟨v, rfl, hv⟩

theorem OrdAt.silent {sc i x evs} (h : ∀ e ∈ evs, e.concerns i = false) : OrdAt sc i x evs x := by
  have : evs.filter (·.concerns i) = [] := by
    rw [List.filter_eq_nil_iff]; intro e he; simp [h e he]
  intro v hv
  exact ⟨v, by rw [this]; rfl, hv⟩

theorem OrdEv.atId {sc : Scope} {v v' : OrderView} {evs : List Event} (h : OrdEv sc v evs v') (i : Nat) : OrdAt sc i (v i) evs (v' i) := by
  induction evs generalizing v with
  | nil => cases h; exact (fun w hw => ⟨w, rfl, hw⟩)
  | cons e es ih =>
    have := ih h.2
    intro w hw
    cases he : e.concerns i with
    | false =>
      rw [OrderView.next_other he] at this
      obtain ⟨w', a, b⟩ := this w hw
      exact ⟨w', by rw [List.filter_cons_of_neg (by simp [he])]; exact a, b⟩
    | true =>
      obtain ⟨w', a, b⟩ := this (w.next e) (OrderView.next_at e hw)
      exact ⟨w', by rw [List.filter_cons_of_pos he]; exact ⟨OrderView.ok_at he hw.symm h.1, a⟩, b⟩

/-- What is known of order `i` when the order map is `m` and `t` is in flight. -/
def OverAt (i : Nat) (x : Option Order) (m : Nat → Option Order) : Option Order → Prop
  | none => x = m i
  | some t => (t.id ≠ i → x = m i) ∧ (t.id = i → m i = none ∧ ∃ y : Order, x = some y ∧ y.sameBut t)

theorem Over.atId {v : OrderView} {m t} (h : Over v m t) (i : Nat) : OverAt i (v i) m t := by
  cases t with
  | none => exact congrFun (show v = m from h) i
  | some t =>
    obtain ⟨h1, y, rfl, h2⟩ := h
    refine ⟨fun hn => OrderView.set_ne _ (fun e => hn e.symm), ?_⟩
    rintro rfl
    exact ⟨h1, y, by simp, h2⟩

theorem Fill.at {s o p q s'} (f : Fill s o p q s') (hi : Inv s) (sc : Scope) (i : Nat) :
    ∃ evs, s'.ev = s.ev ++ evs ∧ OrdAt sc i (s.orders i) evs (s'.orders i) := by
  obtain ⟨evs, a1, _, _, a3⟩ := f.events hi
  refine ⟨evs, a1.ev, ?_⟩
  have := (a3 sc s.orders f.pre.mem).atId i
  rw [(f.eff hi).orders]
  exact this

theorem Fills.at {p s xs s'} (f : Fills p s xs s') (hi : Inv s) (sc : Scope) (i : Nat) :
    ∃ evs, s'.ev = s.ev ++ evs ∧ OrdAt sc i (s.orders i) evs (s'.orders i) := by
  obtain ⟨evs, a1, _, _, a3⟩ := f.events hi
  obtain ⟨v', b1, b2⟩ := a3 sc s.orders none rfl
  refine ⟨evs, a1.ev, ?_⟩
  have := b1.atId i
  rw [show v' = s'.orders from b2] at this
  exact this

/-- A step with an order in flight under an id that is in use: what is known of the other orders. -/
theorem Step.taken_at {l s t s' t'} (st : Step l s (some t) s' t') (hc : CInv s (some t)) {i : Nat} (hn : t.id ≠ i) (hd : s.orders t.id ≠ none)
    (sc : Scope) : ∃ evs, s'.ev = s.ev ++ evs ∧ OrdAt sc i (s.orders i) evs (s'.orders i) ∧ ∀ t2, t' = some t2 → t2.id = t.id := by
  cases st with
  | trade fill head side reach qty nf na =>
    rename_i o q s1
    obtain ⟨e1, a1, a2⟩ := fill.at hc.inv sc i
    refine ⟨e1 ++ [.exec t o.price q], ?_, a2.append (.silent ?_), ?_⟩
    · show _ ++ [_] = _; rw [a1, List.append_assoc]
    · intro e he; simp at he; subst he; simpa [Event.concerns] using hn
    · rintro _ ⟨⟩; rfl
  | sweep fills sum pos sides tif =>
    obtain ⟨e1, a1, a2⟩ := fills.at hc.inv sc i
    refine ⟨e1 ++ [.exec t t.price t.leaves], ?_, a2.append (.silent ?_), ?_⟩
    · show _ ++ [_] = _; rw [a1, List.append_assoc]
    · intro e he; simp at he; subst he; simpa [Event.concerns] using hn
    · rintro _ ⟨⟩; rfl
  | put fresh pos nm tif run => exact absurd fresh hd
  | cancel =>
    refine ⟨[.deleteOrder t], rfl, .silent ?_, by rintro _ ⟨⟩⟩
    intro e he; simp at he; subst he; simpa [Event.concerns] using hn
  | activate ty trig =>
    rename_i t1
    have hid : t1.id = t.id := by rcases ty with ⟨_, rfl⟩ | ⟨_, rfl⟩ <;> rfl
    refine ⟨[.updateOrder t1], rfl, .silent ?_, ?_⟩
    · intro e he; simp at he; subst he; simpa [Event.concerns, hid] using hn
    · rintro _ ⟨⟩; exact hid
  | bound ty lim => exact ⟨[], by simp, fun v hv => ⟨v, rfl, hv⟩, by rintro _ ⟨⟩; rfl⟩
  | retrail ty ne =>
    refine ⟨[.updateOrder _], rfl, .silent ?_, ?_⟩
    · intro e he; simp at he; subst he; simpa [Event.concerns, retrail_id] using hn
    · rintro _ ⟨⟩; exact retrail_id ..
  | reset => exact ⟨[], by simp [Core.reset], fun v hv => ⟨v, rfl, hv⟩, by rintro _ ⟨⟩; rfl⟩
  | modify rep pos vol =>
    refine ⟨[.updateOrder _], rfl, .silent ?_, ?_⟩
    · intro e he; simp at he; subst he; simpa [Event.concerns, Core.modified] using hn
    · rintro _ ⟨⟩; rfl
  | vanish zero =>
    refine ⟨[.deleteOrder _], rfl, .silent ?_, by rintro _ ⟨⟩⟩
    intro e he; simp at he; subst he; simpa [Event.concerns, Core.modified] using hn

/-- What a step tells about order `i`, unless it is the one arriving. -/
theorem Step.at {l s t s' t'} (st : Step l s t s' t') (hc : CInv s t) {sc : Scope} (hsc : l.inScope sc) {i : Nat} (ha : ∀ o, l = .arrive o → o.id ≠ i)
    {x : Option Order} (hx : OverAt i x s.orders t) :
    ∃ evs x', s'.ev = s.ev ++ evs ∧ OrdAt sc i x evs x' ∧ OverAt i x' s'.orders t' := by
  obtain ⟨evs, h⟩ := st.events hc
  have full : ∀ v : OrderView, v i = x → Over v s.orders t → l.freshIn s.orders →
      ∃ evs x', s'.ev = s.ev ++ evs ∧ OrdAt sc i x evs x' ∧ OverAt i x' s'.orders t' := by
    intro v hv ho hf
    obtain ⟨v', a, b⟩ := h.orders sc v hsc ho hf
    exact ⟨evs, v' i, h.ev.ev, by rw [← hv]; exact a.atId i, b.atId i⟩
  cases t with
  | none =>
    by_cases hl : ∃ o, l = .arrive o
    · obtain ⟨o, rfl⟩ := hl
      have hno := ha o rfl
      cases st with
      | arrive rep idp sym vol tr =>
        refine ⟨[.addOrder o], x, rfl, .silent ?_, fun _ => hx, fun e => absurd e hno⟩
        intro e he; simp at he; subst he; simpa [Event.concerns] using hno
    · exact full s.orders (show x = _ from hx).symm rfl (fun o e => absurd ⟨o, e⟩ hl)
  | some t =>
    have hl : l.freshIn s.orders := by
      rintro o rfl; cases st
    by_cases hi : t.id = i
    · obtain ⟨h1, y, rfl, h2⟩ := hx.2 hi
      exact full (OrderView.set s.orders t.id (some y)) (by rw [hi]; simp) ⟨by rw [hi]; exact h1, y, rfl, h2⟩ hl
    · have hx' := hx.1 hi
      by_cases hd : s.orders t.id = none
      · exact full (OrderView.set s.orders t.id (some t)) (by rw [OrderView.set_ne _ (fun e => hi e.symm)]; exact hx'.symm)
          ⟨hd, t, rfl, sameBut_refl _⟩ hl
      · obtain ⟨e1, a1, a2, a3⟩ := st.taken_at hc hi hd sc
        refine ⟨e1, s'.orders i, a1, by rw [hx']; exact a2, ?_⟩
        cases t' with
        | none => rfl
        | some t2 => exact ⟨fun _ => rfl, fun e => absurd ((a3 t2 rfl).symm.trans e) hi⟩

theorem Steps.at {A s t s' t'} (h : Steps A s t s' t') (hc : CInv s t) {sc : Scope} (hsc : ∀ l, A l → l.inScope sc) {i : Nat}
    (ha : ∀ o, A (.arrive o) → o.id ≠ i) {x : Option Order} (hx : OverAt i x s.orders t) :
    ∃ evs x', s'.ev = s.ev ++ evs ∧ OrdAt sc i x evs x' ∧ OverAt i x' s'.orders t' := by
  induction h generalizing x with
  | refl => exact ⟨[], x, by simp, fun v hv => ⟨v, rfl, hv⟩, hx⟩
  | head a st _ ih =>
    obtain ⟨e1, x1, a1, a2, a3⟩ := st.at hc (hsc _ a) (fun o e => ha o (e ▸ a)) hx
    obtain ⟨e2, x2, b1, b2, b3⟩ := ih (st.inv hc) a3
    exact ⟨_, x2, by rw [b1, a1, List.append_assoc], a2.append b2, b3⟩

/-- The callbacks of a call about order `i`. -/
structure CallAt (i : Nat) (g g' : Mgr) (sc : Scope) (evs : List Event) : Prop where
  ev : g'.ev = g.ev ++ evs
  at_ : OrdAt sc i (g.orders i) evs (g'.orders i)
  adds : ∀ o ∈ addsOf evs, o.id ≠ i

theorem CallAt.trans {i g g1 g2 sc e1 e2} (h : CallAt i g g1 sc e1) (h' : CallAt i g1 g2 sc e2) : CallAt i g g2 sc (e1 ++ e2) :=
  ⟨by rw [h'.ev, h.ev, List.append_assoc], h.at_.append h'.at_, fun o ho => by
    rw [addsOf_append] at ho
    rcases List.mem_append.1 ho with ho | ho
    · exact h.adds o ho
    · exact h'.adds o ho⟩

theorem BookOp.at {tag sym g g' e} (h : BookOp tag sym g g' e) (hi : MInv g) {i : Nat} (hn : ∀ o, tag.arrives o → o.id ≠ i) {sc : Scope}
    (h1 : tag = .modify → sc.mod = true) (h2 : tag = .reduce → sc.red = true) (h3 : g.matching = true → sc.act = true) :
    ∃ evs, CallAt i g g' sc evs := by
  obtain ⟨b, s', k1, k2, rfl⟩ := h.ex
  obtain ⟨evs, x', a1, a2, a3⟩ := k2.once.steps.at (CInv.none_iff.2 (hi.inv k1).1) (fun l hl => hl.inScope h1 h2 h3)
    (fun o hl => hn o (hl.arrive o rfl)) (x := g.orders i) rfl
  refine ⟨evs, a1, by rw [show x' = s'.orders i from a3] at a2; exact a2, ?_⟩
  obtain ⟨evs', ls, b1⟩ := k2.once.steps.stepsEv (CInv.none_iff.2 (hi.inv k1).1)
  have := b1.ev.ev
  rw [a1] at this
  cases List.append_cancel_left this
  rw [b1.adds]
  intro o ho
  obtain ⟨l, hl, ho⟩ := List.mem_flatten.1 ho
  obtain ⟨l', hl', rfl⟩ := List.mem_map.1 hl
  cases l' <;> simp only [Lbl.adds, List.not_mem_nil, List.mem_singleton] at ho
  subst ho
  exact hn o ((b1.labels _ hl').1.arrive o rfl)

theorem ActsEv.at {A g g' evs ls} (h : ActsEv A g g' evs ls) (hA : ∀ n l, A n l → EngL l) {sc : Scope} (hs : sc.act = true) (i : Nat) :
    CallAt i g g' sc evs :=
  ⟨(h.feed hA hs).1.ev, (h.feed hA hs).1.orders.atId i, by rw [(h.feed hA hs).2]; simp⟩

/-- The callbacks about an order that is not submitted by the call. -/
theorem StepEff.at {g : Mgr} (hi : MInv g) {op : Op} {g' e} (h : StepEff g op g' e) (ha : g.Admissible op) (hs : g.step op = .ok (g', e))
    {i : Nat} (hn : ∀ t, g.submits op t → t.id ≠ i) : ∃ evs, CallAt i g g' (g.scope op) evs := by
  cases h with
  | refused h => rw [h.1]; exact ⟨[], by simp, fun v hv => ⟨v, rfl, hv⟩, by simp [addsOf]⟩
  | addSymbol hn hv => exact ⟨_, rfl, .silent (by simp [Event.concerns]), by simp [addsOf]⟩
  | deleteSymbol hn hv => exact ⟨_, rfl, .silent (by simp [Event.concerns]), by simp [addsOf]⟩
  | addBook hr hn hv => exact ⟨_, rfl, .silent (by simp [Event.concerns]), by simp [addsOf]⟩
  | deleteBook hn hv => exact ⟨_, rfl, .silent (by simp [Event.concerns]), by simp [addsOf]⟩
  | book on h =>
    exact h.at hi (fun o ho => hn o (Op.on_submits hi on ho)) (by rintro rfl; exact Op.on_modify on)
      (by rintro rfl; exact Op.on_reduce on) (fun hm => by simp [Mgr.scope, hm])
  | @replaceWith id o old _ _ _ ho h1 h2 =>
    clear h1 h2
    obtain ⟨g1, e1, d1, d2, d3⟩ := deleteOrder_mgr hi id
    simp only [Mgr.step, Mgr.replaceWith] at hs
    rw [d1, Except.bind_ok] at hs
    simp only at hs
    have del : ∀ old, BookOp .delete (Order.symbolId old) g g1 e1 → ∃ evs, CallAt i g g1 ⟨false, false, g.matching || false⟩ evs :=
      fun old d4 => d4.at hi (fun _ h => h.elim) (by simp) (by simp) (fun hm => by simpa using hm)
    by_cases he : e1 = .ok
    · subst he
      simp only [ne_eq, not_true, if_false] at hs
      rcases d2 with d2 | ⟨old, d2, d4⟩
      · exact absurd rfl d2.2.1
      · obtain ⟨ev1, f1⟩ := del _ d4
        obtain ⟨g2, e2, a1, a2⟩ := addOrder_mgr (d4.minv hi) ha.1 (fun b hb => by
          obtain ⟨b0, h1, h2⟩ := d3 _ b hb
          have := ha.2 b0 h1; omega)
        rw [a1] at hs
        cases hs
        rcases a2 with a2 | ⟨_, a2⟩
        · rw [a2.1]; exact ⟨ev1, f1⟩
        · obtain ⟨ev2, b1⟩ := a2.at (d4.minv hi) (i := i) (fun x hx => hn x ⟨_, hx⟩) (sc := ⟨false, false, g.matching || false⟩) (by simp) (by simp)
            (fun hm => by rw [d4.matching] at hm; simpa using hm)
          exact ⟨_, f1.trans b1⟩
    · simp only [he, ne_eq, not_false_eq_true, if_true] at hs
      cases hs
      rcases d2 with d2 | ⟨old, d2, d4⟩
      · rw [d2.1]; exact ⟨[], by simp, fun v hv => ⟨v, rfl, hv⟩, by simp [addsOf]⟩
      · exact del _ d4
  | enable acts all hm =>
    have hi' : MInv { g with matching := true } := ⟨hi.orders, hi.books, hi.symbols⟩
    obtain ⟨evs, ls, h1⟩ := acts.events hi'
    have h2 := h1.at (fun _ _ h => h) (sc := g.scope .enableMatching) (by simp [Mgr.scope, Op.isMatch]) i
    exact ⟨evs, h2.ev, h2.at_, h2.adds⟩
  | disable => exact ⟨[], by simp, fun v hv => ⟨v, rfl, hv⟩, by simp [addsOf]⟩
  | all acts all hm =>
    obtain ⟨evs, ls, h1⟩ := acts.events hi
    exact ⟨evs, h1.at (fun _ _ h => h) (sc := g.scope .matchAll) (by simp [Mgr.scope, Op.isMatch]) i⟩

/-! ### Consequences -/

theorem execsOfId_about (i : Nat) (evs : List Event) : execsOfId i (evs.filter (·.concerns i)) = execsOfId i evs := by
  induction evs with
  | nil => rfl
  | cons e es ih =>
    cases he : e.concerns i with
    | false =>
      rw [List.filter_cons_of_neg (by simp [he]), ih]
      cases e <;> simp only [execsOfId, execsOf]
      case exec o p q =>
        simp only [Event.concerns, decide_eq_false_iff_not] at he
        simp [he]
    | true =>
      rw [List.filter_cons_of_pos he]
      cases e <;> simp only [Event.concerns, Bool.false_eq_true] at he <;>
        simp only [execsOfId, execsOf, List.filter_cons] at ih ⊢ <;> first | exact ih | rw [ih]

theorem addsOf_sub {i : Nat} {evs : List Event} {o : Order} (h : o ∈ addsOf (evs.filter (·.concerns i))) : o ∈ addsOf evs := by
  induction evs with
  | nil => cases h
  | cons e es ih =>
    cases he : e.concerns i with
    | false =>
      rw [List.filter_cons_of_neg (by simp [he])] at h
      cases e <;> simp only [addsOf] <;> first | exact ih h | exact List.mem_cons_of_mem _ (ih h)
    | true =>
      rw [List.filter_cons_of_pos he] at h
      cases e <;> simp only [Event.concerns, Bool.false_eq_true] at he <;> simp only [addsOf] at h ⊢ <;> try exact ih h
      rcases List.mem_cons.1 h with rfl | h
      · exact List.mem_cons_self
      · exact List.mem_cons_of_mem _ (ih h)

theorem addsOf_about {i : Nat} {evs : List Event} {o : Order} (h : o ∈ addsOf (evs.filter (·.concerns i))) : o.id = i := by
  induction evs with
  | nil => cases h
  | cons e es ih =>
    cases he : e.concerns i with
    | false => rw [List.filter_cons_of_neg (by simp [he])] at h; exact ih h
    | true =>
      rw [List.filter_cons_of_pos he] at h
      cases e <;> simp only [Event.concerns, decide_eq_true_eq, Bool.false_eq_true] at he <;> simp only [addsOf] at h <;> try exact ih h
      rcases List.mem_cons.1 h with rfl | h
      · exact he
      · exact ih h

end CppTrader
