import Verif.Props.Trades
/-
The order feed and the level feed of public calls.
-/

namespace CppTrader
open Core

theorem Op.on_reduce {g : Mgr} {op : Op} {sym} (h : op.on g .reduce sym) : op.isReduce = true := by
  cases op <;> simp only [Op.on] at h
  case addOrder => cases h.1
  case reduceOrder => rfl
  case replaceOrder => obtain ⟨_, h, _⟩ := h; cases h
  all_goals (cases h.1)

theorem EngL.inScope {l : Lbl} (h : EngL l) {sc : Scope} (ha : sc.act = true) : l.inScope sc := by
  cases l <;> first | trivial | exact ha | cases h

theorem OpL.inScope {m tag l} (h : OpL m tag l) {sc : Scope} (h1 : tag = .modify → sc.mod = true) (h2 : tag = .reduce → sc.red = true)
    (h3 : m = true → sc.act = true) : l.inScope sc := by
  cases l <;> simp only [Lbl.inScope]
  case modify => exact h1 (h.modify _ _ rfl)
  case vanish => exact h1 (h.vanish _ _ rfl)
  case reduce => exact h2 (h.reduce _ _ rfl)
  case activate =>
    cases m
    · cases h.calm rfl
    · exact h3 rfl
  case retrail =>
    cases m
    · cases h.calm rfl
    · exact h3 rfl

/-! ### Consequences of a consistent feed -/

/-- Without an addition, an unknown order stays unknown and nothing is said about it. -/
theorem OrdEv.absent {sc : Scope} {v v' : OrderView} {evs : List Event} {i : Nat} (h : OrdEv sc v evs v') (hv : v i = none)
    (ha : ∀ o ∈ addsOf evs, o.id ≠ i) : v' i = none ∧ ∀ x ∈ execsOf evs, x.1.id ≠ i := by
  induction evs generalizing v with
  | nil => cases h; exact ⟨hv, by simp [execsOf]⟩
  | cons e es ih =>
    obtain ⟨h1, h2⟩ := h
    have hne : ∀ (o : Order) (y : Option Order), o.id ≠ i → (v.set o.id y) i = none := by
      intro o y hn; rw [OrderView.set_ne _ (fun e => hn e.symm)]; exact hv
    cases e
    case addOrder o =>
      exact ih h2 (hne o _ (ha o (by simp [addsOf]))) (fun o' ho' => ha o' (by simp [addsOf, ho']))
    case updateOrder o =>
      obtain ⟨x, h3, _⟩ := h1
      have : o.id ≠ i := by intro e; rw [e, hv] at h3; cases h3
      exact ih h2 (hne o _ this) ha
    case deleteOrder o =>
      obtain ⟨x, h3, _⟩ := h1
      have : o.id ≠ i := by intro e; rw [e, hv] at h3; cases h3
      exact ih h2 (hne o _ this) ha
    case exec o p q =>
      obtain ⟨⟨x, h3, _⟩, _⟩ := h1
      have : o.id ≠ i := by intro e; rw [e, hv] at h3; cases h3
      obtain ⟨a, b⟩ := ih h2 (hne o _ this) ha
      refine ⟨a, ?_⟩
      intro y hy
      rcases List.mem_cons.1 hy with rfl | hy
      · exact this
      · exact b y hy
    all_goals exact ih h2 hv ha

theorem OrderView.ok_mono {sc : Scope} {v : OrderView} {e : Event} (h : v.ok sc e) : v.ok ⟨true, true, true⟩ e := by
  cases e <;> try exact h
  case updateOrder o =>
    obtain ⟨x, h1, h2⟩ := h
    refine ⟨x, h1, ?_⟩
    cases h2 with
    | same => exact .same
    | reduced q le ok => exact .reduced q le rfl
    | modified p q l left ok => exact .modified p q l left rfl
    | toMarket ty ok => exact .toMarket ty rfl
    | toLimit ty ok => exact .toLimit ty rfl
    | trailStop sp ty dir ok => exact .trailStop sp ty dir rfl
    | trailStopLimit sp ty dir ok => exact .trailStopLimit sp ty dir rfl
  case deleteOrder o =>
    obtain ⟨x, h1, h2⟩ := h
    refine ⟨x, h1, ?_⟩
    cases h2 with
    | known h => exact .known h
    | filled l e => exact .filled l e
    | reduced ok => exact .reduced rfl
    | mitigated p q left ok => exact .mitigated p q left rfl

theorem OrdEv.mono {sc : Scope} {v v' : OrderView} {evs : List Event} (h : OrdEv sc v evs v') : OrdEv ⟨true, true, true⟩ v evs v' := by
  induction evs generalizing v with
  | nil => exact h
  | cons e es ih => exact ⟨OrderView.ok_mono h.1, ih h.2⟩

/-! ### The order feed of a call -/

/-- The order feed of a call, with the orders it adds. -/
structure CallFeed (g g' : Mgr) (sc : Scope) (evs : List Event) : Prop where
  ev : g'.ev = g.ev ++ evs
  orders : OrdEv sc g.orders evs g'.orders

theorem BookOp.feed {tag sym g g' e} (h : BookOp tag sym g g' e) (hi : MInv g) (hf : tag.freshIn g.orders) {sc : Scope}
    (h1 : tag = .modify → sc.mod = true) (h2 : tag = .reduce → sc.red = true) (h3 : g.matching = true → sc.act = true) :
    ∃ evs, CallFeed g g' sc evs ∧ (addsOf evs = [] ∧ tag.adds = false ∨ ∃ o, addsOf evs = [o] ∧ tag.arrives o) := by
  obtain ⟨b, s', k1, k2, rfl⟩ := h.ex
  obtain ⟨evs, a1, a2, a3⟩ := k2.once.orders (hi.inv k1).1 hf (sc := sc) (fun l hl => hl.inScope h1 h2 h3)
  refine ⟨evs, ⟨a1, a2⟩, ?_⟩
  rcases a3 with a3 | ⟨⟨o, a3, a4⟩, _⟩
  · exact .inl a3
  · exact .inr ⟨o, a3, a4.arrive o rfl⟩

/-- After a deletion the order is gone. -/
theorem delete_gone {g g1 : Mgr} (hi : MInv g) {id : Nat} (h : g.deleteOrder id = .ok (g1, .ok)) : g1.orders id = none := by
  unfold Mgr.deleteOrder at h
  by_cases h0 : id = 0
  · rw [if_pos h0] at h; cases h
  rw [if_neg h0] at h
  unfold Mgr.onOrder at h
  cases ho : g.orders id with
  | none => rw [ho] at h; cases h
  | some o =>
    rw [ho] at h
    simp only at h
    unfold Mgr.onBook at h
    cases hb : slot g.books o.symbolId with
    | none => rw [hb] at h; cases h
    | some b =>
      rw [hb] at h
      simp only at h
      obtain ⟨h1, h2⟩ := hi.inv hb
      have hid := (hi.orders id o ho).1
      obtain ⟨k, s1, a1, a2, a3, a4, a5, a6, _⟩ := h1.unlink (id := id) (o := o) ho h2.symm
      obtain ⟨s', f1, _, _, f4⟩ := finish_ok (s := s1.emit (.deleteOrder o)) (by exact ⟨a3.book, a3.orders, a3.vol⟩) g.matching .delete
      have hrun : (g.core b).deleteOp g.matching o = .ok (s', .ok) := by
        unfold Core.deleteOp Core.deleteBody
        rw [a2, Except.bind_ok]
        exact f1
      rw [show (⟨g.orders, b, g.ev⟩ : Core) = g.core b from rfl, hrun, Except.bind_ok] at h
      cases h
      obtain ⟨evs, ls, e1⟩ := f4.stepsEv (CInv.none_iff.2 ⟨a3.book, a3.orders, a3.vol⟩)
      obtain ⟨v', e2, e3⟩ := e1.orders ⟨true, true, true⟩ s1.orders rfl (fun l hl => ⟨(e1.labels l hl).1.2,
        (e1.labels l hl).1.1.inScope (fun _ => rfl) (fun _ => rfl) (fun _ => rfl)⟩)
      rw [show v' = s'.orders from e3] at e2
      refine (e2.absent ?_ ?_).1
      · rw [a4.orders]; simp [setO]
      · rw [e1.adds, noArrive_flat fun l hl => (e1.labels l hl).1.2]; simp


theorem OrdEv.append {sc : Scope} {v v1 v2 : OrderView} {e1 e2} (h : OrdEv sc v e1 v1) (h' : OrdEv sc v1 e2 v2) : OrdEv sc v (e1 ++ e2) v2 :=
  Replays.append h h'

theorem CallFeed.trans {g g1 g2 sc e1 e2} (h : CallFeed g g1 sc e1) (h' : CallFeed g1 g2 sc e2) : CallFeed g g2 sc (e1 ++ e2) :=
  ⟨by rw [h'.ev, h.ev, List.append_assoc], h.orders.append h'.orders⟩

theorem Op.on_submits {g : Mgr} (hi : MInv g) {op : Op} {tag sym o} (on : op.on g tag sym) (ha : tag.arrives o) : g.submits op o := by
  cases op <;> simp only [Op.on] at on
  case addOrder => obtain ⟨rfl, _⟩ := on; exact ha
  case replaceOrder => obtain ⟨x, rfl, h, _⟩ := on; exact ⟨x, by rw [hi.getOrder]; exact h, ha⟩
  all_goals (obtain ⟨rfl, _⟩ := on; cases ha)

theorem ActsEv.feed {A g g' evs ls} (h : ActsEv A g g' evs ls) (hA : ∀ n l, A n l → EngL l) {sc : Scope} (hs : sc.act = true) :
    CallFeed g g' sc evs ∧ addsOf evs = [] := by
  have : ∀ l ∈ ls, l.noArrive ∧ l.inScope sc := by
    intro l hl
    obtain ⟨n, h1, _⟩ := h.labels l hl
    exact ⟨(hA n l h1).noArrive, (hA n l h1).inScope hs⟩
  exact ⟨⟨h.ev, h.orders sc this⟩, by rw [h.adds]; exact noArrive_flat fun l hl => (this l hl).1⟩

/-- The order feed of any call that submits no order under an id in use. -/
theorem StepEff.feed {g : Mgr} (hi : MInv g) {op : Op} {g' e} (h : StepEff g op g' e) (ha : g.Admissible op) (hs : g.step op = .ok (g', e))
    (hf : g.FreshId op) :
    ∃ evs, CallFeed g g' (g.scope op) evs ∧ (addsOf evs = [] ∧ (op.isSubmission = true → e ≠ .ok ∧ e ≠ .orderDuplicate) ∨ ∃ o, addsOf evs = [o] ∧ g.submits op o) := by
  cases h with
  | refused h => rw [h.1]; exact ⟨[], ⟨by simp, rfl⟩, .inl ⟨rfl, fun _ => ⟨h.2.1, h.2.2.1⟩⟩⟩
  | addSymbol hn hv => exact ⟨_, ⟨rfl, trivial, rfl⟩, .inl ⟨rfl, fun h => by cases h⟩⟩
  | deleteSymbol hn hv => exact ⟨_, ⟨rfl, trivial, rfl⟩, .inl ⟨rfl, fun h => by cases h⟩⟩
  | addBook hr hn hv => exact ⟨_, ⟨rfl, trivial, rfl⟩, .inl ⟨rfl, fun h => by cases h⟩⟩
  | deleteBook hn hv => exact ⟨_, ⟨rfl, trivial, rfl⟩, .inl ⟨rfl, fun h => by cases h⟩⟩
  | book on h =>
    obtain ⟨evs, h1, h2⟩ := h.feed hi (Op.on_fresh hi on hf) (sc := (g.scope op)) (by rintro rfl; exact Op.on_modify on)
      (by rintro rfl; exact Op.on_reduce on) (fun hm => by simp [Mgr.scope, hm])
    refine ⟨evs, h1, ?_⟩
    rcases h2 with h2 | ⟨o, h2, h3⟩
    · refine .inl ⟨h2.1, fun hop => ?_⟩
      have := h2.2
      cases op <;> simp only [Op.on] at on <;> try (cases hop)
      · obtain ⟨rfl, _⟩ := on; cases this
      · obtain ⟨_, rfl, _⟩ := on; cases this
    · exact .inr ⟨o, h2, Op.on_submits hi on h3⟩
  | @replaceWith id o old _ _ _ ho h1 h2 =>
    clear h1 h2
    obtain ⟨g1, e1, d1, d2, d3⟩ := deleteOrder_mgr hi id
    simp only [Mgr.step, Mgr.replaceWith] at hs
    rw [d1, Except.bind_ok] at hs
    simp only at hs
    by_cases he : e1 = .ok
    · subst he
      simp only [ne_eq, not_true, if_false] at hs
      rcases d2 with d2 | ⟨old, d2, d4⟩
      · exact absurd rfl d2.2.1
      · obtain ⟨ev1, f1, f2⟩ := d4.feed hi trivial (sc := ⟨false, false, g.matching || false⟩) (by simp) (by simp) (fun hm => by simpa using hm)
        replace f2 : addsOf ev1 = [] := by
          rcases f2 with f2 | ⟨_, _, f2⟩
          · exact f2.1
          · cases f2
        obtain ⟨g2, e2, a1, a2⟩ := addOrder_mgr (d4.minv hi) ha.1 (fun b hb => by
          obtain ⟨b0, h1, h2⟩ := d3 _ b hb
          have := ha.2 b0 h1; omega)
        rw [a1] at hs
        cases hs
        rcases a2 with a2 | ⟨_, a2⟩
        · rw [a2.1]; exact ⟨ev1, f1, .inl ⟨f2, fun _ => ⟨a2.2.1, a2.2.2.1⟩⟩⟩
        · have hfr : g1.orders o.id = none := by
            by_cases e : o.id = id
            · rw [e]; exact delete_gone hi d1
            · rcases hf with hf | hf
              · exact absurd hf e
              · rw [hi.getOrder] at hf
                exact (f1.orders.absent hf (by rw [f2]; simp)).1
          obtain ⟨ev2, b1, b2⟩ := a2.feed (d4.minv hi) hfr (sc := ⟨false, false, g.matching || false⟩) (by simp) (by simp) (fun hm => by rw [d4.matching] at hm; simpa using hm)
          refine ⟨_, f1.trans b1, ?_⟩
          rw [addsOf_append, f2, List.nil_append]
          rcases b2 with b2 | ⟨x, b2, b3⟩
          · cases b2.2
          · exact .inr ⟨x, b2, _, b3⟩
    · simp only [he, ne_eq, not_false_eq_true, if_true] at hs
      cases hs
      rcases d2 with d2 | ⟨old, d2, d4⟩
      · rw [d2.1]; exact ⟨[], ⟨by simp, rfl⟩, .inl ⟨rfl, fun _ => ⟨d2.2.1, d2.2.2.1⟩⟩⟩
      · obtain ⟨ev1, f1, f2⟩ := d4.feed hi trivial (sc := ⟨false, false, g.matching || false⟩) (by simp) (by simp) (fun hm => by simpa using hm)
        obtain ⟨b, s', h1, h2, h3⟩ := d4.ex
        rcases h2.code with h | h
        · exact absurd h he
        · obtain ⟨_, ⟨t, ht, _⟩, _⟩ := h2.dup h; cases ht
  | enable acts all hm =>
    have hi' : MInv { g with matching := true } := ⟨hi.orders, hi.books, hi.symbols⟩
    obtain ⟨evs, ls, h1⟩ := acts.events hi'
    obtain ⟨h2, h3⟩ := h1.feed (fun _ _ h => h) (sc := g.scope .enableMatching) (by simp [Mgr.scope, Op.isMatch])
    exact ⟨evs, ⟨h2.ev, h2.orders⟩, .inl ⟨h3, fun h => by cases h⟩⟩
  | disable => exact ⟨[], ⟨by simp, rfl⟩, .inl ⟨rfl, fun h => by cases h⟩⟩
  | all acts all hm =>
    obtain ⟨evs, ls, h1⟩ := acts.events hi
    obtain ⟨h2, h3⟩ := h1.feed (fun _ _ h => h) (sc := g.scope .matchAll) (by simp [Mgr.scope, Op.isMatch])
    exact ⟨evs, h2, .inl ⟨h3, fun h => by cases h⟩⟩


/-! ### The life of one order -/

/-- From `x` to `x'` by updates and the executions `qs`. -/
inductive Evo (sc : Scope) (x : Order) : List (Order × Nat × Nat) → Order → Prop
  | nil : Evo sc x [] x
  | upd {qs y z} : Evo sc x qs y → y.Updated sc z → Evo sc x qs z
  | exec {qs y o p q} : Evo sc x qs y → y.sameBut o → 0 < q → q ≤ o.leaves → Evo sc x (qs ++ [(o, p, q)]) (o.afterExec q)

theorem OrdEv.life {sc : Scope} {v v' : OrderView} {evs : List Event} {i : Nat} {x y : Order} {qs} (h : OrdEv sc v evs v') (hv : v i = some y)
    (ha : ∀ o ∈ addsOf evs, o.id ≠ i) (he : Evo sc x qs y) :
    (∃ x', v' i = some x' ∧ Evo sc x (qs ++ execsOfId i evs) x') ∨ (v' i = none ∧ ∃ y', Evo sc x (qs ++ execsOfId i evs) y') := by
  induction evs generalizing v y qs with
  | nil => cases h; left; exact ⟨y, hv, by simpa [execsOfId, execsOf] using he⟩
  | cons e es ih =>
    obtain ⟨h1, h2⟩ := h
    have hne : ∀ (o : Order) (z : Option Order), o.id ≠ i → (v.set o.id z) i = some y := by
      intro o z hn; rw [OrderView.set_ne _ (fun e => hn e.symm)]; exact hv
    have hs : ∀ (o : Order) (z : Option Order), o.id = i → (v.set o.id z) i = z := by
      intro o z hn; rw [hn, OrderView.set_at]
    cases e
    case addOrder o =>
      exact ih h2 (hne o _ (ha o (by simp [addsOf]))) (fun o' ho' => ha o' (by simp [addsOf, ho'])) he
    case updateOrder o =>
      by_cases e : o.id = i
      · obtain ⟨z, h3, h4⟩ := h1
        rw [e, hv] at h3; cases h3
        exact ih h2 (hs o _ e) ha (he.upd h4)
      · exact ih h2 (hne o _ e) ha he
    case deleteOrder o =>
      by_cases e : o.id = i
      · right
        obtain ⟨a, b⟩ := OrdEv.absent h2 (hs o _ e) ha
        refine ⟨a, y, ?_⟩
        have : execsOfId i (.deleteOrder o :: es) = [] := by
          unfold execsOfId
          rw [List.filter_eq_nil_iff]
          intro z hz
          simpa using b z hz
        rw [this, List.append_nil]; exact he
      · exact ih h2 (hne o _ e) ha he
    case exec o p q =>
      by_cases e : o.id = i
      · obtain ⟨⟨z, h3, h4⟩, h5, h6⟩ := h1
        rw [e, hv] at h3; cases h3
        have := ih h2 (hs o _ e) ha (he.exec (p := p) h4 h5 h6)
        rwa [List.append_assoc, show [(o, p, q)] ++ execsOfId i es = execsOfId i (.exec o p q :: es) by
          simp [execsOfId, execsOf, e]] at this
      · have := ih h2 (hne o _ e) ha he
        rwa [show execsOfId i es = execsOfId i (.exec o p q :: es) by simp [execsOfId, execsOf, e]] at this
    all_goals exact ih h2 hv ha he

theorem OrdEv.split {sc : Scope} {v v' : OrderView} {e1 e2 : List Event} (h : OrdEv sc v (e1 ++ e2) v') : ∃ v1, OrdEv sc v e1 v1 ∧ OrdEv sc v1 e2 v' := by
  induction e1 generalizing v with
  | nil => exact ⟨v, rfl, h⟩
  | cons e es ih =>
    obtain ⟨v1, a, b⟩ := ih h.2
    exact ⟨v1, ⟨h.1, a⟩, b⟩

theorem addsOf_split {evs : List Event} {o : Order} (h : addsOf evs = [o]) : ∃ e1 e2, evs = e1 ++ .addOrder o :: e2 ∧ addsOf e1 = [] ∧ addsOf e2 = [] := by
  induction evs with
  | nil => cases h
  | cons e es ih =>
    cases e
    case addOrder x =>
      simp only [addsOf, List.cons.injEq] at h
      obtain ⟨rfl, h⟩ := h
      exact ⟨[], es, rfl, rfl, h⟩
    all_goals
      obtain ⟨e1, e2, rfl, a, b⟩ := ih h
      exact ⟨_ :: e1, e2, rfl, a, b⟩


theorem Order.sameBut.facts {x o : Order} (h : x.sameBut o) : o.id = x.id ∧ o.symbolId = x.symbolId ∧ o.side = x.side ∧ o.type = x.type ∧
    o.stopPrice = x.stopPrice ∧ o.quantity = x.quantity ∧ o.executed = x.executed ∧ o.leaves = x.leaves ∧ o.tif = x.tif ∧
    o.maxVisible = x.maxVisible ∧ o.slippage = x.slippage ∧ o.trailDist = x.trailDist ∧ o.trailStep = x.trailStep ∧
    (o.type ≠ .market → o.price = x.price) := by
  rcases h with rfl | ⟨h1, h2⟩
  · simp
  · rw [h2]; simp [h1]

theorem Evo.executed {sc x qs x'} (h : Evo sc x qs x') (hx : x.executed < W64) : x'.executed = (x.executed + execTotal qs) % W64 := by
  induction h with
  | nil => simp [execTotal, Nat.mod_eq_of_lt hx]
  | upd _ h ih => rw [← ih]; cases h <;> rfl
  | @exec qs y o p q _ h h1 h2 ih =>
    have : (o.afterExec q).executed = add64 y.executed q := by show add64 o.executed q = _; rw [h.facts.2.2.2.2.2.2.1]
    rw [this, ih]
    simp only [execTotal, List.map_append, List.map_cons, List.map_nil, List.sum_append, List.sum_cons, List.sum_nil]
    unfold add64
    omega

theorem Evo.leaves {a x qs x'} (h : Evo ⟨false, false, a⟩ x qs x') : x'.leaves + execTotal qs = x.leaves := by
  induction h with
  | nil => simp [execTotal]
  | upd _ h ih =>
    rw [← ih]
    cases h with
    | reduced q le ok => cases ok
    | modified p q l left ok => cases ok
    | _ => rfl
  | @exec qs y o p q _ h h1 h2 ih =>
    have h3 := h.facts.2.2.2.2.2.2.2.1
    have : (o.afterExec q).leaves = o.leaves - q := rfl
    simp only [execTotal, List.map_append, List.map_cons, List.map_nil, List.sum_append, List.sum_cons, List.sum_nil] at ih ⊢
    omega

/-- Execution of quantities and reductions only shrink what is left. -/
theorem Evo.leaves_le {r a x qs x'} (h : Evo ⟨false, r, a⟩ x qs x') : x'.leaves + execTotal qs ≤ x.leaves := by
  induction h with
  | nil => simp [execTotal]
  | upd _ h ih =>
    refine Nat.le_trans ?_ ih
    cases h with
    | reduced q le ok => simp only; omega
    | modified p q l left ok => cases ok
    | _ => exact Nat.le_refl _
  | @exec qs y o p q _ h h1 h2 ih =>
    have h3 := h.facts.2.2.2.2.2.2.2.1
    have : (o.afterExec q).leaves = o.leaves - q := rfl
    simp only [execTotal, List.map_append, List.map_cons, List.map_nil, List.sum_append, List.sum_cons, List.sum_nil] at ih ⊢
    omega

/-- Moving from a better stop price is moving from the worse one as well. -/
theorem Order.Trails.weaken {x y : Order} {sp : Nat} (h : y.Trails sp) (hs : y.side = x.side) (hd : y.trailDist = x.trailDist)
    (ht : y.trailStep = x.trailStep) (hb : y.stopPrice = x.stopPrice ∨ x.Trails y.stopPrice) : x.Trails sp := by
  have hu : ∀ v m, y.trailUnits v m = x.trailUnits v m := by intro v m; unfold Order.trailUnits; rw [hd]
  have hg : ∀ m, y.trailTarget m = x.trailTarget m := by intro m; unfold Order.trailTarget; rw [hs, hd]; simp only [hu]
  obtain ⟨m, h1, h2, h3⟩ := h
  refine ⟨m, h1, ?_, by rw [h3, hg]⟩
  unfold Order.trailMoves at h2 ⊢
  rw [hs, ht, hu, hg] at h2
  rcases hb with hb | ⟨m', _, hb, hb'⟩
  · rw [hb] at h2; exact h2
  · unfold Order.trailMoves at hb
    rw [← hb'] at hb
    cases hx : x.side <;> rw [hx] at hb h2 <;> simp only at hb h2 ⊢ <;> omega

theorem Order.Identity.refl (x : Order) : x.Identity x := ⟨rfl, rfl, rfl, rfl, rfl, rfl, rfl, .inl rfl, .inl rfl, fun _ => .inl rfl, fun h => absurd rfl h⟩

theorem Order.Identity.trans {x y z : Order} (h : x.Identity y) (h' : y.Identity z) : x.Identity z := by
  obtain ⟨a1, a2, a3, a4, a5, a6, a7, a8, a9, a10, a11⟩ := h
  obtain ⟨b1, b2, b3, b4, b5, b6, b7, b8, b9, b10, b11⟩ := h'
  refine ⟨b1.trans a1, b2.trans a2, b3.trans a3, b4.trans a4, b5.trans a5, b6.trans a6, b7.trans a7, ?_, ?_, ?_, ?_⟩
  · rcases a8 with a8 | ⟨a8, a8'⟩ | ⟨a8, a8'⟩
    · rw [← a8]; exact b8
    · right; left
      refine ⟨a8, ?_⟩
      rcases b8 with b8 | ⟨b8 | b8, _⟩ | ⟨b8 | b8, _⟩ <;> first | (rw [b8]; exact a8') | (rw [a8'] at b8; cases b8)
    · right; right
      refine ⟨a8, ?_⟩
      rcases b8 with b8 | ⟨b8 | b8, _⟩ | ⟨b8 | b8, _⟩ <;> first | (rw [b8]; exact a8') | (rw [a8'] at b8; cases b8)
  · rcases a9 with a9 | ⟨a9, c1, c2, c3⟩
    · rcases b9 with b9 | ⟨b9, d1, d2, d3⟩
      · left; rw [b9, a9]
      · right
        refine ⟨b9, ?_, by rw [← a9]; exact d2, d3⟩
        intro e
        rcases a8 with a8 | ⟨a8 | a8, _⟩ | ⟨a8 | a8, _⟩
        · rw [a8] at d1; exact d1 e
        all_goals (rw [e] at a8; cases a8)
    · right
      have hz : z.type = .market := by
        rcases b8 with b8 | ⟨b8 | b8, _⟩ | ⟨b8 | b8, _⟩ <;> first | (rw [b8]; exact a9) | (rw [a9] at b8; cases b8)
      refine ⟨hz, c1, c2, ?_⟩
      rcases b9 with b9 | ⟨_, _, _, b9⟩
      · rw [b9]; exact c3
      · exact b9
  · intro ht
    have hy : y.type = x.type := by
      rcases a8 with a8 | ⟨c | c, a8⟩ | ⟨c | c, a8⟩
      · exact a8
      all_goals
        rcases b8 with b8 | ⟨b8 | b8, _⟩ | ⟨b8 | b8, _⟩ <;> first | (rw [b8] at ht; exact ht) | (rw [a8] at b8; cases b8)
    rcases b10 (ht.trans hy.symm) with b | ⟨b, b'⟩
    · rcases a10 hy with a | ⟨a, a'⟩
      · left; rw [b, a]
      · right; rw [b]; exact ⟨a, a'⟩
    · right
      rw [hy] at b
      refine ⟨b, b'.weaken a3 a6 a7 ?_⟩
      rcases a10 hy with a | ⟨a, a'⟩
      · exact .inl a
      · exact .inr a'
  · intro ht
    by_cases hz : z.type = y.type
    · have hy : y.type ≠ x.type := by rw [← hz]; exact ht
      have h0 := a11 hy
      rcases b10 hz with b | ⟨b, _⟩
      · rw [b]; exact h0
      · rcases a8 with a8 | ⟨_, a8⟩ | ⟨_, a8⟩
        · exact absurd a8 hy
        all_goals (rw [a8] at b; rcases b with b | b <;> cases b)
    · exact b11 hz

theorem Order.Updated.identity {sc : Scope} {x z : Order} (h : x.Updated sc z) : x.Identity z := by
  cases h with
  | same => exact .refl x
  | reduced q le ok => exact ⟨rfl, rfl, rfl, rfl, rfl, rfl, rfl, .inl rfl, .inl rfl, fun _ => .inl rfl, fun h => absurd rfl h⟩
  | modified p q l left ok => exact ⟨rfl, rfl, rfl, rfl, rfl, rfl, rfl, .inl rfl, .inl rfl, fun _ => .inl rfl, fun h => absurd rfl h⟩
  | toMarket ty =>
    refine ⟨rfl, rfl, rfl, rfl, rfl, rfl, rfl, .inr (.inl ⟨ty, rfl⟩), ?_, ?_, fun _ => rfl⟩
    · by_cases hf : x.tif = .fok
      · left; simp [hf]
      · right; refine ⟨rfl, ?_, hf, by simp [hf]⟩
        intro e; rw [e] at ty; rcases ty with h | h <;> cases h
    · intro e; rw [← e] at ty; rcases ty with h | h <;> cases h
  | toLimit ty =>
    refine ⟨rfl, rfl, rfl, rfl, rfl, rfl, rfl, .inr (.inr ⟨ty, rfl⟩), .inl rfl, ?_, fun _ => rfl⟩
    intro e; rw [← e] at ty; rcases ty with h | h <;> cases h
  | trailStop sp ty dir => exact ⟨rfl, rfl, rfl, rfl, rfl, rfl, rfl, .inl rfl, .inl rfl, fun _ => .inr ⟨.inl ty, dir⟩, fun h => absurd rfl h⟩
  | trailStopLimit sp ty dir => exact ⟨rfl, rfl, rfl, rfl, rfl, rfl, rfl, .inl rfl, .inl rfl, fun _ => .inr ⟨.inr ty, dir⟩, fun h => absurd rfl h⟩

theorem Evo.identity {sc x qs x'} (h : Evo sc x qs x') : x.Identity x' := by
  induction h with
  | nil => exact .refl x
  | upd _ h ih => exact ih.trans h.identity
  | exec _ h h1 h2 ih =>
    obtain ⟨f1, f2, f3, f4, f5, f6, f7, f8, f9, f10, f11, f12, f13, f14⟩ := h.facts
    exact ih.trans ⟨f1, f2, f3, f10, f11, f12, f13, .inl f4, .inl f9, fun _ => .inl f5, fun h => absurd f4 h⟩

/-- Price and quantity of orders that keep their type change only by modification, except the price of trailing
stop-limit orders. -/
theorem Evo.terms {r a x qs x'} (h : Evo ⟨false, r, a⟩ x qs x') : x'.quantity = x.quantity ∧
    (x'.type ≠ .market → x.type ≠ .trailingStopLimit → x'.price = x.price) := by
  induction h with
  | nil => simp
  | @upd qs y z he h ih =>
    have hid := he.identity.type
    cases h with
    | same => exact ih
    | reduced q le ok => exact ih
    | modified p q l left ok => cases ok
    | toMarket ty => exact ⟨ih.1, fun h => absurd rfl h⟩
    | toLimit ty =>
      refine ⟨ih.1, fun _ h => ih.2 ?_ h⟩
      intro e; rw [e] at ty; rcases ty with h | h <;> cases h
    | trailStop sp ty dir => exact ih
    | trailStopLimit sp ty dir =>
      refine ⟨ih.1, fun _ hx => ?_⟩
      rw [ty] at hid
      rcases hid with h | ⟨_, h⟩ | ⟨_, h⟩
      · exact absurd h.symm hx
      all_goals cases h
  | exec _ h h1 h2 ih =>
    obtain ⟨f1, f2, f3, f4, f5, f6, f7, f8, f9, f10, f11, f12, f13, f14⟩ := h.facts
    refine ⟨f6.trans ih.1, fun hm hx => ?_⟩
    exact (f14 hm).trans (ih.2 (by rw [← f4]; exact hm) hx)

end CppTrader
