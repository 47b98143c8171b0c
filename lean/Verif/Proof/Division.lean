import Verif.Proof.PitMgr
import Verif.Shards
import Verif.Props.Calls
/-
Calls that respect a division keep every order with the manager of its symbol.
-/

namespace CppTrader
open Core

/-! ### Ids and symbols -/

/-- Every stored order is related to its symbol by `R`. -/
def Goes (R : Nat → Nat → Prop) (m : Nat → Option Order) : Prop := ∀ i o, m i = some o → R i o.symbolId

theorem Goes.setO {R : Nat → Nat → Prop} {m : Nat → Option Order} (h : Goes R m) {id : Nat} {v : Option Order} (hv : ∀ o, v = some o → R id o.symbolId) :
    Goes R (setO m id v) := by
  intro i o ho
  by_cases e : i = id
  · subst e; simp at ho; exact hv o ho
  · rw [setO_other _ _ e] at ho; exact h i o ho

theorem Fill.goes {R : Nat → Nat → Prop} {s o p q s'} (f : Fill s o p q s') (hi : Inv s) (h : Goes R s.orders) : Goes R s'.orders := by
  rw [(f.eff hi).orders]
  refine h.setO ?_
  intro o' ho'
  rw [afterFill_some ho']
  have hm := h _ _ f.pre.mem
  exact hm

theorem Fills.goes {R : Nat → Nat → Prop} {p s xs s'} (f : Fills p s xs s') (hi : Inv s) (h : Goes R s.orders) : Goes R s'.orders := by
  induction f with
  | nil => exact h
  | cons f _ ih => exact ih (f.eff hi).inv (f.goes hi h)

theorem retrail_ids (o : Order) (p : Nat) : (Core.retrail o p).id = o.id ∧ (Core.retrail o p).symbolId = o.symbolId := by
  unfold Core.retrail; split <;> exact ⟨rfl, rfl⟩

theorem Step.goes {R : Nat → Nat → Prop} {l s t s' t'} (st : Step l s t s' t') (hc : CInv s t) (h : Goes R s.orders)
    (ht : ∀ o, t = some o → R o.id o.symbolId) (ha : ∀ o, l = .arrive o → R o.id o.symbolId) :
    Goes R s'.orders ∧ ∀ o, t' = some o → R o.id o.symbolId := by
  obtain ⟨hi, hf⟩ := hc
  cases st with
  | trade fill head side reach qty nf na =>
    exact ⟨fill.goes hi h, fun o ho => by have hm := ht _ rfl; cases ho; exact hm⟩
  | sweep fills sum pos sides tif =>
    exact ⟨fills.goes hi h, fun o ho => by have hm := ht _ rfl; cases ho; exact hm⟩
  | pair fe fr side ne nae nar crossed => exact ⟨fr.goes (fe.eff hi).inv (fe.goes hi h), fun o ho => by cases ho⟩
  | cross f1 f2 ne aon side => exact ⟨f2.goes (f1.inv hi).1 (f1.goes hi h), fun o ho => by cases ho⟩
  | take mem sym run =>
    obtain ⟨k, a1, a2, a3, a4, a5, a6⟩ := hi.take mem sym run
    rw [a3.orders]
    exact ⟨h.setO (by simp), fun o ho => by cases ho; exact h _ _ mem⟩
  | put fresh pos nm tif run =>
    obtain ⟨k, a1, a2, a3, a4, _⟩ := hi.put (hf _ rfl) fresh pos nm tif run
    rw [a3.orders]
    exact ⟨h.setO (fun o ho => by cases ho; exact ht _ rfl), fun o ho => by cases ho⟩
  | cancel => exact ⟨h, fun o ho => by cases ho⟩
  | activate ty trig =>
    refine ⟨h, fun o ho => ?_⟩
    have hm := ht _ rfl
    cases ho
    rcases ty with ⟨_, rfl⟩ | ⟨_, rfl⟩ <;> exact hm
  | bound ty lim => exact ⟨h, fun o ho => by have hm := ht _ rfl; cases ho; exact hm⟩
  | retrail ty ne =>
    refine ⟨h, fun o ho => ?_⟩
    cases ho
    obtain ⟨e1, e2⟩ := retrail_ids _ _
    rw [e1, e2]; exact ht _ rfl
  | mark => exact ⟨h, fun o ho => by cases ho⟩
  | reset => exact ⟨h, ht⟩
  | arrive rep idp sym vol tr => exact ⟨h, fun o ho => by cases ho; exact ha _ rfl⟩
  | reduce mem sym pos run =>
    obtain ⟨k, a1, a2, a3, a4, _⟩ := hi.reduce mem sym run
    rw [a3.orders]
    refine ⟨h.setO ?_, fun o ho => by cases ho⟩
    intro o' h'
    split at h'
    · cases h'
    · have hm := h _ _ mem; cases h'; exact hm
  | execute mem sym pos le run =>
    rename_i o p q s1
    obtain ⟨k, s2, a1, a2, a3, a4, a5, _⟩ := hi.execute_ok mem sym p q le
    have run' : (s.reported o p q).shrink (o.filled q) q
        (o.hiddenQty - (o.filled q).hiddenQty) (o.visibleQty - (o.filled q).visibleQty) = .ok s1 := run
    rw [run'] at a2; cases a2
    refine ⟨?_, fun o ho => by cases ho⟩
    show Goes R s1.orders
    rw [a4.orders]
    exact Goes.setO (m := s.orders) h (fun o' h' => by rw [afterFill_some h']; have hm := h _ _ mem; exact hm)
  | modify rep pos vol => exact ⟨h, fun o ho => by have hm := ht _ rfl; cases ho; exact hm⟩
  | vanish zero => exact ⟨h, fun o ho => by cases ho⟩

theorem Steps.goes {R : Nat → Nat → Prop} {A s t s' t'} (hs : Steps A s t s' t') (hc : CInv s t) (h : Goes R s.orders)
    (ht : ∀ o, t = some o → R o.id o.symbolId) (ha : ∀ l, A l → ∀ o, l = .arrive o → R o.id o.symbolId) : Goes R s'.orders := by
  induction hs with
  | refl => exact h
  | head a st _ ih =>
    obtain ⟨b, c⟩ := st.goes hc h ht (ha _ a)
    exact ih (st.inv hc) b c

theorem BookOp.goes {R : Nat → Nat → Prop} {tag sym g g' e} (h : BookOp tag sym g g' e) (hi : MInv g) (hR : Goes R g.orders)
    (ha : ∀ o, tag.arrives o → R o.id o.symbolId) : Goes R g'.orders := by
  obtain ⟨b, s', h1, h2, rfl⟩ := h.ex
  exact h2.steps.goes (CInv.none_iff.2 (hi.inv h1).1) hR (by simp) (fun l hl o ho => ha o (hl.arrive o ho))

theorem Acts.goes {R : Nat → Nat → Prop} {g g'} (h : Acts (fun _ l => EngL l) g g') (hi : MInv g) (hR : Goes R g.orders) : Goes R g'.orders := by
  induction h with
  | refl => exact hR
  | book hb hs _ ih =>
    refine ih (hi.put hb hs) (hs.goes (CInv.none_iff.2 (hi.inv hb).1) hR (by simp) ?_)
    intro l hl o ho
    subst ho
    cases hl

theorem submitted_ids {m : Nat} {o o' : Order} (h : o.Submitted m o') : o'.id = o.id ∧ o'.symbolId = o.symbolId := by
  rcases h with ⟨rfl, _⟩ | ⟨_, ⟨_, rfl⟩ | ⟨_, rfl⟩⟩ <;> exact ⟨rfl, rfl⟩

/-- Calls that respect the division keep every order with the manager of its symbol. -/
theorem Division.keeps (d : Division) {g g' : Mgr} (hi : MInv g) {op e} (ha : g.Admissible op) (hs : g.step op = .ok (g', e))
    (hr : d.respects op) (h : Goes (fun i s => d.order i = d.symbol s) g.orders) : Goes (fun i s => d.order i = d.symbol s) g'.orders := by
  cases step_eff hi ha hs with
  | refused hr => rw [hr.1]; exact h
  | addSymbol => exact h
  | deleteSymbol => exact h
  | addBook => exact h
  | deleteBook => exact h
  | enable acts => exact acts.goes (g := { g with matching := true }) ⟨hi.orders, hi.books, hi.symbols⟩ h
  | disable => exact h
  | all acts => exact acts.goes hi h
  | replaceWith ho h1 h2 =>
    have g1 := h1.goes hi h (fun o ho => by cases ho)
    rcases h2 with h2 | h2
    · rw [h2.1]; exact g1
    · refine h2.goes (h1.minv hi) g1 ?_
      intro o' ho'
      obtain ⟨e1, e2⟩ := submitted_ids ho'
      show d.order o'.id = d.symbol o'.symbolId
      rw [e1, e2, hr.1, hr.2]
  | book on hb =>
    refine hb.goes hi h ?_
    intro o' ho'
    show d.order o'.id = d.symbol o'.symbolId
    cases op <;> simp only [Op.on] at on
    case addOrder o =>
      obtain ⟨rfl, rfl⟩ := on
      obtain ⟨e1, e2⟩ := submitted_ids ho'
      rw [e1, e2]; exact hr
    case replaceOrder id n p q =>
      obtain ⟨o, rfl, h1, rfl⟩ := on
      cases ho'
      show d.order n = d.symbol o.symbolId
      rw [show d.order n = d.order id from hr]
      exact h _ _ h1
    all_goals first | exact on.elim | (obtain ⟨rfl, _⟩ := on; cases ho')

end CppTrader
