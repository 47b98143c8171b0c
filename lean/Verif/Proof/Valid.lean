import Verif.Proof.Division
import Verif.Props.Validate
/-
Every stored order passes validation.
-/

namespace CppTrader
open Core

/-- The rules of `Validate` that do not depend on there being something left. -/
structure Proper (o : Order) : Prop where
  quantity : o.leaves ≤ o.quantity
  marketTif : o.type = .market → o.tif = .ioc ∨ o.tif = .fok
  noIceberg : o.type = .market ∨ o.type = .stop ∨ o.type = .trailingStop → MAX64 ≤ o.maxVisible
  noSlippage : o.type = .limit ∨ o.type = .stopLimit ∨ o.type = .trailingStopLimit → MAX64 ≤ o.slippage
  stopNotAon : o.type = .stop ∨ o.type = .trailingStop → o.tif ≠ .aon

theorem validate_proper {o : Order} (h : o.validate = .ok) : Proper o := by
  have := (validate_ok_iff o).1 h
  exact ⟨this.quantity.2, this.marketTif, this.noIceberg, this.noSlippage, this.stopNotAon⟩

theorem Proper.less {o o' : Order} (h : Proper o) (h1 : o'.leaves ≤ o'.quantity) (h2 : o'.type = o.type) (h3 : o'.tif = o.tif) (h4 : o'.maxVisible = o.maxVisible)
    (h5 : o'.slippage = o.slippage) : Proper o' := by
  obtain ⟨a, b, c, d, e⟩ := h
  exact ⟨h1, by rw [h2, h3]; exact b, by rw [h2, h4]; exact c, by rw [h2, h5]; exact d, by rw [h2, h3]; exact e⟩

theorem Proper.filled {o : Order} (h : Proper o) (q : Nat) : Proper (o.filled q) :=
  h.less (by have := h.quantity; show o.leaves - q ≤ o.quantity; omega) rfl rfl rfl rfl

def AllProper (m : Nat → Option Order) : Prop := ∀ i o, m i = some o → Proper o

theorem AllProper.setO {m : Nat → Option Order} (h : AllProper m) {id : Nat} {v : Option Order} (hv : ∀ o, v = some o → Proper o) : AllProper (setO m id v) := by
  intro i o ho
  by_cases e : i = id
  · subst e; simp at ho; exact hv o ho
  · rw [setO_other _ _ e] at ho; exact h i o ho

theorem Fill.proper {s o p q s'} (f : Fill s o p q s') (hi : Inv s) (h : AllProper s.orders) : AllProper s'.orders := by
  rw [(f.eff hi).orders]
  refine h.setO ?_
  intro o' ho'
  rw [afterFill_some ho']
  exact (h _ _ f.pre.mem).filled q

theorem Fills.proper {p s xs s'} (f : Fills p s xs s') (hi : Inv s) (h : AllProper s.orders) : AllProper s'.orders := by
  induction f with
  | nil => exact h
  | cons f _ ih => exact ih (f.eff hi).inv (f.proper hi h)

theorem Proper.retrail {o : Order} (h : Proper o) (p : Nat) : Proper (Core.retrail o p) := by
  unfold Core.retrail; split <;> exact h.less h.quantity rfl rfl rfl rfl

theorem Proper.modified {o : Order} (h : Proper o) (p q : Nat) (mit : Bool) : Proper (Core.modified o p q mit) := by
  refine h.less ?_ ?_ ?_ ?_ ?_ <;> unfold Core.modified <;> cases mit <;> simp <;> (try split) <;> simp <;> omega

theorem Proper.taken {s : Core} {o : Order} (h : Proper o) (p q : Nat) : Proper (s.execTaker o p q).2 :=
  h.less (by have := h.quantity; show o.leaves - q ≤ o.quantity; omega) rfl rfl rfl rfl

theorem Step.proper {l s t s' t'} (st : Step l s t s' t') (hc : CInv s t) (h : AllProper s.orders)
    (ht : ∀ o, t = some o → Proper o) (ha : ∀ o, l = .arrive o → Proper o) :
    AllProper s'.orders ∧ ∀ o, t' = some o → Proper o := by
  obtain ⟨hi, hf⟩ := hc
  cases st with
  | trade fill head side reach qty nf na =>
    exact ⟨fill.proper hi h, fun o ho => by have hm := ht _ rfl; cases ho; exact hm.taken _ _⟩
  | sweep fills sum pos sides tif =>
    exact ⟨fills.proper hi h, fun o ho => by have hm := ht _ rfl; cases ho; exact hm.taken _ _⟩
  | pair fe fr side ne nae nar crossed => exact ⟨fr.proper (fe.eff hi).inv (fe.proper hi h), fun o ho => by cases ho⟩
  | cross f1 f2 ne aon side => exact ⟨f2.proper (f1.inv hi).1 (f1.proper hi h), fun o ho => by cases ho⟩
  | take mem sym run =>
    obtain ⟨k, a1, a2, a3, a4, a5, a6⟩ := hi.take mem sym run
    rw [a3.orders]
    exact ⟨h.setO (by simp), fun o ho => by cases ho; exact h _ _ mem⟩
  | put fresh pos nm tif run =>
    obtain ⟨k, a1, a2, a3, a4, _⟩ := hi.put (hf _ rfl) fresh pos nm tif run
    rw [a3.orders]
    exact ⟨h.setO (fun o ho => by cases ho; exact ht _ rfl), fun o ho => by cases ho⟩
  | cancel => exact ⟨h, fun o ho => by cases ho⟩
  | activate ty trig =>
    rename_i o t
    refine ⟨h, fun o' ho => ?_⟩
    have hm := ht _ rfl
    cases ho
    rcases ty with ⟨t1, rfl⟩ | ⟨t1, rfl⟩
    · unfold Core.toMarket
      have t2 : o.type = .stop ∨ o.type = .trailingStop := by
        unfold Order.isStop Order.isTrailingStop at t1
        simpa using t1
      refine ⟨hm.quantity, fun _ => ?_, fun _ => hm.noIceberg (.inr t2), (fun h => by rcases h with h | h | h <;> cases h), (fun h => by rcases h with h | h <;> cases h)⟩
      cases ho : o.tif <;> simp [Order.isFOK, ho]
    · unfold Core.toLimit
      have t2 : o.type = .stopLimit ∨ o.type = .trailingStopLimit := by
        unfold Order.isStopLimit Order.isTrailingStopLimit at t1
        simpa using t1
      exact ⟨hm.quantity, (fun h => by cases h), (fun h => by rcases h with h | h | h <;> cases h), fun _ => hm.noSlippage (.inr t2), (fun h => by rcases h with h | h <;> cases h)⟩
  | bound ty lim => exact ⟨h, fun o ho => by have hm := ht _ rfl; cases ho; exact hm.less hm.quantity rfl rfl rfl rfl⟩
  | retrail ty ne =>
    refine ⟨h, fun o ho => ?_⟩
    cases ho
    exact (ht _ rfl).retrail _
  | mark => exact ⟨h, fun o ho => by cases ho⟩
  | reset => exact ⟨h, ht⟩
  | arrive rep idp sym vol tr => exact ⟨h, fun o ho => by cases ho; exact ha _ rfl⟩
  | reduce mem sym pos run =>
    obtain ⟨k, a1, a2, a3, a4, _⟩ := hi.reduce mem sym run
    rw [a3.orders]
    refine ⟨h.setO ?_, fun o ho => by cases ho⟩
    intro o' h'
    split at h'
    · cases h'
    · have hm := h _ _ mem; cases h'
      exact hm.less (by have := hm.quantity; simp only; omega) rfl rfl rfl rfl
  | execute mem sym pos le run =>
    rename_i o p q s1
    obtain ⟨k, s2, a1, a2, a3, a4, a5, _⟩ := hi.execute_ok mem sym p q le
    have run' : (s.reported o p q).shrink (o.filled q) q
        (o.hiddenQty - (o.filled q).hiddenQty) (o.visibleQty - (o.filled q).visibleQty) = .ok s1 := run
    rw [run'] at a2; cases a2
    refine ⟨?_, fun o ho => by cases ho⟩
    show AllProper s1.orders
    rw [a4.orders]
    exact AllProper.setO (m := s.orders) h (fun o' h' => by rw [afterFill_some h']; exact (h _ _ mem).filled q)
  | modify rep pos vol => exact ⟨h, fun o ho => by have hm := ht _ rfl; cases ho; exact hm.modified _ _ _⟩
  | vanish zero => exact ⟨h, fun o ho => by cases ho⟩

theorem Steps.proper {A s t s' t'} (hs : Steps A s t s' t') (hc : CInv s t) (h : AllProper s.orders)
    (ht : ∀ o, t = some o → Proper o) (ha : ∀ l, A l → ∀ o, l = .arrive o → Proper o) : AllProper s'.orders := by
  induction hs with
  | refl => exact h
  | head a st _ ih =>
    obtain ⟨b, c⟩ := st.proper hc h ht (ha _ a)
    exact ih (st.inv hc) b c

theorem BookOp.proper {tag sym g g' e} (h : BookOp tag sym g g' e) (hi : MInv g) (hR : AllProper g.orders)
    (ha : ∀ o, tag.arrives o → Proper o) : AllProper g'.orders := by
  obtain ⟨b, s', h1, h2, rfl⟩ := h.ex
  exact h2.steps.proper (CInv.none_iff.2 (hi.inv h1).1) hR (by simp) (fun l hl o ho => ha o (hl.arrive o ho))

theorem Acts.proper {g g'} (h : Acts (fun _ l => EngL l) g g') (hi : MInv g) (hR : AllProper g.orders) : AllProper g'.orders := by
  induction h with
  | refl => exact hR
  | book hb hs _ ih =>
    refine ih (hi.put hb hs) (hs.proper (CInv.none_iff.2 (hi.inv hb).1) hR (by simp) ?_)
    intro l hl o ho
    subst ho
    cases hl

theorem Proper.submitted {m : Nat} {o o' : Order} (h : Proper o) (hs : o.Submitted m o') : Proper o' := by
  rcases hs with ⟨rfl, _⟩ | ⟨_, ⟨_, rfl⟩ | ⟨_, rfl⟩⟩
  · exact h
  · exact h.less h.quantity rfl rfl rfl rfl
  · exact h.less h.quantity rfl rfl rfl rfl

theorem addOrder_invalid {g : Mgr} {o : Order} {r} (hv : o.validate ≠ .ok) (hs : g.addOrder o = .ok r) : r.1 = g := by
  unfold Mgr.addOrder at hs
  rw [if_pos hv] at hs
  cases hs; rfl

theorem proper_other {g g' : Mgr} (hi : MInv g) {op e} (ha : g.Admissible op) (hs : g.step op = .ok (g', e))
    (hn : ∀ id o, op ≠ .replaceWith id o) (h : AllProper g.orders) : AllProper g'.orders := by
  cases step_eff hi ha hs with
  | refused hr => rw [hr.1]; exact h
  | addSymbol => exact h
  | deleteSymbol => exact h
  | addBook => exact h
  | deleteBook => exact h
  | enable acts => exact acts.proper (g := { g with matching := true }) ⟨hi.orders, hi.books, hi.symbols⟩ h
  | disable => exact h
  | all acts => exact acts.proper hi h
  | replaceWith => exact absurd rfl (hn _ _)
  | book on hb =>
    cases op <;> simp only [Op.on] at on
    case addOrder o =>
      obtain ⟨rfl, rfl⟩ := on
      by_cases hv : o.validate = .ok
      · exact hb.proper hi h fun o' ho' => (validate_proper hv).submitted ho'
      · rw [show g' = g from addOrder_invalid hv hs]; exact h
    case replaceOrder id n p q =>
      obtain ⟨o, rfl, h1, rfl⟩ := on
      refine hb.proper hi h fun o' ho' => ?_
      cases ho'
      exact (h _ _ h1).less (Nat.le_refl _) rfl rfl rfl rfl
    all_goals first | exact on.elim | exact hb.proper hi h (fun o' ho' => by obtain ⟨rfl, _⟩ := on; cases ho')

theorem proper_step {g g' : Mgr} (hi : MInv g) {op e} (ha : g.Admissible op) (hs : g.step op = .ok (g', e)) (h : AllProper g.orders) : AllProper g'.orders := by
  by_cases hn : ∃ id o, op = .replaceWith id o
  · obtain ⟨id, o, rfl⟩ := hn
    obtain ⟨g1, e1, a1, a2, a3⟩ := deleteOrder_mgr hi id
    have had : g.Admissible (.deleteOrder id) := trivial
    have hp := proper_other hi had (show g.step (.deleteOrder id) = .ok (g1, e1) from a1) (fun _ _ h => by cases h) h
    have hs' : g.replaceWith id o = .ok (g', e) := hs
    unfold Mgr.replaceWith at hs'
    rw [a1, Except.bind_ok] at hs'
    simp only at hs'
    by_cases he : e1 = .ok
    · rw [if_neg (fun h => h he)] at hs'
      have haa : g1.Admissible (.addOrder o) := ⟨ha.1, by
        intro b' hb'
        obtain ⟨b, c1, c2⟩ := a3 _ b' hb'
        have := ha.2 b c1
        omega⟩
      exact proper_other ((step_eff hi had a1).minv hi had) haa (show g1.step (.addOrder o) = .ok (g', e) from hs') (fun _ _ h => by cases h) hp
    · rw [if_pos he] at hs'
      cases hs'
      exact hp
  · exact proper_other hi ha hs (fun id o h => hn ⟨id, o, h⟩) h

theorem Mgr.Reachable.proper {g : Mgr} (hr : g.Reachable) : AllProper g.orders := by
  induction hr with
  | init => intro i o h; cases h
  | step hr ha hs ih => exact proper_step hr.minv ha hs ih

end CppTrader
