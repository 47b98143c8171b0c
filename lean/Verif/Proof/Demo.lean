import Verif.Proof.Reach
/-
Executable check that a concrete history is admissible, used to show that the hypotheses of the property
theorems are met by concrete, non-trivial states and calls.
-/

namespace CppTrader

/-- Error of a run, if any. -/
def errOf {α : Type} : Except Err α → Option Err
  | .ok _ => none
  | .error e => some e

def fitsB (g : Mgr) (sym q : Nat) : Bool :=
  match g.getBook sym with
  | none => true
  | some b => decide (Core.volume b + q < W64)

theorem fitsB_sound {g sym q} (h : fitsB g sym q = true) : g.Fits sym q := by
  intro b hb
  unfold fitsB at h; rw [hb] at h; simpa using h

def fitsOrderB (g : Mgr) (id q : Nat) : Bool :=
  match g.getOrder id with
  | none => true
  | some o => fitsB g o.symbolId q

theorem fitsOrderB_sound {g id q} (h : fitsOrderB g id q = true) : ∀ o, g.getOrder id = some o → g.Fits o.symbolId q := by
  intro o ho
  unfold fitsOrderB at h; rw [ho] at h; exact fitsB_sound h

/-- Admissibility check; `fresh`: no order was ever stored (needed for `addOrderBook`). -/
def admB (fresh : Bool) (g : Mgr) : Op → Bool
  | .addSymbol s => decide (s.id < 4294967295)
  | .addOrderBook _ => fresh
  | .addOrder o => decide o.Repr64 && fitsB g o.symbolId o.leaves
  | .modifyOrder id p q => decide (p < W64) && decide (q < W64) && fitsOrderB g id q
  | .mitigateOrder id p q => decide (p < W64) && decide (q < W64) && fitsOrderB g id q
  | .replaceOrder id n p q => decide (n < W64) && decide (p < W64) && decide (q < W64) && fitsOrderB g id q
  | .replaceWith _ o => decide o.Repr64 && fitsB g o.symbolId o.leaves
  | _ => true

def Op.isReg : Op → Bool
  | .addSymbol _ => true
  | .addOrderBook _ => true
  | .deleteSymbol _ => true
  | .disableMatching => true
  | _ => false

theorem admB_sound {fresh g op} (hf : fresh = true → ∀ i, g.orders i = none) (h : admB fresh g op = true) :
    g.Admissible op := by
  cases op <;> simp only [admB, Bool.and_eq_true, decide_eq_true_eq] at h <;> try trivial
  · intro _ i o ho
    unfold Mgr.getOrder at ho
    split at ho
    · cases ho
    · rw [hf h i] at ho; cases ho
  · exact ⟨h.1, fitsB_sound h.2⟩
  · exact ⟨h.1.1, h.1.2, fitsOrderB_sound h.2⟩
  · exact ⟨h.1.1, h.1.2, fitsOrderB_sound h.2⟩
  · exact ⟨h.1.1.1, h.1.1.2, h.1.2, fitsOrderB_sound h.2⟩
  · exact ⟨h.1, fitsB_sound h.2⟩

theorem isReg_orders {g g' : Mgr} {op e} (h : op.isReg = true) (hs : g.step op = .ok (g', e)) : g'.orders = g.orders := by
  cases op <;> simp [Op.isReg] at h
  · simp only [Mgr.step, Mgr.addSymbol] at hs; split at hs <;> cases hs <;> rfl
  · simp only [Mgr.step, Mgr.deleteSymbol] at hs; split at hs <;> cases hs <;> rfl
  · simp only [Mgr.step, Mgr.addOrderBook] at hs; split at hs
    · cases hs; rfl
    · split at hs <;> cases hs <;> rfl
  · cases hs; rfl

/-- Run a history with an admissibility check of every call. -/
def checkRun (fresh : Bool) (g : Mgr) : List Op → Option Mgr
  | [] => some g
  | op :: ops =>
    if admB fresh g op then
      match g.step op with
      | .ok (g', _) => checkRun (fresh && op.isReg) g' ops
      | .error _ => none
    else none

theorem checkRun_sound {ops : List Op} : ∀ {fresh g g'}, g.Reachable → (fresh = true → ∀ i, g.orders i = none) →
    checkRun fresh g ops = some g' → g'.Reachable := by
  induction ops with
  | nil => intro fresh g g' hr _ h; cases h; exact hr
  | cons op ops ih =>
    intro fresh g g' hr hf h
    unfold checkRun at h
    by_cases ha : admB fresh g op = true
    · simp only [ha, if_true] at h
      cases hs : g.step op with
      | error x => rw [hs] at h; cases h
      | ok p =>
        obtain ⟨g1, e⟩ := p
        rw [hs] at h
        refine ih (.step hr (admB_sound hf ha) hs) ?_ h
        intro hfr i
        simp only [Bool.and_eq_true] at hfr
        rw [isReg_orders hfr.2 hs]; exact hf hfr.1 i
    · simp [ha] at h

/-- A concrete reachable state with a decidable property. -/
theorem demo {p : Mgr → Bool} (ops : List Op)
    (h : (match checkRun true Mgr.init ops with | some g => p g | none => false) = true) :
    ∃ g, g.Reachable ∧ p g = true := by
  cases hc : checkRun true Mgr.init ops with
  | none => rw [hc] at h; cases h
  | some g => rw [hc] at h; exact ⟨g, checkRun_sound .init (fun _ _ => rfl) hc, h⟩

/-- A concrete admissible call on a concrete reachable state, with a decidable property of the state
before, the state after and the result code. -/
theorem demoStep {p : Mgr → Mgr → ErrorCode → Bool} (ops : List Op) (op : Op)
    (h : (match checkRun true Mgr.init ops with
      | some g => admB false g op && (match g.step op with | .ok (g', e) => p g g' e | .error _ => false)
      | none => false) = true) :
    ∃ g g' e, g.Reachable ∧ g.Admissible op ∧ g.step op = .ok (g', e) ∧ p g g' e = true := by
  cases hc : checkRun true Mgr.init ops with
  | none => rw [hc] at h; cases h
  | some g =>
    rw [hc] at h
    simp only [Bool.and_eq_true] at h
    cases hs : g.step op with
    | error x => rw [hs] at h; cases h.2
    | ok q =>
      rw [hs] at h
      exact ⟨g, q.1, q.2, checkRun_sound .init (fun _ _ => rfl) hc, admB_sound (by simp) h.1, hs, h.2⟩

/-- Freshness of the submitted id. -/
def freshB (g : Mgr) : Op → Bool
  | .addOrder o => (g.getOrder o.id).isNone
  | .replaceOrder id n _ _ => decide (n = id) || (g.getOrder n).isNone
  | .replaceWith id o => decide (o.id = id) || (g.getOrder o.id).isNone
  | _ => true

theorem freshB_sound {g : Mgr} {op} (h : freshB g op = true) : g.FreshId op := by
  cases op <;> simp_all [freshB, Mgr.FreshId]

/-- As `checkRun`, also checking that no order is submitted under an id in use. -/
def checkFresh (fresh : Bool) (g : Mgr) : List Op → Option Mgr
  | [] => some g
  | op :: ops =>
    if admB fresh g op && freshB g op then
      match g.step op with
      | .ok (g', _) => checkFresh (fresh && op.isReg) g' ops
      | .error _ => none
    else none

theorem checkFresh_sound {ops : List Op} : ∀ {fresh g g' h}, g.FreshHistory h → (fresh = true → ∀ i, g.orders i = none) →
    checkFresh fresh g ops = some g' → ∃ h', g'.FreshHistory h' := by
  induction ops with
  | nil => intro fresh g g' h hr _ e; cases e; exact ⟨h, hr⟩
  | cons op ops ih =>
    intro fresh g g' h hr hf e
    unfold checkFresh at e
    by_cases ha : (admB fresh g op && freshB g op) = true
    · simp only [ha, if_true] at e
      simp only [Bool.and_eq_true] at ha
      cases hs : g.step op with
      | error x => rw [hs] at e; cases e
      | ok p =>
        obtain ⟨g1, c⟩ := p
        rw [hs] at e
        refine ih (.snoc hr (admB_sound hf ha.1) (freshB_sound ha.2) hs) ?_ e
        intro hfr i
        simp only [Bool.and_eq_true] at hfr
        rw [isReg_orders hfr.2 hs]; exact hf hfr.1 i
    · simp [ha] at e

/-- A concrete history with fresh ids and a decidable property of the state reached. -/
theorem demoFresh {p : Mgr → Bool} (ops : List Op)
    (h : (match checkFresh true Mgr.init ops with | some g => p g | none => false) = true) :
    ∃ (g : Mgr) (h : List (Op × ErrorCode)), g.FreshHistory h ∧ p g = true := by
  cases hc : checkFresh true Mgr.init ops with
  | none => rw [hc] at h; cases h
  | some g =>
    rw [hc] at h
    obtain ⟨l, hl⟩ := checkFresh_sound .nil (fun _ _ => rfl) hc
    exact ⟨g, l, hl, h⟩

/-- The opening calls of the demonstrations: one symbol with a book (matching is off initially). -/
def opening : List Op := [.addSymbol ⟨1, 7⟩, .addOrderBook ⟨1, 7⟩]

/-- Same, with automatic matching. -/
def trading : List Op := opening ++ [.enableMatching]

end CppTrader
