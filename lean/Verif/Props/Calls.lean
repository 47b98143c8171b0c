import Verif.Proof.Calls
import Verif.Proof.Demo
/-
C16, C17, C18, C31, C33, C40, C43: effects of public calls as a whole.
-/

namespace CppTrader
open Core

theorem MInv.getOrder_fun' {g : Mgr} (h : MInv g) : g.getOrder = g.orders := funext h.getOrder

theorem Mgr.History.reachable {h g} (hh : Mgr.History h g) : g.Reachable := by
  induction hh with
  | nil => exact .init
  | snoc _ ha hs ih => exact .step ih ha hs

/-! ### C16 -/

/-- C16. A call that returns an error other than ORDER_DUPLICATE changes nothing and raises no event. -/
theorem C16_rejected_no_effect {g : Mgr} (hr : g.Reachable) {op g' e} (ha : g.Admissible op) (hs : g.step op = .ok (g', e))
    (he : e ≠ .ok) (hd : e ≠ .orderDuplicate) (hop : ∀ id o, op ≠ .replaceWith id o) : g' = g := by
  cases hr.eff ha hs with
  | refused h => exact h.1
  | book on h =>
    obtain ⟨b, s', h1, h2, h3⟩ := h.ex
    rcases h2.code with h | h
    · exact absurd h he
    · exact absurd h hd
  | replaceWith => exact absurd rfl (hop _ _)
  | _ => exact absurd rfl he

/-- C16 for `ReplaceOrder(id, new_order)`, a deletion followed by an addition: if it returns an error other
than ORDER_DUPLICATE then either nothing happened, or exactly the deletion. -/
theorem C16_replaceWith {g : Mgr} (hr : g.Reachable) {id o g' e} (ha : g.Admissible (.replaceWith id o))
    (hs : g.step (.replaceWith id o) = .ok (g', e)) (he : e ≠ .ok) (hd : e ≠ .orderDuplicate) :
    g' = g ∨ g.step (.deleteOrder id) = .ok (g', .ok) := by
  have hi := hr.minv
  obtain ⟨g1, e1, h1, h2, h3⟩ := deleteOrder_mgr hi id
  have hs' : g.replaceWith id o = .ok (g', e) := hs
  unfold Mgr.replaceWith at hs'
  rw [h1, Except.bind_ok] at hs'
  simp only at hs'
  by_cases hk : e1 = .ok
  · subst hk
    simp only [ne_eq, not_true, if_false] at hs'
    right
    rcases h2 with h2 | ⟨old, h2, h4⟩
    · exact absurd rfl h2.2.1
    · obtain ⟨g2, e2, f1, f2⟩ := addOrder_mgr (h4.minv hi) ha.1 (fun b hb => by
        obtain ⟨b0, k1, k2⟩ := h3 _ b hb
        have := ha.2 b0 k1; omega)
      rw [f1] at hs'; cases hs'
      rcases f2 with f2 | f2
      · rw [f2.1]; exact h1
      · obtain ⟨b, s', k1, k2, k3⟩ := f2.2.ex
        rcases k2.code with k | k
        · exact absurd k he
        · exact absurd k hd
  · simp only [hk, ne_eq, not_false_eq_true, if_true] at hs'
    cases hs'
    left
    rcases h2 with h2 | ⟨old, h2, h4⟩
    · exact h2.1
    · obtain ⟨b, s', k1, k2, k3⟩ := h4.ex
      rcases k2.code with k | k
      · exact absurd k he
      · exact absurd k hd

/-- ORDER_DUPLICATE does not mean that nothing happened: the incoming order traded before it was refused. -/
theorem C16_duplicate_witness : ∃ (g g' : Mgr) (e : ErrorCode), g.Reachable ∧
    g.Admissible (.addOrder (.mkLimit 1 1 .buy 100 10)) ∧ g.step (.addOrder (.mkLimit 1 1 .buy 100 10)) = .ok (g', e) ∧
    (decide (e = .orderDuplicate) && decide ((execsOf (g'.ev.drop g.ev.length)).length = 2) && (g'.getOrder 2).isNone && (g.getOrder 2).isSome) = true :=
  demoStep (p := fun g g' e => decide (e = .orderDuplicate) && decide ((execsOf (g'.ev.drop g.ev.length)).length = 2) &&
      (g'.getOrder 2).isNone && (g.getOrder 2).isSome)
    (trading ++ [.addOrder (.mkLimit 1 1 .buy 90 10), .addOrder (.mkLimit 2 1 .sell 100 4)]) (.addOrder (.mkLimit 1 1 .buy 100 10))
    (by decide +kernel)

/-- `ReplaceOrder(id, new_order)` with an invalid new order reports the error but the old order is gone. -/
theorem C16_replaceWith_witness : ∃ (g g' : Mgr) (e : ErrorCode), g.Reachable ∧
    g.Admissible (.replaceWith 1 (.mkLimit 2 1 .buy 100 0)) ∧ g.step (.replaceWith 1 (.mkLimit 2 1 .buy 100 0)) = .ok (g', e) ∧
    (decide (e = .orderQuantityInvalid) && (g.getOrder 1).isSome && (g'.getOrder 1).isNone) = true :=
  demoStep (p := fun g g' e => decide (e = .orderQuantityInvalid) && (g.getOrder 1).isSome && (g'.getOrder 1).isNone)
    (trading ++ [.addOrder (.mkLimit 1 1 .buy 90 10)]) (.replaceWith 1 (.mkLimit 2 1 .buy 100 0)) (by decide +kernel)

/-- C16 applies: a refused call on a state with orders. -/
example : ∃ (g g' : Mgr) (e : ErrorCode), g.Reachable ∧ g.Admissible (.replaceOrder 2 3 100 5) ∧
    g.step (.replaceOrder 2 3 100 5) = .ok (g', e) ∧ (decide (e = .orderTypeInvalid) && (g.getOrder 2).isSome) = true :=
  demoStep (p := fun g _ e => decide (e = .orderTypeInvalid) && (g.getOrder 2).isSome)
    (trading ++ [.addOrder (.mkLimit 1 1 .buy 90 10), .addOrder (.mkLimit 3 1 .sell 100 1), .addOrder (.mkStop 2 1 .buy 120 3)])
    (.replaceOrder 2 3 100 5) (by decide +kernel)

/-! ### C43: result codes -/

theorem onBook_refused {g : Mgr} {sym f} (h : g.getBook sym = none) : g.onBook sym f = .ok (g, .orderBookNotFound) := by
  unfold Mgr.onBook; rw [show slot g.books sym = none from h]

theorem onOrder_refused {g : Mgr} (hi : MInv g) {id f c} (h : g.orderRefusal id = some c) : g.onOrder id f = .ok (g, c) := by
  unfold Mgr.orderRefusal at h
  rw [hi.getOrder] at h
  unfold Mgr.onOrder
  cases ho : g.orders id with
  | none => rw [ho] at h; cases h; rfl
  | some o =>
    rw [ho] at h
    simp only at h
    by_cases hb : g.getBook o.symbolId = none
    · rw [if_pos hb] at h; cases h; exact onBook_refused hb
    · rw [if_neg hb] at h; cases h

/-- C43. A call is refused exactly for the documented reasons: if there is one, the call returns the
corresponding code and has no effect. -/
theorem C43_refused {g : Mgr} (hr : g.Reachable) {op c} (hc : g.refusal op = some c) (ha : g.Admissible op) :
    g.step op = .ok (g, c) := by
  have hi := hr.minv
  cases op with
  | addSymbol s =>
    obtain ⟨g', e, h1, h2⟩ := step_ok hi _ ha
    simp only [Mgr.refusal] at hc
    split at hc
    · cases hc
    · cases hc
      rename_i hn
      simp only [Mgr.step, Mgr.addSymbol] at h1 ⊢
      cases hx : slot g.symbols s.id with
      | none => exact absurd hx hn
      | some y =>
        have hlt := slot_lt hx
        have : g.symbols[s.id]? = some (some y) := by
          unfold slot at hx
          rw [List.getElem?_eq_getElem hlt] at hx ⊢
          simp at hx; rw [hx]
        rw [if_neg (by omega), this]
  | deleteSymbol id =>
    simp only [Mgr.refusal] at hc
    split at hc
    · cases hc; rename_i hn
      simp only [Mgr.step, Mgr.deleteSymbol]
      rw [show slot g.symbols id = none from hn]
    · cases hc
  | addOrderBook s =>
    simp only [Mgr.refusal] at hc
    simp only [Mgr.step, Mgr.addOrderBook]
    split at hc
    · cases hc; rename_i hn
      rw [show slot g.symbols s.id = none from hn]
    · rename_i hn
      split at hc
      · cases hc
      · cases hc
        rename_i hb
        cases hy : slot g.symbols s.id with
        | none => exact absurd hy hn
        | some reg =>
          cases hx : slot g.books s.id with
          | none => exact absurd hx hb
          | some y =>
            have hlt := slot_lt hx
            have : g.books[s.id]? = some (some y) := by
              unfold slot at hx
              rw [List.getElem?_eq_getElem hlt] at hx ⊢
              simp at hx; rw [hx]
            simp only
            rw [if_neg (by omega), this]
  | deleteOrderBook id =>
    simp only [Mgr.refusal] at hc
    split at hc
    · cases hc; rename_i hn
      simp only [Mgr.step, Mgr.deleteOrderBook]
      rw [show slot g.books id = none from hn]
    · cases hc
  | addOrder o =>
    simp only [Mgr.refusal] at hc
    simp only [Mgr.step, Mgr.addOrder]
    by_cases hv : o.validate ≠ .ok
    · rw [if_pos hv] at hc ⊢; cases hc; rfl
    · rw [if_neg hv] at hc ⊢
      by_cases hb : g.getBook o.symbolId = none
      · rw [if_pos hb] at hc; cases hc; exact onBook_refused hb
      · rw [if_neg hb] at hc; cases hc
  | reduceOrder id q =>
    simp only [Mgr.refusal] at hc
    simp only [Mgr.step, Mgr.reduceOrder]
    by_cases h0 : id = 0
    · rw [if_pos h0] at hc ⊢; cases hc; rfl
    · rw [if_neg h0] at hc ⊢
      by_cases h1 : q = 0
      · rw [if_pos h1] at hc ⊢; cases hc; rfl
      · rw [if_neg h1] at hc ⊢; exact onOrder_refused hi hc
  | modifyOrder id p q =>
    simp only [Mgr.refusal] at hc
    simp only [Mgr.step, Mgr.modifyOrder]
    by_cases h0 : id = 0
    · rw [if_pos h0] at hc ⊢; cases hc; rfl
    · rw [if_neg h0] at hc ⊢
      by_cases h1 : q = 0
      · rw [if_pos h1] at hc ⊢; cases hc; rfl
      · rw [if_neg h1] at hc ⊢; exact onOrder_refused hi hc
  | mitigateOrder id p q =>
    simp only [Mgr.refusal] at hc
    simp only [Mgr.step, Mgr.modifyOrder]
    by_cases h0 : id = 0
    · rw [if_pos h0] at hc ⊢; cases hc; rfl
    · rw [if_neg h0] at hc ⊢
      by_cases h1 : q = 0
      · rw [if_pos h1] at hc ⊢; cases hc; rfl
      · rw [if_neg h1] at hc ⊢; exact onOrder_refused hi hc
  | executeOrder id q =>
    simp only [Mgr.refusal] at hc
    simp only [Mgr.step, Mgr.executeOrder]
    by_cases h0 : id = 0
    · rw [if_pos h0] at hc ⊢; cases hc; rfl
    · rw [if_neg h0] at hc ⊢
      by_cases h1 : q = 0
      · rw [if_pos h1] at hc ⊢; cases hc; rfl
      · rw [if_neg h1] at hc ⊢; exact onOrder_refused hi hc
  | executeOrderAt id p q =>
    simp only [Mgr.refusal] at hc
    simp only [Mgr.step, Mgr.executeOrderAt]
    by_cases h0 : id = 0
    · rw [if_pos h0] at hc ⊢; cases hc; rfl
    · rw [if_neg h0] at hc ⊢
      by_cases h1 : q = 0
      · rw [if_pos h1] at hc ⊢; cases hc; rfl
      · rw [if_neg h1] at hc ⊢; exact onOrder_refused hi hc
  | replaceOrder id n p q =>
    simp only [Mgr.refusal] at hc
    simp only [Mgr.step, Mgr.replaceOrder]
    by_cases h0 : id = 0
    · rw [if_pos (.inl h0)] at hc; cases hc; rw [if_pos h0]
    · rw [if_neg h0]
      by_cases hn : n = 0
      · rw [if_pos (.inr hn)] at hc; cases hc; rw [if_pos hn]
      · rw [if_neg (by omega)] at hc
        rw [if_neg hn]
        by_cases h1 : q = 0
        · rw [if_pos h1] at hc ⊢; cases hc; rfl
        · rw [if_neg h1] at hc ⊢
          rw [hi.getOrder] at hc
          cases ho : g.orders id with
          | none => rw [ho] at hc; cases hc; rfl
          | some o =>
            rw [ho] at hc
            simp only at hc ⊢
            by_cases hl : o.type = .limit
            · have hl' : o.isLimit = true := by simp [Order.isLimit, hl]
              rw [if_neg (by simp [hl])] at hc
              rw [if_pos hl']
              by_cases hb : g.getBook o.symbolId = none
              · rw [if_pos hb] at hc; cases hc; exact onBook_refused hb
              · rw [if_neg hb] at hc; cases hc
            · have hl' : ¬ o.isLimit = true := by simp [Order.isLimit, hl]
              rw [if_pos hl] at hc; cases hc
              rw [if_neg hl']
  | deleteOrder id =>
    simp only [Mgr.refusal] at hc
    simp only [Mgr.step, Mgr.deleteOrder]
    by_cases h0 : id = 0
    · rw [if_pos h0] at hc ⊢; cases hc; rfl
    · rw [if_neg h0] at hc ⊢
      exact onOrder_refused hi hc
  | replaceWith id o =>
    simp only [Mgr.refusal] at hc
    simp only [Mgr.step, Mgr.replaceWith, Mgr.deleteOrder]
    by_cases h0 : id = 0
    · rw [if_pos h0] at hc ⊢; cases hc; rfl
    · rw [if_neg h0] at hc ⊢
      rw [onOrder_refused hi hc]
      have : c ≠ .ok := by
        unfold Mgr.orderRefusal at hc
        split at hc
        · cases hc; simp
        · split at hc
          · cases hc; simp
          · cases hc
      rw [Except.bind_ok]
      simp only [this, ne_eq, not_false_eq_true, if_true]
  | enableMatching => cases hc
  | disableMatching => cases hc
  | matchAll => cases hc

theorem Op.on_fresh {g : Mgr} (hi : MInv g) {op tag sym} (on : op.on g tag sym) (h : g.FreshId op) : tag.freshIn g.orders := by
  cases op <;> simp only [Op.on] at on
  case addOrder o => obtain ⟨rfl, _⟩ := on; simp only [Mgr.FreshId, hi.getOrder] at h; exact h
  case replaceOrder id n p q =>
    obtain ⟨o, rfl, h1, _⟩ := on
    simp only [Mgr.FreshId, hi.getOrder] at h
    rw [← (hi.orders id o h1).1] at h
    exact h
  all_goals (obtain ⟨rfl, _⟩ := on; trivial)

/-- C43. If there is no reason to refuse a call, it succeeds, except that adding an order under an id in use
may be reported as ORDER_DUPLICATE. -/
theorem C43_carried_out {g : Mgr} (hr : g.Reachable) {op g' e} (hc : g.refusal op = none) (ha : g.Admissible op)
    (hs : g.step op = .ok (g', e)) (hop : ∀ id o, op ≠ .replaceWith id o) :
    e = .ok ∨ e = .orderDuplicate ∧ ¬ g.FreshId op := by
  cases hr.eff ha hs with
  | refused h => rw [hc] at h; cases h.2.2.2
  | book on h =>
    obtain ⟨b, s', h1, h2, h3⟩ := h.ex
    rcases h2.code with h | h
    · exact .inl h
    · exact .inr ⟨h, fun hf => (h2.dup h).2.2 (Op.on_fresh hr.minv on hf)⟩
  | replaceWith => exact absurd rfl (hop _ _)
  | _ => exact .inl rfl

/-- C43 for `ReplaceOrder(id, new_order)`: it is `DeleteOrder(id)` followed by `AddOrder(new_order)`. -/
theorem C43_replaceWith {g : Mgr} (hr : g.Reachable) {id o g' e} (hc : g.refusal (.replaceWith id o) = none)
    (hs : g.step (.replaceWith id o) = .ok (g', e)) :
    ∃ g1, g.step (.deleteOrder id) = .ok (g1, .ok) ∧ g1.step (.addOrder o) = .ok (g', e) := by
  obtain ⟨g1, e1, h1, _⟩ := deleteOrder_mgr hr.minv id
  have h2 : g.step (.deleteOrder id) = .ok (g1, e1) := h1
  rcases C43_carried_out hr (op := .deleteOrder id) hc trivial h2 (by simp) with rfl | ⟨_, h⟩
  · refine ⟨g1, h2, ?_⟩
    simp only [Mgr.step, Mgr.replaceWith] at hs ⊢
    rw [h1, Except.bind_ok] at hs
    simpa using hs
  · exact absurd trivial h

/-- Every reason for refusal occurs on a reachable state, and so does ORDER_DUPLICATE. -/
example : ∃ g : Mgr, g.Reachable ∧ (decide (g.refusal (.addSymbol ⟨1, 7⟩) = some .symbolDuplicate) &&
    decide (g.refusal (.reduceOrder 9 1) = some .orderNotFound) && decide (g.refusal (.reduceOrder 1 0) = some .orderQuantityInvalid) &&
    decide (g.refusal (.reduceOrder 1 5) = none) && decide (g.refusal (.addOrder (.mkLimit 5 2 .buy 1 1)) = some .orderBookNotFound) &&
    decide (g.refusal (.replaceOrder 2 3 100 5) = some .orderTypeInvalid) && decide (g.refusal (.deleteOrder 0) = some .orderIdInvalid)) = true :=
  demo (p := fun g => decide (g.refusal (.addSymbol ⟨1, 7⟩) = some .symbolDuplicate) &&
    decide (g.refusal (.reduceOrder 9 1) = some .orderNotFound) && decide (g.refusal (.reduceOrder 1 0) = some .orderQuantityInvalid) &&
    decide (g.refusal (.reduceOrder 1 5) = none) && decide (g.refusal (.addOrder (.mkLimit 5 2 .buy 1 1)) = some .orderBookNotFound) &&
    decide (g.refusal (.replaceOrder 2 3 100 5) = some .orderTypeInvalid) && decide (g.refusal (.deleteOrder 0) = some .orderIdInvalid))
    (trading ++ [.addOrder (.mkLimit 1 1 .buy 90 10), .addOrder (.mkLimit 3 1 .sell 100 1), .addOrder (.mkStop 2 1 .buy 120 3)])
    (by decide +kernel)

/-! ### C17 -/

/-- The symbol registry as a map: insertion if absent, removal. -/
def symbolsAfter (v : Nat → Option Symbol) : Op → (Nat → Option Symbol)
  | .addSymbol s => if v s.id = none then fun i => if i = s.id then some s else v i else v
  | .deleteSymbol id => fun i => if i = id then none else v i
  | _ => v

/-- The result code of a registry call on the map. -/
def symbolsCode (v : Nat → Option Symbol) : Op → Option ErrorCode
  | .addSymbol s => some (if v s.id = none then .ok else .symbolDuplicate)
  | .deleteSymbol id => some (if v id = none then .symbolNotFound else .ok)
  | _ => none

theorem BookOp.symbols {tag sym g g' e} (h : BookOp tag sym g g' e) : g'.symbols = g.symbols := by
  obtain ⟨b, s', h1, h2, rfl⟩ := h.ex; rfl

theorem Acts.symbols {A g g'} (h : Acts A g g') : g'.symbols = g.symbols := by
  induction h with
  | refl => rfl
  | book _ _ _ ih => exact ih

/-- C17, one call. -/
theorem C17_symbols_step {g : Mgr} (hr : g.Reachable) {op g' e} (ha : g.Admissible op) (hs : g.step op = .ok (g', e)) :
    g'.getSymbol = symbolsAfter g.getSymbol op ∧ ∀ c, symbolsCode g.getSymbol op = some c → e = c := by
  have same : ∀ op : Op, (∀ s, op ≠ .addSymbol s) → (∀ i, op ≠ .deleteSymbol i) → g'.symbols = g.symbols →
      g'.getSymbol = symbolsAfter g.getSymbol op ∧ ∀ c, symbolsCode g.getSymbol op = some c → e = c := by
    intro op h1 h2 h3
    have : g'.getSymbol = g.getSymbol := by funext i; unfold Mgr.getSymbol; rw [h3]
    rw [this]
    cases op
    case addSymbol s => exact absurd rfl (h1 s)
    case deleteSymbol i => exact absurd rfl (h2 i)
    all_goals exact ⟨rfl, fun c hc => by cases hc⟩
  cases hr.eff ha hs with
  | refused h =>
    obtain ⟨rfl, _, _, hc⟩ := h
    cases op
    case addSymbol s =>
      simp only [Mgr.refusal] at hc
      split at hc
      · cases hc
      · rename_i hn
        cases hc
        simp [symbolsAfter, symbolsCode, hn]
    case deleteSymbol id =>
      simp only [Mgr.refusal] at hc
      split at hc
      · rename_i hn; cases hc
        refine ⟨?_, by simp [symbolsCode, hn]⟩
        funext i
        simp only [symbolsAfter]
        split
        · rename_i h; rw [h, hn]
        · rfl
      · cases hc
    all_goals exact ⟨rfl, fun c hc => by cases hc⟩
  | addSymbol hn hv =>
    rename_i sym v
    have hn' : g.getSymbol sym.id = none := hn
    refine ⟨?_, by simp [symbolsCode, hn']⟩
    funext i
    simp only [symbolsAfter, hn', if_true]
    exact hv i
  | deleteSymbol hn hv =>
    rename_i id sym v
    have hn' : g.getSymbol id = some sym := hn
    refine ⟨?_, by simp [symbolsCode, hn']⟩
    funext i
    exact hv i
  | addBook => exact same _ (by simp) (by simp) rfl
  | deleteBook => exact same _ (by simp) (by simp) rfl
  | book on h =>
    refine same _ ?_ ?_ h.symbols
    · rintro s rfl; exact on
    · rintro s rfl; exact on
  | replaceWith ho h1 h2 =>
    refine same _ (by simp) (by simp) ?_
    rcases h2 with h2 | h2
    · rw [h2.1, h1.symbols]
    · rw [h2.symbols, h1.symbols]
  | enable acts all hm => exact same _ (by simp) (by simp) acts.symbols
  | disable => exact same _ (by simp) (by simp) rfl
  | all acts all hm => exact same _ (by simp) (by simp) acts.symbols

/-- C17, histories: `GetSymbol` is the lookup in the map built by the symbol calls of the history alone. -/
theorem C17_symbols_history {h g} (hh : Mgr.History h g) :
    g.getSymbol = (h.map (·.1)).foldl symbolsAfter (fun _ => none) := by
  induction hh with
  | nil => funext i; simp [Mgr.getSymbol, Mgr.init, slot]
  | snoc h1 ha hs ih =>
    rw [(C17_symbols_step h1.reachable ha hs).1, ih]; simp

/-! ### C18 -/

/-- The book registry as a map from ids to the registered symbol the book was created for. -/
def booksAfter (syms books : Nat → Option Symbol) : Op → (Nat → Option Symbol)
  | .addOrderBook s => if books s.id = none then fun i => if i = s.id then syms s.id else books i else books
  | .deleteOrderBook id => fun i => if i = id then none else books i
  | _ => books

def booksCode (syms books : Nat → Option Symbol) : Op → Option ErrorCode
  | .addOrderBook s => some (if syms s.id = none then .symbolNotFound else if books s.id = none then .ok else .orderBookDuplicate)
  | .deleteOrderBook id => some (if books id = none then .orderBookNotFound else .ok)
  | _ => none

/-- The book registry of a state. -/
def Mgr.bookSymbol (g : Mgr) (i : Nat) : Option Symbol := (g.getBook i).map (·.symbol)

theorem put_bookSymbol {g : Mgr} (hi : MInv g) {A sym b s'} (hb : slot g.books sym = some b)
    (hs : Steps A (g.core b) none s' none) : (g.put sym s').bookSymbol = g.bookSymbol := by
  funext i
  unfold Mgr.bookSymbol Mgr.getBook
  by_cases e : i = sym
  · subst e
    rw [put_getBook_same hb, hb]
    exact congrArg some (hs.iso (CInv.none_iff.2 (hi.inv hb).1)).2
  · rw [put_getBook_other e]

theorem BookOp.bookSymbol {tag sym g g' e} (h : BookOp tag sym g g' e) (hi : MInv g) : g'.bookSymbol = g.bookSymbol := by
  obtain ⟨b, s', h1, h2, rfl⟩ := h.ex; exact put_bookSymbol hi h1 h2.steps

theorem Acts.bookSymbol {A g g'} (h : Acts A g g') (hi : MInv g) : g'.bookSymbol = g.bookSymbol := by
  induction h with
  | refl => rfl
  | book hb hs _ ih => rw [ih (hi.put hb hs), put_bookSymbol hi hb hs]

theorem bookSymbol_none {g : Mgr} {i} : g.bookSymbol i = none ↔ g.getBook i = none := by
  unfold Mgr.bookSymbol; cases g.getBook i <;> simp

/-- C18, one call. -/
theorem C18_books_step {g : Mgr} (hr : g.Reachable) {op g' e} (ha : g.Admissible op) (hs : g.step op = .ok (g', e)) :
    (∀ i, g'.bookSymbol i = booksAfter g.getSymbol g.bookSymbol op i) ∧
    ∀ c, booksCode g.getSymbol g.bookSymbol op = some c → e = c := by
  have hi := hr.minv
  have same : ∀ op : Op, (∀ s, op ≠ .addOrderBook s) → (∀ i, op ≠ .deleteOrderBook i) → g'.bookSymbol = g.bookSymbol →
      (∀ i, g'.bookSymbol i = booksAfter g.getSymbol g.bookSymbol op i) ∧
      ∀ c, booksCode g.getSymbol g.bookSymbol op = some c → e = c := by
    intro op h1 h2 h3
    rw [h3]
    cases op
    case addOrderBook s => exact absurd rfl (h1 s)
    case deleteOrderBook i => exact absurd rfl (h2 i)
    all_goals exact ⟨fun _ => rfl, fun c hc => by cases hc⟩
  cases hr.eff ha hs with
  | refused h =>
    obtain ⟨rfl, _, _, hc⟩ := h
    cases op
    case addOrderBook s =>
      simp only [Mgr.refusal] at hc
      split at hc
      · rename_i hn
        cases hc
        refine ⟨?_, by simp [booksCode, hn]⟩
        intro i
        simp only [booksAfter, hn]
        split
        · show _ = if i = s.id then none else g'.bookSymbol i
          split
          · rename_i h1 h2; rw [h2, h1]
          · rfl
        · rfl
      · rename_i hn
        split at hc
        · cases hc
        · rename_i hb
          cases hc
          have hb' : ¬ g'.bookSymbol s.id = none := fun e => hb (bookSymbol_none.1 e)
          exact ⟨by simp [booksAfter, hb'], by simp [booksCode, hn, hb']⟩
    case deleteOrderBook id =>
      simp only [Mgr.refusal] at hc
      split at hc
      · rename_i hn; cases hc
        have hn' := bookSymbol_none.2 hn
        refine ⟨?_, by simp [booksCode, hn']⟩
        intro i
        simp only [booksAfter]
        split
        · rename_i h; rw [h, hn']
        · rfl
      · cases hc
    all_goals exact ⟨fun _ => rfl, fun c hc => by cases hc⟩
  | addBook hr' hn hv =>
    rename_i sym reg v
    have hn' : g.bookSymbol sym.id = none := bookSymbol_none.2 hn
    have hr2 : g.getSymbol sym.id = some reg := hr'
    refine ⟨?_, by simp [booksCode, hn', hr2]⟩
    intro i
    simp only [booksAfter, hn', if_true, hr2]
    unfold Mgr.bookSymbol Mgr.getBook
    simp only [hv i]
    split
    · rfl
    · rfl
  | deleteBook hn hv =>
    rename_i id b v
    have hn' : g.bookSymbol id ≠ none := by
      intro e; rw [bookSymbol_none] at e; rw [show g.getBook id = some b from hn] at e; cases e
    refine ⟨?_, by simp [booksCode, hn']⟩
    intro i
    unfold Mgr.bookSymbol Mgr.getBook
    simp only [booksAfter, hv i]
    split <;> rfl
  | addSymbol => exact same _ (by simp) (by simp) rfl
  | deleteSymbol => exact same _ (by simp) (by simp) rfl
  | book on h =>
    refine same _ ?_ ?_ (h.bookSymbol hi)
    · rintro s rfl; exact on
    · rintro s rfl; exact on
  | replaceWith ho h1 h2 =>
    refine same _ (by simp) (by simp) ?_
    rcases h2 with h2 | h2
    · rw [h2.1, h1.bookSymbol hi]
    · rw [h2.bookSymbol (h1.minv hi), h1.bookSymbol hi]
  | enable acts all hm =>
    refine same _ (by simp) (by simp) ?_
    have := acts.bookSymbol (show MInv { g with matching := true } from ⟨hi.orders, hi.books, hi.symbols⟩)
    rw [this]; rfl
  | disable => exact same _ (by simp) (by simp) rfl
  | all acts all hm => exact same _ (by simp) (by simp) (acts.bookSymbol hi)

/-- C18. A new book is empty. -/
theorem C18_new_book_empty {g : Mgr} (hr : g.Reachable) {s g'} (ha : g.Admissible (.addOrderBook s))
    (hs : g.step (.addOrderBook s) = .ok (g', .ok)) :
    ∃ b, g'.getBook s.id = some b ∧ g.getSymbol s.id = some b.symbol ∧ ∀ k, b.lv k = [] ∧ b.best k = none := by
  cases hr.eff ha hs with
  | refused h => exact absurd rfl h.2.1
  | addBook h1 h2 h3 =>
    rename_i reg v
    exact ⟨Book.new reg, by show slot v s.id = _; rw [h3]; simp, h1, fun k => ⟨rfl, rfl⟩⟩
  | book on => exact on.elim

/-- C18. Deleting a book keeps its orders known ... -/
theorem C18_orders_stay {g : Mgr} (hr : g.Reachable) {id g' e} (hs : g.step (.deleteOrderBook id) = .ok (g', e)) :
    g'.getOrder = g.getOrder ∧ (e = .ok → g'.getBook id = none) := by
  cases hr.eff (op := .deleteOrderBook id) trivial hs with
  | refused h => exact ⟨by rw [h.1], fun e => absurd e h.2.1⟩
  | deleteBook hn hv => exact ⟨rfl, fun _ => by show slot _ id = none; rw [hv]; simp⟩
  | book on => exact on.elim

/-- ... but every call on an order without a book is refused with ORDER_BOOK_NOT_FOUND, without effect. -/
theorem C18_orphan_refused {g : Mgr} (hr : g.Reachable) {id : Nat} {o : Order} (ho : g.getOrder id = some o)
    (hb : g.getBook o.symbolId = none) {q : Nat} (hq : 0 < q) (p n : Nat) (new : Order) :
    g.step (.reduceOrder id q) = .ok (g, .orderBookNotFound) ∧ g.step (.deleteOrder id) = .ok (g, .orderBookNotFound) ∧
    g.step (.executeOrder id q) = .ok (g, .orderBookNotFound) ∧ g.step (.executeOrderAt id p q) = .ok (g, .orderBookNotFound) ∧
    (g.Admissible (.modifyOrder id p q) → g.step (.modifyOrder id p q) = .ok (g, .orderBookNotFound)) ∧
    (g.Admissible (.mitigateOrder id p q) → g.step (.mitigateOrder id p q) = .ok (g, .orderBookNotFound)) ∧
    (g.Admissible (.replaceWith id new) → g.step (.replaceWith id new) = .ok (g, .orderBookNotFound)) ∧
    (g.Admissible (.replaceOrder id n p q) → 0 < n → o.type = .limit →
      g.step (.replaceOrder id n p q) = .ok (g, .orderBookNotFound)) := by
  have h0 : id ≠ 0 := by rintro rfl; simp [Mgr.getOrder] at ho
  have h1 : q ≠ 0 := by omega
  have hx : g.orderRefusal id = some .orderBookNotFound := by simp [Mgr.orderRefusal, ho, hb]
  refine ⟨C43_refused hr ?_ trivial, C43_refused hr ?_ trivial, C43_refused hr ?_ trivial, C43_refused hr ?_ trivial,
    fun ha => C43_refused hr ?_ ha, fun ha => C43_refused hr ?_ ha, fun ha => C43_refused hr ?_ ha, fun ha h2 h3 => C43_refused hr ?_ ha⟩
  all_goals simp only [Mgr.refusal, h0, h1, if_false, hx]
  have h2' : n ≠ 0 := by omega
  simp [ho, h3, hb, h2']

/-- An orphan order on a reachable state. -/
example : ∃ g : Mgr, g.Reachable ∧ ((g.getOrder 1).isSome && (g.getBook 1).isNone && (g.getBook 2).isSome && (g.getSymbol 1).isSome) = true :=
  demo (p := fun g => (g.getOrder 1).isSome && (g.getBook 1).isNone && (g.getBook 2).isSome && (g.getSymbol 1).isSome)
    ([.addSymbol ⟨2, 8⟩, .addOrderBook ⟨2, 8⟩] ++ trading ++ [.addOrder (.mkLimit 1 1 .buy 90 10), .deleteOrderBook 1]) (by decide +kernel)

/-! ### C31 -/

theorem BookOp.isolated {tag sym g g' e} (h : BookOp tag sym g g' e) (hi : MInv g) :
    (∀ j, j ≠ sym → slot g'.books j = slot g.books j) ∧ Iso sym g.orders g'.orders ∧
    ∃ evs, g'.ev = g.ev ++ evs ∧ ∀ ev ∈ evs, ev.symbol = sym := by
  obtain ⟨evs, ls, h1⟩ := h.acts.events hi
  obtain ⟨b, s', h2, h3, rfl⟩ := h.ex
  refine ⟨fun j hj => put_getBook_other hj, ?_, evs, h1.ev, fun ev he => (h1.sym ev he).choose_spec.1⟩
  have := (h3.steps.iso (CInv.none_iff.2 (hi.inv h2).1)).1
  rw [show (g.core b).book.symbol.id = sym from (hi.inv h2).2] at this
  exact this

/-- C31. A call changes no book, no symbol and no order of any symbol it does not address, and raises no
event about it. -/
theorem C31_isolation {g : Mgr} (hr : g.Reachable) {op g' e} (ha : g.Admissible op) (hs : g.step op = .ok (g', e))
    {sym : Nat} (hn : ¬ g.Addresses op sym) :
    g'.getBook sym = g.getBook sym ∧ g'.getSymbol sym = g.getSymbol sym ∧
    (∀ i o, o.symbolId = sym → (g'.getOrder i = some o ↔ g.getOrder i = some o)) ∧
    ∃ evs, g'.ev = g.ev ++ evs ∧ ∀ ev ∈ evs, ev.symbol ≠ sym := by
  have hi := hr.minv
  have hi' := (hr.eff ha hs).minv hi ha
  rw [hi.getOrder_fun', hi'.getOrder_fun']
  cases hr.eff ha hs with
  | refused h => rw [h.1]; exact ⟨rfl, rfl, fun _ _ _ => Iff.rfl, [], by simp, by simp⟩
  | addSymbol h1 h2 =>
    rename_i s v
    have hne : ¬ sym = s.id := fun e => hn e.symm
    exact ⟨rfl, by show slot v sym = _; rw [h2, if_neg hne]; rfl, fun _ _ _ => Iff.rfl, _, rfl, by simp [Event.symbol]; exact fun e => hne e.symm⟩
  | deleteSymbol h1 h2 =>
    rename_i id s v
    have hne : ¬ sym = id := fun e => hn e.symm
    have := (hi.symbols _ _ h1).1
    exact ⟨rfl, by show slot v sym = _; rw [h2, if_neg hne]; rfl, fun _ _ _ => Iff.rfl, _, rfl, by simp [Event.symbol]; omega⟩
  | addBook hr' h1 h2 =>
    rename_i s reg v
    have hne : ¬ sym = s.id := fun e => hn e.symm
    have := (hi.symbols _ _ hr').1
    exact ⟨by show slot v sym = _; rw [h2, if_neg hne]; rfl, rfl, fun _ _ _ => Iff.rfl, _, rfl, by simp [Event.symbol]; omega⟩
  | deleteBook h1 h2 =>
    rename_i id b v
    have hne : ¬ sym = id := fun e => hn e.symm
    have := (hi.books _ _ h1).1
    exact ⟨by show slot v sym = _; rw [h2, if_neg hne]; rfl, rfl, fun _ _ _ => Iff.rfl, _, rfl, by simp [Event.symbol]; omega⟩
  | book on h =>
    rename_i tag s
    have hne : sym ≠ s := by
      rintro rfl
      apply hn
      cases op <;> simp only [Op.on] at on <;> simp only [Mgr.Addresses, hi.getOrder_fun']
      case addOrder o => exact on.2.symm
      case replaceOrder id n p q => obtain ⟨o, _, a, b⟩ := on; exact ⟨o, a, b⟩
      all_goals exact on.2
    obtain ⟨a, b, evs, c, d⟩ := h.isolated hi
    refine ⟨a sym hne, by unfold Mgr.getSymbol; rw [h.symbols], fun i o ho => ⟨fun h => b.back i o h (by omega), fun h => b.keep i o h (by omega)⟩,
      evs, c, fun ev he => by rw [d ev he]; exact fun e => hne e.symm⟩
  | replaceWith ho h1 h2 =>
    rename_i id o old g1
    simp only [Mgr.Addresses, hi.getOrder_fun'] at hn
    have hne1 : sym ≠ old.symbolId := fun e => hn (.inr ⟨old, ho, e.symm⟩)
    have hne2 : sym ≠ o.symbolId := fun e => hn (.inl e.symm)
    obtain ⟨a, b, evs, c, d⟩ := h1.isolated hi
    rcases h2 with h2 | h2
    · rw [h2.1]
      exact ⟨a sym hne1, by unfold Mgr.getSymbol; rw [h1.symbols], fun i o ho => ⟨fun h => b.back i o h (by omega), fun h => b.keep i o h (by omega)⟩,
      evs, c, fun ev he => by rw [d ev he]; exact fun e => hne1 e.symm⟩
    · obtain ⟨a', b', evs', c', d'⟩ := h2.isolated (h1.minv hi)
      refine ⟨(a' sym hne2).trans (a sym hne1), by unfold Mgr.getSymbol; rw [h2.symbols, h1.symbols],
        fun i o ho => ⟨fun h => b.back i o (b'.back i o h (by omega)) (by omega), fun h => b'.keep i o (b.keep i o h (by omega)) (by omega)⟩,
        evs ++ evs', by rw [c', c, List.append_assoc], ?_⟩
      intro ev he
      rcases List.mem_append.1 he with he | he
      · rw [d ev he]; exact fun e => hne1 e.symm
      · rw [d' ev he]; exact fun e => hne2 e.symm
  | enable => exact absurd trivial hn
  | disable => exact ⟨rfl, rfl, fun _ _ _ => Iff.rfl, [], by simp, by simp⟩
  | all => exact absurd trivial hn

/-- C31 applies: a trading call on one symbol while another has orders. -/
example : ∃ (g g' : Mgr) (e : ErrorCode), g.Reachable ∧ g.Admissible (.addOrder (.mkMarket 3 1 .sell 4)) ∧
    g.step (.addOrder (.mkMarket 3 1 .sell 4)) = .ok (g', e) ∧
    (decide (e = .ok) && (g.getOrder 2).isSome && decide (g'.ev.length > g.ev.length)) = true :=
  demoStep (p := fun g g' e => decide (e = .ok) && (g.getOrder 2).isSome && decide (g'.ev.length > g.ev.length))
    ([.addSymbol ⟨2, 8⟩, .addOrderBook ⟨2, 8⟩] ++ trading ++ [.addOrder (.mkLimit 1 1 .buy 90 10), .addOrder (.mkLimit 2 2 .sell 80 10)])
    (.addOrder (.mkMarket 3 1 .sell 4)) (by decide +kernel)
example : ∀ g : Mgr, ¬ g.Addresses (.addOrder (.mkMarket 3 1 .sell 4)) 2 := fun g h => by cases h

end CppTrader
