import Verif.Glimpse
import Verif.Revival
/-
Specification of what an exception thrown by a handler may damage. The library catches nothing: when a callback throws, the call
ends at once and the manager stays as it is at that moment, the moment recorded by `Mgr.watch` (Model/Watch.lean). Only the public
calls, `Addresses` (Spec.lean) and the getters are mentioned here.
-/

namespace CppTrader

/-- The orders an interrupted call may have damaged: the order it was to add, and the orders of the symbols it addresses. -/
def Mgr.Struck (g : Mgr) (op : Op) (id : Nat) : Prop :=
  some id = op.adds ∨ ∃ o, g.getOrder id = some o ∧ g.Addresses op o.symbolId

/-- The symbols a call names itself. -/
def Op.namesSymbols : Op → List Nat
  | .addSymbol s | .addOrderBook s => [s.id]
  | .deleteSymbol id | .deleteOrderBook id => [id]
  | .addOrder o | .replaceWith _ o => [o.symbolId]
  | _ => []

/-- The next call keeps away from what the call `op`, interrupted when the manager was `g`, may have damaged: it names none of
these orders and symbols, and does not ask for the matching of all books. -/
def Mgr.Spared (g : Mgr) (op next : Op) : Prop :=
  (∀ id ∈ next.names, ¬ g.Struck op id) ∧ (∀ s ∈ next.namesSymbols, ¬ g.Addresses op s) ∧
    next ≠ .enableMatching ∧ next ≠ .matchAll

/-- The calls that tell the handler first, before they change anything. -/
def Op.announced : Op → Bool
  | .addOrder _ | .executeOrder _ _ | .executeOrderAt _ _ _ | .deleteSymbol _ | .deleteOrderBook _ => true
  | _ => false

/-- Calls made after a book was deleted with damaged orders `L` in it, with their result codes and callbacks: none of them names one of
these orders, and the book may be added again as if these orders did not exist. -/
inductive Mgr.Mends (L : Nat → Prop) : Mgr → List (Op × ErrorCode × List Event) → Mgr → Prop
  | nil {g} : Mends L g [] g
  | cons {g g1 g' op e evs l} : (∀ id ∈ op.names, ¬ L id) →
      (g.Admissible op ∨ ∃ s, op = .addOrderBook s ∧ ∀ id o, g.getOrder id = some o → o.symbolId = s.id → L id) →
      g.step op = .ok (g1, e) → g1.ev = g.ev ++ evs → Mends L g1 l g' → Mends L g ((op, e, evs) :: l) g'

end CppTrader
