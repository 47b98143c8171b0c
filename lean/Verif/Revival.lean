import Verif.Venue
/-
Specification: books that are deleted with orders in them and added again.
-/

namespace CppTrader

/-- The order ids a call names: the order it is about, and a new order. -/
def Op.names : Op → List Nat
  | .addOrder o => [o.id]
  | .reduceOrder id _ | .modifyOrder id _ _ | .mitigateOrder id _ _ | .deleteOrder id | .executeOrder id _
  | .executeOrderAt id _ _ => [id]
  | .replaceOrder id n _ _ => [id, n]
  | .replaceWith id o => [id, o.id]
  | _ => []

/-- The ids of the orders left behind in the manager by deleted books: `L` before the call, and by the call itself all stored
orders of the symbol, if it deletes a book. -/
def Mgr.leftBy (g : Mgr) (L : Nat → Prop) (op : Op) (id : Nat) : Prop :=
  L id ∨ ∃ s o, op = .deleteOrderBook s ∧ g.getBook s ≠ none ∧ g.getOrder id = some o ∧ o.symbolId = s

/-- Sessions of calls in which a book may be deleted with orders in it and added again, as long as no call names an order left
behind by a deleted book: the calls with their result codes and executions, the ids of the orders left behind, and the manager. -/
inductive Mgr.Revives : List (Op × ErrorCode × List Execution) → (Nat → Prop) → Mgr → Prop
  | nil : Revives [] (fun _ => False) Mgr.init
  | snoc {l L g op g' e evs} : Revives l L g → (∀ id ∈ op.names, ¬ L id) → (g.Admissible op ∨ ∃ s, op = .addOrderBook s) →
      g.step op = .ok (g', e) → g'.ev = g.ev ++ evs → Revives (l ++ [(op, e, execsOf evs)]) (g.leftBy L op) g'

/-- No call made after a book was deleted names an order id that was named by a call made before. -/
def idsRetire (ops : List Op) : Prop :=
  ∀ (pre post : List Op) (s : Nat), ops = pre ++ .deleteOrderBook s :: post → ∀ a ∈ pre, ∀ b ∈ post, ∀ id ∈ a.names, id ∉ b.names

namespace Venue

/-- The reference exchange without the orders left behind by deleted books. -/
def forget (x : Venue) : Venue := { x with ghosts := [] }

/-- The exchange after a sequence of calls, if it forgets the orders of a book with the book. -/
def afterAnew (x : Venue) : List Op → Venue
  | [] => x
  | op :: ops => (x.call op).2.2.forget.afterAnew ops

/-- The result codes and executions of a sequence of calls. -/
def resultsAnew (x : Venue) : List Op → List (ErrorCode × List Execution)
  | [] => []
  | op :: ops => ((x.call op).1, (x.call op).2.1) :: (x.call op).2.2.forget.resultsAnew ops

end Venue
end CppTrader
