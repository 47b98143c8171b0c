import Verif.Textbook
/-
Specification: the same calls with other order ids and other visible quantities.
-/

namespace CppTrader

/-- New order ids, and new values of MaxVisibleQuantity. Different ids stay different, zero (no valid id) stays zero, and
the values fit 64 bits. -/
structure Recast where
  id : Nat → Nat
  visible : Nat → Nat
  inj : ∀ a b, id a = id b → a = b
  zero : id 0 = 0
  fits : ∀ a, a < W64 → id a < W64 ∧ visible a < W64

/-- The order with its new id and visible quantity. -/
def Recast.order (c : Recast) (o : Order) : Order := { o with id := c.id o.id, maxVisible := c.visible o.maxVisible }

/-- The call with the new ids and visible quantities. -/
def Recast.op (c : Recast) : Op → Op
  | .addOrder o => .addOrder (c.order o)
  | .reduceOrder id q => .reduceOrder (c.id id) q
  | .modifyOrder id p q => .modifyOrder (c.id id) p q
  | .mitigateOrder id p q => .mitigateOrder (c.id id) p q
  | .replaceOrder id n p q => .replaceOrder (c.id id) (c.id n) p q
  | .replaceWith id o => .replaceWith (c.id id) (c.order o)
  | .deleteOrder id => .deleteOrder (c.id id)
  | .executeOrder id q => .executeOrder (c.id id) q
  | .executeOrderAt id p q => .executeOrderAt (c.id id) p q
  | op => op

/-- An execution of the order with its new id and visible quantity. -/
def Recast.exec (c : Recast) (x : Execution) : Execution := (c.order x.1, x.2)

/-- A call with its result code and executions. -/
def Recast.entry (c : Recast) (r : Op × ErrorCode × List Execution) : Op × ErrorCode × List Execution :=
  (c.op r.1, r.2.1, r.2.2.map c.exec)

/-- The new order of the call (if it has one) is as valid as before. -/
def Recast.SameValidity (c : Recast) : Op → Prop
  | .addOrder o | .replaceWith _ o => (c.order o).validate = o.validate
  | _ => True

end CppTrader
