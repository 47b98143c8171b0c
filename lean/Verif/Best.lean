import Verif.Priority
/-
Specification for best execution (C77) and for splitting an order (C78). Nothing here refers to the engine.
-/

namespace CppTrader

/-- A way to fill an order from the orders in line, `a` lots of each: no more of an order than is left of it. -/
def Basket (rs : List Order) (a : Order → Nat) : Prop := ∀ r ∈ rs, a r ≤ r.leaves

/-- How many lots a basket has. -/
def basketLots (rs : List Order) (a : Order → Nat) : Nat := (rs.map a).sum

/-- What a basket costs, or brings in, if every order is executed at its own price. -/
def basketValue (rs : List Order) (a : Order → Nat) : Nat := (rs.map (fun r => r.price * a r)).sum

/-- What the orders of one side have paid or received in the executions `xs`. -/
def sideValue (sd : Side) (xs : List (Order × Nat × Nat)) : Nat :=
  ((xs.filter (fun x => x.1.side = sd)).map (fun x => x.2.1 * x.2.2)).sum

/-- The quantity executed of the order `id` of one side at one price. -/
def quantityAt (sd : Side) (id price : Nat) (xs : List (Order × Nat × Nat)) : Nat :=
  sideTotal sd (xs.filter (fun x => x.1.id = id ∧ x.2.1 = price))

end CppTrader
