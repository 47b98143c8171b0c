import Verif.Spec
import Verif.Priority
import Verif.Textbook
/-
Specification: what each order in line gets of an incoming order (C82), in closed form. Only the last
definition refers to the engine.
-/

namespace CppTrader

/-- The quantity of the order `id` of one side in the executions `xs`. -/
def quantityOf (sd : Side) (id : Nat) (xs : List (Order × Nat × Nat)) : Nat := sideTotal sd (xs.filter (fun x => x.1.id = id))

/-- How many lots stand in line before the order `id`. -/
def aheadOf (id : Nat) (rs : List Order) : Nat := ((rs.takeWhile (fun r => r.id ≠ id)).map (·.leaves)).sum

/-- How much of the order `r` in line is executed when `t` comes in: if the price is acceptable, what the orders before `r` leave
to it, and nothing at all if `t` is Fill-Or-Kill and cannot be filled. -/
def Order.share (t : Order) (rs : List Order) (r : Order) : Nat :=
  if t.tif = .fok ∧ t.available rs < t.leaves then 0
  else if t.accepts r.price then min r.leaves (t.leaves - aheadOf r.id rs)
  else 0

/-- The limit or market order `o`, not All-Or-None, comes in while matching is on and is accepted; its book has nothing to match, no
stop orders, and no All-Or-None orders on the opposite side. `xs` are the executions of the call. -/
structure Mgr.Takes (g : Mgr) (o : Order) (xs : List Execution) : Prop where
  reach : g.Reachable
  allowed : g.Admissible (.addOrder o)
  call : ∃ g' e evs, g.step (.addOrder o) = .ok (g', e) ∧ g'.ev = g.ev ++ evs ∧ xs = execsOf evs
  accepted : g.refusal (.addOrder o) = none
  matching : g.matching = true
  type : o.type = .limit ∨ o.type = .market
  tif : o.tif ≠ .aon
  quiet : (g.lines o.symbolId).quiet
  plain : ∀ r ∈ g.resting o.symbolId o.side.other, r.tif ≠ .aon

end CppTrader
