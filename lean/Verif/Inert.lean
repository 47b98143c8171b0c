import Verif.Textbook
/-
Specification of calls that give matching nothing to do (C76).
-/

namespace CppTrader

/-- The calls that switch matching on or off, or ask for it. -/
def Op.isMode : Op → Bool
  | .enableMatching | .disableMatching | .matchAll => true
  | _ => false

/-- An order that cannot trade with the orders `rs` of the opposite side: a limit order whose price none of them
meets, or a market order that finds nobody. -/
def Order.idle (o : Order) (rs : List Order) : Prop :=
  (o.type = .limit ∧ ∀ r ∈ rs, match o.side with | .buy => o.price < r.price | .sell => r.price < o.price) ∨
  (o.type = .market ∧ rs = [])

/-- The call brings in nothing that could trade: new orders, and orders that get a new price, do not meet the opposite
side of their book. -/
def Mgr.Passive (g : Mgr) : Op → Prop
  | .addOrder o | .replaceWith _ o => o.idle (g.lines o.symbolId o.side.other.limits)
  | .modifyOrder id p _ | .mitigateOrder id p _ | .replaceOrder id _ p _ =>
    ∀ o, g.getOrder id = some o → ({ o with price := p } : Order).idle (g.lines o.symbolId o.side.other.limits)
  | _ => True

/-- All calls of a history are of that kind when they are made. -/
def Mgr.AllPassive (g : Mgr) (l : List (Op × ErrorCode × List Execution)) : Prop :=
  ∀ l1 r l2 g1, l = l1 ++ r :: l2 → g.Records l1 g1 → g1.Passive r.1

instance (o : Order) (rs : List Order) : Decidable (o.idle rs) := by
  unfold Order.idle
  cases o.side <;> infer_instance

end CppTrader
