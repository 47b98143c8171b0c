import Verif.Textbook
/-
Specification: dividing the work among several market managers.
-/

namespace CppTrader

/-- A division of the symbols and of the order ids among managers. -/
structure Division where
  symbol : Nat → Nat
  order : Nat → Nat

/-- The manager a call goes to; `none`: it goes to all of them. -/
def Division.of (d : Division) : Op → Option Nat
  | .addSymbol s | .addOrderBook s => some (d.symbol s.id)
  | .deleteSymbol id | .deleteOrderBook id => some (d.symbol id)
  | .addOrder o => some (d.symbol o.symbolId)
  | .reduceOrder id _ | .modifyOrder id _ _ | .mitigateOrder id _ _ | .replaceOrder id _ _ _ | .replaceWith id _
  | .deleteOrder id | .executeOrder id _ | .executeOrderAt id _ _ => some (d.order id)
  | .enableMatching | .disableMatching | .matchAll => none

/-- The call respects the division: orders are given ids of the manager that has their symbol. -/
def Division.respects (d : Division) : Op → Prop
  | .addOrder o => d.order o.id = d.symbol o.symbolId
  | .replaceOrder id n _ _ => d.order n = d.order id
  | .replaceWith id o => d.order o.id = d.order id ∧ d.symbol o.symbolId = d.order id
  | _ => True

/-- The executions that concern manager `j`. -/
def Division.execs (d : Division) (j : Nat) (xs : List Execution) : List Execution := xs.filter (fun x => d.symbol x.1.symbolId = j)

/-- The part of a record that concerns manager `j`: the calls that go to it, with their result codes and executions;
calls that go to all managers with the executions that concern it. -/
def Division.part (d : Division) (j : Nat) : List (Op × ErrorCode × List Execution) → List (Op × ErrorCode × List Execution)
  | [] => []
  | (op, e, xs) :: l =>
    match d.of op with
    | some i => if i = j then (op, e, xs) :: d.part j l else d.part j l
    | none => (op, e, d.execs j xs) :: d.part j l

end CppTrader
