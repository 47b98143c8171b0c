import Verif.Textbook
/-
Specification of what pays for executions (C75).
-/

namespace CppTrader

/-- The executions a call may make without an order in the books disappearing: two (one for each side) for a new order, one
for an order executed by hand. No other call brings anything in. -/
def Op.credit : Op → Nat
  | .addOrder _ | .replaceWith _ _ => 2
  | .executeOrder _ _ | .executeOrderAt _ _ _ => 1
  | _ => 0

end CppTrader
