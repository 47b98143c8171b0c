import Verif.Spec
/-
Specification: sequences of calls that are safe whatever state they meet. Only the arguments of the calls are
looked at.
-/

namespace CppTrader

/-- The quantity a call brings in. -/
def Op.quantity : Op → Nat
  | .addOrder o => o.leaves
  | .modifyOrder _ _ q | .mitigateOrder _ _ q => q
  | .replaceOrder _ _ _ q => q
  | .replaceWith _ o => o.leaves
  | _ => 0

/-- The arguments are 64-bit values; a symbol id is a 32-bit value other than 2^32-1. -/
def Op.representable : Op → Prop
  | .addSymbol s => s.id < 4294967295
  | .addOrder o => o.Repr64
  | .modifyOrder _ p q | .mitigateOrder _ p q => p < W64 ∧ q < W64
  | .replaceOrder _ n p q => n < W64 ∧ p < W64 ∧ q < W64
  | .replaceWith _ o => o.Repr64
  | _ => True

/-- No book is created again after it was deleted. -/
def noRevival (ops : List Op) : Prop :=
  ops.Pairwise fun earlier later => ∀ s, later = .addOrderBook s → earlier ≠ .deleteOrderBook s.id

end CppTrader
