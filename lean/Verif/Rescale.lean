import Verif.Textbook
/-
Specification: the same calls on another price scale and in another lot size, for all types of orders.
-/

namespace CppTrader

/-- Another price scale and another lot size. `ticks` are the prices in use: among them higher stays higher, and the two
ends of the 64-bit range stay what they are. Every quantity is multiplied by `lot`. -/
structure Rescale where
  price : Nat → Nat
  lot : Nat
  ticks : Nat → Prop
  positive : 0 < lot
  order : ∀ a b, ticks a → ticks b → (price a ≤ price b ↔ a ≤ b)
  bottom : ticks 0 ∧ price 0 = 0
  top : ticks MAX64 ∧ price MAX64 = MAX64
  within : ∀ a, ticks a → a ≤ MAX64

namespace Rescale

/-- The prices stay as they are. -/
def SamePrices (c : Rescale) : Prop := ∀ p, c.price p = p

/-- The executed quantity, a 64-bit counter. -/
def counter (c : Rescale) (e : Nat) : Nat := if c.lot = 1 then e else c.lot * e % W64

/-- The order. -/
def ofOrder (c : Rescale) (o : Order) : Order :=
  { o with
    price := c.price o.price
    stopPrice := c.price o.stopPrice
    quantity := c.lot * o.quantity
    executed := c.counter o.executed
    leaves := c.lot * o.leaves }

/-- The call. -/
def op (c : Rescale) : Op → Op
  | .addOrder o => .addOrder (c.ofOrder o)
  | .reduceOrder id q => .reduceOrder id (c.lot * q)
  | .modifyOrder id p q => .modifyOrder id (c.price p) (c.lot * q)
  | .mitigateOrder id p q => .mitigateOrder id (c.price p) (c.lot * q)
  | .replaceOrder id n p q => .replaceOrder id n (c.price p) (c.lot * q)
  | .replaceWith id o => .replaceWith id (c.ofOrder o)
  | .executeOrder id q => .executeOrder id (c.lot * q)
  | .executeOrderAt id p q => .executeOrderAt id (c.price p) (c.lot * q)
  | op => op

/-- The execution. -/
def ofExec (c : Rescale) (x : Execution) : Execution := (c.ofOrder x.1, c.price x.2.1, c.lot * x.2.2)

/-- The call with its result code and executions. -/
def entry (c : Rescale) (r : Op × ErrorCode × List Execution) : Op × ErrorCode × List Execution :=
  (c.op r.1, r.2.1, r.2.2.map c.ofExec)

/-- Nothing is calculated with the prices of the order: it is no trailing order and has no slippage limit. Its prices are in
use. -/
def Uses (c : Rescale) (o : Order) : Prop :=
  c.ticks o.price ∧ c.ticks o.stopPrice ∧ o.type ≠ .trailingStop ∧ o.type ≠ .trailingStopLimit ∧ o.slippage = MAX64

/-- The call uses the prices in use. -/
def Keeps (c : Rescale) : Op → Prop
  | .addOrder o | .replaceWith _ o => c.Uses o
  | .modifyOrder _ p _ | .mitigateOrder _ p _ | .replaceOrder _ _ p _ | .executeOrderAt _ p _ => c.ticks p
  | _ => True

/-- Whenever an order is mitigated, its executed quantity in the new lot size fits in 64 bits. -/
def Counted (c : Rescale) (g : Mgr) (l : List (Op × ErrorCode × List Execution)) : Prop :=
  ∀ l1 l2 id p q e xs g1 o, l = l1 ++ (.mitigateOrder id p q, e, xs) :: l2 → Mgr.Records g l1 g1 → g1.getOrder id = some o → c.lot * o.executed < W64

/-- Another lot size, the same prices. -/
def lots (k : Nat) (hk : 0 < k) : Rescale where
  price p := p
  lot := k
  ticks p := p ≤ MAX64
  positive := hk
  order _ _ _ _ := Iff.rfl
  bottom := ⟨Nat.zero_le _, rfl⟩
  top := ⟨Nat.le_refl _, rfl⟩
  within _ h := h

/-- Another price scale, the same quantities. -/
def prices (f : Nat → Nat) (P : Nat → Prop) (hf : ∀ a b, P a → P b → (f a ≤ f b ↔ a ≤ b)) (h0 : P 0 ∧ f 0 = 0) (h1 : P MAX64 ∧ f MAX64 = MAX64)
    (hw : ∀ a, P a → a ≤ MAX64) : Rescale where
  price := f
  lot := 1
  ticks := P
  positive := by decide
  order := hf
  bottom := h0
  top := h1
  within := hw

end Rescale
end CppTrader
