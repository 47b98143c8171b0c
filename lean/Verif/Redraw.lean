import Verif.Textbook
/-
Specification: the same calls seen from the other side of the market, on another price scale or in another lot size.
-/

namespace CppTrader

/-- Another way to write down the same trading: buyers and sellers may change sides (`flip`), prices are written
differently, quantities are multiplied by a lot size. `ticks` are the prices in use. Between them, better prices stay
better: higher stays higher if the sides stay, and becomes lower if they change. -/
structure Redraw where
  flip : Bool
  price : Nat → Nat
  lot : Nat
  exec : Nat → Nat
  ticks : Nat → Prop
  positive : 0 < lot
  order : ∀ a b, ticks a → ticks b → ((if flip then price b ≤ price a else price a ≤ price b) ↔ a ≤ b)
  fresh : exec 0 = 0
  counts : ∀ e q, exec (add64 e q) = add64 (exec e) (lot * q)

/-- The side on which an order is written down. -/
def Redraw.side (c : Redraw) (s : Side) : Side := if c.flip then s.other else s

/-- The line in which an order is written down. -/
def Redraw.kind (c : Redraw) (k : Kind) : Kind :=
  if c.flip then
    match k with
    | .bid => .ask
    | .ask => .bid
    | .buyStop => .sellStop
    | .sellStop => .buyStop
    | .tBuyStop => .tSellStop
    | .tSellStop => .tBuyStop
  else k

/-- The order. The executed quantity is a 64-bit counter. -/
def Redraw.ofOrder (c : Redraw) (o : Order) : Order :=
  { o with
    side := c.side o.side
    price := c.price o.price
    quantity := c.lot * o.quantity
    executed := c.exec o.executed
    leaves := c.lot * o.leaves }

/-- The call. -/
def Redraw.op (c : Redraw) : Op → Op
  | .addOrder o => .addOrder (c.ofOrder o)
  | .reduceOrder id q => .reduceOrder id (c.lot * q)
  | .modifyOrder id p q => .modifyOrder id (c.price p) (c.lot * q)
  | .mitigateOrder id p q => .mitigateOrder id (c.price p) (c.lot * q)
  | .replaceOrder id n p q => .replaceOrder id n (c.price p) (c.lot * q)
  | .replaceWith id o => .replaceWith id (c.ofOrder o)
  | .executeOrder id q => .executeOrder id (c.lot * q)
  | .executeOrderAt id p q => .executeOrderAt id (c.price p) (c.lot * q)
  | op => op

/-- The execution. -/
def Redraw.ofExec (c : Redraw) (x : Execution) : Execution := (c.ofOrder x.1, c.price x.2.1, c.lot * x.2.2)

/-- The call with its result code and executions. -/
def Redraw.entry (c : Redraw) (r : Op × ErrorCode × List Execution) : Op × ErrorCode × List Execution :=
  (c.op r.1, r.2.1, r.2.2.map c.ofExec)

/-- The order uses the prices in use. For a market order: its price bound is one of them, and means the same price in
the other writing. -/
def Redraw.Uses (c : Redraw) (o : Order) : Prop :=
  c.ticks o.price ∧ (o.type = .market → ∀ p, c.ticks p →
    c.ticks (o.bounded p).price ∧ ((c.ofOrder o).bounded (c.price p)).price = c.price (o.bounded p).price)

/-- The call uses the prices in use. (`MitigateOrder` compares a quantity with the 64-bit counter of executions: it is
covered only if the lot size stays.) -/
def Redraw.Keeps (c : Redraw) : Op → Prop
  | .addOrder o | .replaceWith _ o => c.Uses o
  | .modifyOrder _ p _ | .replaceOrder _ _ p _ => c.ticks p
  | .mitigateOrder _ p _ => c.ticks p ∧ c.lot = 1 ∧ ∀ e, c.exec e = e
  | _ => True

/-- The other side of the market: buyers become sellers and sellers buyers, and every price is counted from the top of the
64-bit range. -/
def Redraw.mirror : Redraw where
  flip := true
  price p := MAX64 - p
  lot := 1
  exec e := e
  ticks p := p ≤ MAX64
  positive := by decide
  order a b ha hb := by simp only [if_true]; omega
  fresh := rfl
  counts e q := by rw [Nat.one_mul]

/-- Another price scale for the prices in use, and another lot size. -/
def Redraw.scaled (f : Nat → Nat) (k : Nat) (P : Nat → Prop) (hk : 0 < k) (hf : ∀ a b, P a → P b → (f a ≤ f b ↔ a ≤ b)) : Redraw where
  flip := false
  price := f
  lot := k
  exec e := if k = 1 then e else k * e % W64
  ticks := P
  positive := hk
  order a b ha hb := by simpa using hf a b ha hb
  fresh := by simp
  counts e q := by
    unfold add64
    by_cases h : k = 1
    · rw [if_pos h, if_pos h, h, Nat.one_mul]
    · rw [if_neg h, if_neg h, Nat.mul_mod, Nat.mod_mod, ← Nat.mul_mod, Nat.mul_add, Nat.mod_add_mod]

end CppTrader
