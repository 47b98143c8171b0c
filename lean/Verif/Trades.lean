import Verif.Feed
/-
Specification of executions: which groups of execution reports matching may produce. An execution report is
the order as reported (before the execution), the price and the quantity. Nothing here refers to the engine.
-/

namespace CppTrader

/-- `o` may trade at price `p`. -/
def Order.accepts (o : Order) (p : Nat) : Prop :=
  match o.side with
  | .buy => p ≤ o.price
  | .sell => o.price ≤ p

instance (o : Order) (p : Nat) : Decidable (o.accepts p) := by unfold Order.accepts; split <;> infer_instance

/-- A correct execution of a resting order: a positive part of a limit order, all of it if All-Or-None. Only
Good-Till-Cancelled and All-Or-None limit orders rest. -/
structure RestingFill (o : Order) (q : Nat) : Prop where
  limit : o.type = .limit
  tif : o.tif = .gtc ∨ o.tif = .aon
  pos : 0 < q
  le : q ≤ o.leaves
  aon : o.isAON = true → q = o.leaves

/-- A group of executions produced by matching. -/
inductive Deal : List (Order × Nat × Nat) → Prop
  /-- The incoming order `t` trades with the resting order `o`: both for the smaller of the two quantities, at
  the price of `o`. -/
  | hit (o t : Order) (q : Nat) (side : o.side ≠ t.side) (fill : RestingFill o q) (qty : q = min o.leaves t.leaves)
      (acc : t.accepts o.price) (plain : t.isFOK = false ∧ t.isAON = false) :
      Deal [(o, o.price, q), (t, o.price, q)]
  /-- The incoming Fill-Or-Kill or All-Or-None order `t` trades its whole quantity with several orders at its
  own price. -/
  | whole (t : Order) (xs : List (Order × Nat)) (fills : ∀ x ∈ xs, x.1.side ≠ t.side ∧ RestingFill x.1 x.2 ∧ x.1.accepts t.price)
      (sum : (xs.map (·.2)).sum = t.leaves) (pos : 0 < t.leaves) (tif : t.isFOK = true ∨ t.isAON = true) :
      Deal (xs.map (fun x => (x.1, t.price, x.2)) ++ [(t, t.price, t.leaves)])
  /-- Two resting orders of a crossed book, neither of them All-Or-None: `e` is executed completely. -/
  | pair (e r : Order) (side : e.side ≠ r.side) (fe : RestingFill e e.leaves) (fr : RestingFill r e.leaves)
      (plain : e.isAON = false ∧ r.isAON = false) (acc : r.accepts e.price) :
      Deal [(e, e.price, e.leaves), (r, e.price, e.leaves)]

/-- A group of executions between resting orders that involves an All-Or-None order: the engine executes some
orders of one side, then some of the other side, at one price. Nothing is promised about quantities and
limit prices. -/
inductive Cross : List (Order × Nat × Nat) → Prop
  | mk (p : Nat) (xs ys : List (Order × Nat)) (ne : xs ≠ []) (sd : Side)
      (f1 : ∀ x ∈ xs, x.1.side = sd ∧ RestingFill x.1 x.2) (f2 : ∀ y ∈ ys, y.1.side ≠ sd ∧ RestingFill y.1 y.2) :
      Cross (xs.map (fun x => (x.1, p, x.2)) ++ ys.map (fun x => (x.1, p, x.2)))

/-- A manual execution (`ExecuteOrder`). -/
inductive Manual : List (Order × Nat × Nat) → Prop
  | mk (o : Order) (p q : Nat) (pos : 0 < q) (le : q ≤ o.leaves) : Manual [(o, p, q)]

/-- The executions of a list that belong to a symbol. -/
def execsOn (sym : Nat) (xs : List (Order × Nat × Nat)) : List (Order × Nat × Nat) := xs.filter (fun x => x.1.symbolId = sym)

/-- The price of the last execution on a side (`d` if there is none). -/
def lastPx (sd : Side) (d : Nat) (xs : List (Order × Nat × Nat)) : Nat :=
  xs.foldl (fun d x => if x.1.side = sd then x.2.1 else d) d

/-- Effect of an event on the last trade price of a side of a symbol's book. -/
def tradeStep (sd : Side) (sym d p : Nat) : Event → Nat
  | .addBook s => if s.id = sym then d else p
  | .exec o x _ => if o.symbolId = sym ∧ o.side = sd then x else p
  | _ => p

/-- The price of the last execution of an order of the symbol on a side, since the last time its book was added
(`d` if there is none). -/
def lastTrade (sd : Side) (sym d : Nat) (evs : List Event) : Nat := evs.foldl (tradeStep sd sym d) d

/-- Executed quantity on one side. -/
def sideTotal (sd : Side) (xs : List (Order × Nat × Nat)) : Nat :=
  ((xs.filter (fun x => x.1.side = sd)).map (fun x => x.2.2)).sum

end CppTrader
