import Verif.Seen
import Verif.Model.Stats
/-
Specification: the statistics of a feed.
-/

namespace CppTrader

/-- The numbers of symbols and of books announced, of orders that rest and the most that ever rested, of orders added, changed,
removed, of executions, and of all updates: one for each of those and one for each change of a price level. -/
structure Tally where
  updates : Nat
  symbols : Nat
  books : Nat
  orders : Nat
  maxOrders : Nat
  adds : Nat
  changes : Nat
  deletes : Nat
  execs : Nat
  deriving DecidableEq, Repr

namespace Tally

def zero : Tally := ⟨0, 0, 0, 0, 0, 0, 0, 0, 0⟩

/-- An order comes. -/
def comes (c : Tally) : Tally :=
  { c with updates := c.updates + 2, orders := c.orders + 1, maxOrders := max c.maxOrders (c.orders + 1), adds := c.adds + 1 }
/-- An order is changed. -/
def changed (c : Tally) : Tally := { c with updates := c.updates + 2, changes := c.changes + 1 }
/-- An order goes. -/
def goes (c : Tally) : Tally := { c with updates := c.updates + 2, orders := c.orders - 1, deletes := c.deletes + 1 }
/-- A quantity is taken from an order. -/
def takes (c : Tally) (t : Tape) (id q : Nat) : Tally :=
  match t.find id with
  | none => c
  | some r => if q < r.qty then c.changed else c.goes

/-- The next report; `t` are the orders that rest before it. -/
def next (c : Tally) (t : Tape) : Report → Tally
  | .tick (.book _) => { c with updates := c.updates + 2, symbols := c.symbols + 1, books := c.books + 1 }
  | .tick (.add _) => c.comes
  | .tick (.take id q) => ({ c with updates := c.updates + 1, execs := c.execs + 1 }).takes t id q
  | .cancel id q => c.takes t id q
  | .tick (.delete _) => c.goes
  | .tick (.modify _ _ q) => if 0 < q then { c.changed with updates := c.updates + 3 } else c.goes
  | .tick (.replace _ _ _ q) => if 0 < q then c.goes.comes else c.goes

/-- All reports of a feed. -/
def after (c : Tally) (t : Tape) : List Report → Tally
  | [] => c
  | x :: xs => (c.next t x).after (t.next x.plain) xs

end Tally

/-- The counters of a program are the statistics; nothing announced is withdrawn, so the maximal numbers of symbols and books are
the last ones. -/
def Stats.Is (c : Stats) (x : Tally) : Prop :=
  c.updates = x.updates ∧ c.symbols = x.symbols ∧ c.maxSymbols = x.symbols ∧ c.books = x.books ∧ c.maxBooks = x.books ∧
  c.orders = x.orders ∧ c.maxOrders = x.maxOrders ∧ c.adds = x.adds ∧ c.changes = x.changes ∧ c.deletes = x.deletes ∧ c.execs = x.execs

end CppTrader
