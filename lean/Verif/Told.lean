import Verif.Model.Text
/-
Specification: what a printed log tells.
-/

namespace CppTrader

/-- What the text of an order tells: everything except the trailing distance and step of an order that is not a trailing one.
(A number above the 64-bit maximum, which no order has, would be told as the maximum.) -/
def Order.told (o : Order) : Order :=
  { o with
    maxVisible := min o.maxVisible MAX64
    slippage := min o.slippage MAX64
    trailDist := if o.type = .trailingStop ∨ o.type = .trailingStopLimit then o.trailDist else 0
    trailStep := if o.type = .trailingStop ∨ o.type = .trailingStopLimit then o.trailStep else 0 }

/-- What a printed callback tells: which callback, the order as told, the level, the price and the quantity, and about symbols and
books their id, what is written of their name, and the sizes of the book. -/
inductive Told where
  | symbol (added : Bool) (id : Nat) (name : List Char)
  | book (added : Bool) (id : Nat) (name : List Char) (z : Text.Sizes)
  | updateBook (id : Nat) (name : List Char) (z : Text.Sizes) (top : Bool)
  | other (e : Event)
  deriving DecidableEq, Repr

/-- What the entry tells. -/
def Text.Entry.told (w : Nat → List Char) (x : Text.Entry) : Told :=
  match x.event with
  | .addSymbol s => .symbol true s.id (w s.name)
  | .deleteSymbol s => .symbol false s.id (w s.name)
  | .addBook s => .book true s.id (w s.name) x.sizes
  | .deleteBook s => .book false s.id (w s.name) x.sizes
  | .updateBook sym t => .updateBook sym (w x.name) x.sizes t
  | .addOrder o => .other (.addOrder o.told)
  | .updateOrder o => .other (.updateOrder o.told)
  | .deleteOrder o => .other (.deleteOrder o.told)
  | .exec o p q => .other (.exec o.told p q)
  | e => .other e

/-- The names that are printed. -/
def Text.Entry.names (x : Text.Entry) : List Nat :=
  match x.event with
  | .addSymbol s | .deleteSymbol s | .addBook s | .deleteBook s => [s.name]
  | .updateBook _ _ => [x.name]
  | _ => []

end CppTrader
