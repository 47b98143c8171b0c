import Verif.Feed
import Verif.Model.Stats
/-
Specification: what a client that only sees the callbacks knows about the registered symbols and books, and counting.
-/

namespace CppTrader

/-- The symbols registered and the symbols that have a book, by id. -/
structure Registry where
  symbols : Nat → Option Symbol
  books : Nat → Option Symbol

/-- Nothing is registered. -/
def Registry.empty : Registry := ⟨fun _ => none, fun _ => none⟩

/-- Client side of `onAddSymbol`, `onDeleteSymbol`, `onAddOrderBook`, `onDeleteOrderBook`. -/
def Registry.next (v : Registry) : Event → Registry
  | .addSymbol s => { v with symbols := fun i => if i = s.id then some s else v.symbols i }
  | .deleteSymbol s => { v with symbols := fun i => if i = s.id then none else v.symbols i }
  | .addBook s => { v with books := fun i => if i = s.id then some s else v.books i }
  | .deleteBook s => { v with books := fun i => if i = s.id then none else v.books i }
  | _ => v

/-- What a callback may say: a symbol is added under an unused id, and deleted as it was added; a book is added for a registered symbol
without one, and deleted with the symbol it was added for; all other callbacks concern a symbol that has a book. -/
def Registry.ok (v : Registry) : Event → Prop
  | .addSymbol s => v.symbols s.id = none
  | .deleteSymbol s => v.symbols s.id = some s
  | .addBook s => v.symbols s.id = some s ∧ v.books s.id = none
  | .deleteBook s => v.books s.id = some s
  | e => v.books e.symbol ≠ none

/-- There are exactly `n` numbers with the property. -/
def Counts (p : Nat → Prop) (n : Nat) : Prop := ∃ l : List Nat, l.Nodup ∧ (∀ i, i ∈ l ↔ p i) ∧ l.length = n

/-- `n` is the highest number of numbers with the property `p k`, at any moment `k` up to `t`. -/
def Highest (p : Nat → Nat → Prop) (t n : Nat) : Prop :=
  (∃ k, k ≤ t ∧ Counts (p k) n) ∧ ∀ k m, k ≤ t → Counts (p k) m → m ≤ n

/-- The orders alive for a client that saw these callbacks. -/
def OrderView.after (evs : List Event) : OrderView := evs.foldl OrderView.next (fun _ => none)

/-- What is registered for a client that saw these callbacks. -/
def Registry.after (evs : List Event) : Registry := evs.foldl Registry.next .empty

/-- `onAddOrder`. -/
def Event.isAddOrder : Event → Bool
  | .addOrder _ => true
  | _ => false
/-- `onUpdateOrder`. -/
def Event.isUpdateOrder : Event → Bool
  | .updateOrder _ => true
  | _ => false
/-- `onDeleteOrder`. -/
def Event.isDeleteOrder : Event → Bool
  | .deleteOrder _ => true
  | _ => false
/-- `onUpdateOrderBook`. -/
def Event.isUpdateBook : Event → Bool
  | .updateBook _ _ => true
  | _ => false

end CppTrader
