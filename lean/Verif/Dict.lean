/-
Specification of a map from ids to values: a list of pairs with different keys, and what each request answers. Nothing here refers to
buckets or hashes.
-/

namespace CppTrader

/-- A map: the pairs in it, in no significant order. -/
abbrev Dict (α : Type) := List (Nat × α)

/-- The requests made of a map. -/
inductive Dict.Request (α : Type) where
  /-- put a value under a key that is not there yet -/
  | insert (key : Nat) (value : α)
  | erase (key : Nat)
  | get (key : Nat)
  | size

/-- The answers. -/
inductive Dict.Answer (α : Type) where
  /-- whether the map changed -/
  | done (b : Bool)
  | value (v : Option α)
  | count (n : Nat)
deriving DecidableEq

variable {α : Type}

/-- The value under a key. -/
def Dict.get (d : Dict α) (key : Nat) : Option α := (d.find? (·.1 == key)).map (·.2)

/-- What a map does with a request. -/
def Dict.step (d : Dict α) : Dict.Request α → Dict α × Dict.Answer α
  | .insert key value => if (d.get key).isSome then (d, .done false) else ((key, value) :: d, .done true)
  | .erase key => (d.filter (·.1 != key), .done (d.get key).isSome)
  | .get key => (d, .value (d.get key))
  | .size => (d, .count d.length)

/-- What a map answers to a sequence of requests, and what is in it then. -/
def Dict.run (d : Dict α) : List (Dict.Request α) → Dict α × List (Dict.Answer α)
  | [] => (d, [])
  | r :: rs =>
    let (d', a) := d.step r
    let (d'', as) := d'.run rs
    (d'', a :: as)

end CppTrader
