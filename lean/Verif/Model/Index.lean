import Verif.Model.Order
import Verif.Model.FastHash
/-
The hash map in which the market manager keeps its orders:
include/trader/matching/market_manager.h:48 `typedef CppCommon::HashMap<uint64_t, OrderNode*, FastHash> Orders;`, created by
include/trader/matching/market_manager.inl:28 with capacity 16384 and the blank key 0, and used by `GetOrder`
(market_manager.inl:44-52) and throughout source/trader/matching/market_manager.cpp (`find` 468, 578, 699, 828, 888, 979; `erase` of
an iterator 541, 664, 736, 862, 952, 1043, 1407, 1445; `insert` 212, 301, 381, 419, 755).

`CppCommon::HashMap` is not in the repository: it is modelled here after its published source (containers/hashmap.inl), an open addressing
table with linear probing, a power of two of buckets at most half of them in use, and deletion that shifts the following
entries back. The other models take this map for a mathematical map; `Verif/Props/Index.lean` proves that it is one, as long as no
iterator is used after another entry was erased.

Simplifications: a bucket is `none` when its key is the blank key 0 (the engine never looks for or inserts the id 0); sizes are
numbers without bound (a table of 2^63 buckets does not fit in memory). Loops without an end in the code have a number of steps here,
after which the model reports the error `loop`.
-/

namespace CppTrader.Index

/-- What can go wrong: a loop that does not end. -/
inductive Stuck where
  | loop
deriving DecidableEq, Repr

/-- hashmap.h `HashMap`: the members `_buckets` (a vector of key-value pairs) and `_size`; the hash function is the parameter `hash` of
the functions below. -/
structure Table (α : Type) where
  cap : Nat
  slot : Nat → Option (Nat × α)
  size : Nat

variable {α : Type} (hash : Nat → Nat)

/-- hashmap.inl `HashMap::HashMap`: `size_t reserve = 1; while (reserve < capacity) reserve <<= 1;`. The first argument counts steps. -/
def grow (capacity : Nat) : Nat → Nat → Nat
  | 0, r => r
  | f + 1, r => if r < capacity then grow capacity f (r * 2) else r

/-- hashmap.inl `HashMap::HashMap(capacity, blank, …)`: a power of two of blank buckets. -/
def Table.new (capacity : Nat) : Table α := ⟨grow capacity capacity 1, fun _ => none, 0⟩

/-- hashmap.inl `key_to_index`: `_hash(key) & (_buckets.size() - 1)`. -/
def Table.home (t : Table α) (key : Nat) : Nat := hash key &&& (t.cap - 1)

/-- hashmap.inl `next_index`: `(index + 1) & (_buckets.size() - 1)`. -/
def Table.after (t : Table α) (i : Nat) : Nat := (i + 1) &&& (t.cap - 1)

/-- hashmap.inl `diff`: `(_buckets.size() + (index1 - index2)) & (_buckets.size() - 1)`. -/
def Table.diff (t : Table α) (i j : Nat) : Nat := (t.cap + i - j) &&& (t.cap - 1)

/-- The assignment of a bucket. -/
def Table.put (t : Table α) (i : Nat) (x : Option (Nat × α)) : Table α :=
  { t with slot := fun j => if j = i then x else t.slot j }

/-- hashmap.inl `find` and `emplace_internal`: the loop `for (size_t index = key_to_index(key);; index = next_index(index))` up to the
bucket that holds the key (`true`) or the first blank one (`false`). The first argument counts steps. -/
def Table.probe (t : Table α) (key : Nat) : Nat → Nat → Except Stuck (Nat × Bool)
  | 0, _ => .error .loop
  | f + 1, i =>
    match t.slot i with
    | none => .ok (i, false)
    | some (k, _) => if k = key then .ok (i, true) else t.probe key f (t.after i)

/-- hashmap.inl `find`: the bucket an iterator to the key refers to, `none` for `end()`. -/
def Table.find (t : Table α) (key : Nat) : Except Stuck (Option Nat) := do
  let (i, hit) ← t.probe key t.cap (t.home hash key)
  return if hit then some i else none

/-- market_manager.inl:44-52 `GetOrder`: `it->second` of the iterator found, or nothing. -/
def Table.get (t : Table α) (key : Nat) : Except Stuck (Option α) := do
  match ← t.find hash key with
  | none => return none
  | some i => return (t.slot i).map (·.2)

/-- hashmap.inl `emplace_internal` after `reserve`: puts the pair into the first blank bucket, or returns false if the key is there. -/
def Table.place (t : Table α) (key : Nat) (value : α) : Except Stuck (Table α × Bool) := do
  let (i, hit) ← t.probe key t.cap (t.home hash key)
  if hit then return (t, false)
  return ({ t.put i (some (key, value)) with size := t.size + 1 }, true)

/-- hashmap.inl `begin()`, `end()`: the entries in the order in which an iterator visits them. -/
def Table.entries (t : Table α) : List (Nat × α) := (List.range t.cap).filterMap t.slot

/-- hashmap.inl `rehash`: `count = std::max(count, size() * 2); HashMap other(…, count, …); for (auto it = begin(); it != end(); ++it)
other.insert(*it); swap(other);`. An insertion into the new table that would have to grow it again is the error `loop`. -/
def Table.rehash (t : Table α) (count : Nat) : Except Stuck (Table α) :=
  t.entries.foldlM (init := Table.new (max count (t.size * 2))) fun other x =>
    if other.cap < (other.size + 1) * 2 then .error .loop
    else do
      let (other, _) ← other.place hash x.1 x.2
      return other

/-- hashmap.inl `reserve`: `if (count * 2 > _buckets.size()) rehash(count * 2);`. -/
def Table.reserve (t : Table α) (count : Nat) : Except Stuck (Table α) :=
  if t.cap < count * 2 then t.rehash hash (count * 2) else .ok t

/-- hashmap.inl `insert` → `emplace_internal`: `reserve(_size + 1)` and the insertion itself. -/
def Table.insert (t : Table α) (key : Nat) (value : α) : Except Stuck (Table α × Bool) := do
  let t ← t.reserve hash (t.size + 1)
  t.place hash key value

/-- hashmap.inl `erase_internal`, the loop `for (size_t index = next_index(bucket);; index = next_index(index))`: `bucket` is the
bucket to be emptied. The first argument counts steps. -/
def Table.shift (t : Table α) : Nat → Nat → Nat → Except Stuck (Table α)
  | 0, _, _ => .error .loop
  | f + 1, bucket, index =>
    match t.slot index with
    | none => .ok { t.put bucket none with size := t.size - 1 }
    | some (k, v) =>
      let base := t.home hash k
      if t.diff bucket base < t.diff index base then
        (t.put bucket (some (k, v))).shift f index (t.after index)
      else t.shift f bucket (t.after index)

/-- hashmap.inl `erase(const_iterator)`: erases the bucket the iterator refers to. -/
def Table.eraseAt (t : Table α) (i : Nat) : Except Stuck (Table α) := t.shift hash t.cap i (t.after i)

/-- market_manager.cpp:1407, 1445 `_orders.erase(_orders.find(id))`, and `find` at 468, 699, 828, 888, 979 with `erase` of the iterator at
541, 736, 862, 952, 1043, with no other change of the map in between: whether there was such a key. (The functions return
ORDER_NOT_FOUND without it.) -/
def Table.erase (t : Table α) (key : Nat) : Except Stuck (Table α × Bool) := do
  match ← t.find hash key with
  | none => return (t, false)
  | some i => return (← t.eraseAt hash i, true)

/-- fast_hash.inl:14-22 `FastHash` as the hash function of the map (market_manager.h:48). -/
def fast (id : Nat) : Nat := (FastHash.hash (BitVec.ofNat 64 id)).toNat

/-- market_manager.inl:28 `_orders(16384, 0)`. -/
def orders : Table α := Table.new 16384

end CppTrader.Index
