import Verif.Model.Manager
/-
The order book once more, now with its pointers. The functions of source/trader/matching/order_book.cpp (modelled as
functions on lists in `Verif/Model/Book.lean`) are here written as the C++ code executes them: on nodes allocated from the
order pool and the level pool, with the intrusive doubly linked list of the orders of a level, the cached `Level` pointer
of an order, the cached best levels and the order map `_orders` from ids to node addresses. Every access through a
pointer is checked: following a null pointer or a pointer to a released node, and releasing a node twice, is the error `ub`.

An address is a number. The pools are parameters: any allocator that gives out memory not in use will do, whether it never
uses an address twice, so that every use of a stale pointer is the error `ub`, or uses released memory again, as the pools
of CppCommon do, so that a stale pointer may pass for a valid one.

Simplifications: The level trees are lists of level addresses in walking order, best price first: the balanced trees of CppCommon are not in
this repository (see `Verif/Props/Avl.lean` for what is proved of them). `CppCommon::List` is not in the repository
either; `push_back` and `pop_current` are modelled after its published source.
-/

namespace CppTrader

/-- order.h:301-313 `OrderNode`: an order, the `next`/`prev` links of `CppCommon::List<OrderNode>::Node` and the cached
level. -/
structure ONode where
  order : Order
  level : Option Nat
  next : Option Nat
  prev : Option Nat

/-- level.h:32-108 `LevelNode`: the fields of a level (`isBid` is `Type == LevelType::BID`) and the two ends of
`OrderList`. -/
structure LNode where
  isBid : Bool
  price : Nat
  total : Nat
  hidden : Nat
  visible : Nat
  count : Nat
  front : Option Nat
  back : Option Nat

/-- A memory pool (CppCommon `PoolMemoryManager`, `PoolAllocator`): which address the next node gets, given the number of
nodes created so far, a bound of all addresses given out so far and which of them are in use. It may be any free one. -/
structure Pool where
  pick : Nat → Nat → (Nat → Bool) → Nat
  sound : ∀ (t n : Nat) (live : Nat → Bool), (∀ a, live a = true → a < n) → live (pick t n live) = false

/-- A collection of levels: that of the book in the given slot of `_order_books`, of the given kind. -/
abbrev Col := Nat × Kind

/-- The nodes and the pointers of a market manager: `orders` is `_orders` (market_manager.h:244), `onode`/`lnode` are the
order and level pools with their allocated nodes (market_manager.h:232-238), `freshO`/`freshL` bounds of
the addresses given out so far and `madeO`/`madeL` their numbers; `poolO`/`poolL` are the allocators;
`tree` and `best` are the six level trees and best pointers of every book (order_book.h:136-168). -/
structure Heap where
  orders : Nat → Option Nat
  onode : Nat → Option ONode
  lnode : Nat → Option LNode
  freshO : Nat
  freshL : Nat
  madeO : Nat
  madeL : Nat
  poolO : Pool
  poolL : Pool
  tree : Col → List Nat
  best : Col → Option Nat

/-- A store to one place of a partial map or of a table. -/
def setX {α β : Type} [DecidableEq α] (f : α → β) (x : α) (v : β) : α → β := fun y => if y = x then v else f y

/-- order.inl `OrderNode(const Order&)`: not queued anywhere. -/
def ONode.new (o : Order) : ONode := ⟨o, none, none, none⟩

/-- level.inl:33-41: a level without orders. -/
def LNode.new (isBid : Bool) (price : Nat) : LNode := ⟨isBid, price, 0, 0, 0, 0, none, none⟩

/-- The slicing copy `Level level(*level_ptr)` (order_book.cpp:172,203) / conversion to `const Level&`. -/
def LNode.info (l : LNode) : LevelInfo := ⟨l.isBid, l.price, l.total, l.hidden, l.visible, l.count⟩

namespace Heap

/-- A manager without orders and books. -/
def empty (po pl : Pool) : Heap := ⟨fun _ => none, fun _ => none, fun _ => none, 0, 0, 0, 0, po, pl, fun _ => [], fun _ => none⟩

/-- `*order_ptr`. -/
def order (h : Heap) (a : Nat) : Except Err ONode :=
  match h.onode a with
  | some n => .ok n
  | none => .error .ub

/-- `*level_ptr`. -/
def level (h : Heap) (a : Nat) : Except Err LNode :=
  match h.lnode a with
  | some n => .ok n
  | none => .error .ub

/-- A null pointer may not be followed. -/
def deref : Option Nat → Except Err Nat
  | some a => .ok a
  | none => .error .ub

/-- A store through an order pointer. -/
def modOrder (h : Heap) (a : Nat) (f : ONode → ONode) : Except Err Heap :=
  match h.onode a with
  | some n => .ok { h with onode := setX h.onode a (some (f n)) }
  | none => .error .ub

/-- A store through an order pointer that may be null, in which case nothing is stored. -/
def modOrderIf (h : Heap) (a : Option Nat) (f : ONode → ONode) : Except Err Heap :=
  match a with
  | some a => h.modOrder a f
  | none => .ok h

/-- A store through a level pointer. -/
def modLevel (h : Heap) (a : Nat) (f : LNode → LNode) : Except Err Heap :=
  match h.lnode a with
  | some n => .ok { h with lnode := setX h.lnode a (some (f n)) }
  | none => .error .ub

/-- A change of the order in a node. -/
def write (h : Heap) (a : Nat) (o : Order) : Except Err Heap := h.modOrder a (fun n => { n with order := o })

/-- The address of the next order node. -/
def newO (h : Heap) : Nat := h.poolO.pick h.madeO h.freshO (fun a => (h.onode a).isSome)

/-- The address of the next level node. -/
def newL (h : Heap) : Nat := h.poolL.pick h.madeL h.freshL (fun a => (h.lnode a).isSome)

/-- `_order_pool.Create(order)`. -/
def createOrder (h : Heap) (o : Order) : Heap × Nat :=
  ({ h with onode := setX h.onode h.newO (some (ONode.new o)), freshO := max h.freshO (h.newO + 1), madeO := h.madeO + 1 }, h.newO)

/-- `_order_pool.Release(order_ptr)`. -/
def releaseOrder (h : Heap) (a : Nat) : Except Err Heap :=
  match h.onode a with
  | some _ => .ok { h with onode := setX h.onode a none }
  | none => .error .ub

/-- `_level_pool.Release(level_ptr)`. -/
def releaseLevel (h : Heap) (a : Nat) : Except Err Heap :=
  match h.lnode a with
  | some _ => .ok { h with lnode := setX h.lnode a none }
  | none => .error .ub

/-- `_orders.insert(std::make_pair(id, order_ptr))` where `id` is not yet there. -/
def insert (h : Heap) (id a : Nat) : Heap := { h with orders := setX h.orders id (some a) }

/-- `_orders.erase(order_it)`. -/
def erase (h : Heap) (id : Nat) : Heap := { h with orders := setX h.orders id none }

/-- CppCommon `List::push_back`: link a node behind the last one. -/
def pushBack (h : Heap) (la a : Nat) : Except Err Heap := do
  let l ← h.level la
  let h ← h.modOrder a (fun n => { n with next := none })
  let h ← h.modOrderIf l.back (fun n => { n with next := some a })
  let h ← h.modOrder a (fun n => { n with prev := l.back })
  h.modLevel la (fun l => { l with back := some a, front := if l.front.isNone then some a else l.front })

/-- CppCommon `List::pop_current`: unlink a node from its neighbours and from the ends of the list and reset its links. -/
def popCurrent (h : Heap) (la a : Nat) : Except Err Heap := do
  let n ← h.order a
  let h ← h.modOrderIf n.prev (fun m => { m with next := n.next })
  let h ← h.modOrderIf n.next (fun m => { m with prev := n.prev })
  let h ← h.modLevel la (fun l => { l with front := if l.front = some a then n.next else l.front,
                                           back := if l.back = some a then n.prev else l.back })
  h.modOrder a (fun m => { m with next := none, prev := none })

/-- order_book.inl:26-60 `GetBid` … `GetTrailingSellStopLevel`: search the tree for a price. -/
def find (h : Heap) (p : Nat) : List Nat → Except Err (Option Nat)
  | [] => .ok none
  | a :: as => do
    let l ← h.level a
    if l.price = p then .ok (some a) else h.find p as

/-- `_bids.insert(*level_ptr)` (order_book.cpp:76,88,…): the tree with a level put at its price position. -/
def insertAt (h : Heap) (k : Kind) (a p : Nat) : List Nat → Except Err (List Nat)
  | [] => .ok [a]
  | b :: bs => do
    let l ← h.level b
    if k.better p l.price then .ok (a :: b :: bs)
    else
      let bs ← h.insertAt k a p bs
      .ok (b :: bs)

/-- order_book.inl:62-108, the increment of a level iterator: the level behind the given one. -/
def after : List Nat → Nat → Option Nat
  | [], _ => none
  | a :: as, b => if a = b then as.head? else after as b

/-- order_book.cpp:66-96 `AddLevel` (218-247 `AddStopLevel`, 349-378 `AddTrailingStopLevel`). -/
def addLevel (h : Heap) (x : Col) (p : Nat) : Except Err (Heap × Nat) := do
  let a := h.newL
  let h := { h with lnode := setX h.lnode a (some (LNode.new x.2.isBidType p)), freshL := max h.freshL (a + 1), madeL := h.madeL + 1 }
  let t ← h.insertAt x.2 a p (h.tree x)
  let h := { h with tree := setX h.tree x t }
  match h.best x with
  | none => .ok ({ h with best := setX h.best x (some a) }, a)
  | some b => do
    let l ← h.level b
    if x.2.better p l.price then .ok ({ h with best := setX h.best x (some a) }, a) else .ok (h, a)

/-- order_book.cpp:98-126 `DeleteLevel` (249-276, 380-407): move the best pointer away from the level (the neighbour in
the tree chosen by the C++ code is the next level in walking order, see `Verif/Props/Avl.lean`), take the level out of
the tree and release it. -/
def deleteLevel (h : Heap) (x : Col) (la : Nat) : Except Err Heap :=
  let h := { h with best := if h.best x = some la then setX h.best x (after (h.tree x) la) else h.best }
  let h := { h with tree := setX h.tree x ((h.tree x).erase la) }
  h.releaseLevel la

/-- order_book.cpp:128-155 `AddOrder` (278-298 `AddStopOrder`, 409-429 `AddTrailingStopOrder`). -/
def addOrder (h : Heap) (x : Col) (a : Nat) : Except Err (Heap × LevelUpdate) := do
  let n ← h.order a
  let found ← h.find n.order.key (h.tree x)
  let (h, la, type) ← (match found with
    | some la => .ok (h, la, UpdType.update)
    | none => do
      let (h, la) ← h.addLevel x n.order.key
      .ok (h, la, UpdType.add) : Except Err (Heap × Nat × UpdType))
  let h ← h.modLevel la (fun l => { l with total := add64 l.total n.order.leaves,
                                           hidden := add64 l.hidden n.order.hiddenQty,
                                           visible := add64 l.visible n.order.visibleQty })
  let h ← h.pushBack la a
  let h ← h.modLevel la (fun l => { l with count := l.count + 1 })
  let h ← h.modOrder a (fun n => { n with level := some la })
  let l ← h.level la
  .ok (h, ⟨type, l.info, decide (h.best x = some la)⟩)

/-- Common tail of `ReduceOrder`/`DeleteOrder` (order_book.cpp:172-186, 203-215): copy the level, and delete it if its
total volume is zero. -/
def settle (h : Heap) (x : Col) (la a : Nat) : Except Err (Heap × LevelUpdate) := do
  let l ← h.level la
  if l.total = 0 then
    let h ← h.deleteLevel x la
    let h ← h.modOrder a (fun n => { n with level := none })
    .ok (h, ⟨.delete, l.info, true⟩)
  else .ok (h, ⟨.update, l.info, decide (h.best x = some la)⟩)

/-- order_book.cpp:157-187 `ReduceOrder` (300-324, 431-455). -/
def reduceOrder (h : Heap) (x : Col) (a q hd v : Nat) : Except Err (Heap × LevelUpdate) := do
  let n ← h.order a
  let la ← deref n.level
  let h ← h.modLevel la (fun l => { l with total := sub64 l.total q, hidden := sub64 l.hidden hd,
                                           visible := sub64 l.visible v })
  let h ← (if n.order.leaves = 0 then do
      let h ← h.popCurrent la a
      h.modLevel la (fun l => { l with count := l.count - 1 })
    else .ok h : Except Err Heap)
  h.settle x la a

/-- order_book.cpp:189-216 `DeleteOrder` (326-347, 457-478). -/
def deleteOrder (h : Heap) (x : Col) (a : Nat) : Except Err (Heap × LevelUpdate) := do
  let n ← h.order a
  let la ← deref n.level
  let h ← h.modLevel la (fun l => { l with total := sub64 l.total n.order.leaves,
                                           hidden := sub64 l.hidden n.order.hiddenQty,
                                           visible := sub64 l.visible n.order.visibleQty })
  let h ← h.popCurrent la a
  let h ← h.modLevel la (fun l => { l with count := l.count - 1 })
  h.settle x la a

/-- The price of the best level of a collection, if there is one. -/
def bestPrice (h : Heap) (x : Col) : Except Err (Option Nat) :=
  match h.best x with
  | none => .ok none
  | some a => do
    let l ← h.level a
    .ok (some l.price)

/-- Loop bounds of the model (no counterpart in the C++ code): the number of orders, and the volume, of a list of levels. -/
def countOf (h : Heap) (as : List Nat) : Nat := (as.map (fun a => match h.lnode a with | some l => l.count | none => 0)).sum
def volumeOf (h : Heap) (as : List Nat) : Nat := (as.map (fun a => match h.lnode a with | some l => l.total | none => 0)).sum

end Heap
end CppTrader
