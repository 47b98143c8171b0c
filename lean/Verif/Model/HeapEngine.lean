import Verif.Model.Heap
/-
The functions of source/trader/matching/market_manager.cpp on the pointers of `Verif/Model/Heap.lean`: as in
`Verif/Model/Engine.lean`, but orders and levels are reached through pointers, read when the C++ code reads them, changed
in place when it changes them, and erased and released when it erases and releases them. In particular the loops over
the orders of a level follow the `next` pointer read before the order is executed, and the loops over levels the next
level read before the level is worked on.
-/

namespace CppTrader

/-- order_book.h:130-195, the members of `OrderBook` other than the level trees and the best pointers. -/
structure HBook where
  symbol : Symbol
  lastBid : Nat
  lastAsk : Nat
  matchBid : Nat
  matchAsk : Nat
  trailBid : Nat
  trailAsk : Nat

/-- order_book.cpp:15-31, constructor. -/
def HBook.new (sym : Symbol) : HBook := ⟨sym, 0, MAX64, 0, MAX64, 0, MAX64⟩

/-- The pointer to an order being matched (`Order* order_ptr`): the local variable `new_order` of the `Add…Order`
functions, or an order node. -/
inductive Loc where
  | temp
  | node (a : Nat)
  deriving DecidableEq

/-- The part of the manager one order-book operation works on: the heap, the book (`slot` is its index in
`_order_books`), the local variable `new_order` and the log of handler callbacks, oldest first. -/
structure HCore where
  heap : Heap
  slot : Nat
  book : HBook
  temp : Order
  ev : List Event

namespace HCore

/-- Call a handler. -/
def emit (s : HCore) (e : Event) : HCore := { s with ev := s.ev ++ [e] }

/-- A collection of levels of the book. -/
def col (s : HCore) (k : Kind) : Col := (s.slot, k)

/-- `*order_ptr`. -/
def order (s : HCore) (a : Nat) : Except Err ONode := s.heap.order a

/-- `*level_ptr`. -/
def level (s : HCore) (a : Nat) : Except Err LNode := s.heap.level a

/-- A change of the order in a node. -/
def write (s : HCore) (a : Nat) (o : Order) : Except Err HCore := do
  let h ← s.heap.write a o
  .ok { s with heap := h }

/-- The order being matched. -/
def read (s : HCore) : Loc → Except Err Order
  | .temp => .ok s.temp
  | .node a => do
    let n ← s.order a
    .ok n.order

/-- A change of the order being matched. -/
def store (s : HCore) : Loc → Order → Except Err HCore
  | .temp, o => .ok { s with temp := o }
  | .node a, o => s.write a o

/-- `_orders.erase(order_it); _order_pool.Release(order_ptr);` -/
def drop (s : HCore) (id a : Nat) : Except Err HCore := do
  let h ← (s.heap.erase id).releaseOrder a
  .ok { s with heap := h }

/-- `_orders.erase(_orders.find(order_ptr->Id)); _order_pool.Release(order_ptr);` (market_manager.cpp:1407-1410,
1443-1446): erasing at `end()` is undefined. -/
def dropFound (s : HCore) (a : Nat) : Except Err HCore := do
  let n ← s.order a
  let _ ← Heap.deref (s.heap.orders n.order.id)
  s.drop n.order.id a

/-- market_manager.cpp:1741-1759 `UpdateLevel`. -/
def updateLevel (s : HCore) (u : LevelUpdate) : HCore :=
  let sym := s.book.symbol.id
  let e := match u.type with
    | .add => Event.addLevel sym u.level u.top
    | .update => Event.updateLevel sym u.level u.top
    | .delete => Event.deleteLevel sym u.level u.top
  (s.emit e).emit (.updateBook sym u.top)

/-- The result of a call of the order book: the changed heap, and `UpdateLevel` for bids and asks. -/
def after (s : HCore) (k : Kind) (r : Heap × LevelUpdate) : HCore :=
  let s := { s with heap := r.1 }
  if k.isLimit then s.updateLevel r.2 else s

/-- `switch (order_ptr->Type)` around `UpdateLevel(AddOrder)` / `AddStopOrder` / `AddTrailingStopOrder`
(market_manager.cpp:222, 315-318, 634-649, 767-783, 1436). -/
def link (s : HCore) (a : Nat) : Except Err HCore := do
  let n ← s.order a
  match n.order.kind with
  | none => .error .unsupported
  | some k => do
    let r ← s.heap.addOrder (s.col k) a
    .ok (s.after k r)

/-- `switch (order_ptr->Type)` around `UpdateLevel(DeleteOrder)` / `DeleteStopOrder` / `DeleteTrailingStopOrder`
(market_manager.cpp:590-606, 715-731, 836-852, 1386-1389, 1418-1421, 1699). -/
def unlink (s : HCore) (a : Nat) : Except Err HCore := do
  let n ← s.order a
  match n.order.kind with
  | none => .error .unsupported
  | some k => do
    let r ← s.heap.deleteOrder (s.col k) a
    .ok (s.after k r)

/-- The switch around `ReduceOrder` / `ReduceStopOrder` / `ReduceTrailingStopOrder`
(market_manager.cpp:495-511, 519-535, 924-941, 1015-1032). -/
def shrink (s : HCore) (a q h v : Nat) : Except Err HCore := do
  let n ← s.order a
  match n.order.kind with
  | none => .error .unsupported
  | some k => do
    let r ← s.heap.reduceOrder (s.col k) a q h v
    .ok (s.after k r)

/-- `UpdateLastPrice` + `UpdateMatchingPrice` (order_book.inl:138-152). -/
def setPrices (s : HCore) (side : Side) (price : Nat) : HCore :=
  match side with
  | .buy => { s with book := { s.book with lastBid := price, matchBid := price } }
  | .sell => { s with book := { s.book with lastAsk := price, matchAsk := price } }

/-- `ResetMatchingPrice` (order_book.inl:154-158). -/
def reset (s : HCore) : HCore := { s with book := { s.book with matchBid := 0, matchAsk := MAX64 } }

/-- The price of the best level of a collection of the book, if there is one. -/
def bestPrice (s : HCore) (k : Kind) : Except Err (Option Nat) := s.heap.bestPrice (s.col k)

/-- order_book.inl:110-115 `GetMarketPriceBid`. -/
def marketBid (s : HCore) : Except Err Nat := do
  let p ← s.bestPrice .bid
  .ok (max s.book.matchBid (p.getD 0))
/-- order_book.inl:117-122 `GetMarketPriceAsk`. -/
def marketAsk (s : HCore) : Except Err Nat := do
  let p ← s.bestPrice .ask
  .ok (min s.book.matchAsk (p.getD MAX64))
/-- order_book.inl:124-129 `GetMarketTrailingStopPriceBid`. -/
def marketTrailBid (s : HCore) : Except Err Nat := do
  let p ← s.bestPrice .bid
  .ok (min s.book.lastBid (p.getD 0))
/-- order_book.inl:131-136 `GetMarketTrailingStopPriceAsk`. -/
def marketTrailAsk (s : HCore) : Except Err Nat := do
  let p ← s.bestPrice .ask
  .ok (max s.book.lastAsk (p.getD MAX64))

/-- order_book.cpp:480-518 `CalculateTrailingStopPrice`. -/
def calcTrailing (s : HCore) (o : Order) : Except Err Nat := do
  let m ← (if o.isBuy then s.marketTrailAsk else s.marketTrailBid)
  .ok (trailPrice o m)

/-- market_manager.cpp:478-543, body of `ReduceOrder` after the checks. -/
def reduceBody (s : HCore) (id a qty : Nat) : Except Err HCore := do
  let n ← s.order a
  let q := min qty n.order.leaves
  let o' := { n.order with leaves := n.order.leaves - q }
  let s ← s.write a o'
  let s := s.emit (if o'.leaves > 0 then .updateOrder o' else .deleteOrder o')
  let s ← s.shrink a q (n.order.hiddenQty - o'.hiddenQty) (n.order.visibleQty - o'.visibleQty)
  if o'.leaves > 0 then .ok s else s.drop id a

/-- market_manager.cpp:452-555 `ReduceOrder(id, quantity, true)` as called from the matching functions. An order of another
symbol queued in this book would leave the one-book model, hence the error (unreachable). -/
def reduceRec (s : HCore) (id qty : Nat) : Except Err HCore :=
  if id = 0 ∨ qty = 0 then .ok s
  else match s.heap.orders id with
    | none => .ok s
    | some a => do
      let n ← s.order a
      if n.order.symbolId ≠ s.slot then .error .ub
      else do
        let s ← s.reduceBody id a qty
        .ok s.reset

/-- market_manager.cpp:835-862, body of `DeleteOrder` after the checks. -/
def deleteBody (s : HCore) (id a : Nat) : Except Err HCore := do
  let s ← s.unlink a
  let n ← s.order a
  (s.emit (.deleteOrder n.order)).drop id a

/-- market_manager.cpp:815-875 `DeleteOrder(id, true)` as called from the matching functions. -/
def deleteRec (s : HCore) (id : Nat) : Except Err HCore :=
  if id = 0 then .ok s
  else match s.heap.orders id with
    | none => .ok s
    | some a => do
      let n ← s.order a
      if n.order.symbolId ≠ s.slot then .error .ub
      else do
        let s ← s.deleteBody id a
        .ok s.reset

/-- The execution report of a resting order: `onExecuteOrder`, price updates, `ExecutedQuantity += quantity`
(market_manager.cpp:1124-1132, 1137-1145, 1270-1278, 1603-1611, 1622-1630). -/
def execResting (s : HCore) (a price qty : Nat) : Except Err HCore := do
  let n ← s.order a
  let s := (s.emit (.exec n.order price qty)).setPrices n.order.side price
  s.write a { n.order with executed := add64 n.order.executed qty }

/-- Execution of the incoming order (market_manager.cpp:1236-1248, 1283-1294). -/
def execTaker (s : HCore) (loc : Loc) (price qty : Nat) : Except Err HCore := do
  let t ← s.read loc
  let s := (s.emit (.exec t price qty)).setPrices t.side price
  s.store loc { t with executed := add64 t.executed qty, leaves := t.leaves - qty }

/-! ### Matching chains -/

/-- order_book.inl:62-76 `GetNextLevel`. -/
def nextLimit (s : HCore) (la : Nat) : Except Err (Option Nat) := do
  let l ← s.level la
  .ok (Heap.after (s.heap.tree (s.col (if l.isBid then .bid else .ask))) la)

/-- order_book.inl:94-108 `GetNextTrailingStopLevel`. -/
def nextTrail (s : HCore) (la : Nat) : Except Err (Option Nat) := do
  let l ← s.level la
  .ok (Heap.after (s.heap.tree (s.col (if l.isBid then .tSellStop else .tBuyStop))) la)

/-- `level_ptr->OrderList.front()`, if the level pointer is not null. -/
def front (s : HCore) : Option Nat → Except Err (Option Nat)
  | none => .ok none
  | some la => do
    let l ← s.level la
    .ok l.front

/-- market_manager.cpp:1470-1489, the inner loop of `CalculateMatchingChain(level, price, volume)` over the orders of one
level. -/
def chainOrders (s : HCore) (volume : Nat) : Nat → Option Nat → Nat → Except Err (Nat ⊕ Nat)
  | 0, _, _ => .error .outOfFuel
  | _ + 1, none, avail => .ok (.inl avail)
  | n + 1, some a, avail => do
    let x ← s.order a
    let need := sub64 volume avail
    let q := if x.order.isAON then x.order.leaves else min x.order.leaves need
    let avail' := add64 avail q
    if volume = avail' then .ok (.inr avail')
    else if volume < avail' then .ok (.inr 0)
    else chainOrders s volume n x.next avail'

/-- market_manager.cpp:1454-1497 `CalculateMatchingChain(level, price, volume)`. -/
def chainLevels (s : HCore) (price volume : Nat) : Nat → Option Nat → Nat → Except Err Nat
  | 0, _, _ => .error .outOfFuel
  | _ + 1, none, _ => .ok 0
  | n + 1, some la, avail => do
    let l ← s.level la
    if (if l.isBid then price ≤ l.price else l.price ≤ price) then
      match ← chainOrders s volume (l.count + 1) l.front avail with
      | .inr r => .ok r
      | .inl avail' => do
        let next ← s.nextLimit la
        chainLevels s price volume n next avail'
    else .ok 0

/-- market_manager.cpp:1529-1571, the loops of `CalculateMatchingChain(bid_level, ask_level)`, on `longest_level_ptr`,
`shortest_level_ptr`, `longest_order_ptr`, `shortest_order_ptr`. -/
def chainPair (s : HCore) : Nat → Option Nat → Option Nat → Option Nat → Option Nat → Nat → Nat → Except Err Nat
  | 0, _, _, _, _, _, _ => .error .outOfFuel
  | _ + 1, none, _, _, _, _, _ => .ok 0
  | _ + 1, some _, none, _, _, _, _ => .ok 0
  | n + 1, some ll, some sl, some lo, some so, req, avail => do
    let x ← s.order so
    let need := sub64 req avail
    let q := if x.order.isAON then x.order.leaves else min x.order.leaves need
    let avail' := add64 avail q
    if req = avail' then .ok req
    else if req < avail' then do
      let y ← s.order lo
      chainPair s n (some ll) (some sl) (some so) y.next avail' req
    else chainPair s n (some ll) (some sl) (some lo) x.next req avail'
  | n + 1, some ll, some sl, none, none, req, avail => do
    let ll ← s.nextLimit ll
    let lo ← s.front ll
    let sl ← s.nextLimit sl
    let so ← s.front sl
    chainPair s n ll sl lo so req avail
  | n + 1, some ll, some sl, none, some so, req, avail => do
    let ll ← s.nextLimit ll
    let lo ← s.front ll
    chainPair s n ll (some sl) lo (some so) req avail
  | n + 1, some ll, some sl, some lo, none, req, avail => do
    let sl ← s.nextLimit sl
    let so ← s.front sl
    chainPair s n (some ll) sl (some lo) so req avail

/-- Loop bound of the model: the orders and levels of a tree. -/
def sizeOf (s : HCore) (k : Kind) : Nat := s.heap.countOf (s.heap.tree (s.col k)) + (s.heap.tree (s.col k)).length

/-- market_manager.cpp:1499-1575 `CalculateMatchingChain(bid_level, ask_level)`. -/
def chainCross (s : HCore) (bl al : Nat) : Except Err Nat := do
  let bf ← s.front (some bl)
  let af ← s.front (some al)
  let bo ← Heap.deref bf
  let ao ← Heap.deref af
  let b ← s.order bo
  let a ← s.order ao
  let fuel := s.sizeOf .bid + s.sizeOf .ask + 1
  if b.order.isAON && a.order.isAON then
    if a.order.leaves > b.order.leaves then chainPair s fuel (some al) (some bl) af bf a.order.leaves 0
    else chainPair s fuel (some bl) (some al) bf af b.order.leaves 0
  else if a.order.isAON then chainPair s fuel (some al) (some bl) af bf a.order.leaves 0
  else chainPair s fuel (some bl) (some al) bf af b.order.leaves 0

/-- market_manager.cpp:1595-1636, one execution inside `ExecuteMatchingChain`. Returns the executed quantity. -/
def execChainOrder (s : HCore) (a price volume : Nat) : Except Err (HCore × Nat) := do
  let n ← s.order a
  if n.order.isAON then do
    let s ← s.execResting a price n.order.leaves
    let n' ← s.order a
    let s ← s.deleteRec n'.order.id
    .ok (s, n.order.leaves)
  else do
    let s ← s.execResting a price (min n.order.leaves volume)
    let n' ← s.order a
    let s ← s.reduceRec n'.order.id (min n.order.leaves volume)
    .ok (s, min n.order.leaves volume)

/-- market_manager.cpp:1589-1639, the inner loop of `ExecuteMatchingChain`. -/
def execChainIds (price : Nat) : Nat → Option Nat → HCore → Nat → Except Err (HCore × Nat)
  | 0, _, _, _ => .error .outOfFuel
  | _ + 1, none, s, volume => .ok (s, volume)
  | n + 1, some a, s, volume =>
    if volume = 0 then .ok (s, volume)
    else do
      let x ← s.order a
      let (s, q) ← s.execChainOrder a price volume
      execChainIds price n x.next s (sub64 volume q)

/-- market_manager.cpp:1577-1644 `ExecuteMatchingChain`. -/
def execChain (price : Nat) : Nat → Option Nat → HCore → Nat → Except Err HCore
  | 0, _, _, _ => .error .outOfFuel
  | _ + 1, none, s, _ => .ok s
  | n + 1, some la, s, volume =>
    if volume = 0 then .ok s
    else do
      let next ← s.nextLimit la
      let l ← s.level la
      let (s, volume) ← execChainIds price (l.count + 1) l.front s volume
      execChain price n next s volume

/-! ### Matching an incoming order -/

/-- market_manager.cpp:1255-1299, the inner loop of `MatchOrder`. The Boolean is `true` when the C++ function returns. -/
def matchLevel (loc : Loc) : Nat → Option Nat → HCore → Except Err (HCore × Bool)
  | 0, _, _ => .error .outOfFuel
  | _ + 1, none, s => .ok (s, false)
  | n + 1, some a, s => do
    let x ← s.order a
    let t ← s.read loc
    let q := min x.order.leaves t.leaves
    if x.order.isAON && decide (x.order.leaves > t.leaves) then .ok (s, true)
    else
      let s ← s.execResting a x.order.price q
      let x' ← s.order a
      let s ← s.reduceRec x'.order.id q
      let s ← s.execTaker loc x.order.price q
      let t ← s.read loc
      if t.leaves = 0 then .ok (s, true)
      else matchLevel loc n x.next s

/-- market_manager.cpp:1210-1301 `MatchOrder`. -/
def matchOrderN (loc : Loc) : Nat → HCore → Except Err HCore
  | 0, _ => .error .outOfFuel
  | n + 1, s => do
    let t ← s.read loc
    match s.heap.best (s.col (Core.oppKind t)) with
    | none => .ok s
    | some la => do
      let l ← s.level la
      if Core.reaches t l.price then
        if t.isFOK || t.isAON then do
          let fuel := (s.heap.tree (s.col (Core.oppKind t))).length + 1
          let chain ← chainLevels s t.price t.leaves fuel (some la) 0
          if chain = 0 then .ok s
          else do
            let s ← execChain t.price fuel (some la) s chain
            let t ← s.read loc
            s.execTaker loc t.price t.leaves
        else do
          let (s, ret) ← matchLevel loc (l.count + 1) l.front s
          if ret then .ok s else matchOrderN loc n s
      else .ok s

/-- Loop bound of the model: the number of orders of a collection. -/
def kindCount (s : HCore) (k : Kind) : Nat := s.heap.countOf (s.heap.tree (s.col k))

/-- `MatchOrder(order_book_ptr, order_ptr)`. -/
def matchOrder (s : HCore) (loc : Loc) : Except Err HCore := do
  let t ← s.read loc
  matchOrderN loc (s.kindCount (Core.oppKind t) + 1) s

/-- market_manager.cpp:1172-1202 `MatchMarket`: store the price limit and match. -/
def matchMarket (s : HCore) (loc : Loc) : Except Err HCore := do
  let t ← s.read loc
  if t.isBuy then do
    match ← s.bestPrice .ask with
    | none => .ok s
    | some p => do
      let s ← s.store loc { t with price := if p > MAX64 - t.slippage then MAX64 else p + t.slippage }
      s.matchOrder loc
  else do
    match ← s.bestPrice .bid with
    | none => .ok s
    | some p => do
      let s ← s.store loc { t with price := if p < t.slippage then 0 else p - t.slippage }
      s.matchOrder loc

/-! ### Stop orders -/

/-- market_manager.cpp:1383-1413 `ActivateStopOrder`. -/
def activateStop (s : HCore) (a : Nat) : Except Err HCore := do
  let s ← s.unlink a
  let n ← s.order a
  let s ← s.write a (Core.toMarket n.order)
  let s := s.emit (.updateOrder (Core.toMarket n.order))
  let s ← s.matchMarket (.node a)
  let n ← s.order a
  let s := s.emit (.deleteOrder n.order)
  s.dropFound a

/-- market_manager.cpp:1415-1452 `ActivateStopLimitOrder`. -/
def activateStopLimit (s : HCore) (a : Nat) : Except Err HCore := do
  let s ← s.unlink a
  let n ← s.order a
  let s ← s.write a (Core.toLimit n.order)
  let s := s.emit (.updateOrder (Core.toLimit n.order))
  let s ← s.matchOrder (.node a)
  let n ← s.order a
  if n.order.leaves > 0 && !n.order.isIOC && !n.order.isFOK then s.link a
  else (s.emit (.deleteOrder n.order)).dropFound a

/-- market_manager.cpp:1358-1373, dispatch on the order type. -/
def activateOrder (s : HCore) (a : Nat) : Except Err HCore := do
  let n ← s.order a
  match n.order.type with
  | .stop | .trailingStop => s.activateStop a
  | .stopLimit | .trailingStopLimit => s.activateStopLimit a
  | _ => .error .unsupported

/-- market_manager.cpp:1350-1377, the loop over the orders of the level. -/
def activateIds : Nat → Option Nat → HCore → Bool → Except Err (HCore × Bool)
  | 0, _, _, _ => .error .outOfFuel
  | _ + 1, none, s, r => .ok (s, r)
  | n + 1, some a, s, _ => do
    let x ← s.order a
    let s ← s.activateOrder a
    activateIds n x.next s true

/-- market_manager.cpp:1338-1381 `ActivateStopOrders(level, stop_price)` called on the best level of collection `k`. -/
def activateLevel (s : HCore) (k : Kind) (stopPrice : Nat) : Except Err (HCore × Bool) :=
  match s.heap.best (s.col k) with
  | none => .ok (s, false)
  | some la => do
    let l ← s.level la
    if (if l.isBid then stopPrice ≤ l.price else l.price ≤ stopPrice) then
      activateIds (l.count + 1) l.front s false
    else .ok (s, false)

/-- market_manager.cpp:1684-1724, the loop over the orders of one trailing level; the Boolean is `recalculated`. -/
def recalcIds : Nat → Option Nat → HCore → Bool → Except Err (HCore × Bool)
  | 0, _, _, _ => .error .outOfFuel
  | _ + 1, none, s, r => .ok (s, r)
  | n + 1, some a, s, r => do
    let x ← s.order a
    let p ← s.calcTrailing x.order
    if p ≠ x.order.stopPrice then do
      let s ← s.unlink a
      let y ← s.order a
      let s ← s.write a (Core.retrail y.order p)
      let s := s.emit (.updateOrder (Core.retrail y.order p))
      let s ← s.link a
      recalcIds n x.next s true
    else recalcIds n x.next s r

/-- market_manager.cpp:1674-1738, the level loop on the pointers `previous` and `current`. Simplification: `level_ptr->Type`
is read once by the caller and not again when the walk returns to the best level. -/
def recalcLoop (k : Kind) : Nat → HCore → Option Nat → Option Nat → Except Err HCore
  | 0, _, _, _ => .error .outOfFuel
  | _ + 1, s, _, none => .ok s
  | n + 1, s, prev, some c => do
    let l ← s.level c
    let (s, r) ← recalcIds (l.count + 1) l.front s false
    if r then
      recalcLoop k n s prev (match prev with | some p => some p | none => s.heap.best (s.col k))
    else do
      let next ← s.nextTrail c
      recalcLoop k n s (some c) next

/-- Iteration bound of `recalcLoop`. -/
def recalcFuel (s : HCore) (k : Kind) : Nat := (s.kindCount k + 1) * (s.kindCount k + 2) + 1

/-- market_manager.cpp:1646-1739 `RecalculateTrailingStopPrice(_best_ask)`. -/
def recalcBuy (s : HCore) : Except Err HCore :=
  match s.heap.best (s.col .ask) with
  | none => .ok s
  | some _ => do
    let old := s.book.trailAsk
    let new ← s.marketTrailAsk
    let s := { s with book := { s.book with trailAsk := new } }
    if new ≥ old then .ok s
    else recalcLoop .tBuyStop (s.recalcFuel .tBuyStop) s none (s.heap.best (s.col .tBuyStop))

/-- market_manager.cpp:1646-1739 `RecalculateTrailingStopPrice(_best_bid)`. -/
def recalcSell (s : HCore) : Except Err HCore :=
  match s.heap.best (s.col .bid) with
  | none => .ok s
  | some _ => do
    let old := s.book.trailBid
    let new ← s.marketTrailBid
    let s := { s with book := { s.book with trailBid := new } }
    if new ≤ old then .ok s
    else recalcLoop .tSellStop (s.recalcFuel .tSellStop) s none (s.heap.best (s.col .tSellStop))

/-- Two `ActivateStopOrders` calls joined by `||` (market_manager.cpp:1313-1314, 1324-1325). -/
def activateEither (s : HCore) (k₁ k₂ : Kind) (price : HCore → Except Err Nat) : Except Err (HCore × Bool) := do
  let p ← price s
  let (s, r) ← s.activateLevel k₁ p
  if r then .ok (s, true)
  else do
    let p ← price s
    s.activateLevel k₂ p

/-- market_manager.cpp:1303-1336 `ActivateStopOrders(book)`, the `while (!stop)` loop; `res` is `result`. -/
def activateLoop : Nat → HCore → Bool → Except Err (HCore × Bool)
  | 0, _, _ => .error .outOfFuel
  | n + 1, s, res => do
    let (s, r₁) ← s.activateEither .buyStop .tBuyStop marketAsk
    let s ← s.recalcBuy
    let (s, r₂) ← s.activateEither .sellStop .tSellStop marketBid
    let s ← s.recalcSell
    if r₁ || r₂ then activateLoop n s true else .ok (s, res)

/-- Loop bound of the model: the number of stop orders of the book. -/
def stopCount (s : HCore) : Nat :=
  s.kindCount .buyStop + s.kindCount .sellStop + s.kindCount .tBuyStop + s.kindCount .tSellStop

/-- `ActivateStopOrders(book)`. -/
def activateAll (s : HCore) : Except Err (HCore × Bool) := activateLoop (s.stopCount + 1) s false

/-! ### Matching the book -/

/-- market_manager.cpp:1115-1154: execute one crossed pair without All-Or-None orders: the executing order `e` (of quantity
`q` and price `p`) is deleted, the reducing order `r` reduced. -/
def matchPair (s : HCore) (e r p q : Nat) : Except Err HCore := do
  let s ← s.execResting e p q
  let x ← s.order e
  let s ← s.deleteRec x.order.id
  let s ← s.execResting r p q
  let y ← s.order r
  s.reduceRec y.order.id q

/-- market_manager.cpp:1087-1159, the loop over pairs of orders from the best bid level `bl` and the best ask level `al`. The
Boolean is `true` when `Match` returns. -/
def matchPairs (bl al : Nat) : Nat → Option Nat → Option Nat → HCore → Except Err (HCore × Bool)
  | 0, _, _, _ => .error .outOfFuel
  | n + 1, some bid, some ask, s => do
    let b ← s.order bid
    let a ← s.order ask
    if b.order.isAON || a.order.isAON then do
      let chain ← chainCross s bl al
      let bf := (s.heap.tree (s.col .bid)).length + 1
      let af := (s.heap.tree (s.col .ask)).length + 1
      if chain = 0 then .ok (s, true)
      else if b.order.isAON then do
        let s ← execChain b.order.price bf (some bl) s chain
        let s ← execChain b.order.price af (some al) s chain
        .ok (s, false)
      else do
        let s ← execChain a.order.price af (some al) s chain
        let s ← execChain a.order.price bf (some bl) s chain
        .ok (s, false)
    else do
      let s ← (if b.order.leaves > a.order.leaves then s.matchPair ask bid a.order.price a.order.leaves
        else s.matchPair bid ask b.order.price b.order.leaves)
      matchPairs bl al n b.next a.next s
  | _ + 1, _, _, s => .ok (s, false)

/-- market_manager.cpp:1072-1079: the best levels, if they are crossed. -/
def crossed (s : HCore) : Except Err (Option (Nat × Nat)) :=
  match s.heap.best (s.col .bid), s.heap.best (s.col .ask) with
  | some bl, some al => do
    let b ← s.level bl
    let a ← s.level al
    .ok (if a.price ≤ b.price then some (bl, al) else none)
  | _, _ => .ok none

/-- market_manager.cpp:1069-1169 `Match(book)`, as one recursion (see `Core.matchBookN`). -/
def matchBookN : Nat → HCore → Except Err HCore
  | 0, _ => .error .outOfFuel
  | n + 1, s => do
    match ← s.crossed with
    | some (bl, al) => do
      let b ← s.level bl
      let a ← s.level al
      let (s, ret) ← matchPairs bl al (b.count + 1) b.front a.front s
      if ret then .ok s
      else do
        let p ← s.marketAsk
        let (s, _) ← s.activateLevel .buyStop p
        let p ← s.marketBid
        let (s, _) ← s.activateLevel .sellStop p
        matchBookN n s
    | none => do
      let (s, r) ← s.activateAll
      if r then matchBookN n s else .ok s

/-- Loop bound of the model: the volume of a collection. -/
def kindVolume (s : HCore) (k : Kind) : Nat := s.heap.volumeOf (s.heap.tree (s.col k))
/-- Iteration bound of `Match`. -/
def matchFuel (s : HCore) : Nat :=
  s.kindVolume .bid + s.kindVolume .ask + s.kindVolume .buyStop + s.kindVolume .sellStop +
  s.kindVolume .tBuyStop + s.kindVolume .tSellStop + s.stopCount + 1

/-- `Match(order_book_ptr)`. -/
def matchBook (s : HCore) : Except Err HCore := matchBookN s.matchFuel s

end HCore
end CppTrader
