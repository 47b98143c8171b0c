import Verif.Model.HeapEngine
/-
The public functions of `MarketManager` on the pointers of `Verif/Model/Heap.lean`; compare `Verif/Model/Manager.lean`.
-/

namespace CppTrader
namespace HCore

/-- The common tail of the order operations: `if (_matching && !recursive) Match(...)` followed by `ResetMatchingPrice()`
(e.g. market_manager.cpp:179-184). -/
def finish (m : Bool) (s : HCore) : Except Err (HCore × ErrorCode) := do
  let s ← if m then s.matchBook else .ok s
  .ok (s.reset, .ok)

/-- `_orders.insert(...)` of an order node with its failure branch, then queueing in the book (market_manager.cpp:209-222,
301-318, 388-401, 428-445, 755-783). -/
def insertNode (m : Bool) (s : HCore) (a : Nat) : Except Err (HCore × ErrorCode) := do
  let n ← s.order a
  match s.heap.orders n.order.id with
  | some _ => do
    let s := s.emit (.deleteOrder n.order)
    let h ← s.heap.releaseOrder a
    .ok ({ s with heap := h }, .orderDuplicate)
  | none => do
    let s := { s with heap := s.heap.insert n.order.id a }
    let s ← s.link a
    s.finish m

/-- `_order_pool.Create(new_order)` and its insertion (market_manager.cpp:206-222, 298-318, 385-401, 425-445). -/
def insertNew (m : Bool) (s : HCore) : Except Err (HCore × ErrorCode) :=
  let (h, a) := s.heap.createOrder s.temp
  insertNode m { s with heap := h } a

/-- Optional matching: `if (_matching && !recursive) MatchLimit(...)`. -/
def matchIf (m : Bool) (s : HCore) (loc : Loc) : Except Err HCore := if m then s.matchOrder loc else .ok s

/-- market_manager.cpp:160-187 `AddMarketOrder`. -/
def addMarket (m : Bool) (s : HCore) (o : Order) : Except Err (HCore × ErrorCode) := do
  let s := { s with temp := o }
  let s := s.emit (.addOrder s.temp)
  let s ← if m then s.matchMarket .temp else .ok s
  (s.emit (.deleteOrder s.temp)).finish m

/-- market_manager.cpp:203-232, 378-411: rest or cancel the remainder of a limit order. -/
def restOrCancel (m : Bool) (s : HCore) : Except Err (HCore × ErrorCode) :=
  if s.temp.leaves > 0 && !s.temp.isIOC && !s.temp.isFOK then s.insertNew m
  else (s.emit (.deleteOrder s.temp)).finish m

/-- market_manager.cpp:189-240 `AddLimitOrder`. -/
def addLimit (m : Bool) (s : HCore) (o : Order) : Except Err (HCore × ErrorCode) := do
  let s := { s with temp := o }
  let s := s.emit (.addOrder s.temp)
  let s ← s.matchIf m .temp
  s.restOrCancel m

/-- market_manager.cpp:259-263, 363-367: is the stop price already reached by the market? -/
def triggered (s : HCore) (o : Order) : Except Err Bool :=
  if o.isBuy then do
    let p ← s.marketAsk
    .ok (decide (o.stopPrice ≤ p))
  else do
    let p ← s.marketBid
    .ok (decide (o.stopPrice ≥ p))

/-- market_manager.cpp:251-253, 343-349: initial trailing stop price. -/
def initTrailing (s : HCore) (o : Order) : Except Err Order :=
  if o.isTrailing then do
    let p ← s.calcTrailing o
    .ok (Core.retrail o p)
  else .ok o

/-- market_manager.cpp:291-326, 418-447: queue a stop order. -/
def restStop (m : Bool) (s : HCore) : Except Err (HCore × ErrorCode) :=
  if s.temp.leaves > 0 then s.insertNew m
  else (s.emit (.deleteOrder s.temp)).finish m

/-- market_manager.cpp:242-332 `AddStopOrder`. -/
def addStop (m : Bool) (s : HCore) (o : Order) : Except Err (HCore × ErrorCode) := do
  let o ← s.initTrailing o
  let s := { s with temp := o }
  let s := s.emit (.addOrder s.temp)
  if m then do
    let r ← s.triggered s.temp
    if r then do
      let s := { s with temp := Core.toMarket s.temp }
      let s := s.emit (.updateOrder s.temp)
      let s ← s.matchMarket .temp
      (s.emit (.deleteOrder s.temp)).finish m
    else s.restStop m
  else s.restStop m

/-- market_manager.cpp:334-450 `AddStopLimitOrder`. -/
def addStopLimit (m : Bool) (s : HCore) (o : Order) : Except Err (HCore × ErrorCode) := do
  let o ← s.initTrailing o
  let s := { s with temp := o }
  let s := s.emit (.addOrder s.temp)
  if m then do
    let r ← s.triggered s.temp
    if r then do
      let s := { s with temp := Core.toLimit s.temp }
      let s := s.emit (.updateOrder s.temp)
      let s ← s.matchOrder .temp
      s.restOrCancel m
    else s.restStop m
  else s.restStop m

/-- market_manager.cpp:142-157, dispatch of `AddOrder` on the order type. -/
def addAny (m : Bool) (s : HCore) (o : Order) : Except Err (HCore × ErrorCode) :=
  match o.type with
  | .market => s.addMarket m o
  | .limit => s.addLimit m o
  | .stop | .trailingStop => s.addStop m o
  | .stopLimit | .trailingStopLimit => s.addStopLimit m o

/-- market_manager.cpp:478-554 `ReduceOrder`, after the checks. -/
def reduceOp (m : Bool) (s : HCore) (id a qty : Nat) : Except Err (HCore × ErrorCode) := do
  let s ← s.reduceBody id a qty
  s.finish m

/-- market_manager.cpp:658-665: an order with nothing left is reported, erased and released. -/
def dropEmpty (m : Bool) (s : HCore) (id a : Nat) : Except Err (HCore × ErrorCode) := do
  let n ← s.order a
  let s ← (s.emit (.deleteOrder n.order)).drop id a
  s.finish m

/-- market_manager.cpp:589-677 `ModifyOrder`, after the checks. -/
def modifyOp (m : Bool) (s : HCore) (id a price qty : Nat) (mitigate : Bool) : Except Err (HCore × ErrorCode) := do
  let s ← s.unlink a
  let n ← s.order a
  let t := Core.modified n.order price qty mitigate
  let s ← s.write a t
  if t.leaves > 0 then do
    let s := s.emit (.updateOrder t)
    let s ← s.matchIf m (.node a)
    let n ← s.order a
    if n.order.leaves > 0 then do
      let s ← s.link a
      s.finish m
    else s.dropEmpty m id a
  else s.dropEmpty m id a

/-- market_manager.cpp:714-801 `ReplaceOrder(id, new_id, …)`, after the checks: the node is erased from the map and used
again for the new order. -/
def replaceOp (m : Bool) (s : HCore) (id a newId price qty : Nat) : Except Err (HCore × ErrorCode) := do
  let s ← s.unlink a
  let n ← s.order a
  let s := s.emit (.deleteOrder n.order)
  let s := { s with heap := s.heap.erase id }
  let t := { n.order with id := newId, price := price, quantity := qty, executed := 0, leaves := qty }
  let s ← s.write a t
  let s := s.emit (.addOrder t)
  let s ← s.matchIf m (.node a)
  let n ← s.order a
  if n.order.leaves > 0 then s.insertNode m a
  else do
    let s := s.emit (.deleteOrder n.order)
    let h ← s.heap.releaseOrder a
    finish m { s with heap := h }

/-- market_manager.cpp:835-874 `DeleteOrder`, after the checks. -/
def deleteOp (m : Bool) (s : HCore) (id a : Nat) : Except Err (HCore × ErrorCode) := do
  let s ← s.deleteBody id a
  s.finish m

/-- market_manager.cpp:900-965 and 991-1056, both `ExecuteOrder` overloads after the checks. -/
def executeOp (m : Bool) (s : HCore) (id a price qty : Nat) : Except Err (HCore × ErrorCode) := do
  let n ← s.order a
  let q := min qty n.order.leaves
  let s := (s.emit (.exec n.order price q)).setPrices n.order.side price
  let o' := { n.order with executed := add64 n.order.executed q, leaves := n.order.leaves - q }
  let s ← s.write a o'
  let s ← s.shrink a q (n.order.hiddenQty - o'.hiddenQty) (n.order.visibleQty - o'.visibleQty)
  if o'.leaves > 0 then (s.emit (.updateOrder o')).finish m
  else do
    let s ← (s.emit (.deleteOrder o')).drop id a
    s.finish m

end HCore

/-- market_manager.h:226-291, the manager; `temp` stands for the memory of the local variable `new_order`. -/
structure HMgr where
  symbols : List (Option Symbol)
  books : List (Option HBook)
  heap : Heap
  matching : Bool
  temp : Order
  ev : List Event

namespace HMgr

/-- market_manager.inl:14-32, constructor (`x`: what the memory of `new_order` happens to contain; `po`, `pl`: the pools). -/
def init (x : Order) (po pl : Pool) : HMgr := ⟨[], [], Heap.empty po pl, false, x, []⟩

def emit (s : HMgr) (e : Event) : HMgr := { s with ev := s.ev ++ [e] }

/-- market_manager.cpp:36-59 `AddSymbol`. -/
def addSymbol (s : HMgr) (sym : Symbol) : Except Err (HMgr × ErrorCode) :=
  let v := if s.symbols.length ≤ sym.id then resizeTo s.symbols ((sym.id + 1) % 4294967296) else s.symbols
  match v[sym.id]? with
  | none => .error .ub
  | some (some _) => .ok ({ s with symbols := v }, .symbolDuplicate)
  | some none => .ok (({ s with symbols := v.set sym.id (some sym) }).emit (.addSymbol sym), .ok)

/-- market_manager.cpp:61-80 `DeleteSymbol`. -/
def deleteSymbol (s : HMgr) (id : Nat) : Except Err (HMgr × ErrorCode) :=
  match slot s.symbols id with
  | none => .ok (s, .symbolNotFound)
  | some sym => .ok ({ (s.emit (.deleteSymbol sym)) with symbols := s.symbols.set id none }, .ok)

/-- market_manager.cpp:82-112 `AddOrderBook`: a book without levels. -/
def addOrderBook (s : HMgr) (sym : Symbol) : Except Err (HMgr × ErrorCode) :=
  match slot s.symbols sym.id with
  | none => .ok (s, .symbolNotFound)
  | some reg =>
    let v := if s.books.length ≤ sym.id then resizeTo s.books ((sym.id + 1) % 4294967296) else s.books
    match v[sym.id]? with
    | none => .error .ub
    | some (some _) => .ok ({ s with books := v }, .orderBookDuplicate)
    | some none => .ok (({ s with books := v.set sym.id (some (HBook.new reg)) }).emit (.addBook reg), .ok)

/-- order_book.cpp:35-37 etc.: `for (auto& level : levels) _level_pool.Release(&level)`. Simplification: the levels to be
released are collected before the first release. The C++ loop steps its iterator after the release of the level it stands
on, so it reads the tree links of a node just returned to the pool; the memory pool of CppCommon, which is not in this
repository, keeps that memory. -/
def releaseAll : List Nat → Heap → Except Err Heap
  | [], h => .ok h
  | a :: as, h => do
    let h ← h.releaseLevel a
    releaseAll as h

/-- order_book.cpp:35-38 etc.: release the levels of one tree and clear it. The best pointer disappears with the book. -/
def clear (h : Heap) (x : Col) : Except Err Heap := do
  let h ← releaseAll (h.tree x) h
  .ok { h with tree := setX h.tree x [], best := setX h.best x none }

/-- order_book.cpp:33-64 `~OrderBook`. -/
def destroyBook (h : Heap) (i : Nat) : Except Err Heap := do
  let h ← clear h (i, .bid)
  let h ← clear h (i, .ask)
  let h ← clear h (i, .buyStop)
  let h ← clear h (i, .sellStop)
  let h ← clear h (i, .tBuyStop)
  clear h (i, .tSellStop)

/-- market_manager.cpp:19-20: `for (order : _orders) _order_pool.Release(order.second)`, where `ids` are the keys of the
map in the order the iterator meets them. -/
def releaseOrders : List Nat → Heap → Except Err Heap
  | [], h => .ok h
  | i :: is, h => do
    let a ← Heap.deref (h.orders i)
    let h ← h.releaseOrder a
    releaseOrders is h

/-- market_manager.cpp:24-26: the order books of the slots `is` are destroyed. -/
def destroyBooks (books : List (Option HBook)) : List Nat → Heap → Except Err Heap
  | [], h => .ok h
  | i :: is, h => do
    let h ← if (slot books i).isSome then destroyBook h i else .ok h
    destroyBooks books is h

/-- market_manager.cpp:16-34 `~MarketManager`: the nodes left in the pools. -/
def destroy (s : HMgr) (ids : List Nat) : Except Err Heap := do
  let h ← releaseOrders ids s.heap
  destroyBooks s.books (List.range s.books.length) { h with orders := fun _ => none }

/-- market_manager.cpp:114-133 `DeleteOrderBook`. The orders stay in `_orders`, with pointers to released levels. -/
def deleteOrderBook (s : HMgr) (id : Nat) : Except Err (HMgr × ErrorCode) :=
  match slot s.books id with
  | none => .ok (s, .orderBookNotFound)
  | some b => do
    let s := s.emit (.deleteBook b.symbol)
    let h ← destroyBook s.heap id
    .ok ({ s with books := s.books.set id none, heap := h }, .ok)

/-- Run an operation on the book of symbol `sym` and write the result back. -/
def onBook (s : HMgr) (sym : Nat) (f : HCore → Except Err (HCore × ErrorCode)) : Except Err (HMgr × ErrorCode) :=
  match slot s.books sym with
  | none => .ok (s, .orderBookNotFound)
  | some b => do
    let (c, e) ← f ⟨s.heap, sym, b, s.temp, s.ev⟩
    .ok ({ s with heap := c.heap, books := s.books.set sym (some c.book), temp := c.temp, ev := c.ev }, e)

/-- market_manager.cpp:135-158 `AddOrder`. -/
def addOrder (s : HMgr) (o : Order) : Except Err (HMgr × ErrorCode) :=
  if o.validate ≠ .ok then .ok (s, o.validate)
  else s.onBook o.symbolId (fun c => c.addAny s.matching o)

/-- `_orders.find(id)` and `GetOrderBook(order_ptr->SymbolId)` (e.g. market_manager.cpp:467-476). -/
def onOrder (s : HMgr) (id : Nat) (f : Nat → ONode → HCore → Except Err (HCore × ErrorCode)) : Except Err (HMgr × ErrorCode) :=
  match s.heap.orders id with
  | none => .ok (s, .orderNotFound)
  | some a => do
    let n ← s.heap.order a
    s.onBook n.order.symbolId (f a n)

/-- market_manager.cpp:452-555 `ReduceOrder`. -/
def reduceOrder (s : HMgr) (id qty : Nat) : Except Err (HMgr × ErrorCode) :=
  if id = 0 then .ok (s, .orderIdInvalid)
  else if qty = 0 then .ok (s, .orderQuantityInvalid)
  else s.onOrder id (fun a _ c => c.reduceOp s.matching id a qty)

/-- market_manager.cpp:557-678 `ModifyOrder` / `MitigateOrder`. -/
def modifyOrder (s : HMgr) (id price qty : Nat) (mitigate : Bool) : Except Err (HMgr × ErrorCode) :=
  if id = 0 then .ok (s, .orderIdInvalid)
  else if qty = 0 then .ok (s, .orderQuantityInvalid)
  else s.onOrder id (fun a _ c => c.modifyOp s.matching id a price qty mitigate)

/-- market_manager.cpp:680-802 `ReplaceOrder(id, new_id, new_price, new_quantity)`. -/
def replaceOrder (s : HMgr) (id newId price qty : Nat) : Except Err (HMgr × ErrorCode) :=
  if id = 0 then .ok (s, .orderIdInvalid)
  else if newId = 0 then .ok (s, .orderIdInvalid)
  else if qty = 0 then .ok (s, .orderQuantityInvalid)
  else match s.heap.orders id with
    | none => .ok (s, .orderNotFound)
    | some a => do
      let n ← s.heap.order a
      if n.order.isLimit then s.onBook n.order.symbolId (fun c => c.replaceOp s.matching id a newId price qty)
      else .ok (s, .orderTypeInvalid)

/-- market_manager.cpp:815-875 `DeleteOrder`. -/
def deleteOrder (s : HMgr) (id : Nat) : Except Err (HMgr × ErrorCode) :=
  if id = 0 then .ok (s, .orderIdInvalid)
  else s.onOrder id (fun a _ c => c.deleteOp s.matching id a)

/-- market_manager.cpp:804-813 `ReplaceOrder(id, new_order)`. -/
def replaceWith (s : HMgr) (id : Nat) (o : Order) : Except Err (HMgr × ErrorCode) := do
  let (s, e) ← s.deleteOrder id
  if e ≠ .ok then .ok (s, e) else s.addOrder o

/-- market_manager.cpp:877-966 `ExecuteOrder(id, quantity)`: at the order's own price. -/
def executeOrder (s : HMgr) (id qty : Nat) : Except Err (HMgr × ErrorCode) :=
  if id = 0 then .ok (s, .orderIdInvalid)
  else if qty = 0 then .ok (s, .orderQuantityInvalid)
  else s.onOrder id (fun a n c => c.executeOp s.matching id a n.order.price qty)

/-- market_manager.cpp:968-1057 `ExecuteOrder(id, price, quantity)`. -/
def executeOrderAt (s : HMgr) (id price qty : Nat) : Except Err (HMgr × ErrorCode) :=
  if id = 0 then .ok (s, .orderIdInvalid)
  else if qty = 0 then .ok (s, .orderQuantityInvalid)
  else s.onOrder id (fun a _ c => c.executeOp s.matching id a price qty)

/-- `Match(order_book_ptr)` for the book in slot `i`, if any. -/
def matchAt (s : HMgr) (i : Nat) : Except Err HMgr :=
  match slot s.books i with
  | none => .ok s
  | some b => do
    let c ← HCore.matchBook ⟨s.heap, i, b, s.temp, s.ev⟩
    .ok { s with heap := c.heap, books := s.books.set i (some c.book), temp := c.temp, ev := c.ev }

/-- market_manager.cpp:1059-1064 `Match()`. -/
def matchFrom : List Nat → HMgr → Except Err HMgr
  | [], s => .ok s
  | i :: is, s => do
    let s ← s.matchAt i
    matchFrom is s
def matchAll (s : HMgr) : Except Err HMgr := matchFrom (List.range s.books.length) s

/-- One public call. -/
def step (s : HMgr) : Op → Except Err (HMgr × ErrorCode)
  | .addSymbol x => s.addSymbol x
  | .deleteSymbol id => s.deleteSymbol id
  | .addOrderBook x => s.addOrderBook x
  | .deleteOrderBook id => s.deleteOrderBook id
  | .addOrder o => s.addOrder o
  | .reduceOrder id q => s.reduceOrder id q
  | .modifyOrder id p q => s.modifyOrder id p q false
  | .mitigateOrder id p q => s.modifyOrder id p q true
  | .replaceOrder id n p q => s.replaceOrder id n p q
  | .replaceWith id o => s.replaceWith id o
  | .deleteOrder id => s.deleteOrder id
  | .executeOrder id q => s.executeOrder id q
  | .executeOrderAt id p q => s.executeOrderAt id p q
  | .enableMatching => do
    let s ← ({ s with matching := true }).matchAll
    .ok (s, .ok)
  | .disableMatching => .ok ({ s with matching := false }, .ok)
  | .matchAll => do
    let s ← s.matchAll
    .ok (s, .ok)

/-- A history: the calls in order, with their result codes. -/
def run : HMgr → List Op → Except Err (HMgr × List ErrorCode)
  | s, [] => .ok (s, [])
  | s, op :: ops => do
    let (s, e) ← s.step op
    let (s, es) ← run s ops
    .ok (s, e :: es)

end HMgr
end CppTrader
