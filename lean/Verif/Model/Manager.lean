import Verif.Model.Engine
/-
Model of the public API of `MarketManager`: source/trader/matching/market_manager.cpp,
include/trader/matching/market_manager.h and market_manager.inl.
-/

namespace CppTrader
namespace Core

/-! ### Order operations on one book. `m` is `_matching`; the public functions pass
`recursive = false`. -/

/-- The common tail of the order operations: `if (_matching && !recursive) Match(...)` followed by
`ResetMatchingPrice()` (e.g. market_manager.cpp:179-184). -/
def finish (m : Bool) (s : Core) : Except Err (Core × ErrorCode) := do
  let s ← if m then s.matchBook else .ok s
  .ok (s.reset, .ok)

/-- `_orders.insert(...)` with its failure branch, then queueing in the book
(market_manager.cpp:206-222, 298-318, 385-401, 425-445, 752-783). -/
def insertNew (m : Bool) (s : Core) (o : Order) : Except Err (Core × ErrorCode) :=
  match s.orders o.id with
  | some _ => .ok (s.emit (.deleteOrder o), .orderDuplicate)
  | none => do
    let s ← s.link o
    s.finish m

/-- Optional matching of an incoming limit order: `if (_matching && !recursive) MatchLimit(...)`. -/
def matchIf (m : Bool) (s : Core) (t : Order) : Except Err (Core × Order) :=
  if m then s.matchOrder t else .ok (s, t)

/-- market_manager.cpp:160-187 `AddMarketOrder`. -/
def addMarket (m : Bool) (s : Core) (o : Order) : Except Err (Core × ErrorCode) := do
  let s := s.emit (.addOrder o)
  let (s, t) ← if m then s.matchMarket o else .ok (s, o)
  (s.emit (.deleteOrder t)).finish m

/-- market_manager.cpp:203-232, 378-411: rest or cancel the remainder of a limit order. -/
def restOrCancel (m : Bool) (s : Core) (t : Order) : Except Err (Core × ErrorCode) :=
  if t.leaves > 0 && !t.isIOC && !t.isFOK then s.insertNew m t
  else (s.emit (.deleteOrder t)).finish m

/-- market_manager.cpp:189-240 `AddLimitOrder`. -/
def addLimit (m : Bool) (s : Core) (o : Order) : Except Err (Core × ErrorCode) := do
  let s := s.emit (.addOrder o)
  let (s, t) ← s.matchIf m o
  s.restOrCancel m t

/-- market_manager.cpp:259-263, 363-367: is the stop price already reached by the market? -/
def triggered (b : Book) (o : Order) : Bool :=
  if o.isBuy then decide (o.stopPrice ≤ b.marketAsk) else decide (o.stopPrice ≥ b.marketBid)

/-- market_manager.cpp:251-253, 343-349: initial trailing stop price. -/
def initTrailing (b : Book) (o : Order) : Order :=
  if o.isTrailing then retrail o (b.calcTrailing o) else o

/-- market_manager.cpp:242-332 `AddStopOrder`. -/
def addStop (m : Bool) (s : Core) (o : Order) : Except Err (Core × ErrorCode) := do
  let o := initTrailing s.book o
  let s := s.emit (.addOrder o)
  if m && triggered s.book o then
    let t := toMarket o
    let s := s.emit (.updateOrder t)
    let (s, t) ← s.matchMarket t
    (s.emit (.deleteOrder t)).finish m
  else if o.leaves > 0 then s.insertNew m o
  else (s.emit (.deleteOrder o)).finish m

/-- market_manager.cpp:334-450 `AddStopLimitOrder`. -/
def addStopLimit (m : Bool) (s : Core) (o : Order) : Except Err (Core × ErrorCode) := do
  let o := initTrailing s.book o
  let s := s.emit (.addOrder o)
  if m && triggered s.book o then
    let t := toLimit o
    let s := s.emit (.updateOrder t)
    let (s, t) ← s.matchOrder t
    s.restOrCancel m t
  else if o.leaves > 0 then s.insertNew m o
  else (s.emit (.deleteOrder o)).finish m

/-- market_manager.cpp:142-157, dispatch of `AddOrder` on the order type. -/
def addAny (m : Bool) (s : Core) (o : Order) : Except Err (Core × ErrorCode) :=
  match o.type with
  | .market => s.addMarket m o
  | .limit => s.addLimit m o
  | .stop | .trailingStop => s.addStop m o
  | .stopLimit | .trailingStopLimit => s.addStopLimit m o

/-- market_manager.cpp:478-554 `ReduceOrder`, after the checks. -/
def reduceOp (m : Bool) (s : Core) (o : Order) (qty : Nat) : Except Err (Core × ErrorCode) := do
  let s ← s.reduceBody o qty
  s.finish m

/-- market_manager.cpp:608-622: the modified order. -/
def modified (o : Order) (price qty : Nat) (mitigate : Bool) : Order :=
  { o with price := price, quantity := qty,
           leaves := if mitigate then (if qty > o.executed then qty - o.executed else 0) else qty }

/-- market_manager.cpp:589-677 `ModifyOrder`, after the checks. -/
def modifyOp (m : Bool) (s : Core) (o : Order) (price qty : Nat) (mitigate : Bool) :
    Except Err (Core × ErrorCode) := do
  let s ← s.unlink o
  let t := modified o price qty mitigate
  if t.leaves > 0 then
    let s := s.emit (.updateOrder t)
    let (s, t) ← s.matchIf m t
    if t.leaves > 0 then
      let s ← s.link t
      s.finish m
    else (s.emit (.deleteOrder t)).finish m
  else (s.emit (.deleteOrder t)).finish m

/-- market_manager.cpp:714-801 `ReplaceOrder(id, new_id, …)`, after the checks. -/
def replaceOp (m : Bool) (s : Core) (o : Order) (newId price qty : Nat) :
    Except Err (Core × ErrorCode) := do
  let s ← s.unlink o
  let s := s.emit (.deleteOrder o)
  let t := { o with id := newId, price := price, quantity := qty, executed := 0, leaves := qty }
  let s := s.emit (.addOrder t)
  let (s, t) ← s.matchIf m t
  if t.leaves > 0 then s.insertNew m t
  else (s.emit (.deleteOrder t)).finish m

/-- market_manager.cpp:835-874 `DeleteOrder`, after the checks. -/
def deleteOp (m : Bool) (s : Core) (o : Order) : Except Err (Core × ErrorCode) := do
  let s ← s.deleteBody o
  s.finish m

/-- market_manager.cpp:900-965 and 991-1056, both `ExecuteOrder` overloads after the checks: report,
prices, executed and leaves quantity, level, then the order report. -/
def executeOp (m : Bool) (s : Core) (o : Order) (price qty : Nat) : Except Err (Core × ErrorCode) := do
  let q := min qty o.leaves
  let s := (s.emit (.exec o price q)).setPrices o.side price
  let o' := { o with executed := add64 o.executed q, leaves := o.leaves - q }
  let s ← s.shrink o' q (o.hiddenQty - o'.hiddenQty) (o.visibleQty - o'.visibleQty)
  (s.emit (if o'.leaves > 0 then .updateOrder o' else .deleteOrder o')).finish m

end Core

/-- market_manager.h:226-291, the manager. `symbols`/`books` are the vectors `_symbols`,
`_order_books` of nullable pointers. -/
structure Mgr where
  symbols : List (Option Symbol)
  books : List (Option Book)
  orders : Nat → Option Order
  matching : Bool
  ev : List Event

/-- market_manager.inl:14-32, constructor. -/
def Mgr.init : Mgr := ⟨[], [], fun _ => none, false, []⟩

/-- The public operations, market_manager.h:80-224. -/
inductive Op where
  | addSymbol (s : Symbol)
  | deleteSymbol (id : Nat)
  | addOrderBook (s : Symbol)
  | deleteOrderBook (id : Nat)
  | addOrder (o : Order)
  | reduceOrder (id qty : Nat)
  | modifyOrder (id price qty : Nat)
  | mitigateOrder (id price qty : Nat)
  | replaceOrder (id newId price qty : Nat)
  | replaceWith (id : Nat) (o : Order)
  | deleteOrder (id : Nat)
  | executeOrder (id qty : Nat)
  | executeOrderAt (id price qty : Nat)
  | enableMatching
  | disableMatching
  | matchAll
  deriving DecidableEq, Repr

/-- `vector::resize(n, nullptr)` where the vector is not longer than `n`, or truncation. -/
def resizeTo {α : Type} (v : List (Option α)) (n : Nat) : List (Option α) :=
  v.take n ++ List.replicate (n - v.length) none

/-- `v[i]` of a vector of nullable pointers with the `size() <= id` guard (market_manager.inl:34-42). -/
def slot {α : Type} (v : List (Option α)) (i : Nat) : Option α := (v[i]?).join

namespace Mgr

def emit (s : Mgr) (e : Event) : Mgr := { s with ev := s.ev ++ [e] }

/-- market_manager.inl:34-37 `GetSymbol`. -/
def getSymbol (s : Mgr) (id : Nat) : Option Symbol := slot s.symbols id
/-- market_manager.inl:39-42 `GetOrderBook`. -/
def getBook (s : Mgr) (id : Nat) : Option Book := slot s.books id
/-- market_manager.inl:44-52 `GetOrder`. -/
def getOrder (s : Mgr) (id : Nat) : Option Order := if id = 0 then none else s.orders id

/-- market_manager.cpp:36-59 `AddSymbol`. `symbol.Id + 1` is `uint32_t` arithmetic. -/
def addSymbol (s : Mgr) (sym : Symbol) : Except Err (Mgr × ErrorCode) :=
  let v := if s.symbols.length ≤ sym.id then resizeTo s.symbols ((sym.id + 1) % 4294967296) else s.symbols
  match v[sym.id]? with
  | none => .error .ub
  | some (some _) => .ok ({ s with symbols := v }, .symbolDuplicate)
  | some none => .ok (({ s with symbols := v.set sym.id (some sym) }).emit (.addSymbol sym), .ok)

/-- market_manager.cpp:61-80 `DeleteSymbol`. -/
def deleteSymbol (s : Mgr) (id : Nat) : Except Err (Mgr × ErrorCode) :=
  match slot s.symbols id with
  | none => .ok (s, .symbolNotFound)
  | some sym => .ok ({ (s.emit (.deleteSymbol sym)) with symbols := s.symbols.set id none }, .ok)

/-- market_manager.cpp:82-112 `AddOrderBook`; the book gets the registered symbol. -/
def addOrderBook (s : Mgr) (sym : Symbol) : Except Err (Mgr × ErrorCode) :=
  match slot s.symbols sym.id with
  | none => .ok (s, .symbolNotFound)
  | some reg =>
    let v := if s.books.length ≤ sym.id then resizeTo s.books ((sym.id + 1) % 4294967296) else s.books
    match v[sym.id]? with
    | none => .error .ub
    | some (some _) => .ok ({ s with books := v }, .orderBookDuplicate)
    | some none => .ok (({ s with books := v.set sym.id (some (Book.new reg)) }).emit (.addBook reg), .ok)

/-- market_manager.cpp:114-133 `DeleteOrderBook`. The levels are released (order_book.cpp:33-64), the
orders stay in `_orders`. -/
def deleteOrderBook (s : Mgr) (id : Nat) : Except Err (Mgr × ErrorCode) :=
  match slot s.books id with
  | none => .ok (s, .orderBookNotFound)
  | some b => .ok ({ (s.emit (.deleteBook b.symbol)) with books := s.books.set id none }, .ok)

/-- Run an operation on the book of symbol `sym` and write the result back. -/
def onBook (s : Mgr) (sym : Nat) (f : Core → Except Err (Core × ErrorCode)) : Except Err (Mgr × ErrorCode) :=
  match slot s.books sym with
  | none => .ok (s, .orderBookNotFound)
  | some b => do
    let (c, e) ← f ⟨s.orders, b, s.ev⟩
    .ok ({ s with orders := c.orders, books := s.books.set sym (some c.book), ev := c.ev }, e)

/-- market_manager.cpp:135-158 `AddOrder`. -/
def addOrder (s : Mgr) (o : Order) : Except Err (Mgr × ErrorCode) :=
  if o.validate ≠ .ok then .ok (s, o.validate)
  else s.onBook o.symbolId (fun c => c.addAny s.matching o)

/-- `_orders.find(id)` and `GetOrderBook(order->SymbolId)` (e.g. market_manager.cpp:467-476). -/
def onOrder (s : Mgr) (id : Nat) (f : Order → Core → Except Err (Core × ErrorCode)) :
    Except Err (Mgr × ErrorCode) :=
  match s.orders id with
  | none => .ok (s, .orderNotFound)
  | some o => s.onBook o.symbolId (f o)

/-- market_manager.cpp:452-555 `ReduceOrder`. -/
def reduceOrder (s : Mgr) (id qty : Nat) : Except Err (Mgr × ErrorCode) :=
  if id = 0 then .ok (s, .orderIdInvalid)
  else if qty = 0 then .ok (s, .orderQuantityInvalid)
  else s.onOrder id (fun o c => c.reduceOp s.matching o qty)

/-- market_manager.cpp:557-678 `ModifyOrder` / `MitigateOrder`. -/
def modifyOrder (s : Mgr) (id price qty : Nat) (mitigate : Bool) : Except Err (Mgr × ErrorCode) :=
  if id = 0 then .ok (s, .orderIdInvalid)
  else if qty = 0 then .ok (s, .orderQuantityInvalid)
  else s.onOrder id (fun o c => c.modifyOp s.matching o price qty mitigate)

/-- market_manager.cpp:680-802 `ReplaceOrder(id, new_id, new_price, new_quantity)`. -/
def replaceOrder (s : Mgr) (id newId price qty : Nat) : Except Err (Mgr × ErrorCode) :=
  if id = 0 then .ok (s, .orderIdInvalid)
  else if newId = 0 then .ok (s, .orderIdInvalid)
  else if qty = 0 then .ok (s, .orderQuantityInvalid)
  else match s.orders id with
    | none => .ok (s, .orderNotFound)
    | some o =>
      if o.isLimit then s.onBook o.symbolId (fun c => c.replaceOp s.matching o newId price qty)
      else .ok (s, .orderTypeInvalid)

/-- market_manager.cpp:815-875 `DeleteOrder`. -/
def deleteOrder (s : Mgr) (id : Nat) : Except Err (Mgr × ErrorCode) :=
  if id = 0 then .ok (s, .orderIdInvalid)
  else s.onOrder id (fun o c => c.deleteOp s.matching o)

/-- market_manager.cpp:804-813 `ReplaceOrder(id, new_order)`. -/
def replaceWith (s : Mgr) (id : Nat) (o : Order) : Except Err (Mgr × ErrorCode) := do
  let (s, e) ← s.deleteOrder id
  if e ≠ .ok then .ok (s, e) else s.addOrder o

/-- market_manager.cpp:877-966 `ExecuteOrder(id, quantity)`: at the order's own price. -/
def executeOrder (s : Mgr) (id qty : Nat) : Except Err (Mgr × ErrorCode) :=
  if id = 0 then .ok (s, .orderIdInvalid)
  else if qty = 0 then .ok (s, .orderQuantityInvalid)
  else s.onOrder id (fun o c => c.executeOp s.matching o o.price qty)

/-- market_manager.cpp:968-1057 `ExecuteOrder(id, price, quantity)`. -/
def executeOrderAt (s : Mgr) (id price qty : Nat) : Except Err (Mgr × ErrorCode) :=
  if id = 0 then .ok (s, .orderIdInvalid)
  else if qty = 0 then .ok (s, .orderQuantityInvalid)
  else s.onOrder id (fun o c => c.executeOp s.matching o price qty)

/-- `Match(order_book_ptr)` for the book in slot `i`, if any. -/
def matchAt (s : Mgr) (i : Nat) : Except Err Mgr :=
  match slot s.books i with
  | none => .ok s
  | some b => do
    let c ← Core.matchBook ⟨s.orders, b, s.ev⟩
    .ok { s with orders := c.orders, books := s.books.set i (some c.book), ev := c.ev }

/-- market_manager.cpp:1059-1064 `Match()`, book by book in index order. No `ResetMatchingPrice`. -/
def matchFrom : List Nat → Mgr → Except Err Mgr
  | [], s => .ok s
  | i :: is, s => do
    let s ← s.matchAt i
    matchFrom is s
def matchAll (s : Mgr) : Except Err Mgr := matchFrom (List.range s.books.length) s

/-- One public call. `EnableMatching`/`DisableMatching`/`Match` return nothing in C++; `ok` here. -/
def step (s : Mgr) : Op → Except Err (Mgr × ErrorCode)
  | .addSymbol x => s.addSymbol x
  | .deleteSymbol id => s.deleteSymbol id
  | .addOrderBook x => s.addOrderBook x
  | .deleteOrderBook id => s.deleteOrderBook id
  | .addOrder o => s.addOrder o
  | .reduceOrder id q => s.reduceOrder id q
  | .modifyOrder id p q => s.modifyOrder id p q false
  | .mitigateOrder id p q => s.modifyOrder id p q true
  | .replaceOrder id n p q => s.replaceOrder id n p q
  | .replaceWith id o => s.replaceWith id o
  | .deleteOrder id => s.deleteOrder id
  | .executeOrder id q => s.executeOrder id q
  | .executeOrderAt id p q => s.executeOrderAt id p q
  -- market_manager.h:212 `EnableMatching`
  | .enableMatching => do
    let s ← ({ s with matching := true }).matchAll
    .ok (s, .ok)
  -- market_manager.h:214 `DisableMatching`
  | .disableMatching => .ok ({ s with matching := false }, .ok)
  | .matchAll => do
    let s ← s.matchAll
    .ok (s, .ok)

/-- A history: the calls in order, with their result codes. -/
def run : Mgr → List Op → Except Err (Mgr × List ErrorCode)
  | s, [] => .ok (s, [])
  | s, op :: ops => do
    let (s, e) ← s.step op
    let (s, es) ← run s ops
    .ok (s, e :: es)

end Mgr
end CppTrader
