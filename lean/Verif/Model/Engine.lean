import Verif.Model.Book
/-
Model of the matching part of source/trader/matching/market_manager.cpp, for one order book.
-/

namespace CppTrader

/-- include/trader/matching/market_handler.h:46-66, the handler callbacks with their arguments. The
order book argument is represented by its symbol id. -/
inductive Event where
  | addSymbol (s : Symbol)
  | deleteSymbol (s : Symbol)
  | addBook (s : Symbol)
  | deleteBook (s : Symbol)
  | updateBook (sym : Nat) (top : Bool)
  | addLevel (sym : Nat) (l : LevelInfo) (top : Bool)
  | updateLevel (sym : Nat) (l : LevelInfo) (top : Bool)
  | deleteLevel (sym : Nat) (l : LevelInfo) (top : Bool)
  | addOrder (o : Order)
  | updateOrder (o : Order)
  | deleteOrder (o : Order)
  | exec (o : Order) (price qty : Nat)
  deriving DecidableEq, Repr

/-- The part of the manager one order-book operation works on: the order map `_orders`
(market_manager.h:244), the book, and the log of handler callbacks, oldest first. -/
structure Core where
  orders : Nat → Option Order
  book : Book
  ev : List Event

/-- Update of the order map (`_orders` insert / erase / write through `OrderNode*`). -/
def setO (f : Nat → Option Order) (id : Nat) (v : Option Order) : Nat → Option Order :=
  fun i => if i = id then v else f i

namespace Core

/-- Call a handler. -/
def emit (s : Core) (e : Event) : Core := { s with ev := s.ev ++ [e] }

/-- market_manager.cpp:1741-1759 `UpdateLevel`. -/
def updateLevel (s : Core) (u : LevelUpdate) : Core :=
  let sym := s.book.symbol.id
  let e := match u.type with
    | .add => Event.addLevel sym u.level u.top
    | .update => Event.updateLevel sym u.level u.top
    | .delete => Event.deleteLevel sym u.level u.top
  (s.emit e).emit (.updateBook sym u.top)

/-- `switch (order_ptr->Type)` around `UpdateLevel(AddOrder)` / `AddStopOrder` / `AddTrailingStopOrder`
(market_manager.cpp:222, 315-318, 634-649, 767-783, 1436) together with `_orders.insert`
(market_manager.cpp:210, …): put the order into the map and the book. Only bids and asks are reported. -/
def link (s : Core) (o : Order) : Except Err Core :=
  match o.kind with
  | none => .error .unsupported
  | some k =>
    let (b, u) := s.book.addOrder k o
    let s := { s with book := b, orders := setO s.orders o.id (some o) }
    .ok (if k.isLimit then s.updateLevel u else s)

/-- `switch (order_ptr->Type)` around `UpdateLevel(DeleteOrder)` / `DeleteStopOrder` /
`DeleteTrailingStopOrder` (market_manager.cpp:590-606, 715-731, 836-852, 1386-1389, 1418-1421, 1699).
The model also takes the order out of the map: the caller holds it as a value and either drops it
(`_orders.erase`) or links it again. -/
def unlink (s : Core) (o : Order) : Except Err Core :=
  match o.kind with
  | none => .error .unsupported
  | some k =>
    match s.book.deleteOrder k o with
    | .error e => .error e
    | .ok (b, u) =>
      let s := { s with book := b, orders := setO s.orders o.id none }
      .ok (if k.isLimit then s.updateLevel u else s)

/-- The switch around `ReduceOrder` / `ReduceStopOrder` / `ReduceTrailingStopOrder`
(market_manager.cpp:495-511, 519-535, 924-941, 1015-1032). `o` has the new leaves quantity; an order with
nothing left is erased from the map (market_manager.cpp:538, 955, 1046). -/
def shrink (s : Core) (o : Order) (q h v : Nat) : Except Err Core :=
  match o.kind with
  | none => .error .unsupported
  | some k =>
    match s.book.reduceOrder k o q h v with
    | .error e => .error e
    | .ok (b, u) =>
      let s := { s with book := b, orders := setO s.orders o.id (if o.leaves = 0 then none else some o) }
      .ok (if k.isLimit then s.updateLevel u else s)

/-- `UpdateLastPrice` + `UpdateMatchingPrice`. -/
def setPrices (s : Core) (side : Side) (price : Nat) : Core :=
  { s with book := s.book.updatePrices side price }

/-- `ResetMatchingPrice`. -/
def reset (s : Core) : Core := { s with book := s.book.resetMatching }

/-- market_manager.cpp:478-543, body of `ReduceOrder` after the checks: cap the quantity, report the
order first, then change the level. -/
def reduceBody (s : Core) (o : Order) (qty : Nat) : Except Err Core :=
  let q := min qty o.leaves
  let o' := { o with leaves := o.leaves - q }
  let s := s.emit (if o'.leaves > 0 then .updateOrder o' else .deleteOrder o')
  s.shrink o' q (o.hiddenQty - o'.hiddenQty) (o.visibleQty - o'.visibleQty)

/-- market_manager.cpp:452-555 `ReduceOrder(id, quantity, true)` as called from the matching functions,
which ignore its result. `GetOrderBook(order_ptr->SymbolId)` is the book being matched; an order of
another symbol queued in this book would leave the one-book model, hence the error (unreachable). -/
def reduceRec (s : Core) (id qty : Nat) : Except Err Core :=
  if id = 0 ∨ qty = 0 then .ok s
  else match s.orders id with
    | none => .ok s
    | some o =>
      if o.symbolId ≠ s.book.symbol.id then .error .ub
      else do
        let s ← s.reduceBody o qty
        .ok s.reset

/-- market_manager.cpp:835-862, body of `DeleteOrder` after the checks. -/
def deleteBody (s : Core) (o : Order) : Except Err Core := do
  let s ← s.unlink o
  .ok (s.emit (.deleteOrder o))

/-- market_manager.cpp:815-875 `DeleteOrder(id, true)` as called from the matching functions. -/
def deleteRec (s : Core) (id : Nat) : Except Err Core :=
  if id = 0 then .ok s
  else match s.orders id with
    | none => .ok s
    | some o =>
      if o.symbolId ≠ s.book.symbol.id then .error .ub
      else do
        let s ← s.deleteBody o
        .ok s.reset

/-- The execution report of a resting order: `onExecuteOrder`, price updates,
`ExecutedQuantity += quantity` (market_manager.cpp:1124-1132, 1137-1145, 1270-1278, 1603-1611,
1622-1630). A captured pointer to an order that no longer exists is UB. -/
def execResting (s : Core) (id price qty : Nat) : Except Err Core :=
  match s.orders id with
  | none => .error .ub
  | some o =>
    let s := (s.emit (.exec o price qty)).setPrices o.side price
    .ok { s with orders := setO s.orders id (some { o with executed := add64 o.executed qty }) }

/-- Read an order through a captured pointer. -/
def get (s : Core) (id : Nat) : Except Err Order :=
  match s.orders id with
  | none => .error .ub
  | some o => .ok o

/-- Execution of the incoming order (market_manager.cpp:1236-1248, 1283-1294): report, prices,
executed and leaves quantities. -/
def execTaker (s : Core) (t : Order) (price qty : Nat) : Core × Order :=
  ((s.emit (.exec t price qty)).setPrices t.side price,
   { t with executed := add64 t.executed qty, leaves := t.leaves - qty })

/-! ### Matching chains -/

/-- market_manager.cpp:1470-1489, the inner loop of `CalculateMatchingChain(level, price, volume)` over
the orders of one level. `inr r`: return `r`; `inl available`: end of level. -/
def chainOrders (s : Core) (volume : Nat) : List Nat → Nat → Except Err (Nat ⊕ Nat)
  | [], avail => .ok (.inl avail)
  | id :: rest, avail => do
    let o ← s.get id
    let need := sub64 volume avail
    let q := if o.isAON then o.leaves else min o.leaves need
    let avail' := add64 avail q
    if volume = avail' then .ok (.inr avail')
    else if volume < avail' then .ok (.inr 0)
    else chainOrders s volume rest avail'

/-- market_manager.cpp:1454-1497 `CalculateMatchingChain(level, price, volume)`: walk the levels from
`level`, `0` when no exact chain exists. -/
def chainLevels (s : Core) (k : Kind) (price volume : Nat) : List Level → Nat → Except Err Nat
  | [], _ => .ok 0
  | l :: ls, avail =>
    if (if k.isBidType then price ≤ l.price else l.price ≤ price) then do
      match ← chainOrders s volume l.ids avail with
      | .inr r => .ok r
      | .inl avail' => chainLevels s k price volume ls avail'
    else .ok 0

/-- First order list of a list of levels (`level_ptr->OrderList.front()`; empty when `nullptr`). -/
def frontIds : List Level → List Nat
  | [] => []
  | l :: _ => l.ids

/-- market_manager.cpp:1529-1571, the loops of `CalculateMatchingChain(bid_level, ask_level)`.
`ll`/`sl` are the levels from `longest_level_ptr`/`shortest_level_ptr` on, `lo`/`so` the orders from
`longest_order_ptr`/`shortest_order_ptr` on. As in the C++ the swap exchanges the order pointers but not
the level pointers. -/
def chainPair (s : Core) : Nat → List Level → List Level → List Nat → List Nat → Nat → Nat →
    Except Err Nat
  | 0, _, _, _, _, _, _ => .error .outOfFuel
  | _ + 1, [], _, _, _, _, _ => .ok 0
  | _ + 1, _ :: _, [], _, _, _, _ => .ok 0
  | n + 1, l :: ll, m :: sl, lid :: lo, sid :: so, req, avail => do
    let o ← s.get sid
    let need := sub64 req avail
    let q := if o.isAON then o.leaves else min o.leaves need
    let avail' := add64 avail q
    if req = avail' then .ok req
    else if req < avail' then
      -- swap: next = longest->next; longest = shortest; shortest = next
      chainPair s n (l :: ll) (m :: sl) (sid :: so) lo avail' req
    else chainPair s n (l :: ll) (m :: sl) (lid :: lo) so req avail'
  | n + 1, _ :: ll, _ :: sl, [], [], req, avail =>
    chainPair s n ll sl (frontIds ll) (frontIds sl) req avail
  | n + 1, _ :: ll, m :: sl, [], so@(_ :: _), req, avail =>
    chainPair s n ll (m :: sl) (frontIds ll) so req avail
  | n + 1, l :: ll, _ :: sl, lo@(_ :: _), [], req, avail =>
    chainPair s n (l :: ll) sl lo (frontIds sl) req avail

/-- Number of loop iterations that always suffices for `chainPair`. -/
def levelsSize (ls : List Level) : Nat := (ls.map (fun l => l.ids.length + 1)).sum

/-- market_manager.cpp:1499-1575 `CalculateMatchingChain(bid_level, ask_level)`. -/
def chainCross (s : Core) (bids asks : List Level) : Except Err Nat :=
  match frontIds bids, frontIds asks with
  | bid :: _, ask :: _ => do
    let b ← s.get bid
    let a ← s.get ask
    let fuel := levelsSize bids + levelsSize asks + 1
    if b.isAON && a.isAON then
      if a.leaves > b.leaves then
        chainPair s fuel asks bids (frontIds asks) (frontIds bids) a.leaves 0
      else chainPair s fuel bids asks (frontIds bids) (frontIds asks) b.leaves 0
    else if a.isAON then
      chainPair s fuel asks bids (frontIds asks) (frontIds bids) a.leaves 0
    else chainPair s fuel bids asks (frontIds bids) (frontIds asks) b.leaves 0
  | _, _ => .error .ub

/-- market_manager.cpp:1595-1636, one execution inside `ExecuteMatchingChain`. Returns the executed
quantity. -/
def execChainOrder (s : Core) (id price volume : Nat) : Except Err (Core × Nat) := do
  let o ← s.get id
  if o.isAON then
    let q := o.leaves
    let s ← s.execResting id price q
    let s ← s.deleteRec id
    .ok (s, q)
  else
    let q := min o.leaves volume
    let s ← s.execResting id price q
    let s ← s.reduceRec id q
    .ok (s, q)

/-- market_manager.cpp:1589-1639, the inner loop of `ExecuteMatchingChain`. -/
def execChainIds (price : Nat) : List Nat → Core → Nat → Except Err (Core × Nat)
  | [], s, volume => .ok (s, volume)
  | id :: rest, s, volume =>
    if volume = 0 then .ok (s, volume)
    else do
      let (s, q) ← s.execChainOrder id price volume
      execChainIds price rest s (sub64 volume q)

/-- market_manager.cpp:1577-1644 `ExecuteMatchingChain`: over the levels captured on entry. -/
def execChain (price : Nat) : List Level → Core → Nat → Except Err Core
  | [], s, _ => .ok s
  | l :: ls, s, volume =>
    if volume = 0 then .ok s
    else do
      let (s, volume) ← execChainIds price l.ids s volume
      execChain price ls s volume

/-! ### Matching an incoming order -/

/-- The collection an incoming order is matched against (market_manager.cpp:1214). -/
def oppKind (t : Order) : Kind := if t.isBuy then .ask else .bid

/-- market_manager.cpp:1217 `arbitrage`: the incoming order reaches a level of the given price. -/
def reaches (t : Order) (p : Nat) : Bool := if t.isBuy then decide (p ≤ t.price) else decide (t.price ≤ p)

/-- market_manager.cpp:1255-1299, the inner loop of `MatchOrder` over the orders captured from one
level. The Boolean is `true` when the C++ function returns. -/
def matchLevel : List Nat → Core → Order → Except Err (Core × Order × Bool)
  | [], s, t => .ok (s, t, false)
  | id :: rest, s, t => do
    let o ← s.get id
    let q := min o.leaves t.leaves
    if o.isAON && decide (o.leaves > t.leaves) then .ok (s, t, true)
    else
      let s ← s.execResting id o.price q
      let s ← s.reduceRec id q
      let (s, t) := s.execTaker t o.price q
      if t.leaves = 0 then .ok (s, t, true)
      else matchLevel rest s t

/-- market_manager.cpp:1210-1301 `MatchOrder`; the first argument bounds the iterations of the outer
loop. -/
def matchOrderN : Nat → Core → Order → Except Err (Core × Order)
  | 0, _, _ => .error .outOfFuel
  | n + 1, s, t =>
    let k := oppKind t
    match s.book.best k with
    | none => .ok (s, t)
    | some p =>
      if reaches t p then
        match levelsFrom (s.book.lv k) p with
        | [] => .error .ub
        | l :: ls =>
          if t.isFOK || t.isAON then do
            let chain ← chainLevels s k t.price t.leaves (l :: ls) 0
            if chain = 0 then .ok (s, t)
            else
              let s ← execChain t.price (l :: ls) s chain
              .ok (s.execTaker t t.price t.leaves)
          else do
            let (s, t, ret) ← matchLevel l.ids s t
            if ret then .ok (s, t) else matchOrderN n s t
      else .ok (s, t)

/-- Number of orders queued in a collection. -/
def kindCount (b : Book) (k : Kind) : Nat := ((b.lv k).map (fun l => l.ids.length)).sum

/-- `MatchOrder` with enough iterations: every full iteration removes an order of the opposite side. -/
def matchOrder (s : Core) (t : Order) : Except Err (Core × Order) :=
  matchOrderN (kindCount s.book (oppKind t) + 1) s t

/-- market_manager.cpp:1174-1198: the price limit of a market order, `none` when there is nothing to
match. -/
def marketLimit (b : Book) (t : Order) : Option Nat :=
  if t.isBuy then
    match b.best .ask with
    | none => none
    | some p => some (if p > MAX64 - t.slippage then MAX64 else p + t.slippage)
  else
    match b.best .bid with
    | none => none
    | some p => some (if p < t.slippage then 0 else p - t.slippage)

/-- market_manager.cpp:1172-1202 `MatchMarket`. -/
def matchMarket (s : Core) (t : Order) : Except Err (Core × Order) :=
  match marketLimit s.book t with
  | none => .ok (s, t)
  | some p => s.matchOrder { t with price := p }

/-! ### Stop orders -/

/-- market_manager.cpp:266-269, 1392-1395: a triggered stop order as a market order. -/
def toMarket (o : Order) : Order :=
  { o with type := .market, price := 0, stopPrice := 0, tif := if o.isFOK then .fok else .ioc }

/-- market_manager.cpp:373-374, 1424-1425: a triggered stop-limit order as a limit order. -/
def toLimit (o : Order) : Order := { o with type := .limit, stopPrice := 0 }

/-- market_manager.cpp:1383-1413 `ActivateStopOrder`. -/
def activateStop (s : Core) (o : Order) : Except Err Core := do
  let s ← s.unlink o
  let t := toMarket o
  let s := s.emit (.updateOrder t)
  let (s, t) ← s.matchMarket t
  .ok (s.emit (.deleteOrder t))

/-- market_manager.cpp:1415-1452 `ActivateStopLimitOrder`. -/
def activateStopLimit (s : Core) (o : Order) : Except Err Core := do
  let s ← s.unlink o
  let t := toLimit o
  let s := s.emit (.updateOrder t)
  let (s, t) ← s.matchOrder t
  if t.leaves > 0 && !t.isIOC && !t.isFOK then s.link t
  else .ok (s.emit (.deleteOrder t))

/-- market_manager.cpp:1358-1373, dispatch on the order type. -/
def activateOrder (s : Core) (id : Nat) : Except Err Core := do
  let o ← s.get id
  match o.type with
  | .stop | .trailingStop => s.activateStop o
  | .stopLimit | .trailingStopLimit => s.activateStopLimit o
  | _ => .error .unsupported

/-- market_manager.cpp:1350-1377, the loop over the orders captured from the level. -/
def activateIds : List Nat → Core → Bool → Except Err (Core × Bool)
  | [], s, r => .ok (s, r)
  | id :: rest, s, _ => do
    let s ← s.activateOrder id
    activateIds rest s true

/-- market_manager.cpp:1338-1381 `ActivateStopOrders(level, stop_price)` called on the best level of
collection `k`. -/
def activateLevel (s : Core) (k : Kind) (stopPrice : Nat) : Except Err (Core × Bool) :=
  match s.book.best k with
  | none => .ok (s, false)
  | some p =>
    if (if k.isBidType then stopPrice ≤ p else p ≤ stopPrice) then
      match findLevel (s.book.lv k) p with
      | none => .error .ub
      | some l => activateIds l.ids s false
    else .ok (s, false)

/-- market_manager.cpp:1698-1719: move one trailing order to its new stop price. -/
def retrail (o : Order) (p : Nat) : Order :=
  match o.type with
  | .trailingStop => { o with stopPrice := p }
  | .trailingStopLimit => { o with stopPrice := p, price := add64 p (sub64 o.price o.stopPrice) }
  | _ => o

/-- market_manager.cpp:1684-1724, the loop over the orders of one trailing level; the Boolean is
`recalculated`. -/
def recalcIds : List Nat → Core → Bool → Except Err (Core × Bool)
  | [], s, r => .ok (s, r)
  | id :: rest, s, r => do
    let o ← s.get id
    let p := s.book.calcTrailing o
    if p ≠ o.stopPrice then
      let s ← s.unlink o
      let o' := retrail o p
      let s := s.emit (.updateOrder o')
      let s ← s.link o'
      recalcIds rest s true
    else recalcIds rest s r

/-- market_manager.cpp:1674-1738, the level loop; `prev`/`cur` are the prices of the level pointers. -/
def recalcLoop (k : Kind) : Nat → Core → Option Nat → Option Nat → Except Err Core
  | 0, _, _, _ => .error .outOfFuel
  | _ + 1, s, _, none => .ok s
  | n + 1, s, prev, some c =>
    match findLevel (s.book.lv k) c with
    | none => .error .ub
    | some l => do
      let (s, r) ← recalcIds l.ids s false
      if r then
        recalcLoop k n s prev (match prev with | some p => some p | none => s.book.best k)
      else
        recalcLoop k n s (some c) ((nextLevel (s.book.lv k) c).map (·.price))

/-- Iteration bound of `recalcLoop`: every order moves at most once and every move restarts the walk. -/
def recalcFuel (b : Book) (k : Kind) : Nat := (kindCount b k + 1) * (kindCount b k + 2) + 1

/-- market_manager.cpp:1646-1739 `RecalculateTrailingStopPrice(_best_ask)`. -/
def recalcBuy (s : Core) : Except Err Core :=
  match s.book.best .ask with
  | none => .ok s
  | some _ =>
    let old := s.book.trailAsk
    let new := s.book.marketTrailAsk
    let s := { s with book := { s.book with trailAsk := new } }
    if new ≥ old then .ok s
    else recalcLoop .tBuyStop (recalcFuel s.book .tBuyStop) s none (s.book.best .tBuyStop)

/-- market_manager.cpp:1646-1739 `RecalculateTrailingStopPrice(_best_bid)`. -/
def recalcSell (s : Core) : Except Err Core :=
  match s.book.best .bid with
  | none => .ok s
  | some _ =>
    let old := s.book.trailBid
    let new := s.book.marketTrailBid
    let s := { s with book := { s.book with trailBid := new } }
    if new ≤ old then .ok s
    else recalcLoop .tSellStop (recalcFuel s.book .tSellStop) s none (s.book.best .tSellStop)

/-- Two `ActivateStopOrders` calls joined by `||` (market_manager.cpp:1313-1314, 1324-1325): the second
is made only when the first activated nothing. -/
def activateEither (s : Core) (k₁ k₂ : Kind) (price : Book → Nat) : Except Err (Core × Bool) := do
  let (s, r) ← s.activateLevel k₁ (price s.book)
  if r then .ok (s, true) else s.activateLevel k₂ (price s.book)

/-- market_manager.cpp:1303-1336 `ActivateStopOrders(book)`, the `while (!stop)` loop; `res` is
`result`. -/
def activateLoop : Nat → Core → Bool → Except Err (Core × Bool)
  | 0, _, _ => .error .outOfFuel
  | n + 1, s, res => do
    let (s, r₁) ← s.activateEither .buyStop .tBuyStop Book.marketAsk
    let s ← s.recalcBuy
    let (s, r₂) ← s.activateEither .sellStop .tSellStop Book.marketBid
    let s ← s.recalcSell
    if r₁ || r₂ then activateLoop n s true else .ok (s, res)

/-- Number of stop orders of a book. -/
def stopCount (b : Book) : Nat :=
  kindCount b .buyStop + kindCount b .sellStop + kindCount b .tBuyStop + kindCount b .tSellStop

/-- `ActivateStopOrders(book)`. -/
def activateAll (s : Core) : Except Err (Core × Bool) := activateLoop (stopCount s.book + 1) s false

/-! ### Matching the book -/

/-- market_manager.cpp:1115-1149: execute one crossed pair without All-Or-None orders. -/
def matchPair (s : Core) (bid ask : Nat) : Except Err Core := do
  let b ← s.get bid
  let a ← s.get ask
  let (e, r) := if b.leaves > a.leaves then (a, b) else (b, a)
  let q := e.leaves
  let price := e.price
  let s ← s.execResting e.id price q
  let s ← s.deleteRec e.id
  let s ← s.execResting r.id price q
  s.reduceRec r.id q

/-- market_manager.cpp:1087-1154, the loop over pairs of orders captured from the best bid level
(price `bp`) and the best ask level (price `ap`). The Boolean is `true` when `Match` returns. -/
def matchPairs (bp ap : Nat) : List Nat → List Nat → Core → Except Err (Core × Bool)
  | bid :: bs, ask :: as, s => do
    let b ← s.get bid
    let a ← s.get ask
    if b.isAON || a.isAON then
      let bids := levelsFrom (s.book.lv .bid) bp
      let asks := levelsFrom (s.book.lv .ask) ap
      let chain ← chainCross s bids asks
      if chain = 0 then .ok (s, true)
      else if b.isAON then
        let s ← execChain b.price bids s chain
        let s ← execChain b.price asks s chain
        .ok (s, false)
      else
        let s ← execChain a.price asks s chain
        let s ← execChain a.price bids s chain
        .ok (s, false)
    else
      let s ← s.matchPair bid ask
      matchPairs bp ap bs as s
  | _, _, s => .ok (s, false)

/-- market_manager.cpp:1072-1074: the book is crossed; the prices of its best bid and ask. -/
def crossed (b : Book) : Option (Nat × Nat) :=
  match b.best .bid, b.best .ask with
  | some bp, some ap => if ap ≤ bp then some (bp, ap) else none
  | _, _ => none

/-- market_manager.cpp:1069-1169 `Match(book)`: one recursion for the `for (;;)` loop and the inner
`while` (crossed: match a pair of levels and activate stops, and test again; not crossed: activate stop
orders and go round again if there was something to activate). -/
def matchBookN : Nat → Core → Except Err Core
  | 0, _ => .error .outOfFuel
  | n + 1, s =>
    match crossed s.book with
    | some (bp, ap) =>
      match findLevel (s.book.lv .bid) bp, findLevel (s.book.lv .ask) ap with
      | some bl, some al => do
        let (s, ret) ← matchPairs bp ap bl.ids al.ids s
        if ret then .ok s
        else
          let (s, _) ← s.activateLevel .buyStop s.book.marketAsk
          let (s, _) ← s.activateLevel .sellStop s.book.marketBid
          matchBookN n s
      | _, _ => .error .ub
    | none => do
      let (s, r) ← s.activateAll
      if r then matchBookN n s else .ok s

/-- Total volume of a collection / of the book, from the levels' `TotalVolume`. -/
def kindVolume (b : Book) (k : Kind) : Nat := ((b.lv k).map (·.total)).sum
def volume (b : Book) : Nat :=
  kindVolume b .bid + kindVolume b .ask + kindVolume b .buyStop + kindVolume b .sellStop +
  kindVolume b .tBuyStop + kindVolume b .tSellStop

/-- Iteration bound of `Match`: every round executes volume or activates a stop order. -/
def matchFuel (b : Book) : Nat := volume b + stopCount b + 1

/-- `Match(order_book_ptr)`. -/
def matchBook (s : Core) : Except Err Core := matchBookN (matchFuel s.book) s

end Core
end CppTrader
