import Verif.Model.Manager
/-
The same functions as in `Verif/Model/Engine.lean` and `Verif/Model/Manager.lean` once more, at a finer grain: here every
handler callback also records the state at the moment of the callback, that is, everything the handler can read through
the manager (`GetOrder`, `GetOrderBook`) and the order book while it is running
(include/trader/matching/market_handler.h:46-66). The order map is kept exactly as `_orders` and the `OrderNode`s it
points to: an order stays in the map until `_orders.erase` is reached, and is changed in place, at the moment at which
the C++ code changes it. The loops of reading only (the matching chains, the price calculations) are those of
`Verif/Model/Engine.lean`.
-/

namespace CppTrader

/-- The part of the manager one order-book operation works on, and the states recorded at the callbacks made so far,
oldest first; the last event of a recorded state is the callback being made. -/
structure Watch where
  now : Core
  log : List Core

namespace Watch

/-- Call a handler, which may look around. -/
def emit (w : Watch) (e : Event) : Watch := ⟨w.now.emit e, w.log ++ [w.now.emit e]⟩

/-- A change of the book. -/
def setBook (w : Watch) (b : Book) : Watch := { w with now := { w.now with book := b } }

/-- Insertion into `_orders`, or a change of an `OrderNode` in place. -/
def store (w : Watch) (o : Order) : Watch := { w with now := { w.now with orders := setO w.now.orders o.id (some o) } }

/-- `_orders.erase(...)`. -/
def erase (w : Watch) (id : Nat) : Watch := { w with now := { w.now with orders := setO w.now.orders id none } }

/-- A change of a working order: in place if it is an `OrderNode` of the map (`own`), otherwise of a local copy. -/
def keep (own : Bool) (w : Watch) (o : Order) : Watch := if own then w.store o else w

/-- market_manager.cpp:1741-1759 `UpdateLevel`. -/
def updateLevel (w : Watch) (u : LevelUpdate) : Watch :=
  let sym := w.now.book.symbol.id
  let e := match u.type with
    | .add => Event.addLevel sym u.level u.top
    | .update => Event.updateLevel sym u.level u.top
    | .delete => Event.deleteLevel sym u.level u.top
  (w.emit e).emit (.updateBook sym u.top)

/-- The switch around `UpdateLevel(AddOrder)` / `AddStopOrder` / `AddTrailingStopOrder` (market_manager.cpp:222, 315-318,
634-649, 767-783, 1436); the order is in the map. -/
def link (w : Watch) (o : Order) : Except Err Watch :=
  match o.kind with
  | none => .error .unsupported
  | some k =>
    let (b, u) := w.now.book.addOrder k o
    let w := w.setBook b
    .ok (if k.isLimit then w.updateLevel u else w)

/-- The switch around `UpdateLevel(DeleteOrder)` / `DeleteStopOrder` / `DeleteTrailingStopOrder` (market_manager.cpp:590-606,
715-731, 836-852, 1386-1389, 1418-1421, 1699); the order stays in the map. -/
def unlink (w : Watch) (o : Order) : Except Err Watch :=
  match o.kind with
  | none => .error .unsupported
  | some k =>
    match w.now.book.deleteOrder k o with
    | .error e => .error e
    | .ok (b, u) =>
      let w := w.setBook b
      .ok (if k.isLimit then w.updateLevel u else w)

/-- The switch around `ReduceOrder` / `ReduceStopOrder` / `ReduceTrailingStopOrder` (market_manager.cpp:495-511, 519-535,
924-941, 1015-1032); the order was changed before and is still in the map. -/
def shrink (w : Watch) (o : Order) (q h v : Nat) : Except Err Watch :=
  match o.kind with
  | none => .error .unsupported
  | some k =>
    match w.now.book.reduceOrder k o q h v with
    | .error e => .error e
    | .ok (b, u) =>
      let w := w.setBook b
      .ok (if k.isLimit then w.updateLevel u else w)

/-- `UpdateLastPrice` + `UpdateMatchingPrice`. -/
def setPrices (w : Watch) (side : Side) (price : Nat) : Watch := w.setBook (w.now.book.updatePrices side price)

/-- `ResetMatchingPrice`. -/
def reset (w : Watch) : Watch := w.setBook w.now.book.resetMatching

/-- market_manager.cpp:478-543, body of `ReduceOrder`: the leaves quantity is reduced in place (484), the order is
reported (492, 516), the level is changed and reported (495-511, 519-535), an empty order is erased (538). -/
def reduceBody (w : Watch) (o : Order) (qty : Nat) : Except Err Watch := do
  let q := min qty o.leaves
  let o' := { o with leaves := o.leaves - q }
  let w := w.store o'
  let w := w.emit (if o'.leaves > 0 then .updateOrder o' else .deleteOrder o')
  let w ← w.shrink o' q (o.hiddenQty - o'.hiddenQty) (o.visibleQty - o'.visibleQty)
  .ok (if o'.leaves = 0 then w.erase o'.id else w)

/-- market_manager.cpp:452-555 `ReduceOrder(id, quantity, true)`. -/
def reduceRec (w : Watch) (id qty : Nat) : Except Err Watch :=
  if id = 0 ∨ qty = 0 then .ok w
  else match w.now.orders id with
    | none => .ok w
    | some o =>
      if o.symbolId ≠ w.now.book.symbol.id then .error .ub
      else do
        let w ← w.reduceBody o qty
        .ok w.reset

/-- market_manager.cpp:835-862, body of `DeleteOrder`: the level is changed and reported, then the order is reported, then
it is erased. -/
def deleteBody (w : Watch) (o : Order) : Except Err Watch := do
  let w ← w.unlink o
  .ok ((w.emit (.deleteOrder o)).erase o.id)

/-- market_manager.cpp:815-875 `DeleteOrder(id, true)`. -/
def deleteRec (w : Watch) (id : Nat) : Except Err Watch :=
  if id = 0 then .ok w
  else match w.now.orders id with
    | none => .ok w
    | some o =>
      if o.symbolId ≠ w.now.book.symbol.id then .error .ub
      else do
        let w ← w.deleteBody o
        .ok w.reset

/-- The execution of a resting order (market_manager.cpp:1124-1132, 1137-1145, 1270-1278, 1603-1611, 1622-1630): the report
comes first, the executed quantity is increased in place afterwards. -/
def execResting (w : Watch) (id price qty : Nat) : Except Err Watch :=
  match w.now.orders id with
  | none => .error .ub
  | some o =>
    let w := (w.emit (.exec o price qty)).setPrices o.side price
    .ok { w with now := { w.now with orders := setO w.now.orders id (some { o with executed := add64 o.executed qty }) } }

/-- Execution of the working order (market_manager.cpp:1236-1248, 1283-1294). -/
def execTaker (own : Bool) (w : Watch) (t : Order) (price qty : Nat) : Watch × Order :=
  let t' := { t with executed := add64 t.executed qty, leaves := t.leaves - qty }
  (((w.emit (.exec t price qty)).setPrices t.side price).keep own t', t')

/-- market_manager.cpp:1595-1636, one execution inside `ExecuteMatchingChain`. -/
def execChainOrder (w : Watch) (id price volume : Nat) : Except Err (Watch × Nat) := do
  let o ← w.now.get id
  if o.isAON then
    let q := o.leaves
    let w ← w.execResting id price q
    let w ← w.deleteRec id
    .ok (w, q)
  else
    let q := min o.leaves volume
    let w ← w.execResting id price q
    let w ← w.reduceRec id q
    .ok (w, q)

/-- market_manager.cpp:1589-1639, the inner loop of `ExecuteMatchingChain`. -/
def execChainIds (price : Nat) : List Nat → Watch → Nat → Except Err (Watch × Nat)
  | [], w, volume => .ok (w, volume)
  | id :: rest, w, volume =>
    if volume = 0 then .ok (w, volume)
    else do
      let (w, q) ← w.execChainOrder id price volume
      execChainIds price rest w (sub64 volume q)

/-- market_manager.cpp:1577-1644 `ExecuteMatchingChain`. -/
def execChain (price : Nat) : List Level → Watch → Nat → Except Err Watch
  | [], w, _ => .ok w
  | l :: ls, w, volume =>
    if volume = 0 then .ok w
    else do
      let (w, volume) ← execChainIds price l.ids w volume
      execChain price ls w volume

/-- market_manager.cpp:1255-1299, the inner loop of `MatchOrder`. `own`: the working order is an `OrderNode` of the map. -/
def matchLevel (own : Bool) : List Nat → Watch → Order → Except Err (Watch × Order × Bool)
  | [], w, t => .ok (w, t, false)
  | id :: rest, w, t => do
    let o ← w.now.get id
    let q := min o.leaves t.leaves
    if o.isAON && decide (o.leaves > t.leaves) then .ok (w, t, true)
    else
      let w ← w.execResting id o.price q
      let w ← w.reduceRec id q
      let (w, t) := execTaker own w t o.price q
      if t.leaves = 0 then .ok (w, t, true)
      else matchLevel own rest w t

/-- market_manager.cpp:1210-1301 `MatchOrder`. -/
def matchOrderN (own : Bool) : Nat → Watch → Order → Except Err (Watch × Order)
  | 0, _, _ => .error .outOfFuel
  | n + 1, w, t =>
    let k := Core.oppKind t
    match w.now.book.best k with
    | none => .ok (w, t)
    | some p =>
      if Core.reaches t p then
        match levelsFrom (w.now.book.lv k) p with
        | [] => .error .ub
        | l :: ls =>
          if t.isFOK || t.isAON then do
            let chain ← Core.chainLevels w.now k t.price t.leaves (l :: ls) 0
            if chain = 0 then .ok (w, t)
            else
              let w ← execChain t.price (l :: ls) w chain
              .ok (execTaker own w t t.price t.leaves)
          else do
            let (w, t, ret) ← matchLevel own l.ids w t
            if ret then .ok (w, t) else matchOrderN own n w t
      else .ok (w, t)

def matchOrder (own : Bool) (w : Watch) (t : Order) : Except Err (Watch × Order) :=
  matchOrderN own (Core.kindCount w.now.book (Core.oppKind t) + 1) w t

/-- market_manager.cpp:1172-1202 `MatchMarket`. -/
def matchMarket (own : Bool) (w : Watch) (t : Order) : Except Err (Watch × Order) :=
  match Core.marketLimit w.now.book t with
  | none => .ok (w, t)
  | some p => matchOrder own (w.keep own { t with price := p }) { t with price := p }

/-- market_manager.cpp:1383-1413 `ActivateStopOrder`: the order is changed in place and erased at the end (1407). -/
def activateStop (w : Watch) (o : Order) : Except Err Watch := do
  let w ← w.unlink o
  let t := Core.toMarket o
  let w := (w.store t).emit (.updateOrder t)
  let (w, t) ← matchMarket true w t
  .ok ((w.emit (.deleteOrder t)).erase t.id)

/-- market_manager.cpp:1415-1452 `ActivateStopLimitOrder`. -/
def activateStopLimit (w : Watch) (o : Order) : Except Err Watch := do
  let w ← w.unlink o
  let t := Core.toLimit o
  let w := (w.store t).emit (.updateOrder t)
  let (w, t) ← matchOrder true w t
  if t.leaves > 0 && !t.isIOC && !t.isFOK then w.link t
  else .ok ((w.emit (.deleteOrder t)).erase t.id)

/-- market_manager.cpp:1358-1373. -/
def activateOrder (w : Watch) (id : Nat) : Except Err Watch := do
  let o ← w.now.get id
  match o.type with
  | .stop | .trailingStop => w.activateStop o
  | .stopLimit | .trailingStopLimit => w.activateStopLimit o
  | _ => .error .unsupported

/-- market_manager.cpp:1350-1377. -/
def activateIds : List Nat → Watch → Bool → Except Err (Watch × Bool)
  | [], w, r => .ok (w, r)
  | id :: rest, w, _ => do
    let w ← w.activateOrder id
    activateIds rest w true

/-- market_manager.cpp:1338-1381 `ActivateStopOrders(level, stop_price)`. -/
def activateLevel (w : Watch) (k : Kind) (stopPrice : Nat) : Except Err (Watch × Bool) :=
  match w.now.book.best k with
  | none => .ok (w, false)
  | some p =>
    if (if k.isBidType then stopPrice ≤ p else p ≤ stopPrice) then
      match findLevel (w.now.book.lv k) p with
      | none => .error .ub
      | some l => activateIds l.ids w false
    else .ok (w, false)

/-- market_manager.cpp:1684-1724: a trailing order is unlinked, changed in place, reported and linked again. -/
def recalcIds : List Nat → Watch → Bool → Except Err (Watch × Bool)
  | [], w, r => .ok (w, r)
  | id :: rest, w, r => do
    let o ← w.now.get id
    let p := w.now.book.calcTrailing o
    if p ≠ o.stopPrice then
      let w ← w.unlink o
      let o' := Core.retrail o p
      let w := (w.store o').emit (.updateOrder o')
      let w ← w.link o'
      recalcIds rest w true
    else recalcIds rest w r

/-- market_manager.cpp:1674-1738, the level loop. -/
def recalcLoop (k : Kind) : Nat → Watch → Option Nat → Option Nat → Except Err Watch
  | 0, _, _, _ => .error .outOfFuel
  | _ + 1, w, _, none => .ok w
  | n + 1, w, prev, some c =>
    match findLevel (w.now.book.lv k) c with
    | none => .error .ub
    | some l => do
      let (w, r) ← recalcIds l.ids w false
      if r then
        recalcLoop k n w prev (match prev with | some p => some p | none => w.now.book.best k)
      else
        recalcLoop k n w (some c) ((nextLevel (w.now.book.lv k) c).map (·.price))

/-- market_manager.cpp:1646-1739 `RecalculateTrailingStopPrice(_best_ask)`. -/
def recalcBuy (w : Watch) : Except Err Watch :=
  match w.now.book.best .ask with
  | none => .ok w
  | some _ =>
    let old := w.now.book.trailAsk
    let new := w.now.book.marketTrailAsk
    let w := w.setBook { w.now.book with trailAsk := new }
    if new ≥ old then .ok w
    else recalcLoop .tBuyStop (Core.recalcFuel w.now.book .tBuyStop) w none (w.now.book.best .tBuyStop)

/-- market_manager.cpp:1646-1739 `RecalculateTrailingStopPrice(_best_bid)`. -/
def recalcSell (w : Watch) : Except Err Watch :=
  match w.now.book.best .bid with
  | none => .ok w
  | some _ =>
    let old := w.now.book.trailBid
    let new := w.now.book.marketTrailBid
    let w := w.setBook { w.now.book with trailBid := new }
    if new ≤ old then .ok w
    else recalcLoop .tSellStop (Core.recalcFuel w.now.book .tSellStop) w none (w.now.book.best .tSellStop)

/-- market_manager.cpp:1313-1314, 1324-1325. -/
def activateEither (w : Watch) (k₁ k₂ : Kind) (price : Book → Nat) : Except Err (Watch × Bool) := do
  let (w, r) ← w.activateLevel k₁ (price w.now.book)
  if r then .ok (w, true) else w.activateLevel k₂ (price w.now.book)

/-- market_manager.cpp:1303-1336 `ActivateStopOrders(book)`. -/
def activateLoop : Nat → Watch → Bool → Except Err (Watch × Bool)
  | 0, _, _ => .error .outOfFuel
  | n + 1, w, res => do
    let (w, r₁) ← w.activateEither .buyStop .tBuyStop Book.marketAsk
    let w ← w.recalcBuy
    let (w, r₂) ← w.activateEither .sellStop .tSellStop Book.marketBid
    let w ← w.recalcSell
    if r₁ || r₂ then activateLoop n w true else .ok (w, res)

def activateAll (w : Watch) : Except Err (Watch × Bool) := activateLoop (Core.stopCount w.now.book + 1) w false

/-- market_manager.cpp:1115-1149. -/
def matchPair (w : Watch) (bid ask : Nat) : Except Err Watch := do
  let b ← w.now.get bid
  let a ← w.now.get ask
  let (e, r) := if b.leaves > a.leaves then (a, b) else (b, a)
  let q := e.leaves
  let price := e.price
  let w ← w.execResting e.id price q
  let w ← w.deleteRec e.id
  let w ← w.execResting r.id price q
  w.reduceRec r.id q

/-- market_manager.cpp:1087-1154. -/
def matchPairs (bp ap : Nat) : List Nat → List Nat → Watch → Except Err (Watch × Bool)
  | bid :: bs, ask :: as, w => do
    let b ← w.now.get bid
    let a ← w.now.get ask
    if b.isAON || a.isAON then
      let bids := levelsFrom (w.now.book.lv .bid) bp
      let asks := levelsFrom (w.now.book.lv .ask) ap
      let chain ← Core.chainCross w.now bids asks
      if chain = 0 then .ok (w, true)
      else if b.isAON then
        let w ← execChain b.price bids w chain
        let w ← execChain b.price asks w chain
        .ok (w, false)
      else
        let w ← execChain a.price asks w chain
        let w ← execChain a.price bids w chain
        .ok (w, false)
    else
      let w ← w.matchPair bid ask
      matchPairs bp ap bs as w
  | _, _, w => .ok (w, false)

/-- market_manager.cpp:1069-1169 `Match(book)`. -/
def matchBookN : Nat → Watch → Except Err Watch
  | 0, _ => .error .outOfFuel
  | n + 1, w =>
    match Core.crossed w.now.book with
    | some (bp, ap) =>
      match findLevel (w.now.book.lv .bid) bp, findLevel (w.now.book.lv .ask) ap with
      | some bl, some al => do
        let (w, ret) ← matchPairs bp ap bl.ids al.ids w
        if ret then .ok w
        else
          let (w, _) ← w.activateLevel .buyStop w.now.book.marketAsk
          let (w, _) ← w.activateLevel .sellStop w.now.book.marketBid
          matchBookN n w
      | _, _ => .error .ub
    | none => do
      let (w, r) ← w.activateAll
      if r then matchBookN n w else .ok w

def matchBook (w : Watch) : Except Err Watch := matchBookN (Core.matchFuel w.now.book) w

/-! ### The public operations on one book -/

/-- Common tail, e.g. market_manager.cpp:179-184. -/
def finish (m : Bool) (w : Watch) : Except Err (Watch × ErrorCode) := do
  let w ← if m then w.matchBook else .ok w
  .ok (w.reset, .ok)

/-- market_manager.cpp:206-222, 298-318, 385-401, 425-445, 752-783: the order is inserted into the map before it is
queued. -/
def insertNew (m : Bool) (w : Watch) (o : Order) : Except Err (Watch × ErrorCode) :=
  match w.now.orders o.id with
  | some _ => .ok (w.emit (.deleteOrder o), .orderDuplicate)
  | none => do
    let w ← (w.store o).link o
    w.finish m

def matchIf (own m : Bool) (w : Watch) (t : Order) : Except Err (Watch × Order) :=
  if m then matchOrder own w t else .ok (w, t)

/-- market_manager.cpp:160-187 `AddMarketOrder`: a local copy is matched. -/
def addMarket (m : Bool) (w : Watch) (o : Order) : Except Err (Watch × ErrorCode) := do
  let w := w.emit (.addOrder o)
  let (w, t) ← if m then matchMarket false w o else .ok (w, o)
  (w.emit (.deleteOrder t)).finish m

/-- market_manager.cpp:203-232, 378-411. -/
def restOrCancel (m : Bool) (w : Watch) (t : Order) : Except Err (Watch × ErrorCode) :=
  if t.leaves > 0 && !t.isIOC && !t.isFOK then w.insertNew m t
  else (w.emit (.deleteOrder t)).finish m

/-- market_manager.cpp:189-240 `AddLimitOrder`. -/
def addLimit (m : Bool) (w : Watch) (o : Order) : Except Err (Watch × ErrorCode) := do
  let w := w.emit (.addOrder o)
  let (w, t) ← w.matchIf false m o
  w.restOrCancel m t

/-- market_manager.cpp:242-332 `AddStopOrder`. -/
def addStop (m : Bool) (w : Watch) (o : Order) : Except Err (Watch × ErrorCode) := do
  let o := Core.initTrailing w.now.book o
  let w := w.emit (.addOrder o)
  if m && Core.triggered w.now.book o then
    let t := Core.toMarket o
    let w := w.emit (.updateOrder t)
    let (w, t) ← matchMarket false w t
    (w.emit (.deleteOrder t)).finish m
  else if o.leaves > 0 then w.insertNew m o
  else (w.emit (.deleteOrder o)).finish m

/-- market_manager.cpp:334-450 `AddStopLimitOrder`. -/
def addStopLimit (m : Bool) (w : Watch) (o : Order) : Except Err (Watch × ErrorCode) := do
  let o := Core.initTrailing w.now.book o
  let w := w.emit (.addOrder o)
  if m && Core.triggered w.now.book o then
    let t := Core.toLimit o
    let w := w.emit (.updateOrder t)
    let (w, t) ← matchOrder false w t
    w.restOrCancel m t
  else if o.leaves > 0 then w.insertNew m o
  else (w.emit (.deleteOrder o)).finish m

/-- market_manager.cpp:142-157. -/
def addAny (m : Bool) (w : Watch) (o : Order) : Except Err (Watch × ErrorCode) :=
  match o.type with
  | .market => w.addMarket m o
  | .limit => w.addLimit m o
  | .stop | .trailingStop => w.addStop m o
  | .stopLimit | .trailingStopLimit => w.addStopLimit m o

/-- market_manager.cpp:478-554. -/
def reduceOp (m : Bool) (w : Watch) (o : Order) (qty : Nat) : Except Err (Watch × ErrorCode) := do
  let w ← w.reduceBody o qty
  w.finish m

/-- market_manager.cpp:589-677 `ModifyOrder`: the order is changed in place (608-622) and stays in the map; it is erased
when nothing is left (664). -/
def modifyOp (m : Bool) (w : Watch) (o : Order) (price qty : Nat) (mitigate : Bool) :
    Except Err (Watch × ErrorCode) := do
  let w ← w.unlink o
  let t := Core.modified o price qty mitigate
  let w := w.store t
  if t.leaves > 0 then
    let w := w.emit (.updateOrder t)
    let (w, t) ← w.matchIf true m t
    if t.leaves > 0 then
      let w ← w.link t
      w.finish m
    else ((w.emit (.deleteOrder t)).erase t.id).finish m
  else ((w.emit (.deleteOrder t)).erase t.id).finish m

/-- market_manager.cpp:714-801 `ReplaceOrder(id, new_id, …)`: the old order is reported and erased, then the node is
reused for the new one, which is in the map only after 752. -/
def replaceOp (m : Bool) (w : Watch) (o : Order) (newId price qty : Nat) :
    Except Err (Watch × ErrorCode) := do
  let w ← w.unlink o
  let w := (w.emit (.deleteOrder o)).erase o.id
  let t := { o with id := newId, price := price, quantity := qty, executed := 0, leaves := qty }
  let w := w.emit (.addOrder t)
  let (w, t) ← w.matchIf false m t
  if t.leaves > 0 then w.insertNew m t
  else (w.emit (.deleteOrder t)).finish m

/-- market_manager.cpp:835-874. -/
def deleteOp (m : Bool) (w : Watch) (o : Order) : Except Err (Watch × ErrorCode) := do
  let w ← w.deleteBody o
  w.finish m

/-- market_manager.cpp:900-965 and 991-1056, both `ExecuteOrder` overloads. -/
def executeOp (m : Bool) (w : Watch) (o : Order) (price qty : Nat) : Except Err (Watch × ErrorCode) := do
  let q := min qty o.leaves
  let w := (w.emit (.exec o price q)).setPrices o.side price
  let o' := { o with executed := add64 o.executed q, leaves := o.leaves - q }
  let w := w.store o'
  let w ← w.shrink o' q (o.hiddenQty - o'.hiddenQty) (o.visibleQty - o'.visibleQty)
  let w := w.emit (if o'.leaves > 0 then .updateOrder o' else .deleteOrder o')
  (if o'.leaves = 0 then w.erase o'.id else w).finish m

end Watch

/-! ### The public calls -/

namespace Mgr

/-- What a call with callbacks comes to: the manager afterwards, the result code, and the manager as it was at each of
the callbacks, in order. -/
abbrev Seen := Except Err (Mgr × ErrorCode × List Mgr)

/-- The manager while the book of symbol `sym` is in state `c`. -/
def at' (s : Mgr) (sym : Nat) (c : Core) : Mgr :=
  { s with orders := c.orders, books := s.books.set sym (some c.book), ev := c.ev }

def watchBook (s : Mgr) (sym : Nat) (f : Watch → Except Err (Watch × ErrorCode)) : Seen :=
  match slot s.books sym with
  | none => .ok (s, .orderBookNotFound, [])
  | some b => do
    let (w, e) ← f ⟨⟨s.orders, b, s.ev⟩, []⟩
    .ok (s.at' sym w.now, e, w.log.map (s.at' sym))

def watchOrder (s : Mgr) (id : Nat) (f : Order → Watch → Except Err (Watch × ErrorCode)) : Seen :=
  match s.orders id with
  | none => .ok (s, .orderNotFound, [])
  | some o => s.watchBook o.symbolId (f o)

def watchAdd (s : Mgr) (o : Order) : Seen :=
  if o.validate ≠ .ok then .ok (s, o.validate, [])
  else s.watchBook o.symbolId (fun w => w.addAny s.matching o)

def watchDelete (s : Mgr) (id : Nat) : Seen :=
  if id = 0 then .ok (s, .orderIdInvalid, [])
  else s.watchOrder id (fun o w => w.deleteOp s.matching o)

def watchModify (s : Mgr) (id price qty : Nat) (mitigate : Bool) : Seen :=
  if id = 0 then .ok (s, .orderIdInvalid, [])
  else if qty = 0 then .ok (s, .orderQuantityInvalid, [])
  else s.watchOrder id (fun o w => w.modifyOp s.matching o price qty mitigate)

/-- market_manager.cpp:1059-1064 `Match()`. -/
def watchAt (s : Mgr) (i : Nat) : Except Err (Mgr × List Mgr) :=
  match slot s.books i with
  | none => .ok (s, [])
  | some b => do
    let w ← Watch.matchBook ⟨⟨s.orders, b, s.ev⟩, []⟩
    .ok (s.at' i w.now, w.log.map (s.at' i))

def watchFrom : List Nat → Mgr → Except Err (Mgr × List Mgr)
  | [], s => .ok (s, [])
  | i :: is, s => do
    let (s, l) ← s.watchAt i
    let (s, l') ← watchFrom is s
    .ok (s, l ++ l')

def watchAll (s : Mgr) : Except Err (Mgr × List Mgr) := watchFrom (List.range s.books.length) s

/-- One public call, watched from the handler. The registry calls make one callback, on success: a symbol or book is
announced after it was registered (market_manager.cpp:53-56, 106-109) and its removal before it is removed (72-76, 125-129). -/
def watch (s : Mgr) : Op → Seen
  | .addSymbol x => do
    let (s', e) ← s.addSymbol x
    .ok (s', e, if e = .ok then [s'] else [])
  | .deleteSymbol id =>
    match slot s.symbols id with
    | none => .ok (s, .symbolNotFound, [])
    | some sym =>
      let s' := s.emit (.deleteSymbol sym)
      .ok ({ s' with symbols := s'.symbols.set id none }, .ok, [s'])
  | .addOrderBook x => do
    let (s', e) ← s.addOrderBook x
    .ok (s', e, if e = .ok then [s'] else [])
  | .deleteOrderBook id =>
    match slot s.books id with
    | none => .ok (s, .orderBookNotFound, [])
    | some b =>
      let s' := s.emit (.deleteBook b.symbol)
      .ok ({ s' with books := s'.books.set id none }, .ok, [s'])
  | .addOrder o => s.watchAdd o
  | .reduceOrder id q =>
    if id = 0 then .ok (s, .orderIdInvalid, [])
    else if q = 0 then .ok (s, .orderQuantityInvalid, [])
    else s.watchOrder id (fun o w => w.reduceOp s.matching o q)
  | .modifyOrder id p q => s.watchModify id p q false
  | .mitigateOrder id p q => s.watchModify id p q true
  | .replaceOrder id n p q =>
    if id = 0 then .ok (s, .orderIdInvalid, [])
    else if n = 0 then .ok (s, .orderIdInvalid, [])
    else if q = 0 then .ok (s, .orderQuantityInvalid, [])
    else match s.orders id with
      | none => .ok (s, .orderNotFound, [])
      | some o =>
        if o.isLimit then s.watchBook o.symbolId (fun w => w.replaceOp s.matching o n p q)
        else .ok (s, .orderTypeInvalid, [])
  | .replaceWith id o => do
    let (s, e, l) ← s.watchDelete id
    if e ≠ .ok then .ok (s, e, l) else do
      let (s, e, l') ← s.watchAdd o
      .ok (s, e, l ++ l')
  | .deleteOrder id => s.watchDelete id
  | .executeOrder id q =>
    if id = 0 then .ok (s, .orderIdInvalid, [])
    else if q = 0 then .ok (s, .orderQuantityInvalid, [])
    else s.watchOrder id (fun o w => w.executeOp s.matching o o.price q)
  | .executeOrderAt id p q =>
    if id = 0 then .ok (s, .orderIdInvalid, [])
    else if q = 0 then .ok (s, .orderQuantityInvalid, [])
    else s.watchOrder id (fun o w => w.executeOp s.matching o p q)
  | .enableMatching => do
    let (s, l) ← ({ s with matching := true }).watchAll
    .ok (s, .ok, l)
  | .disableMatching => .ok ({ s with matching := false }, .ok, [])
  | .matchAll => do
    let (s, l) ← s.watchAll
    .ok (s, .ok, l)

end Mgr
end CppTrader
