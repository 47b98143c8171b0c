import Verif.Model.Order
/-
Model of include/trader/matching/level.h, update.h, symbol.h, order_book.h, order_book.inl and
source/trader/matching/order_book.cpp.
-/

namespace CppTrader

/-- Abnormal outcomes of the model, kept apart from the C++ error codes. -/
inductive Err where
  /-- undefined behaviour: dangling pointer dereference or container index out of range -/
  | ub
  /-- an `assert(false && "Unsupported order type!")` branch -/
  | unsupported
  /-- the loop bound computed by the model was too small (shown unreachable, see C01) -/
  | outOfFuel
  deriving DecidableEq, Repr

/-- include/trader/matching/symbol.h:20-40 `Symbol`. The 8 name bytes are one number. -/
structure Symbol where
  id : Nat
  name : Nat
  deriving DecidableEq, Repr

/-- The six level collections of a book, order_book.h:136-168: `_bids`, `_asks`, `_buy_stop`,
`_sell_stop`, `_trailing_buy_stop`, `_trailing_sell_stop`.  Simplification: the C++ has one copy of
each container function per pair of collections (order_book.cpp:66-216, 218-347, 349-478) with the
same body; the model has one function indexed by the collection. -/
inductive Kind where
  | bid | ask | buyStop | sellStop | tBuyStop | tSellStop
  deriving DecidableEq, Repr

namespace Kind
/-- The `LevelType` of the collection's levels: `true` = `BID`, `false` = `ASK`
(order_book.cpp:73,85,225,237,356,368). A collection of `BID` levels is walked from the highest price
down, of `ASK` levels from the lowest price up (order_book.inl:62-108). -/
def isBidType : Kind → Bool
  | .bid => true | .ask => false | .buyStop => false | .sellStop => true
  | .tBuyStop => false | .tSellStop => true
/-- Bids and asks, as opposed to stop collections. -/
def isLimit : Kind → Bool
  | .bid => true | .ask => true | _ => false
/-- Strictly better price in the collection (order_book.cpp:79,91,231,243,362,374): higher for
`BID` levels, lower for `ASK` levels. -/
def better (k : Kind) (p q : Nat) : Bool :=
  if k.isBidType then decide (q < p) else decide (p < q)
end Kind

/-- The collection an order belongs to: the `switch (order_ptr->Type)` statements of
market_manager.cpp (e.g. 590-605) followed by the `IsBuy()` test of order_book.cpp
(e.g. 131, 221, 352). Market orders are in the `default:` branch. -/
def Order.kind (o : Order) : Option Kind :=
  match o.type with
  | .market => none
  | .limit => some (if o.isBuy then .bid else .ask)
  | .stop | .stopLimit => some (if o.isBuy then .buyStop else .sellStop)
  | .trailingStop | .trailingStopLimit => some (if o.isBuy then .tBuyStop else .tSellStop)

/-- The price of the level an order is queued on: `Price` in bids/asks (order_book.cpp:73,85),
`StopPrice` in the stop collections (order_book.cpp:225,237,356,368). -/
def Order.key (o : Order) : Nat :=
  match o.type with
  | .limit | .market => o.price
  | _ => o.stopPrice

/-- level.h:32-77 `Level` and 80-108 `LevelNode`: `ids` is `OrderList`, front first. The level type is
given by the collection. -/
structure Level where
  price : Nat
  total : Nat
  hidden : Nat
  visible : Nat
  count : Nat
  ids : List Nat
  deriving DecidableEq, Repr

/-- level.inl:33-41, `Level(type, price)`. -/
def Level.new (p : Nat) : Level := ⟨p, 0, 0, 0, 0, []⟩

/-- What the market handler sees of a level (level.h:32-45 `Level`, without the order list). -/
structure LevelInfo where
  isBid : Bool
  price : Nat
  total : Nat
  hidden : Nat
  visible : Nat
  count : Nat
  deriving DecidableEq, Repr

/-- The slicing copy `Level level(*level_ptr)` (order_book.cpp:172,203) / conversion to `const Level&`. -/
def Level.info (k : Kind) (l : Level) : LevelInfo :=
  ⟨k.isBidType, l.price, l.total, l.hidden, l.visible, l.count⟩

/-- update.h:20-26 `UpdateType` (without `NONE`, never produced). -/
inductive UpdType where | add | update | delete
  deriving DecidableEq, Repr

/-- level.h:111-131 `LevelUpdate`. -/
structure LevelUpdate where
  type : UpdType
  level : LevelInfo
  top : Bool
  deriving DecidableEq, Repr

/-- order_book.h:130-195 `OrderBook`. `lv k` lists the levels of a collection best price first (the
order in which `GetNext*Level` walks); `best k` is the cached best-level pointer (`_best_bid`, …),
identified by its price. -/
structure Book where
  symbol : Symbol
  lv : Kind → List Level
  best : Kind → Option Nat
  lastBid : Nat
  lastAsk : Nat
  matchBid : Nat
  matchAsk : Nat
  trailBid : Nat
  trailAsk : Nat

/-- order_book.cpp:15-31, constructor. -/
def Book.new (sym : Symbol) : Book :=
  { symbol := sym, lv := fun _ => [], best := fun _ => none, lastBid := 0, lastAsk := MAX64,
    matchBid := 0, matchAsk := MAX64, trailBid := 0, trailAsk := MAX64 }

/-- Pointwise update of a function on `Kind`. -/
def setK {α : Type} (f : Kind → α) (k : Kind) (v : α) : Kind → α := fun k' => if k' = k then v else f k'

/-- order_book.inl:26-60 `GetBid` … `GetTrailingSellStopLevel`: look a level up by price. -/
def findLevel (ls : List Level) (p : Nat) : Option Level := ls.find? (fun l => l.price = p)

/-- order_book.inl:62-108 `GetNextLevel` …: the level following the one with price `p` in walking order. -/
def nextLevel : List Level → Nat → Option Level
  | [], _ => none
  | l :: ls, p => if l.price = p then ls.head? else nextLevel ls p

/-- The levels from the one with price `p` onwards: what repeated `GetNextLevel` visits. -/
def levelsFrom : List Level → Nat → List Level
  | [], _ => []
  | l :: ls, p => if l.price = p then l :: ls else levelsFrom ls p

/-- `_bids.insert(*level_ptr)` (order_book.cpp:76,88,…): insertion at its price position. -/
def insertLevel (k : Kind) (n : Level) : List Level → List Level
  | [] => [n]
  | l :: ls => if k.better n.price l.price then n :: l :: ls else l :: insertLevel k n ls

/-- In-place update of the level with the price of `n`. -/
def replaceLevel (n : Level) (ls : List Level) : List Level :=
  ls.map (fun l => if l.price = n.price then n else l)

/-- `_bids.erase(level_ptr)` (order_book.cpp:110,119,…). -/
def eraseLevel (p : Nat) (ls : List Level) : List Level := ls.filter (fun l => l.price ≠ p)

/-- order_book.cpp:141-149 (243…,405…): add the order's quantities and queue it at the tail. -/
def Level.push (l : Level) (o : Order) : Level :=
  { l with total := add64 l.total o.leaves, hidden := add64 l.hidden o.hiddenQty,
           visible := add64 l.visible o.visibleQty, count := l.count + 1, ids := l.ids ++ [o.id] }

/-- order_book.cpp:162-170: subtract quantities; unlink the order when it is empty. -/
def Level.reduce (l : Level) (o : Order) (q h v : Nat) : Level :=
  { l with total := sub64 l.total q, hidden := sub64 l.hidden h, visible := sub64 l.visible v,
           count := if o.leaves = 0 then l.count - 1 else l.count,
           ids := if o.leaves = 0 then l.ids.erase o.id else l.ids }

/-- order_book.cpp:194-201: subtract the order's quantities and unlink it. -/
def Level.remove (l : Level) (o : Order) : Level :=
  { l with total := sub64 l.total o.leaves, hidden := sub64 l.hidden o.hiddenQty,
           visible := sub64 l.visible o.visibleQty, count := l.count - 1, ids := l.ids.erase o.id }

namespace Book

/-- order_book.cpp:66-96 `AddLevel` (218-247 `AddStopLevel`, 349-378 `AddTrailingStopLevel`): insert a
level and update the best pointer. The level `n` already contains its first order (the C++ fills it
right after insertion, order_book.cpp:141-149; nothing observes it in between). -/
def addLevel (b : Book) (k : Kind) (n : Level) : Book :=
  { b with
    lv := setK b.lv k (insertLevel k n (b.lv k))
    best := setK b.best k (match b.best k with
      | none => some n.price
      | some bp => if k.better n.price bp then some n.price else some bp) }

/-- order_book.cpp:98-126 `DeleteLevel` (249-276, 380-407): move the best pointer if it pointed to the
deleted level, then erase the level. The C++ picks `left`/`parent`/`right` of the tree node; that this
is the next level in walking order for every balanced tree is proved in `Verif/Props/Avl.lean`. -/
def deleteLevel (b : Book) (k : Kind) (p : Nat) : Book :=
  { b with
    best := setK b.best k (if b.best k = some p then (nextLevel (b.lv k) p).map (·.price) else b.best k)
    lv := setK b.lv k (eraseLevel p (b.lv k)) }

/-- order_book.cpp:128-155 `AddOrder` (278-298 `AddStopOrder`, 409-429 `AddTrailingStopOrder`, which
return nothing). -/
def addOrder (b : Book) (k : Kind) (o : Order) : Book × LevelUpdate :=
  match findLevel (b.lv k) o.key with
  | some l =>
    let l' := l.push o
    ({ b with lv := setK b.lv k (replaceLevel l' (b.lv k)) },
     ⟨.update, l'.info k, decide (b.best k = some o.key)⟩)
  | none =>
    let l' := (Level.new o.key).push o
    let b' := b.addLevel k l'
    (b', ⟨.add, l'.info k, decide (b'.best k = some o.key)⟩)

/-- Common tail of `ReduceOrder`/`DeleteOrder` (order_book.cpp:172-186, 203-215): store the changed
level `l'`, or delete it when its total volume became zero. -/
def settle (b : Book) (k : Kind) (l' : Level) : Book × LevelUpdate :=
  if l'.total = 0 then
    (b.deleteLevel k l'.price, ⟨.delete, l'.info k, true⟩)
  else
    ({ b with lv := setK b.lv k (replaceLevel l' (b.lv k)) },
     ⟨.update, l'.info k, decide (b.best k = some l'.price)⟩)

/-- order_book.cpp:157-187 `ReduceOrder` (300-324, 431-455). `o` is the order after its leaves quantity
was reduced. The order's cached `Level` pointer must be alive and contain it, otherwise UB. -/
def reduceOrder (b : Book) (k : Kind) (o : Order) (q h v : Nat) : Except Err (Book × LevelUpdate) :=
  match findLevel (b.lv k) o.key with
  | none => .error .ub
  | some l => if o.id ∈ l.ids then .ok (b.settle k (l.reduce o q h v)) else .error .ub

/-- order_book.cpp:189-216 `DeleteOrder` (326-347, 457-478). -/
def deleteOrder (b : Book) (k : Kind) (o : Order) : Except Err (Book × LevelUpdate) :=
  match findLevel (b.lv k) o.key with
  | none => .error .ub
  | some l => if o.id ∈ l.ids then .ok (b.settle k (l.remove o)) else .error .ub

/-- order_book.inl:110-115 `GetMarketPriceBid`. -/
def marketBid (b : Book) : Nat := max b.matchBid ((b.best .bid).getD 0)
/-- order_book.inl:117-122 `GetMarketPriceAsk`. -/
def marketAsk (b : Book) : Nat := min b.matchAsk ((b.best .ask).getD MAX64)
/-- order_book.inl:124-129 `GetMarketTrailingStopPriceBid`. -/
def marketTrailBid (b : Book) : Nat := min b.lastBid ((b.best .bid).getD 0)
/-- order_book.inl:131-136 `GetMarketTrailingStopPriceAsk`. -/
def marketTrailAsk (b : Book) : Nat := max b.lastAsk ((b.best .ask).getD MAX64)

/-- order_book.inl:138-144 `UpdateLastPrice` and 146-152 `UpdateMatchingPrice`, always called together
(market_manager.cpp:907-908, 998-999, 1128-1129, 1141-1142, 1240-1241, 1274-1275, 1287-1288,
1607-1608, 1626-1627). -/
def updatePrices (b : Book) (side : Side) (price : Nat) : Book :=
  match side with
  | .buy => { b with lastBid := price, matchBid := price }
  | .sell => { b with lastAsk := price, matchAsk := price }

/-- order_book.inl:154-158 `ResetMatchingPrice`. -/
def resetMatching (b : Book) : Book := { b with matchBid := 0, matchAsk := MAX64 }

end Book

/-- order_book.cpp:484-492: the absolute trailing distance and step, as `uint64_t`. A negative distance
is a percentage: `(int64_t)((-d * market) / 10000)` in `uint64_t` arithmetic (the product wraps). -/
def trailAbs (o : Order) (market : Nat) : Nat × Nat :=
  if o.trailDist < 0 then
    (((-o.trailDist).toNat * market % W64) / 10000,
     ((((-o.trailStep) % (W64 : Int)).toNat * market) % W64) / 10000)
  else (o.trailDist.toNat, (o.trailStep % (W64 : Int)).toNat)

/-- order_book.cpp:480-518 `CalculateTrailingStopPrice`, as a function of the market price. -/
def trailPrice (o : Order) (market : Nat) : Nat :=
  let (dist, step) := trailAbs o market
  if o.isBuy then
    let new := if market < sub64 MAX64 dist then add64 market dist else MAX64
    if new < o.stopPrice ∧ o.stopPrice - new ≥ step then new else o.stopPrice
  else
    let new := if market > dist then market - dist else 0
    if new > o.stopPrice ∧ new - o.stopPrice ≥ step then new else o.stopPrice

/-- order_book.cpp:480-483: the market price is the trailing ask for buys and bid for sells. -/
def Book.calcTrailing (b : Book) (o : Order) : Nat :=
  trailPrice o (if o.isBuy then b.marketTrailAsk else b.marketTrailBid)

end CppTrader
