import Verif.Model.Feeder
/-
Model of performance/market_manager_optimized_aggressive.cpp: a market manager that keeps only price levels, in vectors
sorted by price with the best one at the back, allocated from a pool shared by all books. Prices are signed: positive for
bids, negative for asks. There are no checks of any kind.
-/

namespace CppTrader.Aggr

/-- market_manager_optimized_aggressive.cpp:20-24 `Level`. -/
structure Level where
  price : Int
  volume : Nat
  deriving DecidableEq, Repr, Inhabited

/-- :62-67 `Order`. -/
structure Ord where
  symbol : Nat
  quantity : Nat
  level : Nat
  deriving DecidableEq, Repr, Inhabited

/-- :69-73 `PriceLevel`. -/
structure PriceLevel where
  price : Int
  level : Nat
  deriving DecidableEq, Repr

/-- :75-109 `OrderBook`. The vectors are listed from the back, so that the best price level comes first. -/
structure Book where
  bids : List PriceLevel
  asks : List PriceLevel
  deriving DecidableEq, Repr

/-- The manager (:205-361) together with the static pool of levels (:26-60, :203): `alloc` is the vector of levels,
`free` the vector of free indexes listed from the back. The vector of 10000 books and the vector of 300000000 orders are
total functions; the accessors below refuse indexes out of range. -/
structure St where
  books : Nat → Book
  orders : Nat → Ord
  alloc : List Level
  free : List Nat

/-- The constructor, :208-212: all books are empty, all orders are zero. -/
def init : St := ⟨fun _ => ⟨[], []⟩, fun _ => ⟨0, 0, 0⟩, [], []⟩

/-- Arithmetic of `uint32_t`. -/
abbrev W32 : Nat := 4294967296
def add32 (a b : Nat) : Nat := (a + b) % W32
def sub32 (a b : Nat) : Nat := (a + W32 - b % W32) % W32

/-- `_order_books[id]`. -/
def getBook (s : St) (id : Nat) : Except Err Book := if id < 10000 then .ok (s.books id) else .error .ub
/-- `_orders[id]`. -/
def getOrd (s : St) (id : Nat) : Except Err Ord := if id < 300000000 then .ok (s.orders id) else .error .ub
/-- `_levels.get(index)`, :34. -/
def getLevel (s : St) (i : Nat) : Except Err Level :=
  match s.alloc[i]? with
  | some l => .ok l
  | none => .error .ub

def setBook (s : St) (id : Nat) (b : Book) : St := { s with books := fun j => if j = id then b else s.books j }
def setOrd (s : St) (id : Nat) (o : Ord) : St := { s with orders := fun j => if j = id then o else s.orders j }
def setLevel (s : St) (i : Nat) (l : Level) : St := { s with alloc := s.alloc.set i l }

/-- :36-50 `LevelPool::allocate`. -/
def allocate (s : St) : Nat × St :=
  match s.free with
  | [] => (s.alloc.length, { s with alloc := s.alloc ++ [default] })
  | i :: free => (i, { s with free := free })

/-- :52-55 `LevelPool::free`. -/
def release (s : St) (i : Nat) : St := { s with free := i :: s.free }

/-- The collection for a price: `(price > 0) ? &_bids : &_asks`. -/
def Book.side (b : Book) (price : Int) : List PriceLevel := if price > 0 then b.bids else b.asks
def Book.setSide (b : Book) (price : Int) (l : List PriceLevel) : Book :=
  if price > 0 then { b with bids := l } else { b with asks := l }

/-- The search of :118-125, from the back of the vector. (The loop decrements an iterator at `begin()`, which the standard
does not allow; with the pointers of every implementation of `std::vector` it is harmless. It is modelled as intended.) -/
def search (price : Int) : List PriceLevel → Option Nat
  | [] => none
  | x :: l => if x.price = price then some x.level else if x.price < price then none else search price l

/-- The insertion of :133-134 after the element at which the search stopped (in the order of the vector). -/
def insert (price : Int) (i : Nat) : List PriceLevel → List PriceLevel
  | [] => [⟨price, i⟩]
  | x :: l => if x.price < price then ⟨price, i⟩ :: x :: l else x :: insert price i l

/-- The search and erasure of :148-157. -/
def erase (price : Int) : List PriceLevel → List PriceLevel
  | [] => []
  | x :: l => if x.price = price then l else x :: erase price l

/-- :111-137 `OrderBook::FindLevel`, in the book of `sym`. -/
def findLevel (s : St) (sym : Nat) (price : Int) : Except Err (Nat × St) := do
  let b ← getBook s sym
  match search price (b.side price) with
  | some i => .ok (i, s)
  | none =>
    let (i, s) := allocate s
    let s := setLevel s i ⟨price, 0⟩
    .ok (i, setBook s sym (b.setSide price (insert price i (b.side price))))

/-- :139-161 `OrderBook::DeleteLevel`. -/
def deleteLevel (s : St) (sym i : Nat) : Except Err St := do
  let b ← getBook s sym
  let l ← getLevel s i
  let s := setBook s sym (b.setSide l.price (erase l.price (b.side l.price)))
  .ok (release s i)

/-- :163-174 `OrderBook::AddOrder` for the order `id`. -/
def bookAdd (s : St) (sym id : Nat) (price : Int) : Except Err St := do
  let (i, s) ← findLevel s sym price
  let l ← getLevel s i
  let o ← getOrd s id
  let s := setLevel s i { l with volume := add32 l.volume o.quantity }
  .ok (setOrd s id { o with level := i })

/-- :176-187 `OrderBook::ReduceOrder`; :189-199 `OrderBook::DeleteOrder` is the same with the quantity of the order. -/
def bookSub (s : St) (sym : Nat) (o : Ord) (quantity : Nat) : Except Err St := do
  let _ ← getBook s sym
  let l ← getLevel s o.level
  let v := sub32 l.volume quantity
  let s := setLevel s o.level { l with volume := v }
  if v = 0 then deleteLevel s sym o.level else .ok s

/-- :222-226 `AddOrderBook`. -/
def addOrderBook (s : St) (sym : Nat) : Except Err St := do
  let _ ← getBook s sym
  .ok (setBook s sym ⟨[], []⟩)

/-- :228-237 `AddOrder`. -/
def addOrder (s : St) (id sym : Nat) (price : Int) (qty : Nat) : Except Err St := do
  let o ← getOrd s id
  let s := setOrd s id { o with symbol := sym, quantity := qty }
  bookAdd s sym id price

/-- :239-249 `ReduceOrder`; :334-344 and :346-356 `ExecuteOrder` are the same. -/
def reduceOrder (s : St) (id qty : Nat) : Except Err St := do
  let o ← getOrd s id
  let o := { o with quantity := sub32 o.quantity qty }
  let s := setOrd s id o
  bookSub s o.symbol o qty

/-- Negation of an `int32_t`: overflow is undefined behaviour. -/
def neg32 (p : Int) : Except Err Int := if p = -2147483648 then .error .ub else .ok (-p)

/-- "Update the price for sell orders", :256-259, :280-283, :305-308. -/
def signed (s : St) (o : Ord) (price : Int) : Except Err Int := do
  let l ← getLevel s o.level
  if l.price < 0 then neg32 price else .ok price

/-- :251-273 `ModifyOrder`. -/
def modifyOrder (s : St) (id : Nat) (price : Int) (qty : Nat) : Except Err St := do
  let o ← getOrd s id
  let price ← signed s o price
  let s ← bookSub s o.symbol o o.quantity
  let s := setOrd s id { o with quantity := qty }
  if qty > 0 then bookAdd s o.symbol id price else .ok s

/-- :275-298 `ReplaceOrder` with four arguments. -/
def replaceOrder (s : St) (id new : Nat) (price : Int) (qty : Nat) : Except Err St := do
  let o ← getOrd s id
  let price ← signed s o price
  let s ← bookSub s o.symbol o o.quantity
  if qty > 0 then
    let n ← getOrd s new
    let s := setOrd s new { n with symbol := o.symbol, quantity := qty }
    bookAdd s o.symbol new price
  else .ok s

/-- :300-323 `ReplaceOrder` with five arguments. -/
def replaceWith (s : St) (id new sym : Nat) (price : Int) (qty : Nat) : Except Err St := do
  let o ← getOrd s id
  let price ← signed s o price
  let s ← bookSub s o.symbol o o.quantity
  if qty > 0 then
    let n ← getOrd s new
    let s := setOrd s new { n with symbol := sym, quantity := qty }
    bookAdd s sym new price
  else .ok s

/-- :325-332 `DeleteOrder`. -/
def deleteOrder (s : St) (id : Nat) : Except Err St := do
  let o ← getOrd s id
  bookSub s o.symbol o o.quantity

/-- `bids()`/`asks()`, :100-101. -/
def Book.half (b : Book) : Side → List PriceLevel
  | .buy => b.bids
  | .sell => b.asks

/-- `bids()`/`asks()`, :100-101, with the volumes of the levels they refer to: price (without its sign) and volume, from the
back of the vector; the first one is `best_bid()`/`best_ask()`, :102-103. -/
def levels (s : St) (sym : Nat) (sd : Side) : List (Nat × Nat) :=
  ((s.books sym).half sd).map fun e => (e.price.natAbs, match s.alloc[e.level]? with | some l => l.volume | none => 0)

/-- `(int32_t)price` of a `uint32_t`. -/
def toInt32 (p : Nat) : Int := if p < 2147483648 then (p : Int) else (p : Int) - 4294967296

/-- :379-401 `MyITCHHandler::onMessage`: what the handler calls for a message. 66 is 'B'. The indexes `message.StockLocate`
and `message.OrderReferenceNumber` are used as they are. -/
def react (s : St) : Itch.Msg → Except Err St
  | .stockDirectory h .. => addOrderBook s h.locate
  | .addOrder h ref side shares _ price => do
    let p ← if side = 66 then .ok (toInt32 price) else neg32 (toInt32 price)
    addOrder s ref h.locate p shares
  | .addOrderMPID h ref side shares _ price _ => do
    let p ← if side = 66 then .ok (toInt32 price) else neg32 (toInt32 price)
    addOrder s ref h.locate p shares
  | .orderExecuted _ ref shares _ => reduceOrder s ref shares
  | .orderExecutedWithPrice _ ref shares _ _ _ => reduceOrder s ref shares
  | .orderCancel _ ref shares => reduceOrder s ref shares
  | .orderDelete _ ref => deleteOrder s ref
  | .orderReplace _ orig new shares price => replaceOrder s orig new (toInt32 price) shares
  | _ => .ok s

def reactAll (s : St) : List Itch.Msg → Except Err St
  | [] => .ok s
  | m :: ms => do
    let s ← react s m
    reactAll s ms

/-- One iteration of the loop of `main`, :437-441 (the same loop as in examples/market_manager.cpp; see `Feeder.chunk`). -/
def chunk (x : Itch.St × St) (c : List UInt8) : Except Err (Itch.St × St) := do
  let (_, p) ← Itch.process (fun _ _ => true) x.1 c
  let s ← reactAll x.2 (p.log.drop x.1.log.length)
  .ok (p, s)

/-- :410-456 `main`; `chunks` are the blocks `input->Read` returns. The options, the timing and the output are left out. -/
def main : List (List UInt8) → Itch.St × St → Except Err (Itch.St × St)
  | [], x => .ok x
  | c :: cs, x => do
    let x ← chunk x c
    main cs x

end CppTrader.Aggr
