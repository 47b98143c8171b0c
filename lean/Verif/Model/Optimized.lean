import Verif.Model.Feeder
/-
Model of performance/market_manager_optimized.cpp: a market manager without checks. Orders are in a vector indexed by
their ids, price levels in vectors sorted by price with the best one at the back, allocated from a pool shared by all
books. It is modelled as it is written: `AddOrder` does not store the price of the order, and `ReduceOrder` of all that is
left takes nothing off the price level.
-/

namespace CppTrader.Opt

/-- market_manager_optimized.cpp:32-44 `Level`; `side` is the `LevelType`. -/
structure Level where
  side : Side
  price : Nat
  volume : Nat
  orders : Nat
  deriving DecidableEq, Repr

instance : Inhabited Level := ⟨⟨.buy, 0, 0, 0⟩⟩

/-- :102-110 `Order`. -/
structure Ord where
  id : Nat
  symbol : Nat
  side : Side
  price : Nat
  quantity : Nat
  level : Nat
  deriving DecidableEq, Repr

/-- :112-116 `PriceLevel`. -/
structure PriceLevel where
  price : Nat
  level : Nat
  deriving DecidableEq, Repr

/-- :118-152 `OrderBook`. The vectors are listed from the back, so that the best price level comes first. -/
structure Book where
  bids : List PriceLevel
  asks : List PriceLevel
  deriving DecidableEq, Repr

/-- :82-87 `UpdateType`. -/
inductive Change where
  | add
  | update
  | delete
  deriving DecidableEq, Repr

/-- The callbacks of :347-358. The market handler is given a reference to the book; the numbers of its bid and ask levels are
all it reads there. -/
inductive Ev where
  | addSymbol (id : Nat)
  | deleteSymbol (id : Nat)
  | addBook (id : Nat)
  | deleteBook (id : Nat)
  | updateBook (bids asks : Nat) (top : Bool)
  | level (c : Change) (l : Level) (top : Bool)
  | addOrder (o : Ord)
  | updateOrder (o : Ord)
  | deleteOrder (o : Ord)
  | exec (o : Ord) (price qty : Nat)
  deriving DecidableEq, Repr

/-- The manager (:375-663) with the static pool of levels (:46-80, :314) and the callbacks made so far. `alloc` is the vector
of levels, `free` the vector of free indexes listed from the back. The vectors of 10000 symbols and books and of 300000000
orders are total functions; the accessors below refuse indexes out of range. -/
structure St where
  symbols : Nat → Option Nat
  books : Nat → Book
  orders : Nat → Ord
  alloc : List Level
  free : List Nat
  ev : List Ev

/-- The constructor, :378-383: all books are empty, all orders are zero. -/
def init : St := ⟨fun _ => none, fun _ => ⟨[], []⟩, fun _ => ⟨0, 0, .buy, 0, 0, 0⟩, [], [], []⟩

/-- Arithmetic of `uint32_t`. -/
abbrev W32 : Nat := 4294967296
def add32 (a b : Nat) : Nat := (a + b) % W32
def sub32 (a b : Nat) : Nat := (a + (W32 - b % W32)) % W32

/-- `_order_books[id]`. -/
def getBook (s : St) (id : Nat) : Except Err Book := if id < 10000 then .ok (s.books id) else .error .ub
/-- `_orders[id]`. -/
def getOrd (s : St) (id : Nat) : Except Err Ord := if id < 300000000 then .ok (s.orders id) else .error .ub
/-- `_levels.get(index)`, :54. -/
def getLevel (s : St) (i : Nat) : Except Err Level :=
  match s.alloc[i]? with
  | some l => .ok l
  | none => .error .ub

def setBook (s : St) (id : Nat) (b : Book) : St := { s with books := fun j => if j = id then b else s.books j }
def setOrd (s : St) (id : Nat) (o : Ord) : St := { s with orders := fun j => if j = id then o else s.orders j }
def setLevel (s : St) (i : Nat) (l : Level) : St := { s with alloc := s.alloc.set i l }
/-- A callback. -/
def emit (s : St) (e : Ev) : St := { s with ev := s.ev ++ [e] }

/-- :56-70 `LevelPool::allocate`. -/
def allocate (s : St) : Nat × St :=
  match s.free with
  | [] => (s.alloc.length, { s with alloc := s.alloc ++ [default] })
  | i :: free => (i, { s with free := free })

/-- :72-75 `LevelPool::free`. -/
def release (s : St) (i : Nat) : St := { s with free := i :: s.free }

/-- `bids()`/`asks()`, :143-144. -/
def Book.half (b : Book) : Side → List PriceLevel
  | .buy => b.bids
  | .sell => b.asks

def Book.setHalf (b : Book) (sd : Side) (l : List PriceLevel) : Book :=
  match sd with
  | .buy => { b with bids := l }
  | .sell => { b with asks := l }

/-- The comparison that ends the searches: `<` for bids, `>` for asks. -/
def behind : Side → Nat → Nat → Bool
  | .buy, x, p => decide (x < p)
  | .sell, x, p => decide (x > p)

/-- The searches of :159-167 and :185-193, from the back of the vector. (The loops decrement an iterator at `begin()`, which
the standard does not allow; with the pointers of every implementation of `std::vector` it is harmless. They are modelled as
intended.) -/
def search (sd : Side) (price : Nat) : List PriceLevel → Option Nat
  | [] => none
  | x :: l => if x.price = price then some x.level else if behind sd x.price price then none else search sd price l

/-- The insertions of :178 and :204 after the element at which the search stopped (in the order of the vector). -/
def insert (sd : Side) (price : Nat) (i : Nat) : List PriceLevel → List PriceLevel
  | [] => [⟨price, i⟩]
  | x :: l => if behind sd x.price price then ⟨price, i⟩ :: x :: l else x :: insert sd price i l

/-- The searches and erasures of :214-225 and :229-240. -/
def erase (sd : Side) (price : Nat) : List PriceLevel → List PriceLevel
  | [] => []
  | x :: l => if x.price = price then l else if behind sd x.price price then x :: l else x :: erase sd price l

/-- :154-208 `OrderBook::FindLevel`, in the book of `sym`. -/
def findLevel (s : St) (sym : Nat) (o : Ord) : Except Err (Nat × Change × St) := do
  let b ← getBook s sym
  match search o.side o.price (b.half o.side) with
  | some i => .ok (i, .update, s)
  | none =>
    let (i, s) := allocate s
    let s := setLevel s i ⟨o.side, o.price, 0, 0⟩
    .ok (i, .add, setBook s sym (b.setHalf o.side (insert o.side o.price i (b.half o.side))))

/-- :210-245 `OrderBook::DeleteLevel`. -/
def deleteLevel (s : St) (sym : Nat) (o : Ord) : Except Err St := do
  let b ← getBook s sym
  let s := setBook s sym (b.setHalf o.side (erase o.side o.price (b.half o.side)))
  .ok (release s o.level)

/-- `level_ptr == best_bid()` or `best_ask()`, :145-146, :263, :278, :301. -/
def isTop (b : Book) (sd : Side) (i : Nat) : Bool :=
  match b.half sd with
  | [] => false
  | x :: _ => decide (x.level = i)

/-- :646-662 `UpdateLevel`. -/
def updateLevel (s : St) (sym : Nat) (c : Change) (l : Level) (top : Bool) : St :=
  emit (emit s (.level c l top)) (.updateBook (s.books sym).bids.length (s.books sym).asks.length top)

/-- :247-264 `OrderBook::AddOrder` for the order `id`, with the `UpdateLevel` around it. -/
def bookAdd (s : St) (sym id : Nat) : Except Err St := do
  let o ← getOrd s id
  let (i, c, s) ← findLevel s sym o
  let l ← getLevel s i
  let l := { l with volume := add32 l.volume o.quantity, orders := add64 l.orders 1 }
  let s := setOrd (setLevel s i l) id { o with level := i }
  .ok (updateLevel s sym c l (isTop (s.books sym) o.side i))

/-- The common end of `OrderBook::ReduceOrder` and `OrderBook::DeleteOrder`, :278-287, :301-310, with the `UpdateLevel` around
it: `l` is the level after the change; it is deleted when nothing is left. -/
def bookEnd (s : St) (sym : Nat) (o : Ord) (l : Level) : Except Err St := do
  let b ← getBook s sym
  let top := isTop b o.side o.level
  let s := setLevel s o.level l
  if l.volume = 0 then
    let s ← deleteLevel s sym o
    .ok (updateLevel s sym .delete l top)
  else .ok (updateLevel s sym .update l top)

/-- :266-288 `OrderBook::ReduceOrder`; `o` has its new quantity. -/
def bookReduce (s : St) (sym : Nat) (o : Ord) (quantity : Nat) : Except Err St := do
  let l ← getLevel s o.level
  bookEnd s sym o { l with volume := sub32 l.volume quantity, orders := if o.quantity = 0 then sub64 l.orders 1 else l.orders }

/-- :290-311 `OrderBook::DeleteOrder`. -/
def bookDelete (s : St) (sym : Nat) (o : Ord) : Except Err St := do
  let l ← getLevel s o.level
  bookEnd s sym o { l with volume := sub32 l.volume o.quantity, orders := sub64 l.orders 1 }

/-- :394-401 `AddSymbol`. -/
def addSymbol (s : St) (id name : Nat) : Except Err St := do
  let _ ← getBook s id
  .ok (emit { s with symbols := fun j => if j = id then some name else s.symbols j } (.addSymbol id))

/-- :403-407 `DeleteSymbol`: only the callback. -/
def deleteSymbol (s : St) (id : Nat) : Except Err St := do
  let _ ← getBook s id
  .ok (emit s (.deleteSymbol id))

/-- :409-416 `AddOrderBook`. The levels of the old book are not given back to the pool. -/
def addOrderBook (s : St) (sym : Nat) : Except Err St := do
  let _ ← getBook s sym
  .ok (emit (setBook s sym ⟨[], []⟩) (.addBook sym))

/-- :418-422 `DeleteOrderBook`: only the callback. -/
def deleteOrderBook (s : St) (sym : Nat) : Except Err St := do
  let _ ← getBook s sym
  .ok (emit s (.deleteBook sym))

/-- :424-439 `AddOrder`. The parameter `price` is not used. -/
def addOrder (s : St) (id sym : Nat) (side : Side) (_price qty : Nat) : Except Err St := do
  let o ← getOrd s id
  let o := { o with id := id, symbol := sym, side := side, quantity := qty }
  let s := emit (setOrd s id o) (.addOrder o)
  bookAdd s sym id

/-- :441-471 `ReduceOrder`. An order of which nothing is left is deleted from its level with its new quantity, 0. -/
def reduceOrder (s : St) (id qty : Nat) : Except Err St := do
  let o ← getOrd s id
  let q := min qty o.quantity
  let o := { o with quantity := o.quantity - q }
  let s := setOrd s id o
  if o.quantity > 0 then bookReduce (emit s (.updateOrder o)) o.symbol o q
  else bookDelete (emit s (.deleteOrder o)) o.symbol o

/-- :473-500 `ModifyOrder`. The price is an `int32_t` that is stored in a `uint32_t`: the same 32 bits. -/
def modifyOrder (s : St) (id price qty : Nat) : Except Err St := do
  let o ← getOrd s id
  let s ← bookDelete s o.symbol o
  let o := { o with price := price, quantity := qty }
  let s := setOrd s id o
  if qty > 0 then bookAdd (emit s (.updateOrder o)) o.symbol id
  else .ok (emit s (.deleteOrder o))

/-- :502-531 `ReplaceOrder` with four arguments. -/
def replaceOrder (s : St) (id new price qty : Nat) : Except Err St := do
  let o ← getOrd s id
  let s ← bookDelete s o.symbol o
  let s := emit s (.deleteOrder o)
  if qty > 0 then
    let _ ← getOrd s new
    let n := { o with id := new, price := price, quantity := qty }
    bookAdd (emit (setOrd s new n) (.addOrder n)) o.symbol new
  else .ok s

/-- :533-562 `ReplaceOrder` with six arguments. -/
def replaceWith (s : St) (id new sym : Nat) (side : Side) (price qty : Nat) : Except Err St := do
  let o ← getOrd s id
  let s ← bookDelete s o.symbol o
  let s := emit s (.deleteOrder o)
  if qty > 0 then
    let n ← getOrd s new
    let n := { n with id := new, symbol := sym, side := side, price := price, quantity := qty }
    bookAdd (emit (setOrd s new n) (.addOrder n)) sym new
  else .ok s

/-- :564-575 `DeleteOrder`. -/
def deleteOrder (s : St) (id : Nat) : Except Err St := do
  let o ← getOrd s id
  let s ← bookDelete s o.symbol o
  .ok (emit s (.deleteOrder o))

/-- :608-637 `ExecuteOrder` with a price; :577-606 is the same with the price of the order. (The price passed is an `int32_t`
extended to the `int64_t` of the callback, which does not use it; the model keeps the unsigned number.) -/
def executeAt (s : St) (id : Nat) (price : Ord → Nat) (qty : Nat) : Except Err St := do
  let o ← getOrd s id
  let q := min qty o.quantity
  let s := emit s (.exec o (price o) q)
  let o := { o with quantity := o.quantity - q }
  let s ← bookReduce (setOrd s id o) o.symbol o q
  .ok (emit s (if o.quantity > 0 then .updateOrder o else .deleteOrder o))

/-- `bids()`/`asks()`, :143-144, with the levels they refer to: price, volume and number of orders, from the back of the vector;
the first one is `best_bid()`/`best_ask()`, :145-146. -/
def levels (s : St) (sym : Nat) (sd : Side) : List (Nat × Nat × Nat) :=
  ((s.books sym).half sd).map fun e => (e.price, match s.alloc[e.level]? with | some l => (l.volume, l.orders) | none => (0, 0))

/-- :679-700 `MyITCHHandler::onMessage`: what the handler calls for a message. 66 is 'B'. The indexes `message.StockLocate`
and `message.OrderReferenceNumber` are used as they are. The stock name is packed into a number. -/
def react (s : St) : Itch.Msg → Except Err St
  | .stockDirectory h stock .. => do
    let s ← addSymbol s h.locate (Itch.beVal stock)
    addOrderBook s h.locate
  | .addOrder h ref side shares _ price => addOrder s ref h.locate (if side = 66 then .buy else .sell) price shares
  | .addOrderMPID h ref side shares _ price _ => addOrder s ref h.locate (if side = 66 then .buy else .sell) price shares
  | .orderExecuted _ ref shares _ => executeAt s ref (·.price) shares
  | .orderExecutedWithPrice _ ref shares _ _ price => executeAt s ref (fun _ => price) shares
  | .orderCancel _ ref shares => reduceOrder s ref shares
  | .orderDelete _ ref => deleteOrder s ref
  | .orderReplace _ orig new shares price => replaceOrder s orig new price shares
  | _ => .ok s

def reactAll (s : St) : List Itch.Msg → Except Err St
  | [] => .ok s
  | m :: ms => do
    let s ← react s m
    reactAll s ms

/-- One iteration of the loop of `main`, :741-745 (the same loop as in examples/market_manager.cpp; see `Feeder.chunk`). -/
def chunk (x : Itch.St × St) (c : List UInt8) : Except Err (Itch.St × St) := do
  let (_, p) ← Itch.process (fun _ _ => true) x.1 c
  let s ← reactAll x.2 (p.log.drop x.1.log.length)
  .ok (p, s)

/-- :708-783 `main`; `chunks` are the blocks `input->Read` returns. The options, the timing and the text of the report are
left out; the numbers of the report are `Stats` (Model/Stats.lean) of the callbacks. -/
def main : List (List UInt8) → Itch.St × St → Except Err (Itch.St × St)
  | [], x => .ok x
  | c :: cs, x => do
    let x ← chunk x c
    main cs x

end CppTrader.Opt
