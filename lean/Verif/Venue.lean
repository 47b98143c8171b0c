import Verif.Textbook
/-
Specification: a reference exchange for all order types and all public calls. It keeps, for every symbol, one line of
orders per collection (bids, asks, stop orders, trailing stop orders) and six prices. It has no price levels, no volumes,
no table of orders and no pointers. Nothing here refers to the engine; where the engine does something a textbook would
not, the comment says so.
-/

namespace CppTrader

/-- A price on each side. -/
structure Quotes where
  bid : Nat
  ask : Nat
  deriving DecidableEq, Repr

/-- No prices. -/
def Quotes.blank : Quotes := ⟨0, MAX64⟩

def Quotes.set (q : Quotes) (sd : Side) (p : Nat) : Quotes :=
  match sd with
  | .buy => { q with bid := p }
  | .sell => { q with ask := p }

/-- The trading place of one symbol: its lines, the last execution price on each side, the execution prices that stop
orders still react to, and the prices the trailing orders have followed so far. -/
structure Pit where
  board : Board
  last : Quotes
  heard : Quotes
  seen : Quotes

def Pit.empty : Pit := ⟨fun _ => [], .blank, .blank, .blank⟩

def Kind.all : List Kind := [.bid, .ask, .buyStop, .sellStop, .tBuyStop, .tSellStop]

/-- All orders of a symbol. -/
def Board.orders (l : Board) : List Order := Kind.all.flatMap l

/-- The total quantity of all orders, and the number of stop orders. -/
def Board.size (l : Board) : Nat := (Kind.all.map fun k => ((l k).map (·.leaves)).sum).sum
def Board.stops (l : Board) : Nat := (l .buyStop).length + (l .sellStop).length + (l .tBuyStop).length + (l .tSellStop).length

def Board.bestBid (l : Board) : Nat := ((l .bid).head?.map (·.price)).getD 0
def Board.bestAsk (l : Board) : Nat := ((l .ask).head?.map (·.price)).getD MAX64

namespace Pit

/-- The market prices for stop orders. -/
def bid (p : Pit) : Nat := max p.heard.bid p.board.bestBid
def ask (p : Pit) : Nat := min p.heard.ask p.board.bestAsk

/-- The market prices for trailing orders. -/
def trailBid (p : Pit) : Nat := min p.last.bid p.board.bestBid
def trailAsk (p : Pit) : Nat := max p.last.ask p.board.bestAsk

end Pit

/-! ### Incoming orders -/

/-- An order is executed against the opposite side: executions, what is left of it, and the lines. -/
def Board.strike (m : Bool) (l : Board) (t : Order) : List Execution × Order × Board :=
  if m then
    let k := t.side.other.limits
    let u := t.capped (l k)
    (u.fills (l k), u.left (l k), l.put k (u.leaveLine (l k)))
  else ([], t, l)

/-- The last prices after executions. -/
def Quotes.after (q : Quotes) (xs : List Execution) : Quotes := xs.foldl (fun q x => q.set x.1.side x.2.1) q

namespace Pit

/-- The same at the trading place. Stop orders react to the last execution only: that of the incoming order. -/
def strike (m : Bool) (p : Pit) (t : Order) : List Execution × Order × Pit :=
  let r := p.board.strike m t
  (r.1, r.2.1, { p with
    board := r.2.2
    last := p.last.after r.1
    heard := match r.1.getLast? with
      | none => p.heard
      | some x => Quotes.blank.set x.1.side x.2.1 })

/-- What is left of an order stays if it is the kind of order that stays. -/
def land (p : Pit) (t : Order) : Pit := if t.rests then { p with board := p.board.insert t } else p

/-- An order leaves its line, or is changed in place. -/
def change (p : Pit) (id : Nat) (v : Option Order) : Pit := { p with board := p.board.change id v }

end Pit

/-! ### Stop orders -/

/-- A stop order waits for the market; limit and market orders do not. -/
def Order.waits (o : Order) : Prop := o.type ≠ .limit ∧ o.type ≠ .market

/-- A stop order that has been triggered: a market order (Immediate-Or-Cancel unless it was Fill-Or-Kill) or a limit
order. -/
def Order.released (o : Order) : Order :=
  match o.type with
  | .stop | .trailingStop => { o with type := .market, price := 0, stopPrice := 0, tif := if o.tif = .fok then .fok else .ioc }
  | .stopLimit | .trailingStopLimit => { o with type := .limit, stopPrice := 0 }
  | _ => o

def Order.trails (o : Order) : Prop := o.type = .trailingStop ∨ o.type = .trailingStopLimit

instance (o : Order) : Decidable o.waits := by unfold Order.waits; infer_instance
instance (o : Order) : Decidable o.trails := by unfold Order.trails; infer_instance
instance (o : Order) (m : Nat) : Decidable (o.trailMoves m) := by unfold Order.trailMoves; split <;> infer_instance

/-- A trailing order follows the market price `m`; the limit price keeps its distance from the stop price (in 64-bit
arithmetic). -/
def Order.retrailed (m : Nat) (o : Order) : Order :=
  if o.trails ∧ o.trailMoves m then
    { o with
      stopPrice := o.trailTarget m
      price := if o.type = .trailingStopLimit then add64 (o.trailTarget m) (sub64 o.price o.stopPrice) else o.price }
  else o

/-- Orders follow the market one after the other: those that move join the line anew. -/
def Board.retrail (m : Nat) : List Order → Board → Board
  | [], l => l
  | o :: os, l => if o.trailMoves m then Board.retrail m os ((l.change o.id none).insert (o.retrailed m)) else Board.retrail m os l

namespace Pit

/-- The stop price has been reached: buy stops wait for the ask to rise, sell stops for the bid to fall. -/
def reached (p : Pit) (o : Order) : Prop :=
  match o.side with
  | .buy => o.stopPrice ≤ p.ask
  | .sell => p.bid ≤ o.stopPrice

instance (p : Pit) (o : Order) : Decidable (p.reached o) := by unfold reached; split <;> infer_instance

/-- The stop orders of a line to be released together: those at the best stop price, if it has been reached. -/
def due (p : Pit) (k : Kind) : List Order :=
  match p.board k with
  | [] => []
  | o :: os => if p.reached o then o :: os.takeWhile (fun r => r.stopPrice = o.stopPrice) else []

/-- The due orders of the first line that has any. -/
def next (p : Pit) (k k' : Kind) : List Order := if p.due k = [] then p.due k' else p.due k

/-- A stop order is released. -/
def release (p : Pit) (o : Order) : List Execution × Pit :=
  let r := (p.change o.id none).strike true o.released
  (r.1, r.2.2.land r.2.1)

/-- Stop orders are released one after the other. -/
def releaseAll : List Order → Pit → List Execution × Pit
  | [], p => ([], p)
  | o :: os, p =>
    let r := p.release o
    let r' := releaseAll os r.2
    (r.1 ++ r'.1, r'.2)

/-- Trailing buy orders follow a falling ask. -/
def followAsk (p : Pit) : Pit :=
  if p.board .ask = [] then p
  else { p with
    seen := { p.seen with ask := p.trailAsk }
    board := if p.trailAsk < p.seen.ask then p.board.retrail p.trailAsk (p.board .tBuyStop) else p.board }

/-- Trailing sell orders follow a rising bid. -/
def followBid (p : Pit) : Pit :=
  if p.board .bid = [] then p
  else { p with
    seen := { p.seen with bid := p.trailBid }
    board := if p.seen.bid < p.trailBid then p.board.retrail p.trailBid (p.board .tSellStop) else p.board }

/-- One round: due buy stops, trailing buy orders, due sell stops, trailing sell orders. `true`: something was released. -/
def round (p : Pit) : Bool × List Execution × Pit :=
  let os := p.next .buyStop .tBuyStop
  let r := releaseAll os p
  let p' := r.2.followAsk
  let os' := p'.next .sellStop .tSellStop
  let r' := releaseAll os' p'
  (!os.isEmpty || !os'.isEmpty, r.1 ++ r'.1, r'.2.followBid)

/-- Rounds until nothing is released, at most `n`. `true`: something was released. -/
def rounds : Nat → Pit → Bool × List Execution × Pit
  | 0, p => (false, [], p)
  | n + 1, p =>
    let r := p.round
    if r.1 then
      let r' := rounds n r.2.2
      (true, r.2.1 ++ r'.2.1, r'.2.2)
    else r

end Pit

/-! ### A crossed book (orders entered while matching was off, or All-Or-None orders) -/

/-- The orders of a line, grouped by price. -/
def priceGroups : List Order → List (List Order)
  | [] => []
  | o :: os =>
    match priceGroups os with
    | (r :: rs) :: gs => if r.price = o.price then (o :: r :: rs) :: gs else [o] :: (r :: rs) :: gs
    | gs => [o] :: gs

/-- The quantity to be crossed when an All-Or-None order is first in line: `need` is wanted on one side (groups `L`, orders
`lo` of the first group not yet counted), `have` is available on the other (`S`, `so`); when too much is available the
sides swap roles. `0`: no quantity suits both sides. This is the engine's search: it disregards the prices of deeper
groups, and the swap exchanges the orders but not the groups. -/
def tally : Nat → List (List Order) → List (List Order) → List Order → List Order → Nat → Nat → Nat
  | 0, _, _, _, _, _, _ => 0
  | _ + 1, [], _, _, _, _, _ => 0
  | _ + 1, _ :: _, [], _, _, _, _ => 0
  | n + 1, L :: LS, S :: SS, x :: lo, y :: so, need, got =>
    let q := if y.isAON then y.leaves else min y.leaves (sub64 need got)
    let got' := add64 got q
    if need = got' then need
    else if need < got' then tally n (L :: LS) (S :: SS) (y :: so) lo got' need
    else tally n (L :: LS) (S :: SS) (x :: lo) so need got'
  | n + 1, _ :: LS, _ :: SS, [], [], need, got => tally n LS SS (LS.headD []) (SS.headD []) need got
  | n + 1, _ :: LS, S :: SS, [], y :: so, need, got => tally n LS (S :: SS) (LS.headD []) (y :: so) need got
  | n + 1, L :: LS, _ :: SS, x :: lo, [], need, got => tally n (L :: LS) SS (x :: lo) (SS.headD []) need got

/-- The quantity to be crossed: what the larger of the All-Or-None orders that are first in line wants. -/
def crossing (bids asks : List Order) : Nat :=
  match bids, asks with
  | b :: _, a :: _ =>
    let B := priceGroups bids
    let A := priceGroups asks
    let n := bids.length + B.length + (asks.length + A.length) + 1
    if a.isAON ∧ (b.isAON → b.leaves < a.leaves) then tally n A B (A.headD []) (B.headD []) a.leaves 0
    else tally n B A (B.headD []) (A.headD []) b.leaves 0
  | _, _ => 0

/-- The executions that take the quantity `n` from a line: all of an All-Or-None order, as much as needed of any other. -/
def drawn : Nat → List Order → List (Order × Nat)
  | _, [] => []
  | n, r :: rs =>
    if n = 0 then []
    else
      let q := if r.isAON then r.leaves else min r.leaves n
      (r, q) :: drawn (sub64 n q) rs

namespace Pit

/-- Two orders of a crossed book meet: the smaller one is executed at its price, and goes. -/
def meet (p : Pit) (b a : Order) : List Execution × Pit :=
  let e := if a.leaves < b.leaves then a else b
  let r := if a.leaves < b.leaves then b else a
  let xs := [(e, e.price, e.leaves), (r, e.price, e.leaves)]
  (xs, { p with
    board := (p.board.change e.id none).change r.id (if e.leaves < r.leaves then some (r.afterExec e.leaves) else none)
    last := p.last.after xs
    heard := .blank })

/-- The quantity `n` is taken from the line `k` at the price `price`. -/
def draw (p : Pit) (k : Kind) (price n : Nat) : List Execution × Pit :=
  let ys := drawn n (p.board k)
  let xs := ys.map fun y => (y.1, price, y.2)
  (xs, { p with board := p.board.put k (afterChain ys (p.board k)), last := p.last.after xs, heard := if xs = [] then p.heard else .blank })

/-- An All-Or-None order (`b` or `a`) is first in line: the quantity to be crossed is taken from both lines, or
nothing can be done (`true`). -/
def crossWhole (p : Pit) (b a : Order) : Bool × List Execution × Pit :=
  let n := crossing (p.board .bid) (p.board .ask)
  if n = 0 then (true, [], p)
  else
    let r := if b.isAON then p.draw .bid b.price n else p.draw .ask a.price n
    let r' := if b.isAON then r.2.draw .ask b.price n else r.2.draw .bid a.price n
    (false, r.1 ++ r'.1, r'.2)

/-- The orders at the best prices meet pair by pair; each order meets at most one other. -/
def pairs : List Order → List Order → Pit → Bool × List Execution × Pit
  | b :: bs, a :: as, p =>
    if b.isAON ∨ a.isAON then p.crossWhole b a
    else
      let r := p.meet b a
      let r' := pairs bs as r.2
      (r'.1, r.1 ++ r'.2.1, r'.2.2)
  | _, _, p => (false, [], p)

/-- Somebody could trade. -/
def crossed (p : Pit) : Prop := p.board.bestAsk ≤ p.board.bestBid ∧ p.board .bid ≠ [] ∧ p.board .ask ≠ []

instance (p : Pit) : Decidable p.crossed := by unfold crossed; infer_instance

/-- The market comes to rest: while the book is crossed, the best orders of both sides meet and the best stop orders
that are due are released; otherwise stop orders are released and trailing orders move, until nothing more happens.
Every turn executes something or releases a stop order, hence the number of turns `n`. -/
def settle : Nat → Pit → List Execution × Pit
  | 0, p => ([], p)
  | n + 1, p =>
    if p.crossed then
      let c := pairs ((priceGroups (p.board .bid)).headD []) ((priceGroups (p.board .ask)).headD []) p
      if c.1 then (c.2.1, c.2.2)
      else
        let r := releaseAll (c.2.2.due .buyStop) c.2.2
        let r' := releaseAll (r.2.due .sellStop) r.2
        let z := settle n r'.2
        (c.2.1 ++ r.1 ++ r'.1 ++ z.1, z.2)
    else
      let c := p.rounds (p.board.stops + 1)
      if c.1 then
        let z := settle n c.2.2
        (c.2.1 ++ z.1, z.2)
      else (c.2.1, c.2.2)

/-- The market comes to rest. -/
def rest (p : Pit) : List Execution × Pit := p.settle (p.board.size + p.board.stops + 1)

/-- The end of a call: the market comes to rest if matching is on, and stop orders forget the executions. -/
def close (m : Bool) (p : Pit) : List Execution × Pit :=
  let r := if m then p.rest else ([], p)
  (r.1, { r.2 with heard := .blank })

/-- A new order: limit and market orders are executed, stop orders too if their stop price has been reached. A trailing
order follows the market first. -/
def enter (m : Bool) (p : Pit) (o : Order) : List Execution × Order × Pit :=
  let t := o.retrailed (match o.side with | .buy => p.trailAsk | .sell => p.trailBid)
  if t.waits ∧ ¬ (m = true ∧ p.reached t) then ([], t, p) else p.strike m t.released

end Pit

/-! ### The exchange -/

/-- Whether it matches, the symbols, the symbols with a book (ascending), their trading places, and the orders left behind
by deleted books: they can be looked up, and their ids stay in use, but nothing can be done with them. -/
structure Venue where
  matching : Bool
  symbols : List Nat
  books : List Nat
  pits : Nat → Pit
  ghosts : List Order

namespace Venue

abbrev Answer := ErrorCode × List Execution × Venue

def init : Venue := ⟨false, [], [], fun _ => .empty, []⟩

def orders (x : Venue) : List Order := x.books.flatMap (fun s => (x.pits s).board.orders) ++ x.ghosts

/-- Look up an order by its id. -/
def find (x : Venue) (id : Nat) : Option Order := x.orders.find? (fun r => r.id = id)

def setPit (x : Venue) (sym : Nat) (p : Pit) : Venue := { x with pits := fun s => if s = sym then p else x.pits s }

/-- The call is refused. -/
def refuse (x : Venue) (e : ErrorCode) : Answer := (e, [], x)

/-- The call is carried out at the trading place of `sym`. -/
def done (x : Venue) (sym : Nat) (r : List Execution × Pit) : Answer :=
  let z := r.2.close x.matching
  (.ok, r.1 ++ z.1, x.setPit sym z.2)

/-- What is left of a new order stays, unless its id is in use. In that case the executions stand, and the call ends
without bringing the market to rest. -/
def land (x : Venue) (sym : Nat) (r : List Execution × Order × Pit) : Answer :=
  let y := x.setPit sym r.2.2
  if r.2.1.rests ∧ y.find r.2.1.id ≠ none then (.orderDuplicate, r.1, y)
  else x.done sym (r.1, r.2.2.land r.2.1)

/-- A call about the order `id`. -/
def onOrder (x : Venue) (id : Nat) (f : Order → Pit → Answer) : Answer :=
  match x.find id with
  | none => x.refuse .orderNotFound
  | some o => if o.symbolId ∈ x.books then f o (x.pits o.symbolId) else x.refuse .orderBookNotFound

/-- Calls with a positive quantity. -/
def withQty (x : Venue) (id q : Nat) (r : Answer) : Answer :=
  if id = 0 then x.refuse .orderIdInvalid else if q = 0 then x.refuse .orderQuantityInvalid else r

def add (x : Venue) (o : Order) : Answer :=
  if o.validate ≠ .ok then x.refuse o.validate
  else if o.symbolId ∉ x.books then x.refuse .orderBookNotFound
  else x.land o.symbolId ((x.pits o.symbolId).enter x.matching o)

def delete (x : Venue) (id : Nat) : Answer :=
  if id = 0 then x.refuse .orderIdInvalid else x.onOrder id fun o p => x.done o.symbolId ([], p.change id none)

/-- An order executed by hand at the price `price`. -/
def execute (x : Venue) (id q : Nat) (price : Order → Nat) : Answer :=
  x.withQty id q <| x.onOrder id fun o p =>
    x.done o.symbolId ([(o, price o, min q o.leaves)],
      { p with
        board := p.board.change id (if q < o.leaves then some (o.afterExec q) else none)
        last := p.last.set o.side (price o)
        heard := p.heard.set o.side (price o) })

/-- The order `o` is taken out of its line and comes back as `t`: it is executed by its limit price, even if it is a stop
order, and what is left joins the line. -/
def modify (x : Venue) (o : Order) (p : Pit) (t : Order) : Answer :=
  let r := (p.change o.id none).strike x.matching t
  x.done o.symbolId (r.1, r.2.2.land r.2.1)

/-- All books come to rest, one after the other. Stop orders do not forget the executions. -/
def matchAll : List Nat → Venue → List Execution × Venue
  | [], x => ([], x)
  | s :: ss, x =>
    let r := (x.pits s).rest
    let z := matchAll ss (x.setPit s r.2)
    (r.1 ++ z.1, z.2)

/-- Insert into an ascending list. -/
def insert (n : Nat) : List Nat → List Nat
  | [] => [n]
  | m :: ms => if n < m then n :: m :: ms else m :: insert n ms

/-- One public call: result code, executions, next state. -/
def call (x : Venue) : Op → Answer
  | .addSymbol s => if s.id ∈ x.symbols then x.refuse .symbolDuplicate else (.ok, [], { x with symbols := s.id :: x.symbols })
  | .deleteSymbol id =>
    if id ∈ x.symbols then (.ok, [], { x with symbols := x.symbols.filter (· ≠ id) }) else x.refuse .symbolNotFound
  | .addOrderBook s =>
    if s.id ∉ x.symbols then x.refuse .symbolNotFound
    else if s.id ∈ x.books then x.refuse .orderBookDuplicate
    else (.ok, [], { x.setPit s.id .empty with books := insert s.id x.books })
  | .deleteOrderBook id =>
    if id ∈ x.books then
      (.ok, [], { x with books := x.books.filter (· ≠ id), ghosts := (x.pits id).board.orders ++ x.ghosts })
    else x.refuse .orderBookNotFound
  | .addOrder o => x.add o
  | .reduceOrder id q => x.withQty id q <| x.onOrder id fun o p =>
    x.done o.symbolId ([], p.change id (if q < o.leaves then some { o with leaves := o.leaves - q } else none))
  | .modifyOrder id price q => x.withQty id q <| x.onOrder id fun o p =>
    x.modify o p { o with price := price, quantity := q, leaves := q }
  | .mitigateOrder id price q => x.withQty id q <| x.onOrder id fun o p =>
    x.modify o p { o with price := price, quantity := q, leaves := q - o.executed }
  | .replaceOrder id n price q =>
    if id = 0 ∨ n = 0 then x.refuse .orderIdInvalid
    else if q = 0 then x.refuse .orderQuantityInvalid
    else
      match x.find id with
      | none => x.refuse .orderNotFound
      | some o =>
        if o.type ≠ .limit then x.refuse .orderTypeInvalid
        else x.onOrder id fun o p =>
          x.land o.symbolId ((p.change id none).strike x.matching { o with id := n, price := price, quantity := q, executed := 0, leaves := q })
  | .replaceWith id o =>
    match x.delete id with
    | (.ok, xs, x') => let r := x'.add o; (r.1, xs ++ r.2.1, r.2.2)
    | r => r
  | .deleteOrder id => x.delete id
  | .executeOrder id q => x.execute id q (·.price)
  | .executeOrderAt id price q => x.execute id q (fun _ => price)
  | .enableMatching => let r := matchAll x.books { x with matching := true }; (.ok, r.1, r.2)
  | .disableMatching => (.ok, [], { x with matching := false })
  | .matchAll => let r := matchAll x.books x; (.ok, r.1, r.2)

/-- The exchange after a sequence of calls. -/
def after (x : Venue) : List Op → Venue
  | [] => x
  | op :: ops => (x.call op).2.2.after ops

/-- The result codes and executions of a sequence of calls. -/
def results (x : Venue) : List Op → List (ErrorCode × List Execution)
  | [] => []
  | op :: ops => ((x.call op).1, (x.call op).2.1) :: (x.call op).2.2.results ops

end Venue

end CppTrader
