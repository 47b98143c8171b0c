import Verif.Spec
/-
Specification of the handler callbacks as data feeds: what a client that only sees the callbacks
(include/trader/matching/market_handler.h) can maintain, and which callbacks are acceptable to it. Nothing
here refers to the engine.
-/

namespace CppTrader

/-- A client keeps a view, checks every event against it and updates it. -/
def Replays {σ : Type} (ok : σ → Event → Prop) (next : σ → Event → σ) : σ → List Event → σ → Prop
  | v, [], v' => v = v'
  | v, e :: es, v' => ok v e ∧ Replays ok next (next v e) es v'

/-! ### The order feed -/

/-- The orders a client believes to be alive. -/
abbrev OrderView := Nat → Option Order

def OrderView.set (v : OrderView) (id : Nat) (x : Option Order) : OrderView := fun i => if i = id then x else v i

/-- The order after an execution of `q`. -/
def Order.afterExec (o : Order) (q : Nat) : Order :=
  { o with executed := add64 o.executed q, leaves := o.leaves - q }

/-- Client side of `onAddOrder`, `onUpdateOrder`, `onDeleteOrder`, `onExecuteOrder`. -/
def OrderView.next (v : OrderView) : Event → OrderView
  | .addOrder o => v.set o.id (some o)
  | .updateOrder o => v.set o.id (some o)
  | .deleteOrder o => v.set o.id none
  | .exec o _ q => v.set o.id (some (o.afterExec q))
  | _ => v

/-- Equal, except that a market order may have been given a price bound. -/
def Order.sameBut (x o : Order) : Prop := x = o ∨ o.type = .market ∧ x = { o with price := x.price }

/-- What a call may do to existing orders. -/
structure Scope where
  /-- orders may be modified (`ModifyOrder`, `MitigateOrder`) -/
  mod : Bool
  /-- orders may be reduced (`ReduceOrder`) -/
  red : Bool
  /-- stop orders may be triggered and trailing stop prices may move (matching is running) -/
  act : Bool

/-- A trailing parameter (distance or step) in units of price, at the market price `m`: given as such, or, when the
distance is negative, in hundredths of a percent of the market price (of which 2^64 is taken off as often as it fits). -/
def Order.trailUnits (x : Order) (v : Int) (m : Nat) : Nat :=
  if x.trailDist < 0 then (-v).toNat * m % W64 / 10000 else v.toNat

/-- The stop price a trailing order aims at when the market price is `m`: the distance above it for a buy order, below
it for a sell order, within the range of prices. -/
def Order.trailTarget (x : Order) (m : Nat) : Nat :=
  match x.side with
  | .buy => min (m + x.trailUnits x.trailDist m) MAX64
  | .sell => m - x.trailUnits x.trailDist m

/-- At market price `m` the order moves its stop price: the target is closer to the market than the stop price, by at
least the trailing step. -/
def Order.trailMoves (x : Order) (m : Nat) : Prop :=
  match x.side with
  | .buy => x.trailTarget m < x.stopPrice ∧ x.trailTarget m + x.trailUnits x.trailStep m ≤ x.stopPrice
  | .sell => x.stopPrice < x.trailTarget m ∧ x.stopPrice + x.trailUnits x.trailStep m ≤ x.trailTarget m

/-- The stop price `sp` is where the order moves at some market price. -/
def Order.Trails (x : Order) (sp : Nat) : Prop := ∃ m, m < W64 ∧ x.trailMoves m ∧ sp = x.trailTarget m

/-- How `onUpdateOrder` may change an order. -/
inductive Order.Updated (sc : Scope) (x : Order) : Order → Prop
  /-- nothing new (confirms the preceding execution) -/
  | same : Updated sc x x
  /-- quantity taken off -/
  | reduced (q : Nat) (le : q ≤ x.leaves) (ok : sc.red = true) : Updated sc x { x with leaves := x.leaves - q }
  /-- new price and quantity; what is left is the new quantity, or (mitigation) what exceeds the executed quantity -/
  | modified (p q l : Nat) (left : l = q ∨ l = q - x.executed) (ok : sc.mod = true) :
      Updated sc x { x with price := p, quantity := q, leaves := l }
  /-- a (trailing) stop order becomes a market order -/
  | toMarket (ty : x.type = .stop ∨ x.type = .trailingStop) (ok : sc.act = true) :
      Updated sc x { x with type := .market, price := 0, stopPrice := 0, tif := if x.tif = .fok then .fok else .ioc }
  /-- a (trailing) stop-limit order becomes a limit order -/
  | toLimit (ty : x.type = .stopLimit ∨ x.type = .trailingStopLimit) (ok : sc.act = true) :
      Updated sc x { x with type := .limit, stopPrice := 0 }
  /-- the stop price of a trailing stop order follows the market -/
  | trailStop (sp : Nat) (ty : x.type = .trailingStop) (dir : x.Trails sp) (ok : sc.act = true) : Updated sc x { x with stopPrice := sp }
  /-- the same for a trailing stop-limit order: the limit price keeps its distance (modulo 2^64) -/
  | trailStopLimit (sp : Nat) (ty : x.type = .trailingStopLimit) (dir : x.Trails sp) (ok : sc.act = true) :
      Updated sc x { x with stopPrice := sp, price := add64 sp (sub64 x.price x.stopPrice) }

/-- What `onDeleteOrder` may report of an order: the order as known (up to the price bound of a market
order); with some other leaves quantity; with the new price and quantity of a mitigation that leaves nothing. -/
inductive Order.Deleted (sc : Scope) (x : Order) : Order → Prop
  | known {o : Order} (h : x.sameBut o) : Deleted sc x o
  /-- completely executed by the preceding execution; the reported leaves quantity may be that before it -/
  | filled (l : Nat) (empty : x.leaves = 0) : Deleted sc x { x with leaves := l }
  | reduced (ok : sc.red = true) : Deleted sc x { x with leaves := 0 }
  | mitigated (p q : Nat) (left : q ≤ x.executed) (ok : sc.mod = true) : Deleted sc x { x with price := p, quantity := q, leaves := 0 }

/-- What an event may say about an order, given the client's view: an order is added under an unused id;
updated, executed and deleted only while alive; an execution is reported on the order as last reported, for a
positive quantity of at most its leaves quantity. -/
def OrderView.ok (sc : Scope) (v : OrderView) : Event → Prop
  | .addOrder o => v o.id = none
  | .updateOrder o => ∃ x, v o.id = some x ∧ x.Updated sc o
  | .deleteOrder o => ∃ x, v o.id = some x ∧ x.Deleted sc o
  | .exec o _ q => (∃ x, v o.id = some x ∧ x.sameBut o) ∧ 0 < q ∧ q ≤ o.leaves
  | _ => True

/-- The callback is about the order with this id. -/
def Event.concerns (i : Nat) : Event → Bool
  | .addOrder o => decide (o.id = i)
  | .updateOrder o => decide (o.id = i)
  | .deleteOrder o => decide (o.id = i)
  | .exec o _ _ => decide (o.id = i)
  | _ => false

/-- The market price followed by the trailing orders of a symbol: for buy orders the higher one of the last price at
which a sell order was executed and the best ask, for sell orders the lower one of the last price at which a buy order
was executed and the best bid. -/
def Mgr.trailMarket (g : Mgr) (sym : Nat) (sd : Side) : Nat :=
  match g.getBook sym, sd with
  | some b, .buy => max b.lastAsk ((b.best .ask).getD MAX64)
  | some b, .sell => min b.lastBid ((b.best .bid).getD 0)
  | none, _ => 0

/-- How a submitted order `o` is reported added when the market price is `m`: as submitted, except that the stop price
of a trailing order already follows the market (the limit price keeps its distance). -/
def Order.Submitted (m : Nat) (o o' : Order) : Prop :=
  o' = o ∧ ¬ ((o.type = .trailingStop ∨ o.type = .trailingStopLimit) ∧ o.trailMoves m) ∨
  o.trailMoves m ∧
    (o.type = .trailingStop ∧ o' = { o with stopPrice := o.trailTarget m } ∨
      o.type = .trailingStopLimit ∧
        o' = { o with stopPrice := o.trailTarget m, price := add64 (o.trailTarget m) (sub64 o.price o.stopPrice) })

/-- The orders added in a list of events. -/
def addsOf : List Event → List Order
  | [] => []
  | .addOrder o :: es => o :: addsOf es
  | _ :: es => addsOf es

/-! ### The level feed -/

/-- The levels of one book: by side (`true` = bid) and price. -/
abbrev BookView := Bool → Nat → Option LevelInfo

def BookView.set (w : BookView) (isBid : Bool) (p : Nat) (x : Option LevelInfo) : BookView :=
  fun s q => if s = isBid ∧ q = p then x else w s q

/-- The levels of all books, by symbol id. -/
abbrev LevelView := Nat → BookView

def LevelView.set (v : LevelView) (sym : Nat) (w : BookView) : LevelView := fun s => if s = sym then w else v s

/-- Client side of `onAddLevel`, `onUpdateLevel`, `onDeleteLevel`, `onDeleteOrderBook`. -/
def LevelView.next (v : LevelView) : Event → LevelView
  | .addLevel sym l _ => v.set sym ((v sym).set l.isBid l.price (some l))
  | .updateLevel sym l _ => v.set sym ((v sym).set l.isBid l.price (some l))
  | .deleteLevel sym l _ => v.set sym ((v sym).set l.isBid l.price none)
  | .deleteBook s => v.set s.id (fun _ _ => none)
  | _ => v

/-- `p` is the best price of its side. -/
def BookView.isTop (w : BookView) (isBid : Bool) (p : Nat) : Prop :=
  w isBid p ≠ none ∧ ∀ p', w isBid p' ≠ none → if isBid then p' ≤ p else p ≤ p'

/-- A level is added only if absent, updated and deleted only if present; on addition and update the `top`
flag tells whether the level is the best of its side after the event; a level is deleted when its volume is
zero, with the flag always set. -/
def LevelView.ok (v : LevelView) (e : Event) : Prop :=
  match e with
  | .addLevel sym l top => v sym l.isBid l.price = none ∧ (top = true ↔ (v.next e sym).isTop l.isBid l.price)
  | .updateLevel sym l top => v sym l.isBid l.price ≠ none ∧ (top = true ↔ (v.next e sym).isTop l.isBid l.price)
  | .deleteLevel sym l top => v sym l.isBid l.price ≠ none ∧ l.total = 0 ∧ top = true
  | _ => True

/-- The bid and ask levels of a book. -/
def Book.view (b : Book) : BookView := fun isBid p =>
  let k := if isBid then Kind.bid else Kind.ask
  ((b.lv k).find? (fun l => l.price = p)).map (fun l => ⟨isBid, l.price, l.total, l.hidden, l.visible, l.count⟩)

/-- The bid and ask levels of all books. -/
def Mgr.levels (g : Mgr) : LevelView := fun sym =>
  match g.getBook sym with
  | none => fun _ _ => none
  | some b => b.view

/-- A notification about an order. -/
def Event.isOrder : Event → Bool
  | .addOrder _ | .updateOrder _ | .deleteOrder _ | .exec _ _ _ => true
  | _ => false

/-- The notifications raised while a book is changed: order notifications, and level notifications each followed
at once by `onUpdateOrderBook` for the same book with the same `top` flag. -/
inductive BookFeed : List Event → Prop
  | nil : BookFeed []
  | order (e : Event) (es : List Event) (h : e.isOrder = true) (tl : BookFeed es) : BookFeed (e :: es)
  | addLevel (sym : Nat) (l : LevelInfo) (top : Bool) (es : List Event) (tl : BookFeed es) :
      BookFeed (.addLevel sym l top :: .updateBook sym top :: es)
  | updateLevel (sym : Nat) (l : LevelInfo) (top : Bool) (es : List Event) (tl : BookFeed es) :
      BookFeed (.updateLevel sym l top :: .updateBook sym top :: es)
  | deleteLevel (sym : Nat) (l : LevelInfo) (top : Bool) (es : List Event) (tl : BookFeed es) :
      BookFeed (.deleteLevel sym l top :: .updateBook sym top :: es)

/-! ### Executions -/

/-- The executions reported in a list of events. -/
def execsOf : List Event → List (Order × Nat × Nat)
  | [] => []
  | .exec o p q :: es => (o, p, q) :: execsOf es
  | _ :: es => execsOf es

/-- The symbol an event is about. -/
def Event.symbol : Event → Nat
  | .addSymbol s => s.id
  | .deleteSymbol s => s.id
  | .addBook s => s.id
  | .deleteBook s => s.id
  | .updateBook sym _ => sym
  | .addLevel sym _ _ => sym
  | .updateLevel sym _ _ => sym
  | .deleteLevel sym _ _ => sym
  | .addOrder o => o.symbolId
  | .updateOrder o => o.symbolId
  | .deleteOrder o => o.symbolId
  | .exec o _ _ => o.symbolId

/-! ### Calls and orders -/

/-- `ExecuteOrder`, in either form. -/
def Op.isExecute : Op → Bool
  | .executeOrder _ _ | .executeOrderAt _ _ _ => true
  | _ => false

/-- `ModifyOrder` or `MitigateOrder`. -/
def Op.isModify : Op → Bool
  | .modifyOrder _ _ _ | .mitigateOrder _ _ _ => true
  | _ => false

/-- `ReduceOrder`. -/
def Op.isReduce : Op → Bool
  | .reduceOrder _ _ => true
  | _ => false

/-- `Match` or `EnableMatching`. -/
def Op.isMatch : Op → Bool
  | .matchAll | .enableMatching => true
  | _ => false

/-- What a call may do to existing orders: modify or reduce them if that is what the call is for; trigger stop orders
and move trailing stops if matching is enabled or the call runs it. -/
def Mgr.scope (g : Mgr) (op : Op) : Scope := ⟨op.isModify, op.isReduce, g.matching || op.isMatch⟩

/-- The executions of one order. -/
def execsOfId (i : Nat) (evs : List Event) : List (Order × Nat × Nat) := (execsOf evs).filter (fun x => x.1.id = i)

/-- Total executed quantity. -/
def execTotal (xs : List (Order × Nat × Nat)) : Nat := (xs.map (fun x => x.2.2)).sum

/-- What never changes, and how the type may change. -/
structure Order.Identity (x x' : Order) : Prop where
  id : x'.id = x.id
  symbol : x'.symbolId = x.symbolId
  side : x'.side = x.side
  maxVisible : x'.maxVisible = x.maxVisible
  slippage : x'.slippage = x.slippage
  trailDist : x'.trailDist = x.trailDist
  trailStep : x'.trailStep = x.trailStep
  /-- same type; a stop order may have become a market order and a stop-limit order a limit order -/
  type : x'.type = x.type ∨ (x.type = .stop ∨ x.type = .trailingStop) ∧ x'.type = .market ∨
    (x.type = .stopLimit ∨ x.type = .trailingStopLimit) ∧ x'.type = .limit
  /-- the time-in-force changes only in the conversion to a market order, to `IOC` unless `FOK` -/
  tif : x'.tif = x.tif ∨ x'.type = .market ∧ x.type ≠ .market ∧ x.tif ≠ .fok ∧ x'.tif = .ioc
  /-- while the type stays the same, the stop price moves only for trailing orders, to follow the market -/
  stop : x'.type = x.type → x'.stopPrice = x.stopPrice ∨ (x.type = .trailingStop ∨ x.type = .trailingStopLimit) ∧
      x.Trails x'.stopPrice
  /-- a converted order has no stop price -/
  noStop : x'.type ≠ x.type → x'.stopPrice = 0

/-- Calls that submit an order. -/
def Op.isSubmission : Op → Bool
  | .addOrder _ | .replaceOrder _ _ _ _ | .replaceWith _ _ => true
  | _ => false

/-- The order a call submits. -/
def Mgr.submits (g : Mgr) (op : Op) (o' : Order) : Prop :=
  match op with
  | .addOrder o => o.Submitted (g.trailMarket o.symbolId o.side) o'
  | .replaceOrder id n p q => ∃ o, g.getOrder id = some o ∧ o' = { o with id := n, price := p, quantity := q, executed := 0, leaves := q }
  | .replaceWith _ o => ∃ m, o.Submitted m o'
  | _ => False

/-- The outcome of a call for a Fill-Or-Kill order with id `i` and leaves quantity `n`: no execution, or exactly one, for
the whole quantity, preceded by executions of orders of the other side that sum up to it. -/
def FillOrKill (i n : Nat) (evs : List Event) : Prop :=
  execsOfId i evs = [] ∨
  ∃ (t : Order) (p : Nat) (xs : List (Order × Nat)) (A B : List (Order × Nat × Nat)),
    execsOfId i evs = [(t, p, n)] ∧ t.leaves = n ∧
    execsOf evs = A ++ (xs.map (fun x => (x.1, p, x.2)) ++ [(t, p, n)]) ++ B ∧
    (∀ x ∈ xs, x.1.side ≠ t.side ∧ 0 < x.2 ∧ x.2 ≤ x.1.leaves) ∧ (xs.map (·.2)).sum = n

end CppTrader
