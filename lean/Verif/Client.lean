import Verif.Feed
/-
A client of the callbacks that tracks live orders, price levels and last prices, and can thereby check whether a stop
order was rightly triggered and a trailing stop rightly moved. Nothing here refers to the engine.
-/

namespace CppTrader

/-- What the client knows. -/
structure Client where
  /-- the live orders, by id -/
  orders : OrderView
  /-- the bid and ask levels, by symbol -/
  levels : LevelView
  /-- the price of the last execution on a side, by symbol -/
  last : Nat → Side → Nat

/-- "Last price" of a side as long as there is no execution. -/
def noTrade : Side → Nat
  | .buy => 0
  | .sell => MAX64

/-- Client side of `onExecuteOrder`, `onAddOrderBook`, `onDeleteOrderBook`, for the last prices. -/
def nextLast (l : Nat → Side → Nat) : Event → Nat → Side → Nat
  | .addBook s => fun i sd => if i = s.id then noTrade sd else l i sd
  | .deleteBook s => fun i sd => if i = s.id then noTrade sd else l i sd
  | .exec o p _ => fun i sd => if i = o.symbolId ∧ sd = o.side then p else l i sd
  | _ => l

def Client.next (c : Client) (e : Event) : Client := ⟨c.orders.next e, c.levels.next e, nextLast c.last e⟩

/-- The market has reached the stop price of the order, as far as the levels tell: no ask below the stop price of a buy
order, no bid above the stop price of a sell order. -/
def Client.triggers (c : Client) (x : Order) : Prop :=
  match x.side with
  | .buy => ∀ p, c.levels x.symbolId false p ≠ none → x.stopPrice ≤ p
  | .sell => ∀ p, c.levels x.symbolId true p ≠ none → p ≤ x.stopPrice

/-- `p` is the best price of a side, or `d` if there is no level. -/
def BookView.best (w : BookView) (isBid : Bool) (d p : Nat) : Prop :=
  w.isTop isBid p ∨ (∀ p', w isBid p' = none) ∧ p = d

/-- `m` is the market price that a trailing order follows: for buy orders the higher one of the last price at which a
sell order was executed and the best ask, for sell orders the lower one of the last price at which a buy order was
executed and the best bid. -/
def Client.trailMarket (c : Client) (x : Order) (m : Nat) : Prop :=
  match x.side with
  | .buy => ∃ p, (c.levels x.symbolId).best false MAX64 p ∧ m = max (c.last x.symbolId .sell) p
  | .sell => ∃ p, (c.levels x.symbolId).best true 0 p ∧ m = min (c.last x.symbolId .buy) p

/-- What the client checks when an order is updated: if the type has changed, that the stop price has been reached; if
not and the stop price has changed, that it is where the order has to move it at the market price of that moment. -/
def Client.ok (c : Client) : Event → Prop
  | .updateOrder t => ∃ x, c.orders t.id = some x ∧ (t.type ≠ x.type → c.triggers x) ∧
      (t.type = x.type → t.stopPrice ≠ x.stopPrice → ∃ m, c.trailMarket x m ∧ x.trailMoves m ∧ t.stopPrice = x.trailTarget m)
  | _ => True

/-- The last prices of the books. -/
def Mgr.lasts (g : Mgr) (sym : Nat) (sd : Side) : Nat :=
  match g.getBook sym, sd with
  | some b, .buy => b.lastBid
  | some b, .sell => b.lastAsk
  | none, sd => noTrade sd

/-- What is there to know. -/
def Mgr.client (g : Mgr) : Client := ⟨g.getOrder, g.levels, g.lasts⟩

end CppTrader
