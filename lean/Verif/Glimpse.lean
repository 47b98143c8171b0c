import Verif.Feed
import Verif.Model.Watch
/-
Specification of what a handler sees when it looks around from inside a callback: it reads the manager (`GetOrder`,
`GetOrderBook`, `GetSymbol`) and the order book at the moment at which it is called
(include/trader/matching/market_handler.h:46-66). Only the state recorded at the callback and the callbacks themselves are
mentioned here.
-/

namespace CppTrader

/-- The order a callback is about. -/
def Event.about : Event → Option Order
  | .addOrder o | .updateOrder o | .deleteOrder o | .exec o _ _ => some o
  | _ => none

/-- The order book a callback passes to the handler, by its symbol. -/
def Event.onBook : Event → Option Nat
  | .addLevel s _ _ | .updateLevel s _ _ | .deleteLevel s _ _ | .updateBook s _ => some s
  | _ => none

/-- The id under which a call adds an order. -/
def Op.adds : Op → Option Nat
  | .addOrder o => some o.id
  | .replaceOrder _ n _ _ => some n
  | .replaceWith _ o => some o.id
  | _ => none

/-- None of the callbacks is about the order `id`. -/
def Silent (evs : List Event) (id : Nat) : Prop := ∀ e ∈ evs, ∀ o, e.about = some o → o.id ≠ id

/-- What a handler sees at a callback of a call which started at the manager `g` and adds an order with the id `new` (if
any): `evs` are the callbacks of the call so far, the present one included, and `x` is the manager as it can be read at
this moment. -/
structure Glimpse (new : Option Nat) (g : Mgr) (evs : List Event) (x : Mgr) : Prop where
  /-- the bid and ask levels of all books are exactly those a client keeps from the level callbacks, the present one
  included -/
  levels : x.levels = evs.foldl LevelView.next g.levels
  /-- `best_bid` and `best_ask` are the best of these levels -/
  bestBid : ∀ s b p, x.getBook s = some b → (b.best .bid = some p ↔ (x.levels s).isTop true p)
  bestAsk : ∀ s b p, x.getBook s = some b → (b.best .ask = some p ↔ (x.levels s).isTop false p)
  /-- the order the callback is about is held by the manager, exactly as it is reported -/
  order : ∀ e o, evs.getLast? = some e → e.about = some o → some o.id ≠ new → x.getOrder o.id = some o
  /-- an order which the call adds under an unused id is either not held yet, or held exactly as it is reported -/
  fresh : ∀ e o, evs.getLast? = some e → e.about = some o → some o.id = new → g.getOrder o.id = none →
    x.getOrder o.id = none ∨ x.getOrder o.id = some o
  /-- an order which was not reported on is as it was before the call -/
  others : ∀ id, some id ≠ new → Silent evs id → x.getOrder id = g.getOrder id
  /-- an order which did not exist does not exist -/
  absent : ∀ id, some id ≠ new → g.getOrder id = none → x.getOrder id = none
  /-- every collection of levels of every book is strictly sorted, the best level first -/
  sorted : ∀ s b k, x.getBook s = some b → (b.lv k).Pairwise (fun l l' => k.better l.price l'.price = true)
  /-- the orders in the queues of the order book passed to the callback are held by the manager, and they are where they
  belong: at the collection and the price which their type, side and price say -/
  queue : ∀ e s b k l id, evs.getLast? = some e → e.onBook = some s → x.getBook s = some b → l ∈ b.lv k → id ∈ l.ids →
    ∃ o, x.getOrder id = some o ∧ o.home = some (k, l.price)
  /-- a level which is announced as new has one order -/
  first : ∀ s l t, evs.getLast? = some (.addLevel s l t) → l.count = 1
  /-- the symbols and the books there are are as before the call -/
  symbols : x.symbols = g.symbols
  books : ∀ s, (x.getBook s).map (·.symbol) = (g.getBook s).map (·.symbol)

end CppTrader
