import Verif.Model.Watch
import Verif.Model.Stats
/-
The market handler of performance/market_manager.cpp:50-61 and performance/matching_engine.cpp:50-61 once more, now with the two
counters for which it reads the order book or the level it is given at the moment of the callback.
-/

namespace CppTrader

/-- All counters of the handler; `maxQueue` is `_max_order_book_orders`, and `stats.maxLevels` is `_max_order_book_levels`
(performance/market_manager.cpp:63-76, performance/matching_engine.cpp:63-76). -/
structure Live where
  stats : Stats
  maxQueue : Nat
  deriving DecidableEq, Repr

/-- performance/market_manager.cpp:22-36. -/
def Live.zero : Live := ⟨.zero, 0⟩

/-- The callback `e`, made while the manager is `x`. `onUpdateOrderBook` (:53) asks the book for the numbers of its bid and ask
levels, `onUpdateLevel` (:56) looks at the number of orders of the level; the other callbacks count as in `Event.count`. -/
def Live.count (c : Live) (x : Mgr) : Event → Live
  | .updateBook sym _ =>
    match x.getBook sym with
    | none => c
    | some b => { c with stats := c.stats.updateBook (b.lv .bid).length (b.lv .ask).length }
  | .updateLevel sym l t => ⟨(Event.updateLevel sym l t).count c.stats, max l.count c.maxQueue⟩
  | e => { c with stats := e.count c.stats }

/-- The callback made while the manager is `x`: the last one in its log. -/
def Live.see (c : Live) (x : Mgr) : Live :=
  match x.ev.getLast? with
  | none => c
  | some e => c.count x e

/-- Calls made one after the other while the handler is registered. -/
def Mgr.live : List Op → Mgr → Live → Except Err (Mgr × Live)
  | [], g, c => .ok (g, c)
  | op :: ops, g, c => do
    let (g, _, seen) ← g.watch op
    live ops g (seen.foldl Live.see c)

end CppTrader
