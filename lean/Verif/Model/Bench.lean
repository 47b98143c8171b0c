import Verif.Model.Manager
import Verif.Model.Itch
/-
Model of performance/matching_engine.cpp: an ITCH stream read in chunks drives a market manager with automatic matching.
-/

namespace CppTrader

/-- performance/matching_engine.cpp:92-113, the `onMessage` overrides of `MyITCHHandler`: the calls of the market manager they make. All
of them ignore the result codes and return `true`. Unlike the handler of performance/market_manager.cpp it does not pass on the executions
(:102-103): the market manager executes by itself. The counters `_messages` and `_errors` are left out. The stock name is packed into a
number; 66 is 'B'. -/
def Itch.Msg.orders : Itch.Msg → List Op
  | .stockDirectory h stock .. => [.addSymbol ⟨h.locate, Itch.beVal stock⟩, .addOrderBook ⟨h.locate, Itch.beVal stock⟩]
  | .addOrder h ref side shares _ price =>
    [.addOrder (.mkLimit ref h.locate (if side = 66 then .buy else .sell) price shares)]
  | .addOrderMPID h ref side shares _ price _ =>
    [.addOrder (.mkLimit ref h.locate (if side = 66 then .buy else .sell) price shares)]
  | .orderCancel _ ref shares => [.reduceOrder ref shares]
  | .orderDelete _ ref => [.deleteOrder ref]
  | .orderReplace _ orig new shares price => [.replaceOrder orig new price shares]
  | _ => []

/-- One iteration of the loop of `main`, performance/matching_engine.cpp:157-161: `Process` is called and its result ignored. The calls the
handler makes during `Process` do not influence the parser (they return `true`), so they are made here after it, in the order of the
callbacks. -/
def Bench.chunk (x : Itch.St × Mgr) (c : List UInt8) : Except Err (Itch.St × Mgr) := do
  let (_, s) ← Itch.process (fun _ _ => true) x.1 c
  let (g, _) ← x.2.run ((s.log.drop x.1.log.length).flatMap Itch.Msg.orders)
  .ok (s, g)

/-- The loop, :157-161; `chunks` are the blocks `input->Read` returns. -/
def Bench.loop : List (List UInt8) → Itch.St × Mgr → Except Err (Itch.St × Mgr)
  | [], x => .ok x
  | c :: cs, x => do
    let x ← Bench.chunk x c
    Bench.loop cs x

/-- performance/matching_engine.cpp:121-200 `main`: a new manager, `EnableMatching` (:141), the loop. The options, the timing and the text
of the report are left out; the numbers of the report are `Mgr.stats` (Model/Stats.lean). -/
def Bench.main (chunks : List (List UInt8)) : Except Err (Itch.St × Mgr) := do
  let (g, _) ← Mgr.init.step .enableMatching
  Bench.loop chunks (.init, g)

end CppTrader
