import Verif.Model.Manager
import Verif.Model.Itch
/-
Model of examples/market_manager.cpp (the same handler is in performance/market_manager.cpp): an ITCH stream read in
chunks drives a market manager.
-/

namespace CppTrader

/-- examples/market_manager.cpp:59-107, the `onMessage` overrides of `MyITCHHandler`: the calls of the market manager they
make. All of them ignore the result codes and return `true`; the other messages keep the default handler, which also
returns `true` (itch_handler.h:402-422). The stock name is packed into a number; 66 is 'B'. -/
def Itch.Msg.ops : Itch.Msg → List Op
  | .stockDirectory h stock .. => [.addSymbol ⟨h.locate, Itch.beVal stock⟩, .addOrderBook ⟨h.locate, Itch.beVal stock⟩]
  | .addOrder h ref side shares _ price =>
    [.addOrder (.mkLimit ref h.locate (if side = 66 then .buy else .sell) price shares)]
  | .addOrderMPID h ref side shares _ price _ =>
    [.addOrder (.mkLimit ref h.locate (if side = 66 then .buy else .sell) price shares)]
  | .orderExecuted _ ref shares _ => [.executeOrder ref shares]
  | .orderExecutedWithPrice _ ref shares _ _ price => [.executeOrderAt ref price shares]
  | .orderCancel _ ref shares => [.reduceOrder ref shares]
  | .orderDelete _ ref => [.deleteOrder ref]
  | .orderReplace _ orig new shares price => [.replaceOrder orig new price shares]
  | _ => []

/-- One iteration of the loop of `main`, examples/market_manager.cpp:121-125: `Process` is called and its result ignored.
The calls the handler makes during `Process` do not influence the parser (they return `true`), so they are made here
after it, in the order of the callbacks. -/
def Feeder.chunk (x : Itch.St × Mgr) (c : List UInt8) : Except Err (Itch.St × Mgr) := do
  let (_, s) ← Itch.process (fun _ _ => true) x.1 c
  let (g, _) ← x.2.run ((s.log.drop x.1.log.length).flatMap Itch.Msg.ops)
  .ok (s, g)

/-- examples/market_manager.cpp:110-129 `main`; `chunks` are the blocks `input.Read` returns (`std::cin` decides their sizes). -/
def Feeder.main : List (List UInt8) → Itch.St × Mgr → Except Err (Itch.St × Mgr)
  | [], x => .ok x
  | c :: cs, x => do
    let x ← Feeder.chunk x c
    Feeder.main cs x

end CppTrader
