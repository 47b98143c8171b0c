import Verif.Tape
import Verif.Textbook
/-
Specification: what the messages of an order-by-order feed ask of an exchange that executes orders by itself.
-/

namespace CppTrader

/-- What a report asks of the exchange: open a book (symbols are known by number here, their names do not matter), take a limit order,
cancel a part of an order, delete it, replace it. -/
def Tick.request : Tick → List Op
  | .book sym => [.addSymbol ⟨sym, 0⟩, .addOrderBook ⟨sym, 0⟩]
  | .add r => [.addOrder { id := r.id, symbolId := r.sym, type := .limit, side := r.side, price := r.price, stopPrice := 0, quantity := r.qty,
                           executed := 0, leaves := r.qty, tif := .gtc, maxVisible := MAX64, slippage := MAX64, trailDist := 0,
                           trailStep := 0 }]
  | .take id q => [.reduceOrder id q]
  | .delete id => [.deleteOrder id]
  | .modify id p q => [.modifyOrder id p q]
  | .replace id n p q => [.replaceOrder id n p q]

/-- The message reports an execution. -/
def Itch.Msg.isExecution : Itch.Msg → Bool
  | .orderExecuted .. | .orderExecutedWithPrice .. => true
  | _ => false

/-- A feed without its executions, as requests. -/
def requests (ms : List Itch.Msg) : List Op :=
  ((ms.filter (fun m => !m.isExecution)).filterMap Itch.Msg.tick).flatMap Tick.request

end CppTrader
