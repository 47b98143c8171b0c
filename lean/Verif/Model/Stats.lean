import Verif.Model.Optimized
/-
The statistics of performance/market_manager.cpp and performance/market_manager_optimized.cpp: what their market handlers
count.
-/

namespace CppTrader

/-- performance/market_manager.cpp:63-76 and performance/market_manager_optimized.cpp:360-372, the counters of the market handlers
(`size_t`). `maxLevels` is `_max_order_book_levels`; `_max_order_book_orders` (only in the former) is in
Model/Live.lean. -/
structure Stats where
  updates : Nat
  symbols : Nat
  maxSymbols : Nat
  books : Nat
  maxBooks : Nat
  maxLevels : Nat
  orders : Nat
  maxOrders : Nat
  adds : Nat
  changes : Nat
  deletes : Nat
  execs : Nat
  deriving DecidableEq, Repr

/-- market_manager.cpp:22-36, market_manager_optimized.cpp:321-334. -/
def Stats.zero : Stats := ⟨0, 0, 0, 0, 0, 0, 0, 0, 0, 0, 0, 0⟩

namespace Stats

/-- `++_updates`. -/
def tick (c : Stats) : Stats := { c with updates := add64 c.updates 1 }
/-- `onAddSymbol`, market_manager.cpp:50, market_manager_optimized.cpp:347. -/
def addSymbol (c : Stats) : Stats := { c.tick with symbols := add64 c.symbols 1, maxSymbols := max (add64 c.symbols 1) c.maxSymbols }
/-- `onDeleteSymbol`, :51, :348. -/
def deleteSymbol (c : Stats) : Stats := { c.tick with symbols := sub64 c.symbols 1 }
/-- `onAddOrderBook`, :52, :349. -/
def addBook (c : Stats) : Stats := { c.tick with books := add64 c.books 1, maxBooks := max (add64 c.books 1) c.maxBooks }
/-- `onUpdateOrderBook`, :53, :350. -/
def updateBook (c : Stats) (bids asks : Nat) : Stats := { c with maxLevels := max (max bids asks) c.maxLevels }
/-- `onDeleteOrderBook`, :54, :351. -/
def deleteBook (c : Stats) : Stats := { c.tick with books := sub64 c.books 1 }
/-- `onAddOrder`, :58, :355. -/
def addOrder (c : Stats) : Stats :=
  { c.tick with orders := add64 c.orders 1, maxOrders := max (add64 c.orders 1) c.maxOrders, adds := add64 c.adds 1 }
/-- `onUpdateOrder`, :59, :356. -/
def updateOrder (c : Stats) : Stats := { c.tick with changes := add64 c.changes 1 }
/-- `onDeleteOrder`, :60, :357. -/
def deleteOrder (c : Stats) : Stats := { c.tick with orders := sub64 c.orders 1, deletes := add64 c.deletes 1 }
/-- `onExecuteOrder`, :61, :358. -/
def exec (c : Stats) : Stats := { c.tick with execs := add64 c.execs 1 }

end Stats

/-- The market handler of performance/market_manager.cpp:50-61. `onUpdateOrderBook` (:53) reads the sizes of the book at that
moment, which the log of callbacks does not record: `maxLevels` is not counted here but in Model/Live.lean. -/
def Event.count (c : Stats) : Event → Stats
  | .addSymbol _ => c.addSymbol
  | .deleteSymbol _ => c.deleteSymbol
  | .addBook _ => c.addBook
  | .deleteBook _ => c.deleteBook
  | .updateBook _ _ => c
  | .addLevel _ _ _ => c.tick
  | .updateLevel _ _ _ => c.tick
  | .deleteLevel _ _ _ => c.tick
  | .addOrder _ => c.addOrder
  | .updateOrder _ => c.updateOrder
  | .deleteOrder _ => c.deleteOrder
  | .exec _ _ _ => c.exec

/-- The market handler of performance/market_manager_optimized.cpp:347-358. -/
def Opt.Ev.count (c : Stats) : Opt.Ev → Stats
  | .addSymbol _ => c.addSymbol
  | .deleteSymbol _ => c.deleteSymbol
  | .addBook _ => c.addBook
  | .deleteBook _ => c.deleteBook
  | .updateBook bids asks _ => c.updateBook bids asks
  | .level _ _ _ => c.tick
  | .addOrder _ => c.addOrder
  | .updateOrder _ => c.updateOrder
  | .deleteOrder _ => c.deleteOrder
  | .exec _ _ _ => c.exec

/-- What performance/market_manager.cpp has counted. -/
def Mgr.stats (g : Mgr) : Stats := g.ev.foldl Event.count .zero
/-- What performance/market_manager_optimized.cpp has counted. -/
def Opt.stats (s : Opt.St) : Stats := s.ev.foldl Opt.Ev.count .zero

end CppTrader
