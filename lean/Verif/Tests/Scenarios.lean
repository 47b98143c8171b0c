import Verif.Model.Console
/-
The scenarios the project ships for its console program, tools/matching/scenario-01.txt to scenario-14.txt, given character by
character to the model of that program (`Verif/Model/Console.lean`). Each must run without a complaint on the error stream and
leave the symbols, the book and the orders its comments announce. These are tests of the model, not proofs about it; each is
evaluated by the kernel.
-/

namespace CppTrader
namespace Tests

/-- What a scenario leaves: what was written to the error stream, the symbols, whether symbol 0 has a book, and the orders 0 to
29 with their price, open quantity and stop price. -/
structure Left where
  complaints : List Char
  symbols : List Nat
  book : Bool
  orders : List (Nat × Nat × Nat × Nat)
  deriving DecidableEq

/-- The characters of a text, as a list the kernel can read without decoding. -/
macro "chars! " s:str : term => do
  let cs := s.getString.toList.toArray.map (fun c => Lean.Syntax.mkCharLit c)
  `([$cs,*])

def leftBy (text : List Char) : Option Left :=
  match Cli.program (fun _ => 0) (fun _ => []) text with
  | .ok (.normal g, err) =>
    some ⟨err, (List.range 4).filter (fun i => (g.getSymbol i).isSome), (g.getBook 0).isSome,
      (List.range 30).filterMap (fun i => (g.getOrder i).map (fun o => (i, o.price, o.leaves, o.stopPrice)))⟩
  | _ => none

/-- tools/matching/scenario-01.txt. -/
def scenario01 : List Char := chars!
  "# Add EURUSD symbol with Id = 0\nadd symbol 0 EURUSD\n\n# Delete EURUSD symbol with Id = 0\ndelete symbol 0"

example : leftBy scenario01 = some ⟨[], [], false,
  []⟩ := by decide +kernel

/-- tools/matching/scenario-02.txt. -/
def scenario02 : List Char := chars!
  "# Add symbol EURUSD with Id = 0\nadd symbol 0 EURUSD\n\n# Add order book for EURUSD symbol with Id = 0\n\
add book 0\n\n# Delete order book for EURUSD symbol with Id = 0\ndelete book 0"

example : leftBy scenario02 = some ⟨[], [0], false,
  []⟩ := by decide +kernel

/-- tools/matching/scenario-03.txt. -/
def scenario03 : List Char := chars!
  "enable matching\nadd symbol 0 EURUSD\nadd book 0\n\n\
# Add buy limit order (Id = 1, SymbolId = 0) with price = 10 and quantity = 10\nadd limit buy 1 0 10 10\n\n\
# Reduce the order with Id = 1 by quantity = 5\nreduce order 1 5\n\n\
# Modify the order with Id = 1 and set new price = 20 and new quantity = 20\nmodify order 1 20 20\n\n\
# Replace the order with Id = 1 and set new Id = 2, new price = 30 and new quantity = 30\n\
replace order 1 2 30 30\n\n# Delete the order with Id = 2\ndelete order 2"

example : leftBy scenario03 = some ⟨[], [0], true,
  []⟩ := by decide +kernel

/-- tools/matching/scenario-04.txt. -/
def scenario04 : List Char := chars!
  "enable matching\nadd symbol 0 EURUSD\nadd book 0\n\n\
# Add buy limit order (Id = 1, SymbolId = 0) with price = 10 and quantity = 10\nadd limit buy 1 0 10 10\n\n\
# Add sell limit order (Id = 2, SymbolId = 0) with price = 10 and quantity = 10\nadd limit sell 2 0 10 10\n\n\
# Orders will be fully matched!"

example : leftBy scenario04 = some ⟨[], [0], true,
  []⟩ := by decide +kernel

/-- tools/matching/scenario-05.txt. -/
def scenario05 : List Char := chars!
  "enable matching\nadd symbol 0 EURUSD\nadd book 0\n\n\
# Add buy limit order (Id = 1, SymbolId = 0) with price = 10 and quantity = 10\nadd limit buy 1 0 10 10\n\n\
# Add sell market order (Id = 1, SymbolId = 0) with quantity = 10\nadd market sell 2 0 10\n\n\
# Orders will be fully matched!"

example : leftBy scenario05 = some ⟨[], [0], true,
  []⟩ := by decide +kernel

/-- tools/matching/scenario-06.txt. -/
def scenario06 : List Char := chars!
  "enable matching\nadd symbol 0 EURUSD\nadd book 0\n\n# Fill the EURUSD order book\n# Ask: 60 -> 30, 20, 10\n\
# Ask: 50 -> 30, 20, 10\n# Ask: 40 -> 30, 20, 10 (best ask)\n#\n# Bid: 30 -> 10, 20, 30 (best bid)\n\
# Bid: 20 -> 10, 20, 30\n# Bid: 10 -> 10, 20, 30\n\nadd limit buy 1 0 10 10\nadd limit buy 2 0 10 20\n\
add limit buy 3 0 10 30\nadd limit buy 4 0 20 10\nadd limit buy 5 0 20 20\nadd limit buy 6 0 20 30\n\
add limit buy 7 0 30 10\nadd limit buy 8 0 30 20\nadd limit buy 9 0 30 30\n\nadd limit sell 10 0 60 30\n\
add limit sell 11 0 60 20\nadd limit sell 12 0 60 10\nadd limit sell 13 0 50 30\nadd limit sell 14 0 50 20\n\
add limit sell 15 0 50 10\nadd limit sell 16 0 40 30\nadd limit sell 17 0 40 20\nadd limit sell 18 0 40 10\n\n\
# Send buy limit order to match half of the sell orders\nadd limit buy 19 0 50 100"

example : leftBy scenario06 = some ⟨[], [0], true,
  [(1, 10, 10, 0), (2, 10, 20, 0), (3, 10, 30, 0), (4, 20, 10, 0), (5, 20, 20, 0), (6, 20, 30, 0), (7, 30, 10, 0), (8, 30, 20, 0), (9, 30, 30, 0),
   (10, 60, 30, 0), (11, 60, 20, 0), (12, 60, 10, 0), (14, 50, 10, 0), (15, 50, 10, 0)]⟩ := by decide +kernel

/-- tools/matching/scenario-07.txt. -/
def scenario07 : List Char := chars!
  "enable matching\nadd symbol 0 EURUSD\nadd book 0\n\n# Fill the EURUSD order book\n# Ask: 60 -> 30, 20, 10\n\
# Ask: 50 -> 30, 20, 10\n# Ask: 40 -> 30, 20, 10 (best ask)\n#\n# Bid: 30 -> 10, 20, 30 (best bid)\n\
# Bid: 20 -> 10, 20, 30\n# Bid: 10 -> 10, 20, 30\n\nadd limit buy 1 0 10 10\nadd limit buy 2 0 10 20\n\
add limit buy 3 0 10 30\nadd limit buy 4 0 20 10\nadd limit buy 5 0 20 20\nadd limit buy 6 0 20 30\n\
add limit buy 7 0 30 10\nadd limit buy 8 0 30 20\nadd limit buy 9 0 30 30\n\nadd limit sell 10 0 60 30\n\
add limit sell 11 0 60 20\nadd limit sell 12 0 60 10\nadd limit sell 13 0 50 30\nadd limit sell 14 0 50 20\n\
add limit sell 15 0 50 10\nadd limit sell 16 0 40 30\nadd limit sell 17 0 40 20\nadd limit sell 18 0 40 10\n\n\
# Send sell market order with slippage = 10 to match half of the buy orders\n\
# Market order will slip down to price = best bid - 10 and will stop at 20\n\
add slippage market sell 19 0 1000 10"

example : leftBy scenario07 = some ⟨[], [0], true,
  [(1, 10, 10, 0), (2, 10, 20, 0), (3, 10, 30, 0), (10, 60, 30, 0), (11, 60, 20, 0), (12, 60, 10, 0), (13, 50, 30, 0), (14, 50, 20, 0), (15, 50, 10, 0),
   (16, 40, 30, 0), (17, 40, 20, 0), (18, 40, 10, 0)]⟩ := by decide +kernel

/-- tools/matching/scenario-08.txt. -/
def scenario08 : List Char := chars!
  "enable matching\nadd symbol 0 EURUSD\nadd book 0\n\n\
# Fill the EURUSD order book with some 'All-Or-None' orders.\n\
# Despite best ask and best bid prices are equal matching is not avaliable!\n\
# Ask: 10 -> <10>, 5, <15> (best ask)\n#\n# Bid: 10 -> <20>, 5, <20> (best bid)\n\n\
add aon limit buy 1 0 10 20\nadd aon limit sell 2 0 10 10\nadd limit sell 3 0 10 5\n\
add aon limit sell 4 0 10 15\nadd limit buy 5 0 10 5\nadd aon limit buy 6 0 10 20\n\n\
# Send sell limit order to perform complex matching of 'All-Or-None' orders\nadd limit sell 7 0 10 15"

example : leftBy scenario08 = some ⟨[], [0], true,
  []⟩ := by decide +kernel

/-- tools/matching/scenario-09.txt. -/
def scenario09 : List Char := chars!
  "enable matching\nadd symbol 0 EURUSD\nadd book 0\n\n# Fill the EURUSD order book\n# Ask:\n#\n\
# Bid: 30 -> 30 (best bid)\n# Bid: 20 -> 20\n# Bid: 10 -> 10\n\nadd limit buy 1 0 10 10\n\
add limit buy 2 0 20 20\nadd limit buy 3 0 30 30\n\n# Send 'Immediate-Or-Cancel' limit order\n\
add ioc limit sell 4 0 10 100"

example : leftBy scenario09 = some ⟨[], [0], true,
  []⟩ := by decide +kernel

/-- tools/matching/scenario-10.txt. -/
def scenario10 : List Char := chars!
  "enable matching\nadd symbol 0 EURUSD\nadd book 0\n\n# Fill the EURUSD order book\n# Ask:\n#\n\
# Bid: 30 -> 30 (best bid)\n# Bid: 20 -> 20\n# Bid: 10 -> 10\n\nadd limit buy 1 0 10 10\n\
add limit buy 2 0 20 20\nadd limit buy 3 0 30 30\n\n\
# Send 'Fill-Or-Kill' limit order with huge quantity that will be killed\nadd fok limit sell 4 0 10 100\n\n\
# Send 'Fill-Or-Kill' limit order that will be filled\nadd fok limit sell 5 0 10 40"

example : leftBy scenario10 = some ⟨[], [0], true,
  [(1, 10, 10, 0), (2, 20, 10, 0)]⟩ := by decide +kernel

/-- tools/matching/scenario-11.txt. -/
def scenario11 : List Char := chars!
  "enable matching\nadd symbol 0 EURUSD\nadd book 0\n\n# Fill the EURUSD order book\n# Ask:\n#\n\
# Bid: 30 -> 30 (best bid)\n# Bid: 20 -> 20\n# Bid: 10 -> 10\n\nadd limit buy 1 0 10 10\n\
add limit buy 2 0 20 20\nadd limit buy 3 0 30 30\n\n# Send stop order\nadd stop sell 4 0 20 20\n\n\
# Add sell market order in order to move the market down.\n\
# Stop order will be converted into the market one and fully executed!\nadd market sell 5 0 40"

example : leftBy scenario11 = some ⟨[], [0], true,
  []⟩ := by decide +kernel

/-- tools/matching/scenario-12.txt. -/
def scenario12 : List Char := chars!
  "enable matching\nadd symbol 0 EURUSD\nadd book 0\n\n# Fill the EURUSD order book\n# Ask:\n#\n\
# Bid: 30 -> 30 (best bid)\n# Bid: 20 -> 20\n# Bid: 10 -> 10\n\nadd limit buy 1 0 10 10\n\
add limit buy 2 0 20 20\nadd limit buy 3 0 30 30\n\n# Send stop-limit order\n\
add stop-limit sell 4 0 20 30 30\n\n# Add sell market order in order to move the market down.\n\
# Stop-limit order will be converted into the limit one with price = 30!\nadd market sell 5 0 40"

example : leftBy scenario12 = some ⟨[], [0], true,
  [(1, 10, 10, 0), (2, 20, 10, 0), (4, 30, 30, 0)]⟩ := by decide +kernel

/-- tools/matching/scenario-13.txt. -/
def scenario13 : List Char := chars!
  "enable matching\nadd symbol 0 EURUSD\nadd book 0\n\n# Fill the EURUSD order book\n# Ask:\n#\n\
# Bid: 30 -> 30 (best bid)\n# Bid: 20 -> 20\n# Bid: 10 -> 10\n\nadd limit buy 1 0 10 10\n\
add limit buy 2 0 20 20\nadd limit buy 3 0 30 30\n\n\
# Send trailing stop order with distance to the market = 10 and trailing step = 5\n\
add trailing stop sell 4 0 0 100 10 5\n\n\
# Add sell market order in order to perform a deal, create a last price.\nadd market sell 5 0 10\n\n\
# Trailing stop order price will be adjusted to keep the provided distance to the market!"

example : leftBy scenario13 = some ⟨[], [0], true,
  [(1, 10, 10, 0), (2, 20, 20, 0), (3, 30, 20, 0), (4, 0, 100, 20)]⟩ := by decide +kernel

/-- tools/matching/scenario-14.txt. -/
def scenario14 : List Char := chars!
  "enable matching\nadd symbol 0 EURUSD\nadd book 0\n\n\
# Add buy limit order (Id = 1, SymbolId = 0) with price = 10 and quantity = 100\nadd limit buy 1 0 10 100\n\n\
# Match part of the oder with an opposite market order (Id = 1, SymbolId = 0) with quantity = 20\n\
add market sell 2 0 20\n\n# Mitigate limit order\nmitigate order 1 10 150\nmitigate order 1 10 50\n\
mitigate order 1 10 10\n\n# Order will be canceled!"

example : leftBy scenario14 = some ⟨[], [0], true,
  []⟩ := by decide +kernel

end Tests
end CppTrader
