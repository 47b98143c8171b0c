import Verif.Model.Manager
/-
Model of examples/matching_engine.cpp: a program that reads commands from the standard input, one per line, and makes
calls of a market manager. Lines are lists of characters (`std::getline` has removed the line feed). The output to
`std::cout` is modelled in Text.lean, that to `std::cerr` in Console.lean.
-/

namespace CppTrader.Cli

/-- What one line makes the program do: nothing but printing, one call of the market manager, leaving the loop, or dying
from the uncaught `std::out_of_range` that `std::stoi` throws. -/
inductive Action where
  | nothing
  | call (op : Op)
  | stop
  | abort
  deriving DecidableEq, Repr

/-- `std::string::find(w) != npos`. -/
def contains (w : List Char) : List Char → Bool
  | [] => w.isPrefixOf []
  | c :: l => w.isPrefixOf (c :: l) || contains w l

/-- `\d` of the regular expressions: an ASCII digit. -/
def digit (c : Char) : Bool := '0'.toNat ≤ c.toNat && c.toNat ≤ '9'.toNat

/-- The value of a string of digits. -/
def value (ds : List Char) : Nat := ds.foldl (fun n c => 10 * n + (c.toNat - '0'.toNat)) 0

/-- `std::stoi` on a string of digits: throws above `INT_MAX`. -/
def stoi (ds : List Char) : Option Nat := if value ds ≤ 2147483647 then some (value ds) else none

/-- Removes a literal prefix. -/
def lit : List Char → List Char → Option (List Char)
  | [], l => some l
  | c :: w, d :: l => if c = d then lit w l else none
  | _ :: _, [] => none

/-- The part ` (\d+)` of a pattern. What follows it in every pattern is a blank or the end, so that the longest match is
the only one that can succeed. -/
def number (l : List Char) : Option (List Char × List Char) :=
  match lit [' '] l with
  | none => none
  | some l => if (l.takeWhile digit).isEmpty then none else some (l.takeWhile digit, l.dropWhile digit)

/-- ` (\d+)` repeated `n` times. -/
def numbers : Nat → List Char → Option (List (List Char) × List Char)
  | 0, l => some ([], l)
  | n + 1, l =>
    match number l with
    | none => none
    | some (d, l) =>
      match numbers n l with
      | none => none
      | some (ds, l) => some (d :: ds, l)

/-- ` (buy|sell)`. -/
def side (l : List Char) : Option (Side × List Char) :=
  match lit " buy".toList l with
  | some l => some (.buy, l)
  | none => match lit " sell".toList l with
    | some l => some (.sell, l)
    | none => none

/-- `std::regex_search` with the pattern `^w (\d+) ... (\d+)$`, with `n` groups. -/
def plain (w : List Char) (n : Nat) (line : List Char) : Option (List (List Char)) :=
  match lit w line with
  | none => none
  | some l => match numbers n l with
    | some (ds, []) => some ds
    | _ => none

/-- `std::regex_search` with the pattern `^w (buy|sell) (\d+) ... (\d+)$`, with `n` groups of digits. -/
def sided (w : List Char) (n : Nat) (line : List Char) : Option (Side × List (List Char)) :=
  match lit w line with
  | none => none
  | some l => match side l with
    | none => none
    | some (s, l) => match numbers n l with
      | some (ds, []) => some (s, ds)
      | _ => none

/-- The conversions `std::stoi(match[k])` at the head of every handler, then the call. -/
def convert (ds : List (List Char)) (f : List Nat → Action) : Action :=
  match ds.mapM stoi with
  | none => .abort
  | some ns => f ns

/-- The common form of the handlers without a side. -/
def onPlain (w : String) (n : Nat) (line : List Char) (f : List Nat → Action) : Action :=
  match plain w.toList n line with
  | none => .nothing
  | some ds => convert ds f

/-- The common form of the handlers with a side. -/
def onSided (w : String) (n : Nat) (line : List Char) (f : Side → List Nat → Action) : Action :=
  match sided w.toList n line with
  | none => .nothing
  | some (s, ds) => convert ds (f s)

/-- The eight bytes of a symbol name, matching_engine.cpp:61-65: at most eight bytes of the argument are copied into an
*uninitialised* array `junk`; `pack` is the packing of eight bytes into the number that stands for a name in the model. -/
def symbolName (pack : List Char → Nat) (junk name : List Char) : Nat := pack (name.take 8 ++ (junk.take 8).drop name.length)

/-- matching_engine.cpp:52-75. The pattern is `^add symbol (\d+) (.+)$`; `.` matches anything but a line feed and a
carriage return. -/
def addSymbol (pack : List Char → Nat) (junk : List Char) (line : List Char) : Action :=
  match lit "add symbol".toList line with
  | none => .nothing
  | some l => match number l with
    | none => .nothing
    | some (d, l) => match lit [' '] l with
      | none => .nothing
      | some name =>
        if !name.isEmpty && name.all (fun c => c != '\n' && c != '\r') then
          match stoi d with
          | none => .abort
          | some id => .call (.addSymbol ⟨id, symbolName pack junk name⟩)
        else .nothing

/-- matching_engine.cpp:77-94. -/
def deleteSymbol (line : List Char) : Action :=
  onPlain "delete symbol" 1 line fun | [id] => .call (.deleteSymbol id) | _ => .nothing

/-- matching_engine.cpp:96-118; the name is eight zero bytes. -/
def addBook (pack : List Char → Nat) (line : List Char) : Action :=
  onPlain "add book" 1 line fun
    | [id] => .call (.addOrderBook ⟨id, pack (List.replicate 8 (Char.ofNat 0))⟩) | _ => .nothing

/-- matching_engine.cpp:120-137. -/
def deleteBook (line : List Char) : Action :=
  onPlain "delete book" 1 line fun | [id] => .call (.deleteOrderBook id) | _ => .nothing

/-- matching_engine.cpp:139-169. -/
def addMarket (line : List Char) : Action :=
  onSided "add market" 3 line fun s => fun
    | [id, sym, qty] => .call (.addOrder (.mkMarket id sym s qty)) | _ => .nothing

/-- matching_engine.cpp:171-202. -/
def addSlippageMarket (line : List Char) : Action :=
  onSided "add slippage market" 4 line fun s => fun
    | [id, sym, qty, slip] => .call (.addOrder (.mkMarket id sym s qty slip)) | _ => .nothing

/-- matching_engine.cpp:204-235. -/
def addLimit (line : List Char) : Action :=
  onSided "add limit" 4 line fun s => fun
    | [id, sym, price, qty] => .call (.addOrder (.mkLimit id sym s price qty)) | _ => .nothing

/-- matching_engine.cpp:237-268. -/
def addIocLimit (line : List Char) : Action :=
  onSided "add ioc limit" 4 line fun s => fun
    | [id, sym, price, qty] => .call (.addOrder (.mkLimit id sym s price qty .ioc)) | _ => .nothing

/-- matching_engine.cpp:270-301. -/
def addFokLimit (line : List Char) : Action :=
  onSided "add fok limit" 4 line fun s => fun
    | [id, sym, price, qty] => .call (.addOrder (.mkLimit id sym s price qty .fok)) | _ => .nothing

/-- matching_engine.cpp:303-334. -/
def addAonLimit (line : List Char) : Action :=
  onSided "add aon limit" 4 line fun s => fun
    | [id, sym, price, qty] => .call (.addOrder (.mkLimit id sym s price qty .aon)) | _ => .nothing

/-- matching_engine.cpp:336-367. -/
def addStop (line : List Char) : Action :=
  onSided "add stop" 4 line fun s => fun
    | [id, sym, stop, qty] => .call (.addOrder (.mkStop id sym s stop qty)) | _ => .nothing

/-- matching_engine.cpp:369-401. -/
def addStopLimit (line : List Char) : Action :=
  onSided "add stop-limit" 5 line fun s => fun
    | [id, sym, stop, price, qty] => .call (.addOrder (.mkStopLimit id sym s stop price qty)) | _ => .nothing

/-- matching_engine.cpp:403-436. -/
def addTrailingStop (line : List Char) : Action :=
  onSided "add trailing stop" 6 line fun s => fun
    | [id, sym, stop, qty, dist, step] => .call (.addOrder (.mkTrailingStop id sym s stop qty dist step)) | _ => .nothing

/-- matching_engine.cpp:438-472. -/
def addTrailingStopLimit (line : List Char) : Action :=
  onSided "add trailing stop-limit" 7 line fun s => fun
    | [id, sym, stop, price, qty, dist, step] =>
      .call (.addOrder (.mkTrailingStopLimit id sym s stop price qty dist step))
    | _ => .nothing

/-- matching_engine.cpp:474-492. -/
def reduceOrder (line : List Char) : Action :=
  onPlain "reduce order" 2 line fun | [id, qty] => .call (.reduceOrder id qty) | _ => .nothing

/-- matching_engine.cpp:494-513. -/
def modifyOrder (line : List Char) : Action :=
  onPlain "modify order" 3 line fun | [id, price, qty] => .call (.modifyOrder id price qty) | _ => .nothing

/-- matching_engine.cpp:515-534. -/
def mitigateOrder (line : List Char) : Action :=
  onPlain "mitigate order" 3 line fun | [id, price, qty] => .call (.mitigateOrder id price qty) | _ => .nothing

/-- matching_engine.cpp:536-556. -/
def replaceOrder (line : List Char) : Action :=
  onPlain "replace order" 4 line fun | [id, new, price, qty] => .call (.replaceOrder id new price qty) | _ => .nothing

/-- matching_engine.cpp:558-575. -/
def deleteOrder (line : List Char) : Action :=
  onPlain "delete order" 1 line fun | [id] => .call (.deleteOrder id) | _ => .nothing

/-- The body of the loop of `main`, matching_engine.cpp:586-657. -/
def react (pack : List Char → Nat) (junk : List Char) (line : List Char) : Action :=
  if line = "help".toList then .nothing
  else if line = "exit".toList ∨ line = "quit".toList then .stop
  else if "#".toList.isPrefixOf line ∨ line = [] then .nothing
  else if line = "enable matching".toList then .call .enableMatching
  else if line = "disable matching".toList then .call .disableMatching
  else if contains "add symbol".toList line then addSymbol pack junk line
  else if contains "delete symbol".toList line then deleteSymbol line
  else if contains "add book".toList line then addBook pack line
  else if contains "delete book".toList line then deleteBook line
  else if contains "add market".toList line then addMarket line
  else if contains "add slippage market".toList line then addSlippageMarket line
  else if contains "add limit".toList line then addLimit line
  else if contains "add ioc limit".toList line then addIocLimit line
  else if contains "add fok limit".toList line then addFokLimit line
  else if contains "add aon limit".toList line then addAonLimit line
  else if contains "add stop-limit".toList line then addStopLimit line
  else if contains "add stop".toList line then addStop line
  else if contains "add trailing stop-limit".toList line then addTrailingStopLimit line
  else if contains "add trailing stop".toList line then addTrailingStop line
  else if contains "reduce order".toList line then reduceOrder line
  else if contains "modify order".toList line then modifyOrder line
  else if contains "mitigate order".toList line then mitigateOrder line
  else if contains "replace order".toList line then replaceOrder line
  else if contains "delete order".toList line then deleteOrder line
  else .nothing

/-- How a run of the program ends: at the end of the input or at `exit`/`quit`, or by the uncaught exception; with the
market manager at that time. -/
inductive End where
  | normal (g : Mgr)
  | aborted (g : Mgr)

/-- The loop of `main`, matching_engine.cpp:577-661. The content of the uninitialised array may differ from line to line. -/
def main (pack : List Char → Nat) : List (List Char × List Char) → Mgr → Except Err End
  | [], g => .ok (.normal g)
  | (line, junk) :: rest, g =>
    match react pack junk line with
    | .nothing => main pack rest g
    | .stop => .ok (.normal g)
    | .abort => .ok (.aborted g)
    | .call op => do
      let (g, _) ← g.step op
      main pack rest g

end CppTrader.Cli
