import Verif.Model.Cli
import Verif.Model.Text
/-
Model of the standard input and the standard error stream of examples/matching_engine.cpp: how its input is cut into lines, and
the lines of complaint it writes. What the C++ runtime writes when an uncaught exception ends the program is not modelled.
-/

namespace CppTrader.Cli

/-- The loop `while (getline(std::cin, line))`, matching_engine.cpp:584; `cur` are the characters read of the current line, last
one first. The characters after the last line feed make a line if there are any. -/
def getlinesFrom : List Char → List Char → List (List Char)
  | cur, [] => if cur.isEmpty then [] else [cur.reverse]
  | cur, c :: t => if c = '\n' then cur.reverse :: getlinesFrom [] t else getlinesFrom (c :: cur) t

/-- All lines of the input. -/
def getlines (t : List Char) : List (List Char) := getlinesFrom [] t

/-- The strings the handlers are chosen by, in the order they are tried, matching_engine.cpp:618-655. Each handler has the same string in
its messages, matching_engine.cpp:69,74 (`AddSymbol`), 88,93, 112,117, 131,136, 163,168, 196,201, 229,234, 262,267, 295,300, 328,333,
395,400 (`AddStopLimitOrder`), 361,366 (`AddStopOrder`), 466,471 (`AddTrailingStopLimitOrder`), 430,435 (`AddTrailingStopOrder`), 486,491,
507,512, 528,533, 550,555, 569,574. -/
def tried : List String :=
  ["add symbol", "delete symbol", "add book", "delete book", "add market", "add slippage market", "add limit", "add ioc limit",
    "add fok limit", "add aon limit", "add stop-limit", "add stop", "add trailing stop-limit", "add trailing stop", "reduce order",
    "modify order", "mitigate order", "replace order", "delete order"]

/-- The handler that gets a line, by the string it is chosen by, matching_engine.cpp:618-655. -/
def handler (line : List Char) : Option String := tried.find? fun w => contains w.toList line

/-- What is written about a line no call was made for: nothing for `help` and comments, matching_engine.cpp:586,612 (`exit` and `quit` do
not get here); otherwise the last statement of the handler, or matching_engine.cpp:656-657. -/
def rebuke (line : List Char) : List (List Char) :=
  if line = "help".toList then []
  else if "#".toList.isPrefixOf line ∨ line = [] then []
  else match handler line with
    | some w => ["Invalid '".toList ++ (w.toList ++ ("' command: ".toList ++ line))]
    | none => ["Unknown command: ".toList ++ line]

/-- What is written about the call a line made: nothing if it succeeded, otherwise the message of the handler, for instance
matching_engine.cpp:67-69. `EnableMatching` and `DisableMatching` return nothing, matching_engine.cpp:614-617: no handler. -/
def report (line : List Char) (e : ErrorCode) : List (List Char) :=
  if e = .ok then []
  else match handler line with
    | some w => ["Failed '".toList ++ (w.toList ++ ("' command: ".toList ++ Text.error e))]
    | none => []

/-- `main` again, matching_engine.cpp:577-661, with the lines it writes to `std::cerr`. -/
def talk (pack : List Char → Nat) : List (List Char × List Char) → Mgr → Except Err (End × List (List Char))
  | [], g => .ok (.normal g, [])
  | (line, junk) :: rest, g =>
    match react pack junk line with
    | .nothing => do
      let (x, out) ← talk pack rest g
      .ok (x, rebuke line ++ out)
    | .stop => .ok (.normal g, [])
    | .abort => .ok (.aborted g, [])
    | .call op => do
      let (g, e) ← g.step op
      let (x, out) ← talk pack rest g
      .ok (x, report line e ++ out)

/-- Every line of the input with what the uninitialised array holds at that time. -/
def withJunk (junk : Nat → List Char) : Nat → List (List Char) → List (List Char × List Char)
  | _, [] => []
  | n, l :: ls => (l, junk n) :: withJunk junk (n + 1) ls

/-- The program, from the text on its standard input to the text on its standard error stream; `std::endl` writes a line feed. -/
def program (pack : List Char → Nat) (junk : Nat → List Char) (input : List Char) : Except Err (End × List Char) := do
  let (x, out) ← talk pack (withJunk junk 0 (getlines input)) Mgr.init
  .ok (x, out.flatMap (· ++ ['\n']))

end CppTrader.Cli
