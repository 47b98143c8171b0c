import Verif.Cli
import Verif.Model.Text
/-
Specification of the complaints of the command-line matching engine. Nothing here refers to the way the program finds out.
-/

namespace CppTrader.Cli

/-- The lines of a text: the text is these lines, each ended by a line feed, which the last one may lack. -/
def LinesOf (t : List Char) (ls : List (List Char)) : Prop :=
  (∀ l ∈ ls, '\n' ∉ l) ∧
  (t = ls.flatMap (· ++ ['\n']) ∨ ∃ init last, ls = init ++ [last] ∧ last ≠ [] ∧ t = init.flatMap (· ++ ['\n']) ++ last)

/-- The beginnings of the commands, a longer one before a shorter one that begins it. -/
def beginnings : List String :=
  ["add symbol", "delete symbol", "add book", "delete book", "add market", "add slippage market", "add limit", "add ioc limit",
    "add fok limit", "add aon limit", "add stop-limit", "add stop", "add trailing stop-limit", "add trailing stop", "reduce order",
    "modify order", "mitigate order", "replace order", "delete order"]

/-- The words occur in the line. -/
def Mentions (line : List Char) (w : String) : Prop := ∃ a b, line = a ++ w.toList ++ b

/-- The first of the beginnings that occurs in the line. -/
def FirstMentioned (line : List Char) (w : String) : Prop :=
  ∃ before after, beginnings = before ++ w :: after ∧ Mentions line w ∧ ∀ v ∈ before, ¬ Mentions line v

/-- A complaint: about a line that has no beginning of a command in it; about a line that has one but is not a command; about a command
that the market manager refused. -/
inductive Complaint where
  | unknown (line : List Char)
  | invalid (words : String) (line : List Char)
  | failed (words : String) (code : ErrorCode)
  deriving DecidableEq

/-- What is written. -/
def Complaint.text : Complaint → List Char
  | .unknown line => "Unknown command: ".toList ++ line
  | .invalid w line => "Invalid '".toList ++ (w.toList ++ ("' command: ".toList ++ line))
  | .failed w e => "Failed '".toList ++ (w.toList ++ ("' command: ".toList ++ Text.error e))

/-- The line asks for help, is empty or a comment. -/
def Idle (line : List Char) : Prop := line = "help".toList ∨ line = [] ∨ ∃ l, line = '#' :: l

/-- The complaints about an input, given the results of the calls its commands stand for. -/
inductive Complaints : List (List Char) → List ErrorCode → List Complaint → Prop where
  | eof : Complaints [] [] []
  | quit {line rest} : line = "exit".toList ∨ line = "quit".toList → Complaints (line :: rest) [] []
  | tooLarge {line rest c} : Spells c line → ¬ c.small → Complaints (line :: rest) [] []
  | done {line rest c es cs} : Spells c line → c.small → Complaints rest es cs → Complaints (line :: rest) (.ok :: es) cs
  | refused {line rest c e es cs} : Spells c line → c.small → e ≠ .ok → Complaints rest es cs →
    Complaints (line :: rest) (e :: es) (.failed c.words e :: cs)
  | idle {line rest es cs} : Idle line → Complaints rest es cs → Complaints (line :: rest) es cs
  | misspelt {line rest w es cs} : (∀ c, ¬ Spells c line) → line ≠ "exit".toList → line ≠ "quit".toList → ¬ Idle line →
    FirstMentioned line w → Complaints rest es cs → Complaints (line :: rest) es (.invalid w line :: cs)
  | unknown {line rest es cs} : (∀ c, ¬ Spells c line) → line ≠ "exit".toList → line ≠ "quit".toList → ¬ Idle line →
    (∀ w ∈ beginnings, ¬ Mentions line w) → Complaints rest es cs → Complaints (line :: rest) es (.unknown line :: cs)

end CppTrader.Cli
