import Verif.Model.Cli
/-
Specification of the command language of examples/matching_engine.cpp, after the text its command `help` prints
(matching_engine.cpp:589-609). Nothing here refers to the parser.
-/

namespace CppTrader.Cli

/-- The commands. -/
inductive Command where
  | addSymbol (id : Nat) (name : List Char)
  | deleteSymbol (id : Nat)
  | addBook (id : Nat)
  | deleteBook (id : Nat)
  | market (side : Side) (id sym qty : Nat)
  | slippageMarket (side : Side) (id sym qty slippage : Nat)
  | limit (side : Side) (id sym price qty : Nat)
  | iocLimit (side : Side) (id sym price qty : Nat)
  | fokLimit (side : Side) (id sym price qty : Nat)
  | aonLimit (side : Side) (id sym price qty : Nat)
  | stop (side : Side) (id sym stopPrice qty : Nat)
  | stopLimit (side : Side) (id sym stopPrice price qty : Nat)
  | trailingStop (side : Side) (id sym stopPrice qty dist step : Nat)
  | trailingStopLimit (side : Side) (id sym stopPrice price qty dist step : Nat)
  | reduce (id qty : Nat)
  | modify (id price qty : Nat)
  | mitigate (id price qty : Nat)
  | replace (id newId price qty : Nat)
  | delete (id : Nat)
  | enable
  | disable

namespace Command

/-- The words a command begins with. -/
def words : Command → String
  | addSymbol .. => "add symbol"
  | deleteSymbol .. => "delete symbol"
  | addBook .. => "add book"
  | deleteBook .. => "delete book"
  | market .. => "add market"
  | slippageMarket .. => "add slippage market"
  | limit .. => "add limit"
  | iocLimit .. => "add ioc limit"
  | fokLimit .. => "add fok limit"
  | aonLimit .. => "add aon limit"
  | stop .. => "add stop"
  | stopLimit .. => "add stop-limit"
  | trailingStop .. => "add trailing stop"
  | trailingStopLimit .. => "add trailing stop-limit"
  | reduce .. => "reduce order"
  | modify .. => "modify order"
  | mitigate .. => "mitigate order"
  | replace .. => "replace order"
  | delete .. => "delete order"
  | enable => "enable matching"
  | disable => "disable matching"

/-- The side, written after the words. -/
def side? : Command → Option Side
  | market s .. | slippageMarket s .. | limit s .. | iocLimit s .. | fokLimit s .. | aonLimit s .. | stop s ..
  | stopLimit s .. | trailingStop s .. | trailingStopLimit s .. => some s
  | _ => none

/-- The numbers, in the order they are written. -/
def args : Command → List Nat
  | addSymbol id _ => [id]
  | deleteSymbol id | addBook id | deleteBook id | delete id => [id]
  | market _ id sym qty => [id, sym, qty]
  | slippageMarket _ id sym qty slippage => [id, sym, qty, slippage]
  | limit _ id sym price qty | iocLimit _ id sym price qty | fokLimit _ id sym price qty
  | aonLimit _ id sym price qty => [id, sym, price, qty]
  | stop _ id sym stopPrice qty => [id, sym, stopPrice, qty]
  | stopLimit _ id sym stopPrice price qty => [id, sym, stopPrice, price, qty]
  | trailingStop _ id sym stopPrice qty dist step => [id, sym, stopPrice, qty, dist, step]
  | trailingStopLimit _ id sym stopPrice price qty dist step => [id, sym, stopPrice, price, qty, dist, step]
  | reduce id qty => [id, qty]
  | modify id price qty | mitigate id price qty => [id, price, qty]
  | replace id newId price qty => [id, newId, price, qty]
  | enable | disable => []

/-- The name at the end of the line. -/
def name? : Command → Option (List Char)
  | addSymbol _ name => some name
  | _ => none

/-- The call of the market manager the command stands for. `pack` packs the eight bytes of a symbol name; `rest` are the
bytes after the name as written. -/
def meaning (pack : List Char → Nat) (rest : List Char) : Command → Op
  | addSymbol id name => .addSymbol ⟨id, pack (name.take 8 ++ rest)⟩
  | deleteSymbol id => .deleteSymbol id
  | addBook id => .addOrderBook ⟨id, pack (List.replicate 8 (Char.ofNat 0))⟩
  | deleteBook id => .deleteOrderBook id
  | market s id sym qty => .addOrder (.mkMarket id sym s qty)
  | slippageMarket s id sym qty slippage => .addOrder (.mkMarket id sym s qty slippage)
  | limit s id sym price qty => .addOrder (.mkLimit id sym s price qty)
  | iocLimit s id sym price qty => .addOrder (.mkLimit id sym s price qty .ioc)
  | fokLimit s id sym price qty => .addOrder (.mkLimit id sym s price qty .fok)
  | aonLimit s id sym price qty => .addOrder (.mkLimit id sym s price qty .aon)
  | stop s id sym stopPrice qty => .addOrder (.mkStop id sym s stopPrice qty)
  | stopLimit s id sym stopPrice price qty => .addOrder (.mkStopLimit id sym s stopPrice price qty)
  | trailingStop s id sym stopPrice qty dist step => .addOrder (.mkTrailingStop id sym s stopPrice qty dist step)
  | trailingStopLimit s id sym stopPrice price qty dist step =>
    .addOrder (.mkTrailingStopLimit id sym s stopPrice price qty dist step)
  | reduce id qty => .reduceOrder id qty
  | modify id price qty => .modifyOrder id price qty
  | mitigate id price qty => .mitigateOrder id price qty
  | replace id newId price qty => .replaceOrder id newId price qty
  | delete id => .deleteOrder id
  | enable => .enableMatching
  | disable => .disableMatching

end Command

/-- Decimal numerals (leading zeros allowed). -/
inductive Numeral : Nat → List Char → Prop where
  | digit {d : Nat} : d < 10 → Numeral d [d.digitChar]
  | more {n d : Nat} {ds : List Char} : Numeral n ds → d < 10 → Numeral (10 * n + d) (ds ++ [d.digitChar])

/-- A blank and a numeral for every number. -/
inductive Written : List Nat → List Char → Prop where
  | nil : Written [] []
  | cons {n : Nat} {ns : List Nat} {ds l : List Char} : Numeral n ds → Written ns l → Written (n :: ns) (' ' :: ds ++ l)

/-- A side as it is written. -/
def sideText : Option Side → List Char
  | some .buy => " buy".toList
  | some .sell => " sell".toList
  | none => []

/-- A name as it is written. -/
def nameText : Option (List Char) → List Char
  | some name => ' ' :: name
  | none => []

/-- The line is the command: its words, its side, its numbers, its name, separated by single blanks. A name is not empty
and has no line breaks. -/
def Spells (c : Command) (line : List Char) : Prop :=
  (∃ l, Written c.args l ∧ line = c.words.toList ++ sideText c.side? ++ l ++ nameText c.name?) ∧
  ∀ n, c.name? = some n → n ≠ [] ∧ '\n' ∉ n ∧ '\r' ∉ n

/-- All numbers of the command fit an `int`. -/
def Command.small (c : Command) : Prop := ∀ n ∈ c.args, n ≤ 2147483647

/-- A run of the program over its input (every line with the junk the uninitialised array of `add symbol` holds at that
time): the calls it makes in order, and whether it dies at a number that is too large. Lines that are not commands are
skipped. -/
inductive Session (pack : List Char → Nat) : List (List Char × List Char) → List Op → Bool → Prop where
  | eof : Session pack [] [] false
  | quit {line junk rest} : line = "exit".toList ∨ line = "quit".toList → Session pack ((line, junk) :: rest) [] false
  | command {line junk rest c ops b} : Spells c line → c.small → Session pack rest ops b →
    Session pack ((line, junk) :: rest) (c.meaning pack ((junk.take 8).drop ((c.name?.getD []).length)) :: ops) b
  | tooLarge {line junk rest c} : Spells c line → ¬ c.small → Session pack ((line, junk) :: rest) [] true
  | skip {line junk rest ops b} : (∀ c, ¬ Spells c line) → line ≠ "exit".toList → line ≠ "quit".toList →
    Session pack rest ops b → Session pack ((line, junk) :: rest) ops b

end CppTrader.Cli
