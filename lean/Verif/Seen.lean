import Verif.Tape
/-
Specification: how the optimised market manager reads a feed. It differs from the feed in two points: an order is not
entered at the price of the feed but at the price last noted under its id (0 if none was), which only modifications and
replacements note; and when all that is left of an order is cancelled, the order goes but its quantity stays.
-/

namespace CppTrader

/-- What a feed reports; `tick (.take …)` is an execution here. -/
inductive Report where
  | tick (x : Tick)
  | cancel (id qty : Nat)
  deriving DecidableEq, Repr

/-- What it means for the resting orders. -/
def Report.plain : Report → Tick
  | .tick x => x
  | .cancel id q => .take id q

/-- The orders that rest, at the prices they are entered at; the quantities that stay of cancelled orders; the prices noted. -/
structure Seen where
  tape : Tape
  stuck : Tape
  noted : Nat → Nat

namespace Seen

def blank : Seen := ⟨[], [], fun _ => 0⟩

/-- All quantities that are shown. -/
def all (z : Seen) : Tape := z.tape ++ z.stuck

/-- A price is noted. -/
def note (z : Seen) (id p : Nat) : Seen := { z with noted := fun j => if j = id then p else z.noted j }

def next (z : Seen) : Report → Seen
  | .tick (.add r) => { z with tape := { r with price := z.noted r.id } :: z.tape }
  | .cancel id q =>
    match z.tape.find id with
    | none => z
    | some r => if q < r.qty then { z with tape := { r with qty := r.qty - q } :: z.tape.without id }
        else { z with tape := z.tape.without id, stuck := r :: z.stuck }
  | .tick (.modify id p q) => ({ z with tape := z.tape.next (.modify id p q) }).note id p
  | .tick (.replace id n p q) =>
    let z' : Seen := { z with tape := z.tape.next (.replace id n p q) }
    if 0 < q then z'.note n p else z'
  | .tick x => { z with tape := z.tape.next x }

def after (z : Seen) : List Report → Seen
  | [] => z
  | x :: xs => (z.next x).after xs

/-- The number of orders that rest for a symbol on a side at a price. -/
def number (z : Seen) (sym : Nat) (sd : Side) (p : Nat) : Nat := (z.tape.filter (fun r => r.sym = sym ∧ r.side = sd ∧ r.price = p)).length

/-- The price levels of a symbol on a side, best first: exactly the prices at which a quantity is shown, with that quantity and
the number of orders. -/
def Levels (z : Seen) (sym : Nat) (sd : Side) (l : List (Nat × Nat × Nat)) : Prop :=
  l.Pairwise (fun a b => match sd with | .buy => b.1 < a.1 | .sell => a.1 < b.1) ∧
  ∀ p v n, (p, v, n) ∈ l ↔ v = z.all.volume sym sd p ∧ n = z.number sym sd p ∧ 0 < v

/-- There is room for the order. -/
def Fits (z : Seen) (r : Ticket) : Prop :=
  r.id < 300000000 ∧ r.sym < 10000 ∧ 0 < r.qty ∧ z.all.volume r.sym r.side r.price + r.qty < 4294967296 ∧ z.tape.find r.id = none

/-- The feed is consistent: it speaks of orders that rest, adds orders there is room for under ids that are not in use, and
announces a book only as long as nothing is shown in it. -/
def Consistent (z : Seen) : Report → Prop
  | .tick (.book sym) => sym < 10000 ∧ ∀ r ∈ z.all, r.sym ≠ sym
  | .tick (.add r) => z.Fits { r with price := z.noted r.id }
  | .tick (.take id _) | .tick (.delete id) | .cancel id _ => ∃ r, z.tape.find id = some r
  | .tick (.modify id p q) => ∃ r, z.tape.find id = some r ∧
      (0 < q → Fits { z with tape := z.tape.without id } { r with price := p, qty := q })
  | .tick (.replace id n p q) => ∃ r, z.tape.find id = some r ∧
      (0 < q → Fits { z with tape := z.tape.without id } { r with id := n, price := p, qty := q })

def ConsistentAll (z : Seen) : List Report → Prop
  | [] => True
  | x :: xs => z.Consistent x ∧ (z.next x).ConsistentAll xs

end Seen

/-- What an ITCH message reports (Nasdaq TotalView-ITCH 5.0, sections 4.2 to 4.5). -/
def Itch.Msg.report : Itch.Msg → Option Report
  | .orderCancel _ ref shares => some (.cancel ref shares)
  | m => m.tick.map .tick

end CppTrader
