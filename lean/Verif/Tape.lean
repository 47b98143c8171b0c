import Verif.Model.Manager
import Verif.Model.Itch
/-
Specification: an order-by-order feed, as the plain list of the orders that rest at the moment, and the price levels it
implies.
-/

namespace CppTrader

/-- A resting order. -/
structure Ticket where
  id : Nat
  sym : Nat
  side : Side
  price : Nat
  qty : Nat
  deriving DecidableEq, Repr

/-- The orders that rest. -/
abbrev Tape := List Ticket

/-- What a feed may report. -/
inductive Tick where
  | book (sym : Nat)
  | add (r : Ticket)
  | take (id qty : Nat)
  | delete (id : Nat)
  | modify (id price qty : Nat)
  | replace (id new price qty : Nat)
  deriving DecidableEq, Repr

namespace Tape

/-- The order with the given id. -/
def find (t : Tape) (id : Nat) : Option Ticket := List.find? (fun r => r.id = id) t

/-- The tape without that order. -/
def without (t : Tape) (id : Nat) : Tape := List.filter (fun r => r.id ≠ id) t

/-- The next tape: an order is added; some of its quantity is executed or cancelled, and it leaves if nothing is left; it
is deleted; it gets a new price and quantity; it is replaced by one with a new id, price and quantity on the same side.
An order of quantity 0 does not rest. -/
def next (t : Tape) : Tick → Tape
  | .book _ => t
  | .add r => r :: t
  | .take id q =>
    match t.find id with
    | none => t
    | some r => if q < r.qty then { r with qty := r.qty - q } :: t.without id else t.without id
  | .delete id => t.without id
  | .modify id p q =>
    match t.find id with
    | none => t
    | some r => if 0 < q then { r with price := p, qty := q } :: t.without id else t.without id
  | .replace id n p q =>
    match t.find id with
    | none => t
    | some r => if 0 < q then { r with id := n, price := p, qty := q } :: t.without id else t.without id

def after (t : Tape) : List Tick → Tape
  | [] => t
  | x :: xs => (t.next x).after xs

/-- The quantity that rests for a symbol on a side at a price. -/
def volume (t : Tape) (sym : Nat) (sd : Side) (p : Nat) : Nat :=
  ((List.filter (fun r => r.sym = sym ∧ r.side = sd ∧ r.price = p) t).map (·.qty)).sum

/-- The price levels of a symbol on a side, best first: exactly the prices at which something rests, with the quantity that
rests there. -/
def Levels (t : Tape) (sym : Nat) (sd : Side) (l : List (Nat × Nat)) : Prop :=
  l.Pairwise (fun a b => match sd with | .buy => b.1 < a.1 | .sell => a.1 < b.1) ∧
  ∀ p v, (p, v) ∈ l ↔ v = t.volume sym sd p ∧ 0 < v

/-- A new order a manager with 32-bit volumes, 31-bit prices, 10000 books and 300000000 orders has room for. -/
def Fits (t : Tape) (r : Ticket) : Prop :=
  r.id < 300000000 ∧ r.sym < 10000 ∧ 0 < r.price ∧ r.price < 2147483648 ∧ 0 < r.qty ∧
  t.volume r.sym r.side r.price + r.qty < 4294967296 ∧ t.find r.id = none

/-- The feed is consistent: it speaks of orders that rest, does not take more from an order than is left of it, adds orders
that fit, under ids that are not in use, and announces a book only as long as nothing rests in it. -/
def Consistent (t : Tape) : Tick → Prop
  | .book sym => sym < 10000 ∧ ∀ r ∈ t, r.sym ≠ sym
  | .add r => t.Fits r
  | .take id q => ∃ r, t.find id = some r ∧ q ≤ r.qty
  | .delete id => ∃ r, t.find id = some r
  | .modify id p q => ∃ r, t.find id = some r ∧ (0 < q → (t.without id).Fits { r with price := p, qty := q }) ∧ p < 2147483648
  | .replace id n p q => ∃ r, t.find id = some r ∧ (0 < q → (t.without id).Fits { r with id := n, price := p, qty := q }) ∧
      p < 2147483648

def ConsistentAll (t : Tape) : List Tick → Prop
  | [] => True
  | x :: xs => t.Consistent x ∧ (t.next x).ConsistentAll xs

/-- What a strict manager asks for on top: a book is announced once, and before its orders; ids and quantities are not 0.
`ann` are the symbols announced so far. -/
def Strict (ann : List Nat) : Tick → Prop
  | .book sym => sym ∉ ann
  | .add r => r.sym ∈ ann ∧ r.id ≠ 0
  | .take _ q => 0 < q
  | .delete _ => True
  | .modify _ _ q => 0 < q
  | .replace _ n _ q => n ≠ 0 ∧ 0 < q

/-- The symbols announced after it. -/
def announced (ann : List Nat) : Tick → List Nat
  | .book sym => sym :: ann
  | _ => ann

def StrictAll (ann : List Nat) : List Tick → Prop
  | [] => True
  | x :: xs => Strict ann x ∧ StrictAll (announced ann x) xs

end Tape

/-- What an ITCH message says about the resting orders (Nasdaq TotalView-ITCH 5.0, sections 4.2 to 4.5); 66 is 'B'. -/
def Itch.Msg.tick : Itch.Msg → Option Tick
  | .stockDirectory h .. => some (.book h.locate)
  | .addOrder h ref side shares _ price => some (.add ⟨ref, h.locate, if side = 66 then .buy else .sell, price, shares⟩)
  | .addOrderMPID h ref side shares _ price _ => some (.add ⟨ref, h.locate, if side = 66 then .buy else .sell, price, shares⟩)
  | .orderExecuted _ ref shares _ => some (.take ref shares)
  | .orderExecutedWithPrice _ ref shares _ _ _ => some (.take ref shares)
  | .orderCancel _ ref shares => some (.take ref shares)
  | .orderDelete _ ref => some (.delete ref)
  | .orderReplace _ orig new shares price => some (.replace orig new price shares)
  | _ => none

/-- The price levels of limit orders the market manager shows for a symbol on a side, from the best one: price and total
volume. -/
def Mgr.shown (g : Mgr) (sym : Nat) (sd : Side) : List (Nat × Nat) :=
  match g.getBook sym with
  | none => []
  | some b => (b.lv (if sd = .buy then .bid else .ask)).map fun l => (l.price, l.total)

end CppTrader
