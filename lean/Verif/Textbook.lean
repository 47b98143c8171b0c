import Verif.Priority
/-
Specification: a price-time priority exchange for plain limit and market orders, as found in textbooks. It has
no levels, no volumes, no stored orders: just one line of orders per side and symbol. Nothing here refers to the
engine.
-/

namespace CppTrader

/-- What the exchange knows: whether it matches, the symbols, the symbols with a book, and the lines. -/
structure Exchange where
  matching : Bool
  symbols : List Nat
  books : List Nat
  lines : Lines

/-- An execution report: the order (before it), price and quantity. -/
abbrev Execution := Order × Nat × Nat

namespace Exchange

def init : Exchange := ⟨false, [], [], fun _ _ => []⟩

/-- Look up an order by its id. -/
def find (x : Exchange) (id : Nat) : Option Order :=
  x.books.findSome? fun s => (x.lines s .bid ++ x.lines s .ask).find? (fun r => r.id = id)

/-- The call is refused. -/
def refuse (x : Exchange) (e : ErrorCode) : ErrorCode × List Execution × Exchange := (e, [], x)

/-- The call succeeds: executions, and new lines for one symbol. -/
def accept (x : Exchange) (sym : Nat) (r : List Execution × Board) : ErrorCode × List Execution × Exchange :=
  (.ok, r.1, { x with lines := x.lines.set sym r.2 })

/-- A call about the order `id`. -/
def onOrder (x : Exchange) (id : Nat) (f : Order → Board → List Execution × Board) : ErrorCode × List Execution × Exchange :=
  match x.find id with
  | none => x.refuse .orderNotFound
  | some o => x.accept o.symbolId (f o (x.lines o.symbolId))

/-- Calls with a positive quantity. -/
def withQty (x : Exchange) (id q : Nat) (r : ErrorCode × List Execution × Exchange) : ErrorCode × List Execution × Exchange :=
  if id = 0 then x.refuse .orderIdInvalid else if q = 0 then x.refuse .orderQuantityInvalid else r

/-- A new order: it is executed against the opposite line, and what is left of it joins the line of its own side. -/
def add (x : Exchange) (o : Order) : ErrorCode × List Execution × Exchange :=
  if o.validate ≠ .ok then x.refuse o.validate
  else if o.symbolId ∉ x.books then x.refuse .orderBookNotFound
  else x.accept o.symbolId ((x.lines o.symbolId).arrive x.matching o)

/-- The order leaves its line. -/
def delete (x : Exchange) (id : Nat) : ErrorCode × List Execution × Exchange :=
  if id = 0 then x.refuse .orderIdInvalid else x.onOrder id fun _ l => ([], l.change id none)

/-- An order executed by hand at the price `p`. -/
def execute (x : Exchange) (id q : Nat) (p : Order → Nat) : ErrorCode × List Execution × Exchange :=
  x.withQty id q <| x.onOrder id fun o l =>
    ([(o, p o, min q o.leaves)], l.change id (if q < o.leaves then some (o.afterExec q) else none))

/-- One public call: result code, executions, next state. -/
def call (x : Exchange) : Op → ErrorCode × List Execution × Exchange
  | .addSymbol s => if s.id ∈ x.symbols then x.refuse .symbolDuplicate else (.ok, [], { x with symbols := s.id :: x.symbols })
  | .deleteSymbol id =>
    if id ∈ x.symbols then (.ok, [], { x with symbols := x.symbols.filter (· ≠ id) }) else x.refuse .symbolNotFound
  | .addOrderBook s =>
    if s.id ∉ x.symbols then x.refuse .symbolNotFound
    else if s.id ∈ x.books then x.refuse .orderBookDuplicate
    else (.ok, [], { x with books := s.id :: x.books })
  | .deleteOrderBook _ => x.refuse .orderBookNotFound
  | .addOrder o => x.add o
  | .reduceOrder id q => x.withQty id q <| x.onOrder id fun o l =>
    ([], l.change id (if q < o.leaves then some { o with leaves := o.leaves - q } else none))
  | .modifyOrder id p q => x.withQty id q <| x.onOrder id fun o l =>
    (l.change id none).arrive x.matching { o with price := p, quantity := q, leaves := q }
  | .mitigateOrder id p q => x.withQty id q <| x.onOrder id fun o l =>
    (l.change id none).arrive x.matching { o with price := p, quantity := q, leaves := q - o.executed }
  | .replaceOrder id n p q =>
    if id = 0 ∨ n = 0 then x.refuse .orderIdInvalid
    else if q = 0 then x.refuse .orderQuantityInvalid
    else x.onOrder id fun o l =>
      (l.change id none).arrive x.matching { o with id := n, price := p, quantity := q, executed := 0, leaves := q }
  | .replaceWith id o =>
    match x.delete id with
    | (.ok, xs, x') => let r := x'.add o; (r.1, xs ++ r.2.1, r.2.2)
    | r => r
  | .deleteOrder id => x.delete id
  | .executeOrder id q => x.execute id q (·.price)
  | .executeOrderAt id p q => x.execute id q (fun _ => p)
  | .enableMatching => (.ok, [], { x with matching := true })
  | .disableMatching => (.ok, [], { x with matching := false })
  | .matchAll => (.ok, [], x)

/-- The orders the textbook exchange is about: limit or market, not All-Or-None. -/
def plain (o : Order) : Prop := (o.type = .limit ∨ o.type = .market) ∧ o.tif ≠ .aon

/-- Nobody could trade. -/
def settled (x : Exchange) : Prop := ∀ s ∈ x.books, ∀ b ∈ x.lines s .bid, ∀ a ∈ x.lines s .ask, b.price < a.price

/-- The calls covered: orders are plain and come with ids not in use, books are not deleted, and matching is asked for
only when there is nothing to match. -/
def Covers (x : Exchange) : Op → Prop
  | .deleteOrderBook _ => False
  | .addOrder o => plain o ∧ x.find o.id = none
  | .replaceOrder id n _ _ => n = id ∨ x.find n = none
  | .replaceWith id o => plain o ∧ (o.id = id ∨ x.find o.id = none)
  | .enableMatching | .matchAll => x.settled
  | _ => True

instance (o : Order) : Decidable (plain o) := by unfold plain; infer_instance
instance (x : Exchange) : Decidable x.settled := by unfold settled; infer_instance
instance (x : Exchange) (op : Op) : Decidable (x.Covers op) := by
  cases op <;> unfold Covers <;> infer_instance

/-- The exchange after a sequence of calls. -/
def after (x : Exchange) : List Op → Exchange
  | [] => x
  | op :: ops => (x.call op).2.2.after ops

/-- The result codes and executions of a sequence of calls. -/
def results (x : Exchange) : List Op → List (ErrorCode × List Execution)
  | [] => []
  | op :: ops => ((x.call op).1, (x.call op).2.1) :: (x.call op).2.2.results ops

/-- All calls of a sequence are covered. -/
def CoversAll (x : Exchange) : List Op → Prop
  | [] => True
  | op :: ops => x.Covers op ∧ (x.call op).2.2.CoversAll ops

instance CoversAll.dec : (x : Exchange) → (ops : List Op) → Decidable (x.CoversAll ops)
  | _, [] => isTrue trivial
  | x, op :: ops => by
    unfold CoversAll
    have := CoversAll.dec (x.call op).2.2 ops
    infer_instance

end Exchange

/-- Admissible calls with their result codes and the executions they reported, from `g` to `g'`. -/
inductive Mgr.Records : Mgr → List (Op × ErrorCode × List Execution) → Mgr → Prop
  | nil {g} : Records g [] g
  | cons {g g1 g' op e evs h} : g.Admissible op → g.step op = .ok (g1, e) → g1.ev = g.ev ++ evs → Records g1 h g' →
      Records g ((op, e, execsOf evs) :: h) g'

end CppTrader
