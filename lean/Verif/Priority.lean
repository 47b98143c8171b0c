import Verif.Trades
/-
Specification of price-time priority. Nothing here refers to the engine.
-/

namespace CppTrader

def Side.other : Side → Side
  | .buy => .sell
  | .sell => .buy

/-- The collection of the limit orders of a side. -/
def Side.limits : Side → Kind
  | .buy => .bid
  | .sell => .ask

/-! ### Orders in line -/

/-- The orders in line in every collection of one symbol (bids, asks, stop orders). -/
abbrev Board := Kind → List Order

/-- The orders in line for every symbol. -/
abbrev Lines := Nat → Board

/-- The orders in line as the book shows them: level by level from the best one, each level in the order of its
queue. -/
def Mgr.lines (g : Mgr) : Lines := fun sym k =>
  match g.getBook sym with
  | none => []
  | some b => ((b.lv k).flatMap (·.ids)).filterMap g.getOrder

/-- The price that ranks an order: the limit price of a limit order, the stop price of a stop order. -/
def Order.rank (o : Order) : Nat := if o.type = .limit then o.price else o.stopPrice

/-- `t` goes before `r` on account of its price. -/
def Order.beats (k : Kind) (t r : Order) : Prop := if k.highestFirst then r.rank < t.rank else t.rank < r.rank

instance (k : Kind) (t r : Order) : Decidable (t.beats k r) := by unfold Order.beats; split <;> infer_instance

/-- Join the line behind all orders of the same or a better price. -/
def enqueue (k : Kind) (t : Order) : List Order → List Order
  | [] => [t]
  | r :: rs => if t.beats k r then t :: r :: rs else r :: enqueue k t rs

/-- An order joins the line where it belongs. -/
def Board.insert (l : Board) (t : Order) : Board := fun k =>
  if t.home.map (·.1) = some k then enqueue k t (l k) else l k

/-- The order `id` is changed to `v` without losing its place, or leaves the line (`none`). -/
def Board.change (l : Board) (id : Nat) (v : Option Order) : Board := fun k =>
  (l k).filterMap (fun r => if r.id = id then v else some r)

/-- One line is replaced. -/
def Board.put (l : Board) (k : Kind) (rs : List Order) : Board := fun k' => if k' = k then rs else l k'

/-- The lines of one symbol are replaced. -/
def Lines.set (L : Lines) (sym : Nat) (l : Board) : Lines := fun n => if n = sym then l else L n

/-- The limit orders on one side of a symbol's book. -/
def Mgr.resting (g : Mgr) (sym : Nat) (sd : Side) : List Order := g.lines sym sd.limits

/-- Total, hidden and visible volume shown by the book for a price (zero if there is no such level). -/
def Mgr.depth (g : Mgr) (sym : Nat) (k : Kind) (p : Nat) : Nat × Nat × Nat :=
  match (g.getBook sym).bind (fun b => (b.lv k).find? (fun l => l.price = p)) with
  | some l => (l.total, l.hidden, l.visible)
  | none => (0, 0, 0)

/-- What a reduction by `q` takes off: in total, from the hidden part (first) and from the visible part. -/
def Order.takes (o : Order) (q : Nat) : Nat × Nat × Nat :=
  (min q o.leaves, min (min q o.leaves) o.hiddenQty, min q o.leaves - min (min q o.leaves) o.hiddenQty)

/-! ### Incoming orders -/

/-- `t` cannot trade with `r`, the next order in line: nothing left to fill, price not acceptable, or `r` is
All-Or-None and larger than what is left of `t`. -/
def Order.stopsAt (t r : Order) : Prop :=
  t.leaves = 0 ∨ ¬ t.accepts r.price ∨ r.isAON = true ∧ t.leaves < r.leaves

instance (t r : Order) : Decidable (t.stopsAt r) := by unfold Order.stopsAt; infer_instance

/-- Executions of the incoming order `t` against orders in priority order: each in turn is hit for as much as
possible, at its own price. -/
def greedy (t : Order) : List Order → List (Order × Nat × Nat)
  | [] => []
  | r :: rs =>
    if t.stopsAt r then []
    else
      let q := min r.leaves t.leaves
      (r, r.price, q) :: (t, r.price, q) :: greedy (t.afterExec q) rs

/-- What is left of the incoming order. -/
def greedyLeft (t : Order) : List Order → Order
  | [] => t
  | r :: rs => if t.stopsAt r then t else greedyLeft (t.afterExec (min r.leaves t.leaves)) rs

/-- The orders left in line: those executed completely are gone, the last one hit may be partly executed. -/
def greedyRest (t : Order) : List Order → List Order
  | [] => []
  | r :: rs =>
    if t.stopsAt r then r :: rs
    else
      let q := min r.leaves t.leaves
      if q = r.leaves then greedyRest (t.afterExec q) rs else r.afterExec q :: rs

/-- Fill-Or-Kill and All-Or-None orders are executed for their whole quantity or not at all. -/
def Order.whole (t : Order) : Prop := t.tif = .fok ∨ t.tif = .aon

instance (t : Order) : Decidable t.whole := by unfold Order.whole; infer_instance

/-- The quantities that add up to exactly `need`, taken from the orders in priority order: all of an All-Or-None order,
as much as needed of any other. `none` if an unacceptable price or the end of the line comes first, or if an
All-Or-None order is larger than what is missing. -/
def chain (t : Order) (need : Nat) : List Order → Option (List (Order × Nat))
  | [] => none
  | r :: rs =>
    if need = 0 ∨ ¬ t.accepts r.price then none
    else
      let q := if r.isAON then r.leaves else min r.leaves need
      if q = need then some [(r, q)]
      else if need < q then none
      else (chain t (need - q) rs).map ((r, q) :: ·)

/-- The orders left in line after a chain of executions from its head. -/
def afterChain : List (Order × Nat) → List Order → List Order
  | [], rs => rs
  | _ :: _, [] => []
  | (_, q) :: xs, r :: rs => if q < r.leaves then r.afterExec q :: afterChain xs rs else afterChain xs rs

/-- Executions of the incoming order `t` against the orders in line: greedy; for an order that must be filled as a
whole, a chain of executions that fills it, all at the price of `t`, or nothing. -/
def Order.fills (t : Order) (rs : List Order) : List (Order × Nat × Nat) :=
  if t.whole then
    match chain t t.leaves rs with
    | some xs => xs.map (fun x => (x.1, t.price, x.2)) ++ [(t, t.price, t.leaves)]
    | none => []
  else greedy t rs

/-- What is left of the incoming order. -/
def Order.left (t : Order) (rs : List Order) : Order :=
  if t.whole then
    match chain t t.leaves rs with
    | some _ => t.afterExec t.leaves
    | none => t
  else greedyLeft t rs

/-- The orders left in line. -/
def Order.leaveLine (t : Order) (rs : List Order) : List Order :=
  if t.whole then
    match chain t t.leaves rs with
    | some xs => afterChain xs rs
    | none => rs
  else greedyRest t rs

/-- A market order with its price bound: the best opposite price plus (buy) or minus (sell) the slippage,
saturating at the ends of the 64-bit range. -/
def Order.bounded (t : Order) (best : Nat) : Order :=
  { t with price := match t.side with
      | .buy => min (best + t.slippage) MAX64
      | .sell => best - t.slippage }

/-- The incoming order as it is matched against the orders of the opposite side: a market order gets its price
bound from the best of them. -/
def Order.capped (t : Order) (rs : List Order) : Order :=
  match t.type, rs with
  | .market, r :: _ => t.bounded r.price
  | _, _ => t

/-- The quantity in line at prices acceptable to `t`. -/
def Order.available (t : Order) (rs : List Order) : Nat := ((rs.filter (fun r => t.accepts r.price)).map (·.leaves)).sum

/-- The order stays in the book: something is left to fill, and it is not a market, Immediate-Or-Cancel or
Fill-Or-Kill order. -/
def Order.rests (t : Order) : Prop :=
  0 < t.leaves ∧ t.type ≠ .market ∧ (t.type = .limit → t.tif = .gtc ∨ t.tif = .aon)

instance (t : Order) : Decidable t.rests := by unfold Order.rests; infer_instance

/-- An order arrives: its executions, and the lines afterwards. With matching off (`m = false`) there are no
executions. -/
def Board.arrive (m : Bool) (l : Board) (t : Order) : List (Order × Nat × Nat) × Board :=
  if m then
    let k := t.side.other.limits
    let u := t.capped (l k)
    let left := u.left (l k)
    let l' := l.put k (u.leaveLine (l k))
    (u.fills (l k), if left.rests then l'.insert left else l')
  else ([], if t.rests then l.insert t else l)

/-- No bid meets an ask, and there are no stop orders. -/
def Board.quiet (l : Board) : Prop :=
  (∀ b ∈ l .bid, ∀ a ∈ l .ask, b.price < a.price) ∧ ∀ k, k.isLimit = false → l k = []

/-- Matching is off, or there is nothing to match and no stop order to be triggered in the symbol's book. -/
def Mgr.Quiet (g : Mgr) (sym : Nat) : Prop := g.matching = true → (g.lines sym).quiet

end CppTrader
