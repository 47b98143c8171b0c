import Verif.Seen
import Verif.Model.Optimized
/-
Specification: the callbacks of the optimised market manager.
-/

namespace CppTrader
namespace Seen

/-- A quantity is shown for a symbol on a side at a price. -/
def Shows (z : Seen) (sym : Nat) (sd : Side) (p : Nat) : Prop := 0 < z.all.volume sym sd p

instance (z : Seen) (sym : Nat) (sd : Side) (p : Nat) : Decidable (z.Shows sym sd p) := by unfold Shows; infer_instance

/-- It is shown at the best price. -/
def Best (z : Seen) (sym : Nat) (sd : Side) (p : Nat) : Prop :=
  z.Shows sym sd p ∧ ∀ p', z.Shows sym sd p' → match sd with | .buy => p' ≤ p | .sell => p ≤ p'

/-- What is said about a change at a price, from `z` to `z'`: whether the price level is new, changed or gone; its side, price, quantity and number of
orders after the change; whether it is, or was at last, the best one; and the numbers of price levels of the book after the change. -/
structure Moves (z z' : Seen) (sym : Nat) (sd : Side) (p : Nat) (c : Opt.Change) (l : Opt.Level) (top : Bool) (bids asks : Nat) : Prop where
  kind : c = if ¬ z.Shows sym sd p then .add else if z'.Shows sym sd p then .update else .delete
  level : l = ⟨sd, p, z'.all.volume sym sd p, z'.number sym sd p⟩
  top : top = true ↔ if z'.Shows sym sd p then z'.Best sym sd p else z.Best sym sd p
  bids : ∃ L, z'.Levels sym .buy L ∧ bids = L.length
  asks : ∃ L, z'.Levels sym .sell L ∧ asks = L.length

end Seen

/-- A piece of news: a symbol or a book is announced, an order (as it is then) comes, is changed or goes, a quantity is executed at a price, a price level
changes. -/
inductive Story where
  | symbol (id : Nat)
  | book (id : Nat)
  | comes (r : Ticket)
  | changes (r : Ticket)
  | goes (r : Ticket)
  | trade (r : Ticket) (price qty : Nat)
  | level (z z' : Seen) (sym : Nat) (sd : Side) (p : Nat)

/-- The order in a callback. -/
def Opt.Ord.Is (o : Opt.Ord) (r : Ticket) : Prop := o.id = r.id ∧ o.symbol = r.sym ∧ o.side = r.side ∧ o.price = r.price ∧ o.quantity = r.qty

/-- The same news of an execution at another price. -/
def Story.at (price : Nat) : Story → Story
  | .trade r _ q => .trade r price q
  | x => x

/-- The callbacks for a piece of news. -/
inductive Story.Told : Story → List Opt.Ev → Prop
  | symbol (id) : Told (.symbol id) [.addSymbol id]
  | book (id) : Told (.book id) [.addBook id]
  | comes {r o} : Opt.Ord.Is o r → Told (.comes r) [.addOrder o]
  | changes {r o} : Opt.Ord.Is o r → Told (.changes r) [.updateOrder o]
  | goes {r o} : Opt.Ord.Is o r → Told (.goes r) [.deleteOrder o]
  | trade {r o p q} : Opt.Ord.Is o r → Told (.trade r p q) [.exec o p q]
  | level {z z' sym sd p c l top bids asks} : z.Moves z' sym sd p c l top bids asks →
      Told (.level z z' sym sd p) [.level c l top, .updateBook bids asks top]

/-- The callbacks for several. -/
inductive AllTold : List Story → List Opt.Ev → Prop
  | nil : AllTold [] []
  | cons {x xs e es} : Story.Told x e → AllTold xs es → AllTold (x :: xs) (e ++ es)

/-- The news of a report about an order: `z1` is what is seen without the order. The price of an execution is that of the order. -/
def Seen.tell (z : Seen) (x : Report) (r : Ticket) : List Story :=
  let z1 : Seen := { z with tape := z.tape.without r.id }
  match x with
  | .tick (.book _) | .tick (.add _) => []
  | .tick (.take _ q) =>
    [.trade r r.price (min q r.qty), .level z (z.next x) r.sym r.side r.price,
      if q < r.qty then .changes { r with qty := r.qty - q } else .goes { r with qty := 0 }]
  | .cancel _ q =>
    [if q < r.qty then .changes { r with qty := r.qty - q } else .goes { r with qty := 0 }, .level z (z.next x) r.sym r.side r.price]
  | .tick (.delete _) => [.level z z1 r.sym r.side r.price, .goes r]
  | .tick (.modify _ p q) =>
    if 0 < q then [.level z z1 r.sym r.side r.price, .changes { r with price := p, qty := q }, .level z1 (z.next x) r.sym r.side p]
    else [.level z z1 r.sym r.side r.price, .goes { r with price := p, qty := 0 }]
  | .tick (.replace _ n p q) =>
    if 0 < q then [.level z z1 r.sym r.side r.price, .goes r, .comes { r with id := n, price := p, qty := q }, .level z1 (z.next x) r.sym r.side p]
    else [.level z z1 r.sym r.side r.price, .goes r]

/-- The news of a report. -/
def Seen.news (z : Seen) : Report → List Story
  | .tick (.book sym) => [.book sym]
  | .tick (.add r) =>
    [.comes { r with price := z.noted r.id }, .level z (z.next (.tick (.add r))) r.sym r.side (z.noted r.id)]
  | .tick (.take id q) => match z.tape.find id with | none => [] | some r => z.tell (.tick (.take id q)) r
  | .tick (.delete id) => match z.tape.find id with | none => [] | some r => z.tell (.tick (.delete id)) r
  | .tick (.modify id p q) => match z.tape.find id with | none => [] | some r => z.tell (.tick (.modify id p q)) r
  | .tick (.replace id n p q) => match z.tape.find id with | none => [] | some r => z.tell (.tick (.replace id n p q)) r
  | .cancel id q => match z.tape.find id with | none => [] | some r => z.tell (.cancel id q) r

/-- The news of a feed. -/
def Seen.allNews (z : Seen) : List Report → List Story
  | [] => []
  | x :: xs => z.news x ++ (z.next x).allNews xs

/-- The news of an ITCH message: those of its report; a symbol is announced with its book; an execution may have a price of its own. -/
def Itch.Msg.news (z : Seen) : Itch.Msg → List Story
  | .stockDirectory h _ _ _ _ _ _ _ _ _ _ _ _ _ _ => [.symbol h.locate, .book h.locate]
  | .orderExecutedWithPrice _ ref shares _ _ price => (z.news (.tick (.take ref shares))).map (Story.at price)
  | m => match m.report with | none => [] | some x => z.news x

/-- The news of a stream of messages. -/
def Itch.Msg.allNews (z : Seen) : List Itch.Msg → List Story
  | [] => []
  | m :: ms => m.news z ++ Itch.Msg.allNews (match m.report with | none => z | some x => z.next x) ms

end CppTrader
