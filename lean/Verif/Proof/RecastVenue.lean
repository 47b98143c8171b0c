import Verif.Proof.Recast
/-
The calls of the reference exchange with other order ids and visible quantities.
-/

namespace CppTrader
open Core

namespace Recast
variable (c : Recast)

def venue (x : Venue) : Venue := { x with pits := fun s => c.pit (x.pits s), ghosts := x.ghosts.map c.order }
def answer (a : Venue.Answer) : Venue.Answer := (a.1, a.2.1.map c.exec, c.venue a.2.2)

theorem board_orders_map (l : Board) : (c.board l).orders = l.orders.map c.order := by
  unfold Board.orders
  rw [List.map_flatMap]
  rfl

theorem orders_map (x : Venue) : (c.venue x).orders = x.orders.map c.order := by
  unfold Venue.orders
  show x.books.flatMap (fun s => (c.board (x.pits s).board).orders) ++ x.ghosts.map c.order = _
  rw [List.map_append, List.map_flatMap]
  congr 1
  congr 1
  funext s
  exact c.board_orders_map _

theorem find_map (x : Venue) (id : Nat) : (c.venue x).find (c.id id) = (x.find id).map c.order := by
  unfold Venue.find
  rw [orders_map, List.find?_map]
  congr 1
  congr 1
  funext r
  show decide (c.id r.id = c.id id) = decide (r.id = id)
  simp only [c.ids]

theorem setPit_map (x : Venue) (s : Nat) (p : Pit) : (c.venue x).setPit s (c.pit p) = c.venue (x.setPit s p) := by
  unfold Venue.setPit venue
  congr 1
  funext i
  show (if i = s then c.pit p else c.pit (x.pits i)) = c.pit (if i = s then p else x.pits i)
  split <;> rfl

theorem refuse_map (x : Venue) (e : ErrorCode) : (c.venue x).refuse e = c.answer (x.refuse e) := rfl

theorem done_map (x : Venue) (s : Nat) (r : List Execution × Pit) : (c.venue x).done s (c.step r) = c.answer (x.done s r) := by
  unfold Venue.done
  simp only
  rw [show (c.step r).2 = c.pit r.2 from rfl, show (c.venue x).matching = x.matching from rfl, close_map]
  show (_, _ ++ _, (c.venue x).setPit s (c.pit _)) = _
  rw [setPit_map]
  show (_, r.1.map c.exec ++ ((r.2.close x.matching).1.map c.exec), _) = _
  rw [← List.map_append]
  rfl

def triple (r : List Execution × Order × Pit) : List Execution × Order × Pit := (r.1.map c.exec, c.order r.2.1, c.pit r.2.2)

theorem vland_map (x : Venue) (s : Nat) (r : List Execution × Order × Pit) : (c.venue x).land s (c.triple r) = c.answer (x.land s r) := by
  unfold Venue.land
  simp only
  rw [show (c.triple r).2.2 = c.pit r.2.2 from rfl, setPit_map, show (c.triple r).2.1 = c.order r.2.1 from rfl,
    show (c.order r.2.1).id = c.id r.2.1.id from rfl, find_map, land_map]
  by_cases h : r.2.1.rests ∧ (x.setPit s r.2.2).find r.2.1.id ≠ none
  · have h' : (c.order r.2.1).rests ∧ ((x.setPit s r.2.2).find r.2.1.id).map c.order ≠ none := ⟨h.1, by simpa using h.2⟩
    rw [if_pos h, if_pos h']; rfl
  · have h' : ¬ ((c.order r.2.1).rests ∧ ((x.setPit s r.2.2).find r.2.1.id).map c.order ≠ none) := fun x => h ⟨x.1, by simpa using x.2⟩
    rw [if_neg h, if_neg h', ← done_map]; rfl

theorem onOrder_map (x : Venue) (id : Nat) {F G : Order → Pit → Venue.Answer}
    (h : ∀ o p, o.id = id → G (c.order o) (c.pit p) = c.answer (F o p)) :
    (c.venue x).onOrder (c.id id) G = c.answer (x.onOrder id F) := by
  unfold Venue.onOrder
  rw [find_map]
  cases hx : x.find id with
  | none => rfl
  | some o =>
    have hid : o.id = id := by
      have := List.find?_some hx
      simpa using this
    show (if (c.order o).symbolId ∈ x.books then _ else _) = _
    by_cases hb : o.symbolId ∈ x.books
    · rw [if_pos (show (c.order o).symbolId ∈ x.books from hb)]
      simp only [if_pos hb]
      exact h o _ hid
    · rw [if_neg (show ¬ (c.order o).symbolId ∈ x.books from hb)]
      simp only [if_neg hb]
      rfl

theorem withQty_map (x : Venue) (id q : Nat) {a b : Venue.Answer} (h : b = c.answer a) :
    (c.venue x).withQty (c.id id) q b = c.answer (x.withQty id q a) := by
  subst h
  unfold Venue.withQty
  by_cases h1 : id = 0
  · rw [if_pos h1, if_pos ((c.id_zero id).2 h1)]; rfl
  · rw [if_neg h1, if_neg (fun e => h1 ((c.id_zero id).1 e))]
    by_cases h2 : q = 0
    · rw [if_pos h2, if_pos h2]; rfl
    · rw [if_neg h2, if_neg h2]

theorem add_map (x : Venue) (o : Order) (hv : (c.order o).validate = o.validate) : (c.venue x).add (c.order o) = c.answer (x.add o) := by
  unfold Venue.add
  rw [hv]
  by_cases h1 : o.validate ≠ .ok
  · rw [if_pos h1, if_pos h1]; rfl
  · rw [if_neg h1, if_neg h1]
    by_cases h2 : o.symbolId ∉ x.books
    · rw [if_pos h2, if_pos (show (c.order o).symbolId ∉ (c.venue x).books from h2)]; rfl
    · rw [if_neg h2, if_neg (show ¬ (c.order o).symbolId ∉ (c.venue x).books from h2), ← vland_map]
      show (c.venue x).land o.symbolId ((c.pit (x.pits o.symbolId)).enter x.matching (c.order o)) = _
      rw [enter_map]; rfl

theorem delete_map (x : Venue) (id : Nat) : (c.venue x).delete (c.id id) = c.answer (x.delete id) := by
  unfold Venue.delete
  by_cases h1 : id = 0
  · rw [if_pos h1, if_pos ((c.id_zero id).2 h1)]; rfl
  · rw [if_neg h1, if_neg (fun e => h1 ((c.id_zero id).1 e))]
    refine c.onOrder_map x id fun o p _ => ?_
    rw [pit_drop, ← done_map]; rfl

theorem execute_map (x : Venue) (id q : Nat) (f : Order → Nat) (hf : ∀ o, f (c.order o) = f o) :
    (c.venue x).execute (c.id id) q f = c.answer (x.execute id q f) := by
  unfold Venue.execute
  refine c.withQty_map x id q (c.onOrder_map x id fun o p _ => ?_)
  rw [← done_map, hf]
  have h1 := c.change_map p.board id (if q < o.leaves then some (o.afterExec q) else none)
  have h3 : (if q < o.leaves then some (o.afterExec q) else none).map c.order =
      (if q < o.leaves then some ((c.order o).afterExec q) else none) := by split <;> rfl
  rw [h3] at h1
  unfold step
  show (c.venue x).done o.symbolId ([(c.order o, f o, min q o.leaves)], ({ p with board := (c.board p.board).change (c.id id) _, last := _, heard := _ } : Pit)) =
    (c.venue x).done o.symbolId (_, ({ p with board := c.board _, last := _, heard := _ } : Pit))
  rw [← h1]
  rfl

theorem vmodify_map (x : Venue) (o : Order) (p : Pit) (t : Order) : (c.venue x).modify (c.order o) (c.pit p) (c.order t) = c.answer (x.modify o p t) := by
  unfold Venue.modify
  simp only
  rw [show (c.order o).id = c.id o.id from rfl, pit_drop, pit_strike]
  simp only
  rw [land_map, ← done_map]
  rfl

theorem matchAll_map (l : List Nat) : ∀ x : Venue, Venue.matchAll l (c.venue x) = ((Venue.matchAll l x).1.map c.exec, c.venue (Venue.matchAll l x).2) := by
  induction l with
  | nil => intro x; rfl
  | cons s l ih =>
    intro x
    have hx : ∀ (x : Venue), Venue.matchAll (s :: l) x =
      ((x.pits s).rest.1 ++ (Venue.matchAll l (x.setPit s (x.pits s).rest.2)).1, (Venue.matchAll l (x.setPit s (x.pits s).rest.2)).2) := fun _ => rfl
    rw [hx, hx, show (c.venue x).pits s = c.pit (x.pits s) from rfl, rest_map, show (c.step (x.pits s).rest).2 = c.pit (x.pits s).rest.2 from rfl, setPit_map, ih]
    simp only [List.map_append]
    rfl

theorem call_map (x : Venue) {op : Op} (hv : c.SameValidity op) : (c.venue x).call (c.op op) = c.answer (x.call op) := by
  cases op with
  | addSymbol s =>
    show (if s.id ∈ x.symbols then _ else _) = c.answer (if s.id ∈ x.symbols then _ else _)
    split <;> rfl
  | deleteSymbol id =>
    show (if id ∈ x.symbols then _ else _) = c.answer (if id ∈ x.symbols then _ else _)
    split <;> rfl
  | addOrderBook s =>
    show (if s.id ∉ x.symbols then _ else if s.id ∈ x.books then _ else _) = c.answer (if s.id ∉ x.symbols then _ else if s.id ∈ x.books then _ else _)
    split
    · rfl
    · split
      · rfl
      · have := c.setPit_map x s.id .empty
        have e : c.pit Pit.empty = Pit.empty := rfl
        rw [e] at this
        rw [this]; rfl
  | deleteOrderBook id =>
    show (if id ∈ x.books then _ else _) = c.answer (if id ∈ x.books then _ else _)
    split
    · show (_, _, ({ x with books := _, pits := _, ghosts := (c.board (x.pits id).board).orders ++ x.ghosts.map c.order } : Venue)) = _
      rw [board_orders_map, ← List.map_append]; rfl
    · rfl
  | addOrder o => exact c.add_map x o hv
  | reduceOrder id q =>
    refine c.withQty_map x id q (c.onOrder_map x id fun o p _ => ?_)
    rw [← done_map]
    have h1 := c.pit_change p id (if q < o.leaves then some { o with leaves := o.leaves - q } else none)
    have h3 : (if q < o.leaves then some { o with leaves := o.leaves - q } else none).map c.order =
        (if q < o.leaves then some { c.order o with leaves := o.leaves - q } else none) := by split <;> rfl
    rw [h3] at h1
    unfold step
    rw [← h1]
    rfl
  | modifyOrder id a q =>
    refine c.withQty_map x id q (c.onOrder_map x id fun o p _ => ?_)
    rw [← vmodify_map]; rfl
  | mitigateOrder id a q =>
    refine c.withQty_map x id q (c.onOrder_map x id fun o p _ => ?_)
    rw [← vmodify_map]; rfl
  | replaceOrder id n a q =>
    show (c.venue x).call (.replaceOrder (c.id id) (c.id n) a q) = _
    unfold Venue.call
    simp only
    by_cases h1 : id = 0 ∨ n = 0
    · rw [if_pos h1, if_pos (by rw [c.id_zero, c.id_zero]; exact h1)]; rfl
    · rw [if_neg h1, if_neg (by rw [c.id_zero, c.id_zero]; exact h1)]
      by_cases h2 : q = 0
      · rw [if_pos h2, if_pos h2]; rfl
      · rw [if_neg h2, if_neg h2, find_map]
        cases hx : x.find id with
        | none => rfl
        | some o =>
          simp only [Option.map_some]
          by_cases h3 : o.type ≠ .limit
          · rw [if_pos h3, if_pos (show (c.order o).type ≠ .limit from h3)]; rfl
          · rw [if_neg h3, if_neg (show ¬ (c.order o).type ≠ .limit from h3)]
            refine c.onOrder_map x id fun o' p _ => ?_
            rw [pit_drop, ← vland_map]
            show (c.venue x).land o'.symbolId ((c.pit (p.change id none)).strike x.matching (c.order { o' with id := n, price := a, quantity := q, executed := 0, leaves := q })) = _
            rw [pit_strike]; rfl
  | replaceWith id o =>
    show (c.venue x).call (.replaceWith (c.id id) (c.order o)) = _
    unfold Venue.call
    simp only
    rw [delete_map]
    generalize x.delete id = a
    obtain ⟨e, xs, x'⟩ := a
    have ha := c.add_map x' o hv
    cases e <;> first
      | rfl
      | (show (((c.venue x').add (c.order o)).1, xs.map c.exec ++ ((c.venue x').add (c.order o)).2.1, ((c.venue x').add (c.order o)).2.2) = _
         rw [ha]
         show (_, xs.map c.exec ++ (x'.add o).2.1.map c.exec, _) = _
         rw [← List.map_append]; rfl)
  | deleteOrder id => exact c.delete_map x id
  | executeOrder id q => exact c.execute_map x id q _ (fun _ => rfl)
  | executeOrderAt id a q => exact c.execute_map x id q _ (fun _ => rfl)
  | enableMatching =>
    have := c.matchAll_map x.books { x with matching := true }
    show (_, (Venue.matchAll x.books (c.venue { x with matching := true })).1, (Venue.matchAll x.books (c.venue { x with matching := true })).2) = _
    rw [this]; rfl
  | disableMatching => rfl
  | matchAll =>
    have := c.matchAll_map x.books x
    show (_, (Venue.matchAll x.books (c.venue x)).1, (Venue.matchAll x.books (c.venue x)).2) = _
    rw [this]; rfl

end Recast
end CppTrader
