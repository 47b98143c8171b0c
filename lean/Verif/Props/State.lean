import Verif.Proof.Demo
/-
C02-C06, C37: what every reachable state looks like.
-/

namespace CppTrader

theorem home_of {o : Order} {k} (h : o.kind = some k) : o.home = some (k, o.key) := by
  unfold Order.kind Order.isBuy at h
  unfold Order.home Order.key
  cases ht : o.type <;> cases hs : o.side <;> simp_all

theorem MInv.getOrder_fun {g : Mgr} (h : MInv g) : g.getOrder = g.orders := funext h.getOrder

/-- C02. Every level of every collection is non-empty, its order counter is the number of queued orders,
and its volumes are the sums over exactly those orders. -/
theorem C02_level_sums {g : Mgr} (hr : g.Reachable) {sym : Nat} {b : Book} (hb : g.getBook sym = some b)
    (k : Kind) (l : Level) (hl : l ∈ b.lv k) :
    l.ids ≠ [] ∧ l.count = l.ids.length ∧ l.ids.Nodup ∧
    (∀ i ∈ l.ids, g.getOrder i ≠ none) ∧
    l.total = sumOver g.getOrder Order.leaves l.ids ∧
    l.hidden = sumOver g.getOrder Order.hiddenQty l.ids ∧
    l.visible = sumOver g.getOrder Order.visibleQty l.ids := by
  have hm := hr.minv
  rw [hm.getOrder_fun]
  have h := ((hm.books sym b hb).2.1.kinds k).levels l hl
  refine ⟨h.nonempty, h.count, h.nodup, ?_, h.total, h.hidden, h.visible⟩
  intro i hi
  obtain ⟨o, ho, _⟩ := h.mem i hi
  rw [ho]; simp

/-- C03. Levels are strictly sorted (so prices are unique), and the best level is the extreme one. -/
theorem C03_levels_sorted {g : Mgr} (hr : g.Reachable) {sym : Nat} {b : Book} (hb : g.getBook sym = some b) (k : Kind) :
    (b.lv k).Pairwise (fun x y => if k.highestFirst then y.price < x.price else x.price < y.price) ∧
    (b.best k = none ↔ b.lv k = []) ∧
    (∀ p, b.best k = some p → (∃ l ∈ b.lv k, l.price = p) ∧
      ∀ l ∈ b.lv k, if k.highestFirst then l.price ≤ p else p ≤ l.price) := by
  have h := (hr.minv.books sym b hb).2.1.kinds k
  have hbt : ∀ x y, k.better x y = true ↔ if k.highestFirst then y < x else x < y := by
    intro x y; cases k <;> simp [Kind.better, Kind.isBidType, Kind.highestFirst]
  have hs : (b.lv k).Pairwise (fun x y => if k.highestFirst then y.price < x.price else x.price < y.price) :=
    h.sorted.imp fun {x y} hxy => (hbt _ _).1 hxy
  refine ⟨hs, ?_, ?_⟩
  · rw [h.best]; cases b.lv k <;> simp
  · intro p hp
    rw [h.best] at hp
    cases hlv : b.lv k with
    | nil => rw [hlv] at hp; simp at hp
    | cons x xs =>
      rw [hlv] at hp hs; simp at hp
      refine ⟨⟨x, by simp, hp⟩, ?_⟩
      intro l hl
      rcases List.mem_cons.1 hl with rfl | hl
      · split <;> omega
      · have := List.rel_of_pairwise_cons hs hl
        cases hk : k.highestFirst
        · rw [hk] at this; simp at this ⊢; omega
        · rw [hk] at this; simp at this ⊢; omega

/-- C04, from the order map to the book: a stored order of a symbol with a book has its own id, something
left, and is queued on exactly one level, the one of its type, side and price. -/
theorem C04_stored_is_queued {g : Mgr} (hr : g.Reachable) {sym : Nat} {b : Book} (hb : g.getBook sym = some b)
    {i : Nat} {o : Order} (ho : g.getOrder i = some o) (hs : o.symbolId = sym) :
    o.id = i ∧ 0 < o.leaves ∧ ∃ k p l, o.home = some (k, p) ∧ l ∈ b.lv k ∧ l.price = p ∧ l.ids.count i = 1 ∧
      ∀ k' l', l' ∈ b.lv k' → i ∈ l'.ids → k' = k ∧ l' = l := by
  have hm := hr.minv
  obtain ⟨hid, hbk, _⟩ := hm.books sym b hb
  rw [hm.getOrder] at ho
  obtain ⟨g1, g2⟩ := hm.orders i o ho
  obtain ⟨k, l, h1, h2, h3⟩ := hbk.complete i o ho (by rw [hs, hid])
  have hl := (hbk.kinds k).levels l h2
  obtain ⟨o', h4, _, _, h7⟩ := hl.mem i h3
  rw [ho] at h4; cases h4
  refine ⟨g1, g2.leaves, k, o.key, l, home_of h1, h2, h7.symm, ?_, ?_⟩
  · rw [hl.nodup.count]; simp [h3]
  · intro k' l' h8 h9
    obtain ⟨o', j1, _, j3, j4⟩ := ((hbk.kinds k').levels l' h8).mem i h9
    rw [ho] at j1; cases j1
    rw [h1] at j3; cases j3
    refine ⟨rfl, ?_⟩
    have e : l'.price = l.price := j4.symm.trans h7
    obtain ⟨xs, ys, hsp⟩ := mem_split h2
    have hs' := (hbk.kinds k).sorted
    rw [hsp] at hs' h8
    have hm' := sorted_mid hs'
    simp only [List.mem_append, List.mem_cons] at h8
    rcases h8 with h8 | h8 | h8
    · exact absurd e (hm'.left_ne l' h8)
    · exact h8
    · exact absurd e (hm'.right_ne l' h8)

/-- C04, from the book to the order map: every queued id is a stored order of that symbol belonging to
that level. -/
theorem C04_queued_is_stored {g : Mgr} (hr : g.Reachable) {sym : Nat} {b : Book} (hb : g.getBook sym = some b)
    {k : Kind} {l : Level} (hl : l ∈ b.lv k) {i : Nat} (hi : i ∈ l.ids) :
    ∃ o, g.getOrder i = some o ∧ o.id = i ∧ o.symbolId = sym ∧ o.home = some (k, l.price) := by
  have hm := hr.minv
  obtain ⟨hid, hbk, _⟩ := hm.books sym b hb
  obtain ⟨o, h1, h2, h3, h4⟩ := ((hbk.kinds k).levels l hl).mem i hi
  rw [hm.getOrder]
  exact ⟨o, h1, (hm.orders i o h1).1, by rw [h2, hid], by rw [home_of h3, h4]⟩

/-- C05, for orders. -/
theorem C05_order_hidden_visible (o : Order) : o.hiddenQty + o.visibleQty = o.leaves := hidden_add_visible o

/-- C05, for levels. -/
theorem C05_level_hidden_visible {g : Mgr} (hr : g.Reachable) {sym : Nat} {b : Book} (hb : g.getBook sym = some b)
    {k : Kind} {l : Level} (hl : l ∈ b.lv k) : l.hidden + l.visible = l.total := by
  obtain ⟨_, _, _, _, h1, h2, h3⟩ := C02_level_sums hr hb k l hl
  rw [h1, h2, h3]
  generalize l.ids = ids
  induction ids with
  | nil => rfl
  | cons i is ih =>
    simp only [sumOver_cons]
    have : qtyAt g.getOrder Order.hiddenQty i + qtyAt g.getOrder Order.visibleQty i = qtyAt g.getOrder Order.leaves i := by
      unfold qtyAt; split
      · exact hidden_add_visible _
      · rfl
    omega

/-- C06. No stored order is a market order, and a resting limit order is neither IOC nor FOK. -/
theorem C06_never_rest {g : Mgr} (hr : g.Reachable) {i : Nat} {o : Order} (ho : g.getOrder i = some o) :
    o.type ≠ .market ∧ (o.type = .limit → o.tif ≠ .ioc ∧ o.tif ≠ .fok) := by
  have hm := hr.minv
  rw [hm.getOrder] at ho
  obtain ⟨_, h⟩ := hm.orders i o ho
  refine ⟨h.notMarket, fun ht => ?_⟩
  rcases h.tif ht with e | e <;> simp [e]

/-- C06, in terms of the book: nothing queued on a bid or ask level is a market, IOC or FOK order. -/
theorem C06_book {g : Mgr} (hr : g.Reachable) {sym : Nat} {b : Book} (hb : g.getBook sym = some b) {k : Kind}
    (hk : k = .bid ∨ k = .ask) {l : Level} (hl : l ∈ b.lv k) {i : Nat} (hi : i ∈ l.ids) :
    ∃ o, g.getOrder i = some o ∧ o.type ≠ .market ∧ o.tif ≠ .ioc ∧ o.tif ≠ .fok := by
  obtain ⟨o, h1, _, _, h4⟩ := C04_queued_is_stored hr hb hl hi
  have ht : o.type = .limit := by
    unfold Order.home at h4
    rcases hk with rfl | rfl <;> cases hty : o.type <;> cases hsd : o.side <;> simp_all
  obtain ⟨a, c⟩ := C06_never_rest hr h1
  exact ⟨o, h1, a, c ht⟩

/-- C37. Everything queued on a bid (ask) level is a limit buy (sell) order at that price: stop and
trailing-stop orders are in no bid or ask level. -/
theorem C37_stops_invisible {g : Mgr} (hr : g.Reachable) {sym : Nat} {b : Book} (hb : g.getBook sym = some b) {k : Kind}
    (hk : k = .bid ∨ k = .ask) {l : Level} (hl : l ∈ b.lv k) {i : Nat} (hi : i ∈ l.ids) :
    ∃ o, g.getOrder i = some o ∧ o.type = .limit ∧ o.price = l.price ∧ (k = .bid → o.side = .buy) ∧ (k = .ask → o.side = .sell) := by
  obtain ⟨o, h1, _, _, h4⟩ := C04_queued_is_stored hr hb hl hi
  refine ⟨o, h1, ?_⟩
  unfold Order.home at h4
  rcases hk with rfl | rfl <;> cases hty : o.type <;> cases hsd : o.side <;> simp_all

/-- Concrete state for the theorems of this file: bids with two orders on one level (one iceberg), asks,
and one order in each stop collection. -/
def stateDemo : List Op := trading ++
  [.addOrder (.mkLimit 1 1 .buy 100 10), .addOrder (.mkLimit 2 1 .buy 100 20 .gtc 5), .addOrder (.mkLimit 3 1 .buy 90 7),
   .addOrder (.mkLimit 4 1 .sell 110 10 .aon), .addOrder (.mkStop 5 1 .buy 120 3), .addOrder (.mkStopLimit 6 1 .sell 80 79 4),
   .addOrder (.mkTrailingStop 7 1 .buy 130 2 50 5), .addOrder (.mkTrailingStopLimit 8 1 .sell 50 49 2 50 5),
   .addOrder (.mkLimit 9 1 .sell 105 6 .ioc), .addOrder (.mkMarket 10 1 .buy 6), .reduceOrder 2 3]

example : ∃ g : Mgr, g.Reachable ∧ (match g.getBook 1 with
    | none => false
    | some b => decide ((b.lv .bid).map (fun l => (l.price, l.total, l.hidden, l.visible, l.count, l.ids)) =
        [(100, 27, 12, 15, 2, [1, 2]), (90, 7, 0, 7, 1, [3])]) &&
      decide ((b.lv .ask).map (fun l => (l.price, l.total, l.ids)) = [(110, 10, [4])]) &&
      decide ((b.lv .buyStop).length = 1 ∧ (b.lv .sellStop).length = 1 ∧ (b.lv .tBuyStop).length = 1 ∧
        (b.lv .tSellStop).length = 1 ∧ b.best .bid = some 100)) = true :=
  demo (p := fun g => match g.getBook 1 with
    | none => false
    | some b => decide ((b.lv .bid).map (fun l => (l.price, l.total, l.hidden, l.visible, l.count, l.ids)) =
        [(100, 27, 12, 15, 2, [1, 2]), (90, 7, 0, 7, 1, [3])]) &&
      decide ((b.lv .ask).map (fun l => (l.price, l.total, l.ids)) = [(110, 10, [4])]) &&
      decide ((b.lv .buyStop).length = 1 ∧ (b.lv .sellStop).length = 1 ∧ (b.lv .tBuyStop).length = 1 ∧
        (b.lv .tSellStop).length = 1 ∧ b.best .bid = some 100)) stateDemo (by decide +kernel)

end CppTrader
