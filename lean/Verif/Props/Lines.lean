import Verif.Proof.Depth
import Verif.Proof.Modify
import Verif.Props.Calls
/-
C11, C20, C21, C22, C23, C34, C38: what the order calls do to the orders in line.
-/

namespace CppTrader
open Core

/-- The lines show exactly the stored orders: an order of a symbol with a book stands in the line of its type and
side, and only there. -/
theorem lines_complete {g : Mgr} (hr : g.Reachable) {sym : Nat} (hb : g.getBook sym ≠ none) {k : Kind} {r : Order} :
    r ∈ g.lines sym k ↔ g.getOrder r.id = some r ∧ r.symbolId = sym ∧ r.home.map (·.1) = some k := by
  have hi := hr.minv
  cases hs : slot g.books sym with
  | none => exact absurd hs hb
  | some b =>
    obtain ⟨hI, hid⟩ := hi.inv hs
    rw [lines_core hi hs, line_mem hI, hi.getOrder, home_kind]
    show g.orders r.id = some r ∧ r.symbolId = b.symbol.id ∧ _ ↔ _
    rw [hid]

/-- The lines are sorted by price: nobody stands before an order with a better price. -/
theorem lines_sorted {g : Mgr} (hr : g.Reachable) (sym : Nat) (k : Kind) : (g.lines sym k).Pairwise (fun a b => ¬ b.beats k a) := by
  have hi := hr.minv
  cases hs : slot g.books sym with
  | none => rw [lines_none hs]; exact .nil
  | some b =>
    obtain ⟨hI, hid⟩ := hi.inv hs
    rw [lines_core hi hs]
    have hk := hI.book.kinds k
    have key : ∀ ls : List Level, ls.Pairwise (fun a b => k.better a.price b.price = true) →
        (∀ l ∈ ls, LevelOK g.orders b.symbol.id k l) → (restOf (g.core b) (flatOf ls)).Pairwise (fun a b => ¬ b.beats k a) := by
      intro ls
      induction ls with
      | nil => intro _ _; exact .nil
      | cons l ls ih =>
        intro hp hl
        have hrank : ∀ l' ∈ l :: ls, ∀ i ∈ l'.ids, ∀ o, g.orders i = some o → o.rank = l'.price := by
          intro l' h' i hi' o ho
          obtain ⟨o', a1, _, a3, a4⟩ := (hl l' h').mem i hi'
          rw [ho] at a1; cases a1
          rw [← key_rank (hi.orders i o ho).2.notMarket]; exact a4
        rw [flatOf_cons, restOf_append, List.pairwise_append]
        refine ⟨?_, ih (List.Pairwise.of_cons hp) fun l' h' => hl l' (by simp [h']), ?_⟩
        · rw [List.pairwise_iff_forall_sublist]
          intro x y hxy
          have hx := restOf_mem.1 (hxy.subset (by simp : x ∈ [x, y]))
          have hy := restOf_mem.1 (hxy.subset (by simp : y ∈ [x, y]))
          obtain ⟨i, i1, i2⟩ := hx
          obtain ⟨j, j1, j2⟩ := hy
          have e1 := hrank l (by simp) i i1 x i2
          have e2 := hrank l (by simp) j j1 y j2
          unfold Order.beats
          split <;> omega
        · intro x hx y hy
          obtain ⟨i, i1, i2⟩ := restOf_mem.1 hx
          obtain ⟨j, j1, j2⟩ := restOf_mem.1 hy
          obtain ⟨l', h1, h2⟩ := List.mem_flatMap.1 j1
          have e1 := hrank l (by simp) i i1 x i2
          have e2 := hrank l' (by simp [h1]) j h2 y j2
          have := List.rel_of_pairwise_cons hp h1
          unfold Order.beats
          rw [e1, e2]
          cases k <;> simp [Kind.better, Kind.isBidType, Kind.highestFirst] at this ⊢ <;> omega
    exact key _ hk.sorted hk.levels

/-- Where a newcomer stands: directly before the first order with a worse price, hence behind all orders of its own
price. -/
theorem enqueue_place (k : Kind) (t : Order) (rs : List Order) (hs : rs.Pairwise (fun a b => ¬ b.beats k a)) :
    ∃ pre post, rs = pre ++ post ∧ enqueue k t rs = pre ++ t :: post ∧ (∀ r ∈ pre, ¬ t.beats k r) ∧ ∀ r ∈ post, t.beats k r := by
  induction rs with
  | nil => exact ⟨[], [], rfl, rfl, by simp, by simp⟩
  | cons r rs ih =>
    by_cases h : t.beats k r
    · refine ⟨[], r :: rs, rfl, by simp [enqueue, h], by simp, ?_⟩
      intro x hx
      rcases List.mem_cons.1 hx with rfl | hx
      · exact h
      · have := List.rel_of_pairwise_cons hs hx
        unfold Order.beats at h this ⊢
        cases hk : k.highestFirst <;> simp [hk] at h this ⊢ <;> omega
    · obtain ⟨pre, post, a, b, c, d⟩ := ih (List.Pairwise.of_cons hs)
      refine ⟨r :: pre, post, by rw [a]; rfl, by simp [enqueue, h, b], ?_, d⟩
      intro x hx
      rcases List.mem_cons.1 hx with rfl | hx
      · exact h
      · exact c x hx

theorem lines_inLine {g : Mgr} (hr : g.Reachable) (sym : Nat) (sd : Side) : InLine sd.limits (g.lines sym sd.limits) := by
  refine ⟨?_, lines_sorted hr sym _⟩
  intro r hr'
  cases hb : g.getBook sym with
  | none => rw [lines_none (by exact hb)] at hr'; cases hr'
  | some b =>
    have := ((lines_complete hr (by rw [hb]; simp) (k := sd.limits)).1 hr').2.2
    unfold Order.home at this
    cases h : r.type <;> cases h' : r.side <;> cases h'' : sd <;> simp [h, h', h'', Side.limits] at this <;> rfl

/-- If a book has nothing to match and no All-Or-None orders on the opposite side, then it has nothing to match after the
arrival of a limit or market order that is not All-Or-None. -/
theorem quiet_arrival {g : Mgr} (hr : g.Reachable) {sym : Nat} {t : Order} (hq : (g.lines sym).quiet)
    (hna : ∀ r ∈ g.resting sym t.side.other, r.tif ≠ .aon) (haon : t.tif ≠ .aon) (hty : t.type = .limit ∨ t.type = .market) :
    ((g.lines sym).arrive true t).2.quiet :=
  arrive_quiet hq (lines_inLine hr sym _) hna haon hty

/-- The same if an order has left its line before. -/
theorem quiet_move {g : Mgr} (hr : g.Reachable) {sym id : Nat} {t : Order} (hq : (g.lines sym).quiet)
    (hna : ∀ r ∈ g.resting sym t.side.other, r.tif ≠ .aon) (haon : t.tif ≠ .aon) (hty : t.type = .limit ∨ t.type = .market) :
    (((g.lines sym).change id none).arrive true t).2.quiet := by
  refine arrive_quiet (quiet_change hq) ?_ (fun r hr' => hna r (change_mem hr')) haon hty
  refine (lines_inLine hr sym _).sub ?_
  unfold Board.change
  generalize g.lines sym t.side.other.limits = R
  induction R with
  | nil => exact .slnil
  | cons r rs ih =>
    by_cases h : r.id = id
    · rw [List.filterMap_cons, if_pos h]; exact .cons _ ih
    · rw [List.filterMap_cons, if_neg h]; exact .cons_cons _ ih

/-! ### C11 -/

/-- C11 for every limit or market order. With matching on, the executions of an accepted order start with its own: greedy
in price-time priority, or, for a Fill-Or-Kill or All-Or-None order, a chain in price-time priority that fills it, or none.
There are no further executions if the arrival leaves nothing to match. -/
theorem C11_incoming {g : Mgr} (hr : g.Reachable) {o : Order} {g' : Mgr} {e : ErrorCode} (ha : g.Admissible (.addOrder o))
    (hs : g.step (.addOrder o) = .ok (g', e)) (hn : g.refusal (.addOrder o) = none) (hm : g.matching = true)
    (hty : o.type = .limit ∨ o.type = .market) :
    ∃ evs rest, g'.ev = g.ev ++ evs ∧
      execsOf evs = (o.capped (g.resting o.symbolId o.side.other)).fills (g.resting o.symbolId o.side.other) ++ rest ∧
      (((g.lines o.symbolId).arrive true o).2.quiet → rest = [] ∧
        (e = .ok → g'.lines = g.lines.set o.symbolId ((g.lines o.symbolId).arrive true o).2)) := by
  obtain ⟨evs, rest, h1, h2, h3, _⟩ := addPlain_call hr.minv ha hs hn hty
  rw [hm] at h2 h3
  exact ⟨evs, rest, h1, h2, fun hq => h3 fun _ => hq⟩

/-- C11. With matching on, the executions of an accepted limit or market order (neither Fill-Or-Kill nor All-Or-None)
start with its greedy fill against the opposite side in price-time priority: best price first, first come first
served, each order for as much as possible at its own price, until the order is filled, its limit is reached, or an
All-Or-None order larger than the remainder is next. There are no further executions unless stop orders or
All-Or-None orders exist or the book was crossed before. -/
theorem C11_incoming_price_time {g : Mgr} (hr : g.Reachable) {o : Order} {g' : Mgr} {e : ErrorCode} (ha : g.Admissible (.addOrder o))
    (hs : g.step (.addOrder o) = .ok (g', e)) (hn : g.refusal (.addOrder o) = none) (hm : g.matching = true)
    (hty : o.type = .limit ∨ o.type = .market) (htif : o.tif = .gtc ∨ o.tif = .ioc) :
    ∃ evs rest, g'.ev = g.ev ++ evs ∧
      execsOf evs = greedy (o.capped (g.resting o.symbolId o.side.other)) (g.resting o.symbolId o.side.other) ++ rest ∧
      ((g.lines o.symbolId).quiet → (∀ r ∈ g.resting o.symbolId o.side.other, r.tif ≠ .aon) → rest = []) := by
  obtain ⟨evs, rest, h1, h2, h3⟩ := C11_incoming hr ha hs hn hm hty
  refine ⟨evs, rest, h1, ?_, ?_⟩
  · have hw : ¬ (o.capped (g.resting o.symbolId o.side.other)).whole := by
      rw [Order.capped_whole]; unfold Order.whole; rcases htif with h | h <;> simp [h]
    rw [h2]; unfold Order.fills; rw [if_neg hw]
  · intro hq hna
    exact (h3 (quiet_arrival hr hq hna (by rcases htif with h | h <;> simp [h]) hty)).1

/-- C11 applies: an incoming order sweeps two levels; within the better level the older order is filled first. -/
example : ∃ (g g' : Mgr) (e : ErrorCode), g.Reachable ∧ g.Admissible (.addOrder (.mkLimit 9 1 .buy 101 17)) ∧
    g.step (.addOrder (.mkLimit 9 1 .buy 101 17)) = .ok (g', e) ∧
    (decide (g.refusal (.addOrder (.mkLimit 9 1 .buy 101 17)) = none) && g.matching &&
      decide ((g.resting 1 .sell).map (fun (r : Order) => (r.id, r.price)) = [(2, 100), (4, 100), (1, 101), (3, 102)]) &&
      decide ((execsOf (g'.ev.drop g.ev.length)).map (fun (x : Order × Nat × Nat) => (x.1.id, x.2)) =
        [(2, 100, 5), (9, 100, 5), (4, 100, 5), (9, 100, 5), (1, 101, 7), (9, 101, 7)])) = true :=
  demoStep (p := fun g g' _ => decide (g.refusal (.addOrder (.mkLimit 9 1 .buy 101 17)) = none) && g.matching &&
      decide ((g.resting 1 .sell).map (fun (r : Order) => (r.id, r.price)) = [(2, 100), (4, 100), (1, 101), (3, 102)]) &&
      decide ((execsOf (g'.ev.drop g.ev.length)).map (fun (x : Order × Nat × Nat) => (x.1.id, x.2)) =
        [(2, 100, 5), (9, 100, 5), (4, 100, 5), (9, 100, 5), (1, 101, 7), (9, 101, 7)]))
    (trading ++ [.addOrder (.mkLimit 1 1 .sell 101 10), .addOrder (.mkLimit 2 1 .sell 100 5), .addOrder (.mkLimit 3 1 .sell 102 10),
      .addOrder (.mkLimit 4 1 .sell 100 5)]) (.addOrder (.mkLimit 9 1 .buy 101 17)) (by decide +kernel)

/-- `Match()` on a crossed book does not respect time priority: bids 1 (10 lots) and 2 (5 lots) stand at the same price,
1 first; asks for 5 and 5 lots arrive while matching is off. Order 2 is executed completely although order 1 before it
still has 5 lots to go. -/
theorem C11_match_witness : ∃ (g g' : Mgr) (e : ErrorCode), g.Reachable ∧ g.Admissible .matchAll ∧ g.step .matchAll = .ok (g', e) ∧
    (decide ((g.resting 1 .buy).map (fun (r : Order) => (r.id, r.price, r.leaves)) = [(1, 100, 10), (2, 100, 5)]) &&
      decide ((execsOf (g'.ev.drop g.ev.length)).map (fun (x : Order × Nat × Nat) => (x.1.id, x.2)) =
        [(3, 100, 5), (1, 100, 5), (2, 100, 5), (4, 100, 5)]) &&
      decide ((g'.resting 1 .buy).map (fun (r : Order) => (r.id, r.price, r.leaves)) = [(1, 100, 5)])) = true :=
  demoStep (p := fun g g' _ => decide ((g.resting 1 .buy).map (fun (r : Order) => (r.id, r.price, r.leaves)) = [(1, 100, 10), (2, 100, 5)]) &&
      decide ((execsOf (g'.ev.drop g.ev.length)).map (fun (x : Order × Nat × Nat) => (x.1.id, x.2)) =
        [(3, 100, 5), (1, 100, 5), (2, 100, 5), (4, 100, 5)]) &&
      decide ((g'.resting 1 .buy).map (fun (r : Order) => (r.id, r.price, r.leaves)) = [(1, 100, 5)]))
    (opening ++ [.addOrder (.mkLimit 1 1 .buy 100 10), .addOrder (.mkLimit 2 1 .buy 100 5), .addOrder (.mkLimit 3 1 .sell 100 5),
      .addOrder (.mkLimit 4 1 .sell 100 5)]) .matchAll (by decide +kernel)

/-! ### C20 -/

theorem greedy_prices (rs : List Order) : ∀ t : Order, ∀ x ∈ greedy t rs, t.accepts x.2.1 ∧ ∃ r ∈ rs, x.2.1 = r.price := by
  induction rs with
  | nil => intro t x hx; cases hx
  | cons r rs ih =>
    intro t x hx
    unfold greedy at hx
    by_cases h : t.stopsAt r
    · rw [if_pos h] at hx; cases hx
    · rw [if_neg h] at hx
      have ha : t.accepts r.price := by
        unfold Order.stopsAt at h
        exact Decidable.not_not.1 fun h' => h (.inr (.inl h'))
      rcases List.mem_cons.1 hx with rfl | hx
      · exact ⟨ha, r, by simp, rfl⟩
      · rcases List.mem_cons.1 hx with rfl | hx
        · exact ⟨ha, r, by simp, rfl⟩
        · obtain ⟨h1, r', h2, h3⟩ := ih _ x hx
          exact ⟨h1, r', by simp [h2], h3⟩

/-- C20. A market order that is not Fill-Or-Kill executes only at prices within its slippage of the best price on the
opposite side at the time of the call. -/
theorem C20_slippage {g : Mgr} (hr : g.Reachable) {o : Order} {g' : Mgr} {e : ErrorCode} {evs : List Event} (ha : g.Admissible (.addOrder o))
    (hs : g.step (.addOrder o) = .ok (g', e)) (hev : g'.ev = g.ev ++ evs) (hty : o.type = .market) (htif : o.tif ≠ .fok)
    (hf : g.getOrder o.id = none) {x : Order × Nat × Nat} (hx : x ∈ execsOf evs) (hid : x.1.id = o.id) :
    ∃ r ∈ g.resting o.symbolId o.side.other,
      (∀ r' ∈ g.resting o.symbolId o.side.other, match o.side with | .buy => r.price ≤ r'.price | .sell => r'.price ≤ r.price) ∧
      match o.side with | .buy => x.2.1 ≤ r.price + o.slippage | .sell => r.price ≤ x.2.1 + o.slippage := by
  cases hn : g.refusal (.addOrder o) with
  | some c =>
    have := C43_refused hr hn ha
    rw [hs] at this; cases this
    cases List.self_eq_append_right.1 hev
    cases hx
  | none =>
  obtain ⟨hv, hb⟩ : o.validate = .ok ∧ g.getBook o.symbolId ≠ none := by
    simp only [Mgr.refusal] at hn
    by_cases h1 : o.validate = .ok
    · refine ⟨h1, fun h2 => ?_⟩
      simp [h1, h2] at hn
    · simp [h1] at hn
  have ht : o.tif = .gtc ∨ o.tif = .ioc := by
    have hm : o.isMarket = true := by unfold Order.isMarket; simp [hty]
    by_cases h : (!o.isIOC && !o.isFOK) = true
    · exfalso
      unfold Order.validate at hv
      rw [hm, Bool.true_and] at hv
      repeat' split at hv
      all_goals (first | cases hv | contradiction)
    · unfold Order.isIOC Order.isFOK at h
      cases h' : o.tif <;> simp [h'] at h htif ⊢
  obtain ⟨evs', rest, h1, h2, _, h4, _⟩ := addPlain_call hr.minv ha hs hn (.inr hty)
  rw [hev] at h1
  cases List.append_cancel_left h1
  rw [h2] at hx
  rcases (List.mem_append.1 hx).symm with hx | hx
  · exact absurd hid (h4 hty hf x hx)
  unfold Board.arrive at hx
  cases hm : g.matching with
  | false => rw [hm] at hx; simp at hx
  | true =>
    rw [hm] at hx
    simp only [if_true] at hx
    have hw : ¬ (o.capped (g.lines o.symbolId o.side.other.limits)).whole := by
      rw [Order.capped_whole]; unfold Order.whole; rcases ht with h | h <;> simp [h]
    unfold Order.fills at hx
    rw [if_neg hw] at hx
    have hl : g.lines o.symbolId o.side.other.limits = g.resting o.symbolId o.side.other := rfl
    rw [hl] at hx
    have hso := lines_sorted hr o.symbolId o.side.other.limits
    rw [hl] at hso
    have hlim : ∀ r ∈ g.resting o.symbolId o.side.other, r.rank = r.price := by
      intro r hr'
      have := ((lines_complete hr hb (k := o.side.other.limits)).1 hr').2.2
      unfold Order.home at this
      unfold Order.rank
      cases h : r.type <;> cases h' : r.side <;> cases h'' : o.side <;> simp [h, h', h'', Side.other, Side.limits] at this <;> rfl
    cases hrs : g.resting o.symbolId o.side.other with
    | nil => rw [hrs] at hx; simp [greedy] at hx
    | cons r rs =>
      rw [hrs] at hx hso hlim
      have hcap : o.capped (r :: rs) = o.bounded r.price := by unfold Order.capped; rw [hty]
      rw [hcap] at hx
      obtain ⟨hacc, _⟩ := greedy_prices _ _ x hx
      refine ⟨r, by simp, ?_, ?_⟩
      · intro r' hr'
        have e1 := hlim r (by simp)
        have e2 := hlim r' hr'
        have : ¬ r'.beats o.side.other.limits r := by
          rcases List.mem_cons.1 hr' with rfl | hr'
          · unfold Order.beats; split <;> omega
          · exact List.rel_of_pairwise_cons hso hr'
        unfold Order.beats at this
        rw [e1, e2] at this
        cases hsd : o.side <;> simp only [hsd, Side.other, Side.limits, Kind.highestFirst] at this ⊢ <;> simp at this <;> omega
      · unfold Order.accepts Order.bounded at hacc
        cases hsd : o.side <;> simp only [hsd] at hacc ⊢ <;> omega

/-- C20 applies: slippage 2 over the best ask 100 lets a market order trade at 100 and 102 but not at 103. -/
example : ∃ (g g' : Mgr) (e : ErrorCode), g.Reachable ∧ g.Admissible (.addOrder (.mkMarket 9 1 .buy 30 2)) ∧
    g.step (.addOrder (.mkMarket 9 1 .buy 30 2)) = .ok (g', e) ∧
    ((g.getOrder 9).isNone && decide ((execsOf (g'.ev.drop g.ev.length)).map (fun (x : Order × Nat × Nat) => (x.1.id, x.2)) =
        [(1, 100, 10), (9, 100, 10), (2, 102, 10), (9, 102, 10)]) && decide ((g'.resting 1 .sell).map (·.id) = [3])) = true :=
  demoStep (p := fun g g' _ => (g.getOrder 9).isNone && decide ((execsOf (g'.ev.drop g.ev.length)).map (fun (x : Order × Nat × Nat) => (x.1.id, x.2)) =
        [(1, 100, 10), (9, 100, 10), (2, 102, 10), (9, 102, 10)]) && decide ((g'.resting 1 .sell).map (·.id) = [3]))
    (trading ++ [.addOrder (.mkLimit 1 1 .sell 100 10), .addOrder (.mkLimit 2 1 .sell 102 10), .addOrder (.mkLimit 3 1 .sell 103 10)])
    (.addOrder (.mkMarket 9 1 .buy 30 2)) (by decide +kernel)

/-- A Fill-Or-Kill market order is executed at its price bound instead: with the default slippage a buyer of 10 lots
offered at 100 and 103 pays 2^64 - 1 for each. -/
theorem C20_fok_witness : ∃ (g g' : Mgr) (e : ErrorCode), g.Reachable ∧ g.Admissible (.addOrder { Order.mkMarket 9 1 .buy 10 with tif := .fok }) ∧
    g.step (.addOrder { Order.mkMarket 9 1 .buy 10 with tif := .fok }) = .ok (g', e) ∧
    (decide ((g.resting 1 .sell).map (fun (r : Order) => (r.id, r.price)) = [(1, 100), (2, 103)]) &&
      decide ((execsOf (g'.ev.drop g.ev.length)).map (fun (x : Order × Nat × Nat) => (x.1.id, x.2)) =
        [(1, 18446744073709551615, 5), (2, 18446744073709551615, 5), (9, 18446744073709551615, 10)])) = true :=
  demoStep (p := fun g g' _ => decide ((g.resting 1 .sell).map (fun (r : Order) => (r.id, r.price)) = [(1, 100), (2, 103)]) &&
      decide ((execsOf (g'.ev.drop g.ev.length)).map (fun (x : Order × Nat × Nat) => (x.1.id, x.2)) =
        [(1, 18446744073709551615, 5), (2, 18446744073709551615, 5), (9, 18446744073709551615, 10)]))
    (trading ++ [.addOrder (.mkLimit 1 1 .sell 100 5), .addOrder (.mkLimit 2 1 .sell 103 5)])
    (.addOrder { Order.mkMarket 9 1 .buy 10 with tif := .fok }) (by decide +kernel)

/-! ### C34 -/

/-- C34 for `ReduceOrder`: `min q leaves` is taken off; the order is removed iff `q ≥ leaves`; nothing else changes. -/
theorem C34_reduce {g : Mgr} (hr : g.Reachable) {id q : Nat} {g' : Mgr} {evs : List Event} {o : Order} (ho : g.getOrder id = some o)
    (hs : g.step (.reduceOrder id q) = .ok (g', .ok)) (hev : g'.ev = g.ev ++ evs) (hq : g.Quiet o.symbolId) :
    execsOf evs = [] ∧
    g'.getOrder = (fun i => if i = id then (if q < o.leaves then some { o with leaves := o.leaves - q } else none) else g.getOrder i) ∧
    g'.lines = g.lines.set o.symbolId ((g.lines o.symbolId).change id (if q < o.leaves then some { o with leaves := o.leaves - q } else none)) := by
  obtain ⟨o', h1, evs', rest, h2, h3, h4⟩ := reduce_call hr.minv hs
  rw [ho] at h1; cases h1
  rw [hev] at h2; cases List.append_cancel_left h2
  obtain ⟨rfl, h5, h6⟩ := h4 hq
  exact ⟨h3, h6, h5⟩

/-- C34 for `ExecuteOrder`, both overloads (at the order's own price, at a given price). -/
theorem C34_execute {g : Mgr} (hr : g.Reachable) {id q p : Nat} {op : Op} {g' : Mgr} {evs : List Event} {o : Order} (ho : g.getOrder id = some o)
    (hop : op = .executeOrder id q ∧ p = o.price ∨ op = .executeOrderAt id p q)
    (hs : g.step op = .ok (g', .ok)) (hev : g'.ev = g.ev ++ evs) (hq : g.Quiet o.symbolId) :
    execsOf evs = [(o, p, min q o.leaves)] ∧
    g'.getOrder = (fun i => if i = id then (if q < o.leaves then some (o.afterExec q) else none) else g.getOrder i) ∧
    g'.lines = g.lines.set o.symbolId ((g.lines o.symbolId).change id (if q < o.leaves then some (o.afterExec q) else none)) := by
  have key : ∃ f : Order → Nat, f o = p ∧ q ≠ 0 ∧ g.onOrder id (fun o c => c.executeOp g.matching o (f o) q) = .ok (g', .ok) := by
    rcases hop with ⟨rfl, rfl⟩ | rfl
    · simp only [Mgr.step, Mgr.executeOrder] at hs
      by_cases h0 : id = 0
      · rw [if_pos h0] at hs; cases hs
      by_cases h1 : q = 0
      · rw [if_neg h0, if_pos h1] at hs; cases hs
      rw [if_neg h0, if_neg h1] at hs
      exact ⟨fun o => o.price, rfl, h1, hs⟩
    · simp only [Mgr.step, Mgr.executeOrderAt] at hs
      by_cases h0 : id = 0
      · rw [if_pos h0] at hs; cases hs
      by_cases h1 : q = 0
      · rw [if_neg h0, if_pos h1] at hs; cases hs
      rw [if_neg h0, if_neg h1] at hs
      exact ⟨fun _ => p, rfl, h1, hs⟩
  obtain ⟨f, rfl, h1, h2⟩ := key
  obtain ⟨o', h1, evs', rest, h2, h3, h4⟩ := execute_call hr.minv h1 h2
  rw [ho] at h1; cases h1
  rw [hev] at h2; cases List.append_cancel_left h2
  obtain ⟨rfl, h5, h6⟩ := h4 hq
  exact ⟨h3, h6, h5⟩

/-- C34 applies with matching on: a partial reduction and an execution of more than is left. -/
example : ∃ (g g' : Mgr) (e : ErrorCode), g.Reachable ∧ g.Admissible (.reduceOrder 1 4) ∧ g.step (.reduceOrder 1 4) = .ok (g', e) ∧
    (decide (e = .ok) && g.matching && decide ((g.lines 1 .bid).map (·.price) = [90]) && decide ((g.lines 1 .ask).map (·.price) = [100, 100]) &&
      ([Kind.buyStop, .sellStop, .tBuyStop, .tSellStop].all fun k => (g.lines 1 k).isEmpty) &&
      decide ((g'.lines 1 .ask).map (fun (r : Order) => (r.id, r.leaves)) = [(1, 6), (2, 10)])) = true :=
  demoStep (p := fun g g' e => decide (e = .ok) && g.matching && decide ((g.lines 1 .bid).map (·.price) = [90]) && decide ((g.lines 1 .ask).map (·.price) = [100, 100]) &&
      ([Kind.buyStop, .sellStop, .tBuyStop, .tSellStop].all fun k => (g.lines 1 k).isEmpty) &&
      decide ((g'.lines 1 .ask).map (fun (r : Order) => (r.id, r.leaves)) = [(1, 6), (2, 10)]))
    (trading ++ [.addOrder (.mkLimit 1 1 .sell 100 10), .addOrder (.mkLimit 2 1 .sell 100 10), .addOrder (.mkLimit 3 1 .buy 90 10)])
    (.reduceOrder 1 4) (by decide +kernel)
example : ∃ (g g' : Mgr) (e : ErrorCode), g.Reachable ∧ g.Admissible (.executeOrder 1 40) ∧ g.step (.executeOrder 1 40) = .ok (g', e) ∧
    (decide (e = .ok) && !g.matching && (g.getOrder 1).isSome && (g'.getOrder 1).isNone &&
      decide ((execsOf (g'.ev.drop g.ev.length)).map (fun (x : Order × Nat × Nat) => (x.1.id, x.2)) = [(1, 100, 10)])) = true :=
  demoStep (p := fun g g' e => decide (e = .ok) && !g.matching && (g.getOrder 1).isSome && (g'.getOrder 1).isNone &&
      decide ((execsOf (g'.ev.drop g.ev.length)).map (fun (x : Order × Nat × Nat) => (x.1.id, x.2)) = [(1, 100, 10)]))
    (opening ++ [.addOrder (.mkLimit 1 1 .sell 100 10), .addOrder (.mkLimit 2 1 .sell 100 10)]) (.executeOrder 1 40) (by decide +kernel)

/-! ### C21 -/

theorem rank_home {o : Order} {k : Kind} {p : Nat} : o.home = some (k, p) ↔ o.home.map (·.1) = some k ∧ o.rank = p := by
  unfold Order.home Order.rank
  cases ht : o.type <;> cases hs : o.side <;> simp

theorem hidden_after (o : Order) (q : Nat) (h : q < o.leaves) :
    ({ o with leaves := o.leaves - q } : Order).hiddenQty = o.hiddenQty - min q o.hiddenQty ∧
    ({ o with leaves := o.leaves - q } : Order).visibleQty = o.visibleQty - (q - min q o.hiddenQty) := by
  unfold Order.hiddenQty Order.visibleQty
  simp only
  by_cases h1 : o.leaves > o.maxVisible
  · rw [if_pos h1]
    constructor
    · split <;> omega
    · omega
  · rw [if_neg h1]
    constructor
    · split <;> omega
    · omega

theorem takes_none (o : Order) {q : Nat} (h : ¬ q < o.leaves) : o.takes q = (o.leaves, o.hiddenQty, o.visibleQty) := by
  have h1 := hidden_add_visible o
  unfold Order.takes
  rw [Nat.min_eq_right (by omega), Nat.min_eq_right (by omega)]
  congr 2; omega

theorem depth_change {g g' : Mgr} (hr : g.Reachable) (hr' : g'.Reachable) {id q : Nat} {o : Order} {v : Option Order} (ho : g.getOrder id = some o)
    (hb : g.getBook o.symbolId ≠ none)
    (hv : v = none ∧ ¬ q < o.leaves ∨ (∃ x, v = some x ∧ x.rank = o.rank ∧ x.leaves = o.leaves - q ∧
      x.hiddenQty = o.hiddenQty - min q o.hiddenQty ∧ x.visibleQty = o.visibleQty - (q - min q o.hiddenQty)) ∧ q < o.leaves)
    (hl : g'.lines = g.lines.set o.symbolId ((g.lines o.symbolId).change id v)) (sym : Nat) (k : Kind) (p : Nat) :
    g.depth sym k p = if sym = o.symbolId ∧ o.home = some (k, p) then
        ((g'.depth sym k p).1 + (o.takes q).1, (g'.depth sym k p).2.1 + (o.takes q).2.1, (g'.depth sym k p).2.2 + (o.takes q).2.2)
      else g'.depth sym k p := by
  have hi := hr.minv
  rw [depth_volAt hi, depth_volAt hr'.minv, hl]
  have hid : o.id = id := by rw [hi.getOrder] at ho; exact (hi.orders id o ho).1
  rcases Decidable.em (sym ≠ o.symbolId) with hsym | hsym
  · rw [if_neg (fun h => hsym h.1)]
    unfold Lines.set
    rw [if_neg hsym]
  have hsym := Decidable.not_not.1 hsym
  subst hsym
  have hset : ∀ k, g.lines.set o.symbolId ((g.lines o.symbolId).change id v) o.symbolId k = chg id v (g.lines o.symbolId k) := by
    intro k; unfold Lines.set; rw [if_pos rfl]; rfl
  rw [hset]
  have huniq : ∀ k, ∀ r ∈ g.lines o.symbolId k, r.id = id → r = o := by
    intro k r hr1 h
    have := ((lines_complete hr hb).1 hr1).1
    rw [h, ho] at this; cases this; rfl
  have hmem : ∀ k, o ∈ g.lines o.symbolId k ↔ o.home.map (·.1) = some k := by
    intro k
    rw [lines_complete hr hb, hid]
    exact ⟨fun h => h.2.2, fun h => ⟨ho, rfl, h⟩⟩
  have hnd : ((g.lines o.symbolId k).map (·.id)).Nodup := by
    cases hs : slot g.books o.symbolId with
    | none => exact absurd hs hb
    | some b => rw [lines_core hi hs]; exact line_nodup (hi.inv hs).1 k
  rcases Decidable.em (o.home.map (·.1) ≠ some k) with hk | hk
  · rw [if_neg (fun h => hk (rank_home.1 h.2).1)]
    rw [chg_id (fun r hr1 hre => hk ((hmem k).1 (by have := huniq k r hr1 hre; subst this; exact hr1)))]
  have hk := Decidable.not_not.1 hk
  have hom := (hmem k).2 hk
  by_cases hp : o.rank = p
  · rw [if_pos ⟨rfl, rank_home.2 ⟨hk, hp⟩⟩]
    have hv' : ∀ x, v = some x → x.rank = p := by
      intro x hx
      rcases hv with ⟨h, _⟩ | ⟨⟨x', h, h', _⟩, _⟩
      · rw [h] at hx; cases hx
      · rw [h] at hx; cases hx; rw [h']; exact hp
    have key : ∀ f : Order → Nat, volAt f p (chg id v (g.lines o.symbolId k)) + f o = volAt f p (g.lines o.symbolId k) + v.elim 0 f :=
      fun f => volAt_chg' _ hnd (huniq k) hom hid hp hv'
    have k1 := key Order.leaves
    have k2 := key Order.hiddenQty
    have k3 := key Order.visibleQty
    have hsum := hidden_add_visible o
    rcases hv with ⟨rfl, hv⟩ | ⟨⟨x, rfl, _, x1, x2, x3⟩, hv⟩
    · rw [takes_none o hv]
      simp only [Option.elim, Nat.add_zero] at k1 k2 k3
      rw [← k1, ← k2, ← k3]
    · simp only [Option.elim] at k1 k2 k3
      have ht : o.takes q = (q, min q o.hiddenQty, q - min q o.hiddenQty) := by unfold Order.takes; rw [Nat.min_eq_left (by omega)]
      rw [ht]
      simp only [Prod.mk.injEq]
      refine ⟨?_, ?_, ?_⟩ <;> omega
  · rw [if_neg (fun h => hp (rank_home.1 h.2).2)]
    have hv' : ∀ x, v = some x → x.rank ≠ p := by
      intro x hx
      rcases hv with ⟨h, _⟩ | ⟨⟨x', h, h', _⟩, _⟩
      · rw [h] at hx; cases hx
      · rw [h] at hx; cases hx; rw [h']; exact hp
    have key : ∀ f : Order → Nat, volAt f p (chg id v (g.lines o.symbolId k)) = volAt f p (g.lines o.symbolId k) :=
      fun f => volAt_off _ (fun r hr1 hre => by rw [huniq k r hr1 hre]; exact hp) hv'
    rw [key, key, key]

/-- C21. `ReduceOrder` takes hidden quantity first: the order's hidden quantity shrinks by `min q hidden` and its visible
quantity by the rest; the level it stands in shrinks by exactly these amounts; no other level of any book changes. -/
theorem C21_reduce {g : Mgr} (hr : g.Reachable) {id q : Nat} {g' : Mgr} {o : Order} (ho : g.getOrder id = some o)
    (hs : g.step (.reduceOrder id q) = .ok (g', .ok)) (hq : g.Quiet o.symbolId) :
    (q < o.leaves → ∃ o', g'.getOrder id = some o' ∧ o'.leaves = o.leaves - q ∧
      o'.hiddenQty = o.hiddenQty - min q o.hiddenQty ∧ o'.visibleQty = o.visibleQty - (q - min q o.hiddenQty)) ∧
    ∀ sym k p, g.depth sym k p = if sym = o.symbolId ∧ o.home = some (k, p) then
        ((g'.depth sym k p).1 + (o.takes q).1, (g'.depth sym k p).2.1 + (o.takes q).2.1, (g'.depth sym k p).2.2 + (o.takes q).2.2)
      else g'.depth sym k p := by
  have ha : g.Admissible (.reduceOrder id q) := trivial
  have hr' : g'.Reachable := .step hr ha hs
  obtain ⟨evs, hev⟩ := events_appended hr ha hs
  obtain ⟨_, h1, h2⟩ := C34_reduce hr ho hs hev hq
  have hb : g.getBook o.symbolId ≠ none := by
    intro hb
    have := C43_refused hr (op := .reduceOrder id q) (c := if id = 0 then .orderIdInvalid else if q = 0 then .orderQuantityInvalid else .orderBookNotFound) (by
      simp only [Mgr.refusal, Mgr.orderRefusal, ho, hb]; split <;> (try split) <;> rfl) trivial
    rw [hs] at this
    split at this <;> (try split at this) <;> cases this
  constructor
  · intro hlt
    exact ⟨_, by rw [h1]; simp only [if_true, if_pos hlt], rfl, hidden_after o q hlt⟩
  · refine depth_change hr hr' ho hb ?_ h2
    by_cases hlt : q < o.leaves
    · right; rw [if_pos hlt]; exact ⟨⟨_, rfl, rfl, rfl, hidden_after o q hlt⟩, hlt⟩
    · left; rw [if_neg hlt]; exact ⟨rfl, hlt⟩

/-- C21 for `ExecuteOrder` (both overloads): executions, too, consume the hidden quantity first. -/
theorem C21_execute {g : Mgr} (hr : g.Reachable) {id q p : Nat} {op : Op} {g' : Mgr} {o : Order} (ho : g.getOrder id = some o)
    (hop : op = .executeOrder id q ∧ p = o.price ∨ op = .executeOrderAt id p q)
    (hs : g.step op = .ok (g', .ok)) (hq : g.Quiet o.symbolId) :
    (q < o.leaves → ∃ o', g'.getOrder id = some o' ∧ o'.leaves = o.leaves - q ∧
      o'.hiddenQty = o.hiddenQty - min q o.hiddenQty ∧ o'.visibleQty = o.visibleQty - (q - min q o.hiddenQty)) ∧
    ∀ sym k p, g.depth sym k p = if sym = o.symbolId ∧ o.home = some (k, p) then
        ((g'.depth sym k p).1 + (o.takes q).1, (g'.depth sym k p).2.1 + (o.takes q).2.1, (g'.depth sym k p).2.2 + (o.takes q).2.2)
      else g'.depth sym k p := by
  have ha : g.Admissible op := by rcases hop with ⟨rfl, _⟩ | rfl <;> trivial
  have hr' : g'.Reachable := .step hr ha hs
  obtain ⟨evs, hev⟩ := events_appended hr ha hs
  obtain ⟨_, h1, h2⟩ := C34_execute hr ho hop hs hev hq
  have hb : g.getBook o.symbolId ≠ none := by
    intro hb
    have := C43_refused hr (op := op) (c := if id = 0 then .orderIdInvalid else if q = 0 then .orderQuantityInvalid else .orderBookNotFound) (by
      rcases hop with ⟨rfl, _⟩ | rfl <;> (simp only [Mgr.refusal, Mgr.orderRefusal, ho, hb]; split <;> (try split) <;> rfl)) ha
    rw [hs] at this
    split at this <;> (try split at this) <;> cases this
  have hh := fun h => hidden_after o q h
  constructor
  · intro hlt
    exact ⟨o.afterExec q, by rw [h1]; simp only [if_true, if_pos hlt], rfl, hidden_after o q hlt⟩
  · refine depth_change hr hr' ho hb ?_ h2
    by_cases hlt : q < o.leaves
    · right; rw [if_pos hlt]; exact ⟨⟨_, rfl, rfl, rfl, hidden_after o q hlt⟩, hlt⟩
    · left; rw [if_neg hlt]; exact ⟨rfl, hlt⟩

/-- C21 applies: an iceberg of 10 with 4 visible, together with a plain order at the same price, reduced by 8. -/
example : ∃ (g g' : Mgr) (e : ErrorCode), g.Reachable ∧ g.Admissible (.reduceOrder 1 8) ∧ g.step (.reduceOrder 1 8) = .ok (g', e) ∧
    (decide (e = .ok) && !g.matching && decide (g.depth 1 .ask 100 = (15, 6, 9)) && decide (g'.depth 1 .ask 100 = (7, 0, 7))) = true :=
  demoStep (p := fun g g' e => decide (e = .ok) && !g.matching && decide (g.depth 1 .ask 100 = (15, 6, 9)) && decide (g'.depth 1 .ask 100 = (7, 0, 7)))
    (opening ++ [.addOrder (.mkLimit 1 1 .sell 100 10 .gtc 4), .addOrder (.mkLimit 2 1 .sell 100 5)]) (.reduceOrder 1 8) (by decide +kernel)

end CppTrader
