import Verif.Proof.Prices
import Verif.Props.Trades
/-
Prices: C12 (uncrossed books), C13 (triggered stops), C39 (market prices between calls), C47 (last trade
prices), C48 (book notifications). `hev : g'.ev = g.ev ++ evs` says that `evs` are the callbacks raised by the call.
-/

namespace CppTrader
open Core

/-! ### C12 -/

theorem view_ne_none {b : Book} {s : Bool} {p : Nat} (h : b.view s p ≠ none) :
    ∃ l ∈ b.lv (if s then .bid else .ask), l.price = p := by
  unfold Book.view at h
  cases hf : (b.lv (if s then .bid else .ask)).find? (fun l => l.price = p) with
  | none => simp only [hf] at h; exact absurd rfl h
  | some l => exact ⟨l, List.mem_of_find?_eq_some hf, by simpa using List.find?_some hf⟩

theorem view_of_mem {b : Book} {s : Bool} {l : Level} (h : l ∈ b.lv (if s then .bid else .ask)) : b.view s l.price ≠ none := by
  unfold Book.view
  cases hf : (b.lv (if s then .bid else .ask)).find? (fun l' => l'.price = l.price) with
  | none => exact absurd (List.find?_eq_none.1 hf l h) (by simp)
  | some l' => simp only [hf, Option.map_some, ne_eq, reduceCtorEq, not_false_eq_true]

theorem levels_book {g : Mgr} {sym s p} (h : g.levels sym s p ≠ none) : ∃ b, slot g.books sym = some b ∧ b.view s p ≠ none := by
  unfold Mgr.levels Mgr.getBook at h
  cases hb : slot g.books sym with
  | none => simp only [hb] at h; exact absurd rfl h
  | some b => simp only [hb] at h; exact ⟨b, rfl, h⟩

theorem book_levels {g : Mgr} {sym b} (hb : slot g.books sym = some b) : g.levels sym = b.view := by
  unfold Mgr.levels Mgr.getBook; rw [hb]

theorem best_mem {g : Mgr} (hi : MInv g) {sym b} (hb : slot g.books sym = some b) {k x} (hx : b.best k = some x) :
    ∃ l ∈ b.lv k, l.price = x := by
  rw [((hi.books sym b hb).2.1.kinds k).best] at hx
  cases hlv : b.lv k with
  | nil => rw [hlv] at hx; cases hx
  | cons l ls => rw [hlv] at hx; cases hx; exact ⟨l, by simp, rfl⟩

theorem uncrossed_levels {g : Mgr} (hi : MInv g) {sym} (hu : UncrossedAt g sym) {p q : Nat} (hp : g.levels sym true p ≠ none)
    (hq : g.levels sym false q ≠ none) : p < q := by
  obtain ⟨b, hb, hp⟩ := levels_book hp
  obtain ⟨b', hb', hq⟩ := levels_book hq
  rw [hb] at hb'; cases hb'
  obtain ⟨l, hl, rfl⟩ := view_ne_none hp
  obtain ⟨l', hl', rfl⟩ := view_ne_none hq
  have hu := hu b hb
  have hk := fun k => (hi.books sym b hb).2.1.kinds k
  have h1 : ∀ k (l : Level), l ∈ b.lv k → ∃ x, b.best k = some x ∧ k.better l.price x = false := by
    intro k l hl
    have hbk := (hk k).best
    have hs := (hk k).sorted
    cases hlv : b.lv k with
    | nil => rw [hlv] at hl; cases hl
    | cons l0 ls =>
      rw [hlv] at hbk hs hl
      refine ⟨l0.price, hbk, ?_⟩
      rcases List.mem_cons.1 hl with rfl | hl
      · exact better_irrefl _ _
      · exact better_asymm (List.rel_of_pairwise_cons hs hl)
  obtain ⟨x, hx, hx'⟩ := h1 _ _ hl
  obtain ⟨y, hy, hy'⟩ := h1 _ _ hl'
  have := hu x y hx hy
  simp [Kind.better, Kind.isBidType] at hx' hy'
  omega

/-- C12: in every history in which no All-Or-None order was submitted for the symbol, while matching is enabled
every bid level of its book is below every ask level. -/
theorem C12_uncrossed {h : List (Op × ErrorCode)} {g : Mgr} (hh : Mgr.History h g) {sym : Nat} (hops : ∀ x ∈ h, x.1.noAON sym)
    (hm : g.matching = true) {p q : Nat} (hp : g.levels sym true p ≠ none) (hq : g.levels sym false q ≠ none) : p < q := by
  suffices hu : g.matching = true → UncrossedAt g sym from uncrossed_levels hh.reachable.minv (hu hm) hp hq
  clear hp hq hm
  induction hh with
  | nil => intro h; cases h
  | snoc h1 ha hs ih =>
    have hr : Mgr.Reachable _ := h1.reachable
    have ho := fun (x : Op × ErrorCode) hx => hops x (List.mem_append_left _ hx)
    exact fun hm => (hr.eff ha hs).uncrossed hr.minv ha (noAON_history h1 ho) (hops (_, _) (List.mem_append_right _ (List.mem_singleton.2 rfl))) (ih ho) hm

/-- C12 for one call: whenever the symbol has no All-Or-None orders, calls keep its book uncrossed, and
`EnableMatching` and `Match` make it so. -/
theorem C12_uncrossed_call {g : Mgr} (hr : g.Reachable) {op g' e} (ha : g.Admissible op) (hs : g.step op = .ok (g', e)) {sym : Nat}
    (hn : g.NoAON sym) (ho : op.noAON sym)
    (hu : op.isMatch = true ∨ g.matching = true ∧ ∀ p q, g.levels sym true p ≠ none → g.levels sym false q ≠ none → p < q)
    {p q : Nat} (hp : g'.levels sym true p ≠ none) (hq : g'.levels sym false q ≠ none) : p < q := by
  refine uncrossed_levels (hr.step ha hs).minv ?_ hp hq
  have hi' := (hr.step ha hs).minv
  have hn' := noAON_kept hr ha hs hn ho
  rcases hu with hu | ⟨hm, hu⟩
  · have hall : ∀ i, MatchedAt g' i := by
      have heff := hr.eff ha hs
      cases op <;> simp [Op.isMatch] at hu
      · cases heff with
        | refused h => obtain ⟨_, _, _, h⟩ := h; cases h
        | book on h => cases on
        | enable acts all hm => exact all
      · cases heff with
        | refused h => obtain ⟨_, _, _, h⟩ := h; cases h
        | book on h => cases on
        | all acts all hm => exact all
    intro b hb
    rcases hall sym b hb with h | h
    · exact absurd h (noAON_core hi' hb hn')
    · exact h.1
  · by_cases hm' : g'.matching = true
    · refine (hr.eff ha hs).uncrossed hr.minv ha hn ho (fun _ => ?_) hm'
      intro b hb bp ap h1 h2
      obtain ⟨l, hl, rfl⟩ := best_mem hr.minv hb h1
      obtain ⟨l', hl', rfl⟩ := best_mem hr.minv hb h2
      exact hu _ _ (by rw [book_levels hb]; exact view_of_mem (s := true) hl) (by rw [book_levels hb]; exact view_of_mem (s := false) hl')
    · -- matching was switched off by this call: nothing else changed
      have heff := hr.eff ha hs
      have h2 : op = .disableMatching := by
        cases heff with
        | refused h => rw [h.1] at hm'; exact absurd hm hm'
        | addSymbol => exact absurd hm hm'
        | deleteSymbol => exact absurd hm hm'
        | addBook => exact absurd hm hm'
        | deleteBook => exact absurd hm hm'
        | book on h => rw [h.matching] at hm'; exact absurd hm hm'
        | replaceWith ho h1 h2 =>
          rcases h2 with h2 | h2
          · rw [h2.1, h1.matching] at hm'; exact absurd hm hm'
          · rw [h2.matching, h1.matching] at hm'; exact absurd hm hm'
        | enable acts all h => exact absurd h hm'
        | disable => rfl
        | all acts all h => rw [h] at hm'; exact absurd hm hm'
      subst h2
      have : g'.books = g.books := by cases hs; rfl
      intro b hb bp ap h1 h2
      rw [this] at hb
      obtain ⟨l, hl, rfl⟩ := best_mem hr.minv hb h1
      obtain ⟨l', hl', rfl⟩ := best_mem hr.minv hb h2
      exact hu _ _ (by rw [book_levels hb]; exact view_of_mem (s := true) hl) (by rw [book_levels hb]; exact view_of_mem (s := false) hl')

/-- C12 applies: a book with both sides after an incoming order swept two ask levels. -/
example : ∃ (g : Mgr) (h : List (Op × ErrorCode)), g.FreshHistory h ∧
    (g.matching && (g.levels 1 true 102).isSome && (g.levels 1 false 103).isSome) = true :=
  demoFresh (p := fun g => g.matching && (g.levels 1 true 102).isSome && (g.levels 1 false 103).isSome)
    (trading ++ [.addOrder (.mkLimit 1 1 .sell 101 5), .addOrder (.mkLimit 2 1 .sell 102 5), .addOrder (.mkLimit 3 1 .sell 103 5),
      .addOrder (.mkLimit 4 1 .buy 102 20)]) (by decide +kernel)

/-- C12 fails with All-Or-None orders: a bid of 102 and an ask of 101 remain. -/
theorem C12_aon_witness : ∃ (g : Mgr) (h : List (Op × ErrorCode)), g.FreshHistory h ∧
    (g.matching && (g.levels 1 true 102).isSome && (g.levels 1 false 101).isSome) = true :=
  demoFresh (p := fun g => g.matching && (g.levels 1 true 102).isSome && (g.levels 1 false 101).isSome)
    (trading ++ [.addOrder (.mkLimit 1 1 .sell 101 5 .aon), .addOrder (.mkLimit 2 1 .buy 102 3)]) (by decide +kernel)

/-! ### C13 -/

theorem Order.kind_stop {o : Order} (ht : o.type = .stop ∨ o.type = .stopLimit) :
    o.kind = some (if o.side = .buy then .buyStop else .sellStop) ∧ o.key = o.stopPrice := by
  unfold Order.kind Order.key Order.isBuy
  rcases ht with ht | ht <;> cases hs : o.side <;> simp [ht]
theorem Order.kind_trail {o : Order} (ht : o.type = .trailingStop ∨ o.type = .trailingStopLimit) :
    o.kind = some (if o.side = .buy then .tBuyStop else .tSellStop) ∧ o.key = o.stopPrice := by
  unfold Order.kind Order.key Order.isBuy
  rcases ht with ht | ht <;> cases hs : o.side <;> simp [ht]

/-- What `Final` says about the stop orders left in the book. -/
theorem Final.stops {g' : Mgr} {sym xs b b'} (h : Final g' sym xs b b') (hi : MInv g') (hb : slot g'.books sym = some b') (hn : g'.NoAON sym)
    {i o} (ho : g'.getOrder i = some o) (hs : o.symbolId = sym) :
    ((o.type = .stop ∨ o.type = .stopLimit) → o.side = .buy →
      (∃ p, g'.levels sym false p ≠ none ∧ p < o.stopPrice) ∨ (∃ x ∈ xs, x.1.side = .sell ∧ x.2.1 < o.stopPrice) ∨ b.matchAsk < o.stopPrice) ∧
    ((o.type = .stop ∨ o.type = .stopLimit) → o.side = .sell →
      (∃ p, g'.levels sym true p ≠ none ∧ o.stopPrice < p) ∨ (∃ x ∈ xs, x.1.side = .buy ∧ o.stopPrice < x.2.1) ∨ o.stopPrice < b.matchBid) ∧
    ((o.type = .trailingStop ∨ o.type = .trailingStopLimit) → o.side = .buy →
      (∃ p, g'.levels sym false p ≠ none ∧ p ≤ o.stopPrice) ∨ (∃ x ∈ xs, x.1.side = .sell ∧ x.2.1 ≤ o.stopPrice) ∨ b.matchAsk ≤ o.stopPrice ∨ o.stopPrice = MAX64) ∧
    ((o.type = .trailingStop ∨ o.type = .trailingStopLimit) → o.side = .sell →
      (∃ p, g'.levels sym true p ≠ none ∧ o.stopPrice ≤ p) ∨ (∃ x ∈ xs, x.1.side = .buy ∧ o.stopPrice ≤ x.2.1) ∨ o.stopPrice ≤ b.matchBid ∨ o.stopPrice = 0) := by
  rw [hi.getOrder] at ho
  have hinv := (hi.inv hb).1
  have hsym : o.symbolId = (g'.core b').book.symbol.id := by rw [hs]; exact (hi.inv hb).2.symm
  cases h with
  | aon h => exact absurd h (noAON_core hi hb hn)
  | done b1 u s px h =>
    have hbest : ∀ k, b1.best k = b'.best k := by rcases h with rfl | rfl <;> exact fun _ => rfl
    have hrep := (hi.orders i o ho).2.repr
    have hask : ∀ sp, sp < W64 → b1.marketAsk < sp → (∃ p, g'.levels sym false p ≠ none ∧ p < sp) ∨ (∃ x ∈ xs, x.1.side = .sell ∧ x.2.1 < sp) ∨ b.matchAsk < sp := by
      intro sp hsp h
      unfold Book.marketAsk at h
      rcases Nat.lt_or_ge b1.matchAsk sp with h1 | h1
      · right
        rcases px.matchAsk with e | e | ⟨x, hx, e1, e2⟩
        · right; rw [← e]; exact h1
        · omega
        · left; exact ⟨x, hx, e1, by rw [← e2]; exact h1⟩
      · left
        rw [hbest] at h
        cases hba : b'.best .ask with
        | none => rw [hba] at h; simp at h; omega
        | some a =>
          rw [hba] at h; simp at h
          obtain ⟨l, hl, rfl⟩ := best_mem hi hb hba
          exact ⟨l.price, by rw [book_levels hb]; exact view_of_mem (s := false) hl, by omega⟩
    have hbid : ∀ sp, sp < b1.marketBid → (∃ p, g'.levels sym true p ≠ none ∧ sp < p) ∨ (∃ x ∈ xs, x.1.side = .buy ∧ sp < x.2.1) ∨ sp < b.matchBid := by
      intro sp h
      unfold Book.marketBid at h
      rcases Nat.lt_or_ge sp b1.matchBid with h1 | h1
      · right
        rcases px.matchBid with e | e | ⟨x, hx, e1, e2⟩
        · right; rw [← e]; exact h1
        · omega
        · left; exact ⟨x, hx, e1, by rw [← e2]; exact h1⟩
      · left
        rw [hbest] at h
        cases hba : b'.best .bid with
        | none => rw [hba] at h; simp at h; omega
        | some a =>
          rw [hba] at h; simp at h
          obtain ⟨l, hl, rfl⟩ := best_mem hi hb hba
          exact ⟨l.price, by rw [book_levels hb]; exact view_of_mem (s := true) hl, by omega⟩
    refine ⟨?_, ?_, ?_, ?_⟩
    · intro ht hsd
      obtain ⟨hk, hkey⟩ := Order.kind_stop ht
      rw [hsd, if_pos rfl] at hk
      obtain ⟨p, hp, hbt⟩ := hinv.order_best ho hsym hk
      have := s.buyStop p (by rw [hbest]; exact hp)
      simp [Kind.better, Kind.isBidType, hkey] at hbt this
      exact hask _ hrep.2.2.2.1 (by omega)
    · intro ht hsd
      obtain ⟨hk, hkey⟩ := Order.kind_stop ht
      rw [hsd, if_neg (by simp)] at hk
      obtain ⟨p, hp, hbt⟩ := hinv.order_best ho hsym hk
      have := s.sellStop p (by rw [hbest]; exact hp)
      simp [Kind.better, Kind.isBidType, hkey] at hbt this
      exact hbid _ (by omega)
    · intro ht hsd
      obtain ⟨hk, hkey⟩ := Order.kind_trail ht
      rw [hsd, if_pos rfl] at hk
      obtain ⟨p, hp, hbt⟩ := hinv.order_best ho hsym hk
      have := s.tBuyStop p (by rw [hbest]; exact hp)
      simp [Kind.better, Kind.isBidType, hkey] at hbt this
      rcases Nat.lt_or_ge o.stopPrice MAX64 with hlt | hge
      · rcases hask (o.stopPrice + 1) (by omega) (by omega) with ⟨p, h1, h2⟩ | ⟨x, h1, h2, h3⟩ | h1
        · exact .inl ⟨p, h1, by omega⟩
        · exact .inr (.inl ⟨x, h1, h2, by omega⟩)
        · exact .inr (.inr (.inl (by omega)))
      · have := hrep.2.2.2.1
        exact .inr (.inr (.inr (by omega)))
    · intro ht hsd
      obtain ⟨hk, hkey⟩ := Order.kind_trail ht
      rw [hsd, if_neg (by simp)] at hk
      obtain ⟨p, hp, hbt⟩ := hinv.order_best ho hsym hk
      have := s.tSellStop p (by rw [hbest]; exact hp)
      simp [Kind.better, Kind.isBidType, hkey] at hbt this
      rcases Nat.eq_zero_or_pos o.stopPrice with hz | hpos
      · exact .inr (.inr (.inr hz))
      · rcases hbid (o.stopPrice - 1) (by omega) with ⟨p, h1, h2⟩ | ⟨x, h1, h2, h3⟩ | h1
        · exact .inl ⟨p, h1, by omega⟩
        · exact .inr (.inl ⟨x, h1, h2, by omega⟩)
        · exact .inr (.inr (.inl (by omega)))

/-- The calls after which stop orders are settled: successful order calls while matching is enabled (for the
symbols they address), `EnableMatching` and `Match` (for all symbols). -/
def Mgr.Matches (g : Mgr) (op : Op) (sym : Nat) : Prop :=
  op.isMatch = true ∨ g.matching = true ∧ g.Addresses op sym ∧ ¬ op.isRegistry

theorem C13_final {g : Mgr} (hr : g.Reachable) {op g' evs} (ha : g.Admissible op) (hs : g.step op = .ok (g', .ok))
    (hev : g'.ev = g.ev ++ evs) {sym : Nat} (ht : g.Matches op sym) {b : Book} (hb : g.getBook sym = some b) :
    ∃ b', slot g'.books sym = some b' ∧ Final g' sym (execsOn sym (execsOf evs)) b b' := by
  refine (hr.eff ha hs).final hr.minv ?_ hev ?_ hb
  · rcases ht with h | ⟨h, _⟩
    · cases op <;> simp [Op.isMatch] at h <;> simp
    · exact .inl h
  · rcases ht with h | ⟨_, h⟩
    · cases op <;> simp [Op.isMatch] at h <;> exact ⟨trivial, fun h => h⟩
    · exact h

theorem execsOn_mem {sym xs} {x : Order × Nat × Nat} (h : x ∈ execsOn sym xs) : x ∈ xs ∧ x.1.symbolId = sym := by
  unfold execsOn at h; simpa using h

/-- C13, buy side: a buy stop or stop-limit order is left in the book only if its stop price is above some ask
level, or a sell order was executed during the call below its stop price, or the book still remembered such an
execution from an earlier call (`matchAsk`; see C39 for when it is forgotten). -/
theorem C13_buy_stops {g : Mgr} (hr : g.Reachable) {op g' evs} (ha : g.Admissible op) (hs : g.step op = .ok (g', .ok))
    (hev : g'.ev = g.ev ++ evs) {sym : Nat} (ht : g.Matches op sym) {b : Book} (hb : g.getBook sym = some b)
    (hn : g.NoAON sym) (hop : op.noAON sym) {i : Nat} {o : Order} (ho : g'.getOrder i = some o) (hsym : o.symbolId = sym)
    (hty : o.type = .stop ∨ o.type = .stopLimit) (hside : o.side = .buy) :
    (∃ p, g'.levels sym false p ≠ none ∧ p < o.stopPrice) ∨
    (∃ x ∈ execsOf evs, x.1.symbolId = sym ∧ x.1.side = .sell ∧ x.2.1 < o.stopPrice) ∨ b.matchAsk < o.stopPrice := by
  obtain ⟨b', h1, h2⟩ := C13_final hr ha hs hev ht hb
  rcases (h2.stops (hr.step ha hs).minv h1 (noAON_kept hr ha hs hn hop) ho hsym).1 hty hside with h | ⟨x, h, h'⟩ | h
  · exact .inl h
  · exact .inr (.inl ⟨x, (execsOn_mem h).1, (execsOn_mem h).2, h'⟩)
  · exact .inr (.inr h)

/-- C13, sell side. -/
theorem C13_sell_stops {g : Mgr} (hr : g.Reachable) {op g' evs} (ha : g.Admissible op) (hs : g.step op = .ok (g', .ok))
    (hev : g'.ev = g.ev ++ evs) {sym : Nat} (ht : g.Matches op sym) {b : Book} (hb : g.getBook sym = some b)
    (hn : g.NoAON sym) (hop : op.noAON sym) {i : Nat} {o : Order} (ho : g'.getOrder i = some o) (hsym : o.symbolId = sym)
    (hty : o.type = .stop ∨ o.type = .stopLimit) (hside : o.side = .sell) :
    (∃ p, g'.levels sym true p ≠ none ∧ o.stopPrice < p) ∨
    (∃ x ∈ execsOf evs, x.1.symbolId = sym ∧ x.1.side = .buy ∧ o.stopPrice < x.2.1) ∨ o.stopPrice < b.matchBid := by
  obtain ⟨b', h1, h2⟩ := C13_final hr ha hs hev ht hb
  rcases (h2.stops (hr.step ha hs).minv h1 (noAON_kept hr ha hs hn hop) ho hsym).2.1 hty hside with h | ⟨x, h, h'⟩ | h
  · exact .inl h
  · exact .inr (.inl ⟨x, (execsOn_mem h).1, (execsOn_mem h).2, h'⟩)
  · exact .inr (.inr h)

/-- C13 for trailing stops, which follow the market after the last activation: the inequalities are weak, and
nothing is said of stop prices at the ends of the price range. -/
theorem C13_trailing_stops {g : Mgr} (hr : g.Reachable) {op g' evs} (ha : g.Admissible op) (hs : g.step op = .ok (g', .ok))
    (hev : g'.ev = g.ev ++ evs) {sym : Nat} (ht : g.Matches op sym) {b : Book} (hb : g.getBook sym = some b)
    (hn : g.NoAON sym) (hop : op.noAON sym) {i : Nat} {o : Order} (ho : g'.getOrder i = some o) (hsym : o.symbolId = sym)
    (hty : o.type = .trailingStop ∨ o.type = .trailingStopLimit) :
    (o.side = .buy → (∃ p, g'.levels sym false p ≠ none ∧ p ≤ o.stopPrice) ∨
      (∃ x ∈ execsOf evs, x.1.symbolId = sym ∧ x.1.side = .sell ∧ x.2.1 ≤ o.stopPrice) ∨ b.matchAsk ≤ o.stopPrice ∨ o.stopPrice = MAX64) ∧
    (o.side = .sell → (∃ p, g'.levels sym true p ≠ none ∧ o.stopPrice ≤ p) ∨
      (∃ x ∈ execsOf evs, x.1.symbolId = sym ∧ x.1.side = .buy ∧ o.stopPrice ≤ x.2.1) ∨ o.stopPrice ≤ b.matchBid ∨ o.stopPrice = 0) := by
  obtain ⟨b', h1, h2⟩ := C13_final hr ha hs hev ht hb
  obtain ⟨_, _, h3, h4⟩ := h2.stops (hr.step ha hs).minv h1 (noAON_kept hr ha hs hn hop) ho hsym
  refine ⟨fun hside => ?_, fun hside => ?_⟩
  · rcases h3 hty hside with h | ⟨x, h, h'⟩ | h
    · exact .inl h
    · exact .inr (.inl ⟨x, (execsOn_mem h).1, (execsOn_mem h).2, h'⟩)
    · exact .inr (.inr h)
  · rcases h4 hty hside with h | ⟨x, h, h'⟩ | h
    · exact .inl h
    · exact .inr (.inl ⟨x, (execsOn_mem h).1, (execsOn_mem h).2, h'⟩)
    · exact .inr (.inr h)

/-- C13 applies: of two buy stops one is activated by the call and the other (stop price 120 above the ask 110) stays. -/
example : ∃ (g g' : Mgr) (e : ErrorCode), g.Reachable ∧ g.Admissible (.deleteOrder 1) ∧ g.step (.deleteOrder 1) = .ok (g', e) ∧
    (decide (e = .ok) && g.matching && (g.getOrder 3).isSome && (g'.getOrder 3).isNone && (g'.getOrder 4).isSome) = true :=
  demoStep (p := fun g g' e => decide (e = .ok) && g.matching && (g.getOrder 3).isSome && (g'.getOrder 3).isNone && (g'.getOrder 4).isSome)
    (trading ++ [.addOrder (.mkLimit 1 1 .sell 100 5), .addOrder (.mkLimit 2 1 .sell 110 9), .addOrder (.mkStop 3 1 .buy 105 2),
      .addOrder (.mkStop 4 1 .buy 120 2)]) (.deleteOrder 1) (by decide +kernel)

/-- The exception is real: `ModifyOrder` moves the best ask so that it trades at 90; the buy stop at 105 stays although
the best ask is now 110, because the execution at 90 hides the ask from the stop orders during this call. -/
theorem C13_hidden_witness : ∃ (g g' : Mgr) (e : ErrorCode), g.Reachable ∧ g.Admissible (.modifyOrder 1 90 5) ∧
    g.step (.modifyOrder 1 90 5) = .ok (g', e) ∧
    (decide (e = .ok) && g.matching && (g'.getOrder 4).isSome && (g'.levels 1 false 110).isSome && (g'.levels 1 false 100).isNone &&
      (g'.levels 1 false 90).isNone) = true :=
  demoStep (p := fun g g' e => decide (e = .ok) && g.matching && (g'.getOrder 4).isSome && (g'.levels 1 false 110).isSome &&
      (g'.levels 1 false 100).isNone && (g'.levels 1 false 90).isNone)
    (trading ++ [.addOrder (.mkLimit 1 1 .sell 100 5), .addOrder (.mkLimit 2 1 .sell 110 9), .addOrder (.mkLimit 3 1 .buy 90 5),
      .addOrder (.mkStop 4 1 .buy 105 2)]) (.modifyOrder 1 90 5) (by decide +kernel)

/-! ### C39 -/

/-- Calls on orders. -/
def Op.isOrderCall : Op → Bool
  | .addOrder _ | .reduceOrder _ _ | .modifyOrder _ _ _ | .mitigateOrder _ _ _ | .replaceOrder _ _ _ _ | .replaceWith _ _
  | .deleteOrder _ | .executeOrder _ _ | .executeOrderAt _ _ _ => true
  | _ => false

theorem BookOp.forgets {tag sym g g'} (h : BookOp tag sym g g' .ok) :
    ∃ b', slot g'.books sym = some b' ∧ b'.matchBid = 0 ∧ b'.matchAsk = MAX64 := by
  obtain ⟨b, s', h1, h2, rfl⟩ := h.ex
  obtain ⟨s1, rfl, h3, h4⟩ := h2.done rfl
  exact ⟨s1.reset.book, put_getBook_same h1, rfl, rfl⟩

/-- C39: after every successful call on orders, the market prices that trigger stop orders are, for every symbol
the call addresses, the best bid (0 if none) and the best ask (2^64-1 if none): no execution price of the call is
remembered. -/
theorem C39_market_prices {g : Mgr} (hr : g.Reachable) {op g'} (ha : g.Admissible op) (hs : g.step op = .ok (g', .ok))
    (hop : op.isOrderCall = true) {sym : Nat} (had : g.Addresses op sym) {b' : Book} (hb' : g'.getBook sym = some b') :
    b'.matchBid = 0 ∧ b'.matchAsk = MAX64 ∧ b'.marketBid = (b'.best .bid).getD 0 ∧ b'.marketAsk = (b'.best .ask).getD MAX64 := by
  suffices h : b'.matchBid = 0 ∧ b'.matchAsk = MAX64 by
    refine ⟨h.1, h.2, ?_, ?_⟩
    · unfold Book.marketBid; rw [h.1]; omega
    · cases hp : b'.best .ask with
      | none => unfold Book.marketAsk; rw [h.2, hp]; simp
      | some p =>
        have hi' := (hr.step ha hs).minv
        have := (hi'.inv hb').1.best_lt (k := .ask) hp
        unfold Book.marketAsk; rw [h.2, hp]; simp; omega
  have hb' : slot g'.books sym = some b' := hb'
  have hi := hr.minv
  have heff := hr.eff ha hs
  cases heff with
  | refused h => exact absurd rfl h.2.1
  | addSymbol hn hv => cases hop
  | deleteSymbol hn hv => cases hop
  | addBook hr hn hv => cases hop
  | deleteBook hn hv => cases hop
  | book on h =>
    have := Op.on_addresses hi on had
    subst this
    obtain ⟨b1, h1, h2⟩ := h.forgets
    rw [hb'] at h1; cases h1; exact h2
  | replaceWith ho h1 h2 =>
    rename_i id o old g1
    rcases h2 with h2 | h2
    · exact absurd rfl h2.2.1
    have hi1 := h1.minv hi
    by_cases hso : o.symbolId = sym
    · subst hso
      obtain ⟨b1, k1, k2⟩ := h2.forgets
      rw [hb'] at k1; cases k1; exact k2
    · have hold : old.symbolId = sym := by
        rcases had with h | ⟨old', h, h'⟩
        · exact absurd h hso
        · rw [hi.getOrder, ho] at h; cases h; exact h'
      subst hold
      obtain ⟨b1, k1, k2⟩ := h1.forgets
      rw [(h2.iso hi1).2 _ (Ne.symm hso), k1] at hb'
      cases hb'; exact k2
  | enable acts all hm2 => cases hop
  | disable => cases hop
  | all acts all hm2 => cases hop

/-- C39 applies to calls that trade. -/
example : ∃ (g g' : Mgr) (e : ErrorCode), g.Reachable ∧ g.Admissible (.addOrder (.mkLimit 2 1 .buy 100 3)) ∧
    g.step (.addOrder (.mkLimit 2 1 .buy 100 3)) = .ok (g', e) ∧
    (decide (e = .ok) && decide (g'.getBook 1 ≠ none) && decide (execsOf (g'.ev.drop g.ev.length) ≠ [])) = true :=
  demoStep (p := fun g g' e => decide (e = .ok) && decide (g'.getBook 1 ≠ none) && decide (execsOf (g'.ev.drop g.ev.length) ≠ []))
    (trading ++ [.addOrder (.mkLimit 1 1 .sell 100 5)]) (.addOrder (.mkLimit 2 1 .buy 100 3)) (by decide +kernel)

/-- `Match()` does not forget: after it traded at 100, sell stop orders still see 100 as the
market bid although there is no bid. -/
theorem C39_match_witness : ∃ (g g' : Mgr) (e : ErrorCode), g.Reachable ∧ g.Admissible .matchAll ∧
    g.step .matchAll = .ok (g', e) ∧
    (match g'.getBook 1 with | some b => decide (b.marketBid = 100 ∧ b.best .bid = none) | none => false) = true :=
  demoStep (p := fun _ g' _ => match g'.getBook 1 with
      | some b => decide (b.marketBid = 100 ∧ b.best .bid = none) | none => false)
    (opening ++ [.addOrder (.mkLimit 1 1 .sell 100 5), .addOrder (.mkStop 2 1 .buy 90 2)]) .matchAll (by decide +kernel)

/-! ### C48 -/

/-- C48: the notifications of a call that is not a registry call are order notifications and level notifications,
each level notification immediately followed by `onUpdateOrderBook` for the same book and with the same flag. In
particular no symbol or book is reported added or deleted. -/
theorem C48_book_feed {g : Mgr} (hr : g.Reachable) {op g' e evs} (ha : g.Admissible op) (hs : g.step op = .ok (g', e))
    (hev : g'.ev = g.ev ++ evs) (hop : ¬ op.isRegistry) : BookFeed evs := by
  rcases (hr.eff ha hs).acts hr.minv with ⟨_, h⟩ | ⟨g0, a, b, c, d, acts⟩
  · exact absurd h hop
  · obtain ⟨evs', ls, h⟩ := acts.events (hr.minv.congr b c d)
    have h1 := h.ev
    rw [a, hev] at h1
    rw [List.append_cancel_left h1]
    exact h.bfeed

example : ∃ (g g' : Mgr) (e : ErrorCode), g.Reachable ∧ g.Admissible (.addOrder (.mkLimit 2 1 .buy 100 3)) ∧
    g.step (.addOrder (.mkLimit 2 1 .buy 100 3)) = .ok (g', e) ∧ decide ((g'.ev.drop g.ev.length).length = 7) = true :=
  demoStep (p := fun g g' _ => decide ((g'.ev.drop g.ev.length).length = 7))
    (trading ++ [.addOrder (.mkLimit 1 1 .sell 100 5)]) (.addOrder (.mkLimit 2 1 .buy 100 3)) (by decide +kernel)

/-! ### C47 -/

theorem lastTrade_step (sd : Side) (sym p0 : Nat) {es : List Event} (h : BookFeed es) (p : Nat) :
    es.foldl (tradeStep sd sym p0) p = lastPx sd p (execsOn sym (execsOf es)) := by
  induction h generalizing p with
  | nil => rfl
  | order e es he _ ih =>
    cases e <;> simp only [Event.isOrder] at he <;> try (cases he; done)
    case exec o x q =>
      rw [List.foldl_cons, ih]
      simp only [execsOf]
      by_cases hsym : o.symbolId = sym
      · have : execsOn sym ((o, x, q) :: execsOf es) = (o, x, q) :: execsOn sym (execsOf es) := by simp [execsOn, hsym]
        rw [this]; simp only [tradeStep, hsym, true_and]; rfl
      · have : execsOn sym ((o, x, q) :: execsOf es) = execsOn sym (execsOf es) := by simp [execsOn, hsym]
        rw [this]; simp [tradeStep, hsym]
    all_goals (rw [List.foldl_cons, ih]; rfl)
  | addLevel => rename_i ih; simp only [List.foldl_cons]; exact ih _
  | updateLevel => rename_i ih; simp only [List.foldl_cons]; exact ih _
  | deleteLevel => rename_i ih; simp only [List.foldl_cons]; exact ih _

theorem Acts.book_before {A g g'} (h : Acts A g g') {sym b'} (hb : slot g'.books sym = some b') : ∃ b, slot g.books sym = some b := by
  induction h with
  | refl => exact ⟨b', hb⟩
  | @book g n b s' g' h1 _ _ ih =>
    obtain ⟨b1, k⟩ := ih hb
    by_cases e : sym = n
    · subst e; exact ⟨b, h1⟩
    · rw [put_getBook_other e] at k; exact ⟨b1, k⟩

/-- C47: the last trade prices of a book, used to trail stop orders, are exactly the prices of the last reported
executions of its buy and sell orders since the book was added (0 and 2^64-1 if there was none). -/
theorem C47_last_prices {g : Mgr} (hr : g.Reachable) {sym : Nat} {b : Book} (hb : g.getBook sym = some b) :
    b.lastBid = lastTrade .buy sym 0 g.ev ∧ b.lastAsk = lastTrade .sell sym MAX64 g.ev := by
  induction hr generalizing b with
  | init => simp [Mgr.getBook, Mgr.init, slot] at hb
  | step hr ha hs ih =>
    rename_i g g' op e
    have heff := hr.eff ha hs
    have hb : slot g'.books sym = some b := hb
    have one : ∀ sd d ev, (∀ s, ev ≠ .addBook s) → execsOf [ev] = [] → lastTrade sd sym d (g.ev ++ [ev]) = lastTrade sd sym d g.ev := by
      intro sd d ev h1 h2
      unfold lastTrade
      rw [List.foldl_append]
      cases ev <;> first | rfl | exact absurd rfl (h1 _) | cases h2
    by_cases hop : op.isRegistry
    · cases heff with
      | refused h => rw [h.1] at hb ⊢; exact ih hb
      | addSymbol hn hv => refine ⟨?_, ?_⟩ <;> (show _ = lastTrade _ _ _ (g.ev ++ [_])) <;> rw [one _ _ _ (fun s h => by cases h) rfl] <;> first | exact (ih hb).1 | exact (ih hb).2
      | deleteSymbol hn hv => refine ⟨?_, ?_⟩ <;> (show _ = lastTrade _ _ _ (g.ev ++ [_])) <;> rw [one _ _ _ (fun s h => by cases h) rfl] <;> first | exact (ih hb).1 | exact (ih hb).2
      | @addBook s reg v h1 hn hv =>
        rw [hv sym] at hb
        have hid := (hr.minv.symbols _ _ h1).1
        unfold lastTrade
        simp only [List.foldl_append, List.foldl_cons, List.foldl_nil]
        by_cases e : sym = s.id
        · rw [if_pos e] at hb; cases hb
          simp [tradeStep, hid, e, Book.new]
        · rw [if_neg e] at hb
          have : ¬ reg.id = sym := fun h => e (by rw [← h, hid])
          simp only [tradeStep, this, if_false]
          exact ih hb
      | deleteBook hn hv =>
        rw [hv sym] at hb
        split at hb
        · cases hb
        · refine ⟨?_, ?_⟩ <;> (show _ = lastTrade _ _ _ (g.ev ++ [_])) <;> rw [one _ _ _ (fun s h => by cases h) rfl] <;> first | exact (ih hb).1 | exact (ih hb).2
      | book on h => cases op <;> first | exact absurd hop (fun h => h) | exact absurd on (by simp [Op.on])
      | replaceWith => cases hop
      | enable => cases hop
      | disable => cases hop
      | all => cases hop
    · obtain ⟨evs, _, hce⟩ := heff.callEv hr.minv
      have hev := hce.ev
      have hf := C48_book_feed hr ha hs hev hop
      have hexb : ∃ b0, slot g.books sym = some b0 := by
        rcases heff.acts hr.minv with ⟨_, h⟩ | ⟨g0, _, _, c, _, acts⟩
        · exact absurd h hop
        · obtain ⟨b0, h0⟩ := acts.book_before hb
          exact ⟨b0, by rw [← c]; exact h0⟩
      obtain ⟨b0, hb0⟩ := hexb
      obtain ⟨ih1, ih2⟩ := ih hb0
      rcases heff.px hr.minv hev hb0 with ⟨b1, h1, h2⟩ | ⟨_, h⟩
      · rw [hb] at h1; cases h1
        rw [hev]
        unfold lastTrade
        rw [List.foldl_append, List.foldl_append, lastTrade_step _ _ _ hf, lastTrade_step _ _ _ hf, h2.lastBid, h2.lastAsk, ih1, ih2]
        exact ⟨rfl, rfl⟩
      · rw [hb] at h; cases h

/-- C47 applies: after two trades at 100 and 101 the last prices are 101. -/
example : ∃ (g : Mgr), g.Reachable ∧ (match g.getBook 1 with
    | some b => decide (b.lastBid = 101 ∧ b.lastAsk = 101 ∧ lastTrade .buy 1 0 g.ev = 101) | none => false) = true :=
  demo (p := fun g => match g.getBook 1 with
    | some b => decide (b.lastBid = 101 ∧ b.lastAsk = 101 ∧ lastTrade .buy 1 0 g.ev = 101) | none => false)
    (trading ++ [.addOrder (.mkLimit 1 1 .sell 100 5), .addOrder (.mkLimit 2 1 .sell 101 5), .addOrder (.mkLimit 3 1 .buy 105 7)])
    (by decide +kernel)

end CppTrader
