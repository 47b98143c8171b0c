import Verif.Props.Lines
import Verif.Props.Feeds
/-
C22, C23, C38: modifying and replacing orders; queue positions.
-/

namespace CppTrader
open Core

/-! ### C38 -/

/-- The queue of a level is the part of the line with its price. -/
theorem level_queue {g : Mgr} (hr : g.Reachable) {sym : Nat} {b : Book} (hb : g.getBook sym = some b) {k : Kind} {l : Level} (hl : l ∈ b.lv k) :
    l.ids = ((g.lines sym k).filter (fun r => r.rank = l.price)).map (·.id) := by
  have hi := hr.minv
  obtain ⟨hI, hid⟩ := hi.inv hb
  rw [lines_core hi hb]
  have hk := hI.book.kinds k
  have hrank : ∀ l' ∈ b.lv k, ∀ i ∈ l'.ids, ∃ o, g.orders i = some o ∧ o.id = i ∧ o.rank = l'.price := by
    intro l' h' i hi'
    obtain ⟨o', a1, _, a3, a4⟩ := (hk.levels l' h').mem i hi'
    refine ⟨o', a1, (hi.orders i o' a1).1, ?_⟩
    rw [← key_rank (hi.orders i o' a1).2.notMarket]; exact a4
  have one : ∀ (ids : List Nat) (p : Nat), (∀ i ∈ ids, ∃ o, g.orders i = some o ∧ o.id = i ∧ o.rank = p) →
      ((restOf (g.core b) ids).filter (fun r => r.rank = l.price)).map (·.id) = if p = l.price then ids else [] := by
    intro ids p
    induction ids with
    | nil => intro _; split <;> rfl
    | cons i is ih =>
      intro h
      obtain ⟨o, ho, h1, h2⟩ := h i (by simp)
      have : restOf (g.core b) (i :: is) = o :: restOf (g.core b) is := by
        unfold restOf; rw [List.filterMap_cons, show (g.core b).orders i = some o from ho]
      rw [this]
      have ih := ih fun j hj => h j (by simp [hj])
      by_cases hp : p = l.price
      · rw [if_pos hp] at ih ⊢
        rw [List.filter_cons, if_pos (by simp [h2, hp]), List.map_cons, ih, h1]
      · rw [if_neg hp] at ih ⊢
        rw [List.filter_cons, if_neg (by simp [h2, hp]), ih]
  have key : ∀ ls : List Level, ls.Pairwise (fun a b => k.better a.price b.price = true) → (∀ l' ∈ ls, l' ∈ b.lv k) →
      ((restOf (g.core b) (flatOf ls)).filter (fun r => r.rank = l.price)).map (·.id) = if l ∈ ls then l.ids else [] := by
    intro ls
    induction ls with
    | nil => intro _ _; rfl
    | cons a as ih =>
      intro hp hsub
      rw [flatOf_cons, restOf_append, List.filter_append, List.map_append, ih (List.Pairwise.of_cons hp) fun l' h' => hsub l' (by simp [h']),
        one a.ids a.price (hrank a (hsub a (by simp)))]
      by_cases e : l = a
      · subst e
        have : l ∉ as := by
          intro h
          have := List.rel_of_pairwise_cons hp h
          cases k <;> simp [Kind.better, Kind.isBidType] at this
        rw [if_pos rfl, if_neg this, if_pos (by simp)]; simp
      · by_cases h : l ∈ as
        · have hne : a.price ≠ l.price := by
            intro e'
            have := List.rel_of_pairwise_cons hp h
            rw [e'] at this
            cases k <;> simp [Kind.better, Kind.isBidType] at this
          rw [if_neg hne, if_pos h, if_pos (by simp [h])]; rfl
        · have hne : a.price ≠ l.price := by
            intro e'
            -- two levels of one collection with the same price are the same
            have hs : (b.lv k).Pairwise (fun a b => k.better a.price b.price = true) := hk.sorted
            have ha := hsub a (by simp)
            rcases List.mem_iff_getElem.1 hl with ⟨i, hi1, hi2⟩
            rcases List.mem_iff_getElem.1 ha with ⟨j, hj1, hj2⟩
            rcases Nat.lt_trichotomy i j with hij | hij | hij
            · have := List.pairwise_iff_getElem.1 hs i j hi1 hj1 hij
              rw [hi2, hj2, e'] at this
              cases k <;> simp [Kind.better, Kind.isBidType] at this
            · subst hij; rw [hi2] at hj2; exact e hj2
            · have := List.pairwise_iff_getElem.1 hs j i hj1 hi1 hij
              rw [hi2, hj2, e'] at this
              cases k <;> simp [Kind.better, Kind.isBidType] at this
          rw [if_neg hne, if_neg h, if_neg (by simp [e, h])]; rfl
  have := key (b.lv k) hk.sorted fun _ h => h
  rw [if_pos hl] at this
  exact this.symm

theorem change_ids {l : Board} {id : Nat} {x : Order} (hid : x.id = id) (k : Kind) : (l.change id (some x) k).map (·.id) = (l k).map (·.id) := by
  unfold Board.change
  induction l k with
  | nil => rfl
  | cons r rs ih =>
    rw [List.filterMap_cons]
    by_cases e : r.id = id
    · simp only [e, if_true, List.map_cons, ih, hid]
    · simp only [if_neg e, List.map_cons, ih]

theorem set_change_ids {g g' : Mgr} {sym id : Nat} {x : Order} (hid : x.id = id)
    (hl : g'.lines = g.lines.set sym ((g.lines sym).change id (some x))) (n : Nat) (k : Kind) :
    (g'.lines n k).map (·.id) = (g.lines n k).map (·.id) := by
  rw [hl]
  unfold Lines.set
  by_cases e : n = sym
  · rw [if_pos e, e, change_ids hid]
  · rw [if_neg e]

theorem own_id {g : Mgr} (hr : g.Reachable) {id : Nat} {o : Order} (ho : g.getOrder id = some o) : o.id = id := by
  rw [hr.minv.getOrder] at ho; exact (hr.minv.orders id o ho).1

/-- C38: `ReduceOrder` by less than the leaves quantity changes no position in any line. -/
theorem C38_reduce_keeps_place {g : Mgr} (hr : g.Reachable) {id q : Nat} {g' : Mgr} {o : Order} (ho : g.getOrder id = some o)
    (hs : g.step (.reduceOrder id q) = .ok (g', .ok)) (hq : g.Quiet o.symbolId) (hlt : q < o.leaves) (sym : Nat) (k : Kind) :
    (g'.lines sym k).map (·.id) = (g.lines sym k).map (·.id) := by
  have ha : g.Admissible (.reduceOrder id q) := trivial
  obtain ⟨evs, hev⟩ := events_appended hr ha hs
  obtain ⟨_, _, h2⟩ := C34_reduce hr ho hs hev hq
  rw [if_pos hlt] at h2
  have hid := own_id hr ho
  exact set_change_ids (x := { o with leaves := o.leaves - q }) hid h2 sym k

/-- C38: a partial `ExecuteOrder` changes no position in any line. -/
theorem C38_execute_keeps_place {g : Mgr} (hr : g.Reachable) {id q p : Nat} {op : Op} {g' : Mgr} {o : Order} (ho : g.getOrder id = some o)
    (hop : op = .executeOrder id q ∧ p = o.price ∨ op = .executeOrderAt id p q)
    (hs : g.step op = .ok (g', .ok)) (hq : g.Quiet o.symbolId) (hlt : q < o.leaves) (sym : Nat) (k : Kind) :
    (g'.lines sym k).map (·.id) = (g.lines sym k).map (·.id) := by
  have ha : g.Admissible op := by rcases hop with ⟨rfl, _⟩ | rfl <;> trivial
  obtain ⟨evs, hev⟩ := events_appended hr ha hs
  obtain ⟨_, _, h2⟩ := C34_execute hr ho hop hs hev hq
  rw [if_pos hlt] at h2
  have hid := own_id hr ho
  exact set_change_ids (x := o.afterExec q) hid h2 sym k

theorem change_none (l : Board) (id : Nat) (k : Kind) : l.change id none k = (l k).filter (fun r => decide (r.id ≠ id)) := by
  unfold Board.change
  induction l k with
  | nil => rfl
  | cons r rs ih =>
    rw [List.filterMap_cons, List.filter_cons]
    by_cases e : r.id = id
    · simp [e, ih]
    · simp [e, ih]

theorem moved_place {g : Mgr} (hr : g.Reachable) {sym id : Nat} {t : Order} {k : Kind} (hk : t.home.map (·.1) = some k) (hrest : t.rests) :
    ∃ pre post, (g.lines sym k).filter (fun r => decide (r.id ≠ id)) = pre ++ post ∧
      (((g.lines sym).change id none).arrive false t).2 k = pre ++ t :: post ∧ (∀ r ∈ pre, ¬ t.beats k r) ∧ ∀ r ∈ post, t.beats k r := by
  obtain ⟨pre, post, a, b, c, d⟩ := enqueue_place k t ((g.lines sym).change id none k) (by
    rw [change_none]; exact (lines_sorted hr sym k).filter _)
  refine ⟨pre, post, by rw [← change_none]; exact a, ?_, c, d⟩
  unfold Board.arrive
  simp only [Bool.false_eq_true, if_false, if_pos hrest]
  unfold Board.insert
  rw [if_pos hk]; exact b

/-- C38: with matching off, `ModifyOrder` moves the order behind all orders of its new price (and of better prices), in
front of those of worse prices; the others keep their relative places. The order gets the new price and quantity. -/
theorem C38_modify_to_tail {g : Mgr} (hr : g.Reachable) {id p q : Nat} {g' : Mgr} {o : Order} {k : Kind} (ha : g.Admissible (.modifyOrder id p q))
    (hs : g.step (.modifyOrder id p q) = .ok (g', .ok)) (ho : g.getOrder id = some o) (hm : g.matching = false)
    (hk : o.home.map (·.1) = some k) :
    ∃ pre post, (g.lines o.symbolId k).filter (fun r => decide (r.id ≠ id)) = pre ++ post ∧
      g'.lines o.symbolId k = pre ++ { o with price := p, quantity := q, leaves := q } :: post ∧
      (∀ r ∈ pre, ¬ ({ o with price := p, quantity := q, leaves := q } : Order).beats k r) ∧
      ∀ r ∈ post, ({ o with price := p, quantity := q, leaves := q } : Order).beats k r := by
  have hs' : g.modifyOrder id p q false = .ok (g', .ok) := hs
  obtain ⟨o', h1, evs, rest, h2, h3, h4⟩ := modify_call hr.minv ha.1 ha.2.1 ha.2.2 hs'
  rw [ho] at h1; cases h1
  obtain ⟨_, h5⟩ := h4 (by rw [hm]; simp)
  rw [hm] at h5
  have hq : 0 < q := by
    unfold Mgr.modifyOrder at hs'
    by_cases h0 : id = 0
    · rw [if_pos h0] at hs'; cases hs'
    by_cases h1 : q = 0
    · rw [if_neg h0, if_pos h1] at hs'; cases hs'
    omega
  have hok := (hr.minv.orders id o (by rw [← hr.minv.getOrder]; exact ho)).2
  have hmod : modified o p q false = { o with price := p, quantity := q, leaves := q } := rfl
  rw [hmod] at h5
  have hk' : ({ o with price := p, quantity := q, leaves := q } : Order).home.map (·.1) = some k := by
    rw [home_kind] at hk ⊢; exact hk
  obtain ⟨pre, post, a, b, c, d⟩ := moved_place (sym := o.symbolId) (id := id) hr hk' ⟨hq, hok.notMarket, hok.tif⟩
  refine ⟨pre, post, a, ?_, c, d⟩
  rw [h5]
  unfold Lines.set
  rw [if_pos rfl]; exact b

/-- C38 for every state (matching on or off): if nothing can be matched afterwards (`quiet_move` gives conditions for that),
the effect of the call is that the order leaves its line and then is treated like a newcomer with the new price and
quantity. -/
theorem C38_modify {g : Mgr} (hr : g.Reachable) {id p q : Nat} {g' : Mgr} {o : Order} {evs : List Event} (ha : g.Admissible (.modifyOrder id p q))
    (hs : g.step (.modifyOrder id p q) = .ok (g', .ok)) (hev : g'.ev = g.ev ++ evs) (ho : g.getOrder id = some o)
    (hq : g.matching = true → (((g.lines o.symbolId).change id none).arrive true { o with price := p, quantity := q, leaves := q }).2.quiet) :
    execsOf evs = (((g.lines o.symbolId).change id none).arrive g.matching { o with price := p, quantity := q, leaves := q }).1 ∧
    g'.lines = g.lines.set o.symbolId (((g.lines o.symbolId).change id none).arrive g.matching { o with price := p, quantity := q, leaves := q }).2 := by
  have hs' : g.modifyOrder id p q false = .ok (g', .ok) := hs
  obtain ⟨o', h1, evs', rest, h2, h3, h4⟩ := modify_call hr.minv ha.1 ha.2.1 ha.2.2 hs'
  rw [ho] at h1; cases h1
  rw [hev] at h2; cases List.append_cancel_left h2
  obtain ⟨rfl, h5⟩ := h4 fun hm => by rw [hm]; exact hq hm
  exact ⟨by rw [h3, List.append_nil]; rfl, h5⟩

/-- C38 applies: of three orders in one level the first is modified and goes to the end; then one is reduced in place. -/
example : ∃ (g g' : Mgr) (e : ErrorCode), g.Reachable ∧ g.Admissible (.modifyOrder 1 100 3) ∧ g.step (.modifyOrder 1 100 3) = .ok (g', e) ∧
    (decide (e = .ok) && !g.matching && decide ((g.lines 1 .ask).map (·.id) = [1, 2, 4, 3]) && decide ((g'.lines 1 .ask).map (·.id) = [2, 4, 1, 3])) = true :=
  demoStep (p := fun g g' e => decide (e = .ok) && !g.matching && decide ((g.lines 1 .ask).map (·.id) = [1, 2, 4, 3]) && decide ((g'.lines 1 .ask).map (·.id) = [2, 4, 1, 3]))
    (opening ++ [.addOrder (.mkLimit 1 1 .sell 100 10), .addOrder (.mkLimit 2 1 .sell 100 5), .addOrder (.mkLimit 3 1 .sell 101 5), .addOrder (.mkLimit 4 1 .sell 100 5)])
    (.modifyOrder 1 100 3) (by decide +kernel)
example : ∃ (g g' : Mgr) (e : ErrorCode), g.Reachable ∧ g.Admissible (.executeOrderAt 2 90 3) ∧ g.step (.executeOrderAt 2 90 3) = .ok (g', e) ∧
    (decide (e = .ok) && !g.matching && decide ((g'.lines 1 .ask).map (fun (r : Order) => (r.id, r.leaves)) = [(1, 10), (2, 2), (4, 5), (3, 5)])) = true :=
  demoStep (p := fun g g' e => decide (e = .ok) && !g.matching && decide ((g'.lines 1 .ask).map (fun (r : Order) => (r.id, r.leaves)) = [(1, 10), (2, 2), (4, 5), (3, 5)]))
    (opening ++ [.addOrder (.mkLimit 1 1 .sell 100 10), .addOrder (.mkLimit 2 1 .sell 100 5), .addOrder (.mkLimit 3 1 .sell 101 5), .addOrder (.mkLimit 4 1 .sell 100 5)])
    (.executeOrderAt 2 90 3) (by decide +kernel)

/-! ### C22 -/

/-- C22. `MitigateOrder(id, p, q)`: if no more than the executed quantity `e` is asked for, the order is cancelled without
execution. Otherwise its executions in the call and before together stay within `q`, and if it rests afterwards its leaves
quantity is exactly what is missing to `q`. -/
theorem C22_mitigate {g : Mgr} (hr : g.Reachable) {id p q : Nat} {g' : Mgr} {o : Order} {evs : List Event} (ha : g.Admissible (.mitigateOrder id p q))
    (hs : g.step (.mitigateOrder id p q) = .ok (g', .ok)) (hev : g'.ev = g.ev ++ evs) (ho : g.getOrder id = some o) :
    (q ≤ o.executed → g'.getOrder id = none ∧ execsOfId id evs = []) ∧
    (o.executed < q → o.executed + execTotal (execsOfId id evs) ≤ q ∧
      ∀ o', g'.getOrder id = some o' → o'.executed = o.executed + execTotal (execsOfId id evs) ∧ o'.executed + o'.leaves = q) := by
  have hs' : g.modifyOrder id p q true = .ok (g', .ok) := hs
  obtain ⟨o', h1, h2, h3⟩ := modify_life hr.minv ha.1 ha.2.1 ha.2.2 hs' hev
  rw [ho] at h1; cases h1
  have hl : (modified o p q true).leaves = if q > o.executed then q - o.executed else 0 := rfl
  have hq := ha.2.1
  constructor
  · intro hle
    exact h3 (by rw [hl, if_neg (by omega)])
  · intro hlt
    rw [if_pos hlt] at hl
    have key : ∀ x, Evo ⟨false, false, true⟩ (modified o p q true) (execsOfId id evs) x →
        x.executed = o.executed + execTotal (execsOfId id evs) ∧ x.executed + x.leaves = q := by
      intro x hx
      have e1 := hx.leaves
      have e2 := hx.executed (show o.executed < W64 by omega)
      rw [show (modified o p q true).executed = o.executed from rfl] at e2
      rw [hl] at e1
      rw [Nat.mod_eq_of_lt (by omega)] at e2
      omega
    rcases h2 (by omega) with ⟨x, a, b⟩ | ⟨a, x, b⟩
    · have := key x b
      refine ⟨by omega, ?_⟩
      intro o' ho'
      rw [a] at ho'; cases ho'
      exact this
    · have := key x b
      refine ⟨by omega, ?_⟩
      intro o' ho'
      rw [a] at ho'; cases ho'

/-- C22 for `ModifyOrder`: executions in the call stay within the new quantity, and the leaves quantity of the resting order is
the rest. -/
theorem C22_modify {g : Mgr} (hr : g.Reachable) {id p q : Nat} {g' : Mgr} {evs : List Event} (ha : g.Admissible (.modifyOrder id p q))
    (hs : g.step (.modifyOrder id p q) = .ok (g', .ok)) (hev : g'.ev = g.ev ++ evs) :
    execTotal (execsOfId id evs) ≤ q ∧ ∀ o', g'.getOrder id = some o' → o'.leaves + execTotal (execsOfId id evs) = q := by
  have hs' : g.modifyOrder id p q false = .ok (g', .ok) := hs
  obtain ⟨o, h1, h2, h3⟩ := modify_life hr.minv ha.1 ha.2.1 ha.2.2 hs' hev
  have hl : (modified o p q false).leaves = q := rfl
  have hq : 0 < q := by
    unfold Mgr.modifyOrder at hs'
    by_cases h0 : id = 0
    · rw [if_pos h0] at hs'; cases hs'
    by_cases h1 : q = 0
    · rw [if_neg h0, if_pos h1] at hs'; cases hs'
    omega
  rcases h2 (by omega) with ⟨x, a, b⟩ | ⟨a, x, b⟩
  · have := b.leaves
    refine ⟨by omega, ?_⟩
    intro o' ho'
    rw [a] at ho'; cases ho'
    omega
  · have := b.leaves
    exact ⟨by omega, fun o' ho' => by rw [a] at ho'; cases ho'⟩

/-- With matching off, the mitigated order rests with leaves quantity `q - e`. -/
theorem C22_mitigate_rests {g : Mgr} (hr : g.Reachable) {id p q : Nat} {g' : Mgr} {o : Order} (ha : g.Admissible (.mitigateOrder id p q))
    (hs : g.step (.mitigateOrder id p q) = .ok (g', .ok)) (ho : g.getOrder id = some o) (hm : g.matching = false) (hq : o.executed < q) :
    g'.getOrder id = some { o with price := p, quantity := q, leaves := q - o.executed } := by
  have hs' : g.modifyOrder id p q true = .ok (g', .ok) := hs
  obtain ⟨o', h1, evs, rest, h2, h3, h4⟩ := modify_call hr.minv ha.1 ha.2.1 ha.2.2 hs'
  rw [ho] at h1; cases h1
  obtain ⟨_, h5⟩ := h4 (by rw [hm]; simp)
  rw [hm] at h5
  have hr' : g'.Reachable := .step hr ha hs
  have hok := (hr.minv.orders id o (by rw [← hr.minv.getOrder]; exact ho)).2
  have hmod : modified o p q true = { o with price := p, quantity := q, leaves := q - o.executed } := by
    unfold modified; simp [hq]
  rw [hmod] at h5
  obtain ⟨k, hk⟩ := kind_of_notMarket hok.notMarket
  have hk' : ({ o with price := p, quantity := q, leaves := q - o.executed } : Order).home.map (·.1) = some k := by
    rw [home_kind]; exact hk
  obtain ⟨pre, post, a, b, c, d⟩ := moved_place (sym := o.symbolId) (id := id) hr hk' ⟨by show 0 < q - o.executed; omega, hok.notMarket, hok.tif⟩
  have hmem : ({ o with price := p, quantity := q, leaves := q - o.executed } : Order) ∈ g'.lines o.symbolId k := by
    rw [h5]; unfold Lines.set; rw [if_pos rfl, b]; simp
  have hb' : g'.getBook o.symbolId ≠ none := by
    intro hb
    rw [lines_none (by exact hb)] at hmem; cases hmem
  have := ((lines_complete hr' hb').1 hmem).1
  have hid := own_id hr ho
  subst hid
  exact this

/-- C22 applies: 4 of 10 lots are executed; the order is mitigated to 7 (and re-matched), another one to 3. -/
example : ∃ (g g' : Mgr) (e : ErrorCode), g.Reachable ∧ g.Admissible (.mitigateOrder 1 105 7) ∧ g.step (.mitigateOrder 1 105 7) = .ok (g', e) ∧
    (decide (e = .ok) && decide ((g.getOrder 1).map (fun (o : Order) => (o.executed, o.leaves)) = some (4, 6)) &&
      decide ((g'.getOrder 1).map (fun (o : Order) => (o.executed, o.leaves)) = some (6, 1))) = true :=
  demoStep (p := fun g g' e => decide (e = .ok) && decide ((g.getOrder 1).map (fun (o : Order) => (o.executed, o.leaves)) = some (4, 6)) &&
      decide ((g'.getOrder 1).map (fun (o : Order) => (o.executed, o.leaves)) = some (6, 1)))
    (trading ++ [.addOrder (.mkLimit 1 1 .buy 100 10), .addOrder (.mkLimit 2 1 .sell 100 4), .addOrder (.mkLimit 3 1 .sell 105 2)])
    (.mitigateOrder 1 105 7) (by decide +kernel)
example : ∃ (g g' : Mgr) (e : ErrorCode), g.Reachable ∧ g.Admissible (.mitigateOrder 1 105 4) ∧ g.step (.mitigateOrder 1 105 4) = .ok (g', e) ∧
    (decide (e = .ok) && decide ((g.getOrder 1).map (fun (o : Order) => (o.executed, o.leaves)) = some (4, 6)) && (g'.getOrder 1).isNone) = true :=
  demoStep (p := fun g g' e => decide (e = .ok) && decide ((g.getOrder 1).map (fun (o : Order) => (o.executed, o.leaves)) = some (4, 6)) && (g'.getOrder 1).isNone)
    (trading ++ [.addOrder (.mkLimit 1 1 .buy 100 10), .addOrder (.mkLimit 2 1 .sell 100 4), .addOrder (.mkLimit 3 1 .sell 105 2)])
    (.mitigateOrder 1 105 4) (by decide +kernel)

/-! ### C23 -/

/-- C23 for every state: if nothing can be matched afterwards (`quiet_move` gives conditions for that), the effect of the call
is that the old order leaves its line and then the new one, with the new id, price and quantity, nothing executed, and all
other fields of the old one, is treated like a newcomer. -/
theorem C23_replace {g : Mgr} (hr : g.Reachable) {id n p q : Nat} {g' : Mgr} {e : ErrorCode} {o : Order} {evs : List Event}
    (ha : g.Admissible (.replaceOrder id n p q)) (hs : g.step (.replaceOrder id n p q) = .ok (g', e)) (hev : g'.ev = g.ev ++ evs)
    (ho : g.getOrder id = some o) (hn : g.refusal (.replaceOrder id n p q) = none) (hf : g.FreshId (.replaceOrder id n p q))
    (hq : g.matching = true → (((g.lines o.symbolId).change id none).arrive true
      { o with id := n, price := p, quantity := q, executed := 0, leaves := q }).2.quiet) :
    e = .ok ∧
    execsOf evs = (((g.lines o.symbolId).change id none).arrive g.matching { o with id := n, price := p, quantity := q, executed := 0, leaves := q }).1 ∧
    g'.lines = g.lines.set o.symbolId
      (((g.lines o.symbolId).change id none).arrive g.matching { o with id := n, price := p, quantity := q, executed := 0, leaves := q }).2 := by
  have hs' : g.replaceOrder id n p q = .ok (g', e) := hs
  have he : e = .ok := by
    rcases C43_carried_out hr hn ha hs (by simp) with h | ⟨_, h⟩
    · exact h
    · exact absurd hf h
  obtain ⟨o', h1, evs', rest, h2, h3, h4⟩ := replace_call hr.minv ha.1 ha.2.1 ha.2.2.1 ha.2.2.2 hs' hn
  rw [ho] at h1; cases h1
  rw [hev] at h2; cases List.append_cancel_left h2
  obtain ⟨rfl, h5⟩ := h4 fun hm => by rw [hm]; exact hq hm
  exact ⟨he, by rw [h3, List.append_nil], h5 he⟩

theorem bookSymbol_iff {g g' : Mgr} (h : g'.bookSymbol = g.bookSymbol) (i : Nat) : g'.getBook i ≠ none ↔ g.getBook i ≠ none := by
  unfold Ne
  rw [← bookSymbol_none (g := g'), ← bookSymbol_none (g := g), h]

/-- C23 with matching off: the old order is gone (unless its id is reused), the new one stands behind all orders of its price,
and no other order has changed. -/
theorem C23_replace_rests {g : Mgr} (hr : g.Reachable) {id n p q : Nat} {g' : Mgr} {e : ErrorCode} {o : Order} {k : Kind}
    (ha : g.Admissible (.replaceOrder id n p q)) (hs : g.step (.replaceOrder id n p q) = .ok (g', e))
    (ho : g.getOrder id = some o) (hn : g.refusal (.replaceOrder id n p q) = none) (hf : g.FreshId (.replaceOrder id n p q))
    (hm : g.matching = false) (hk : o.home.map (·.1) = some k) :
    e = .ok ∧
    g'.getOrder = (fun i => if i = n then some { o with id := n, price := p, quantity := q, executed := 0, leaves := q }
      else if i = id then none else g.getOrder i) ∧
    ∃ pre post, (g.lines o.symbolId k).filter (fun r => decide (r.id ≠ id)) = pre ++ post ∧
      g'.lines o.symbolId k = pre ++ { o with id := n, price := p, quantity := q, executed := 0, leaves := q } :: post ∧
      (∀ r ∈ pre, ¬ ({ o with id := n, price := p, quantity := q, executed := 0, leaves := q } : Order).beats k r) ∧
      ∀ r ∈ post, ({ o with id := n, price := p, quantity := q, executed := 0, leaves := q } : Order).beats k r := by
  have hr' : g'.Reachable := .step hr ha hs
  have hi := hr.minv
  have hi' := hr'.minv
  obtain ⟨evs, hev⟩ := events_appended hr ha hs
  obtain ⟨he, _, h2⟩ := C23_replace hr ha hs hev ho hn hf (by rw [hm]; simp)
  rw [hm] at h2
  generalize ht : ({ o with id := n, price := p, quantity := q, executed := 0, leaves := q } : Order) = t at h2 ⊢
  have hid := own_id hr ho
  have htid : t.id = n := by rw [← ht]
  have htsym : t.symbolId = o.symbolId := by rw [← ht]
  have hok := (hi.orders id o (by rw [← hi.getOrder]; exact ho)).2
  have hb : g.getBook o.symbolId ≠ none := by
    intro hb
    simp only [Mgr.refusal, ho, hb, if_true] at hn
    repeat' split at hn
    all_goals (first | cases hn | contradiction)
  have hq0 : 0 < q := by
    simp only [Mgr.refusal] at hn
    by_cases h0 : id = 0 ∨ n = 0
    · rw [if_pos h0] at hn; cases hn
    by_cases h1 : q = 0
    · rw [if_neg h0, if_pos h1] at hn; cases hn
    omega
  have hkt : t.home.map (·.1) = some k := by
    rw [← ht]; rw [home_kind] at hk ⊢; exact hk
  have hrest : t.rests := by rw [← ht]; exact ⟨hq0, hok.notMarket, hok.tif⟩
  have hbs : g'.bookSymbol = g.bookSymbol := by
    cases hr.eff ha hs with
    | refused h => rw [h.1]
    | book on h => exact h.bookSymbol hi
  have hb' : g'.getBook o.symbolId ≠ none := (bookSymbol_iff hbs _).2 hb
  obtain ⟨pre, post, a, b, c, d⟩ := moved_place (sym := o.symbolId) (id := id) hr hkt hrest
  have hlk : g'.lines o.symbolId k = pre ++ t :: post := by rw [h2]; unfold Lines.set; rw [if_pos rfl, b]
  have hlo : ∀ k', k' ≠ k → g'.lines o.symbolId k' = (g.lines o.symbolId k').filter (fun r => decide (r.id ≠ id)) := by
    intro k' hne
    rw [h2]; unfold Lines.set; rw [if_pos rfl]
    unfold Board.arrive
    simp only [Bool.false_eq_true, if_false, if_pos hrest]
    unfold Board.insert
    rw [hkt, if_neg (fun h => hne (Option.some.inj h).symm), change_none]
  have hmem : ∀ k' r, r ∈ g'.lines o.symbolId k' ↔ (k' = k ∧ r = t) ∨ (r ∈ g.lines o.symbolId k' ∧ r.id ≠ id) := by
    intro k' r
    by_cases hkk : k' = k
    · subst hkk
      rw [hlk]
      have : r ∈ pre ++ post ↔ r ∈ g.lines o.symbolId k' ∧ r.id ≠ id := by rw [← a]; simp
      rw [← this]; simp only [List.mem_append, List.mem_cons]; constructor
      · rintro (h | rfl | h)
        · exact .inr (.inl h)
        · exact .inl ⟨trivial, rfl⟩
        · exact .inr (.inr h)
      · rintro (⟨_, rfl⟩ | h | h)
        · exact .inr (.inl rfl)
        · exact .inl h
        · exact .inr (.inr h)
    · rw [hlo k' hkk]; simp [hkk]
  refine ⟨he, ?_, pre, post, a, hlk, c, d⟩
  have hn' : g'.getOrder n = some t := by
    have := ((lines_complete hr' hb').1 ((hmem k t).2 (.inl ⟨rfl, rfl⟩))).1
    rw [htid] at this; exact this
  have hiso : ∀ i r, r.symbolId ≠ o.symbolId → (g'.getOrder i = some r ↔ g.getOrder i = some r) := by
    intro i r hne
    exact (C31_isolation hr ha hs (sym := r.symbolId) (by
      rintro ⟨x, h1, h2⟩
      rw [ho] at h1; cases h1
      exact hne h2.symm)).2.2.1 i r rfl
  have kindOf : ∀ {G : Mgr} (hG : G.Reachable) {i r}, G.getOrder i = some r → ∃ k', r.home.map (·.1) = some k' := by
    intro G hG i r h
    rw [hG.minv.getOrder] at h
    obtain ⟨k', hk'⟩ := kind_of_notMarket (hG.minv.orders i r h).2.notMarket
    exact ⟨k', by rw [home_kind]; exact hk'⟩
  funext i
  by_cases e1 : i = n
  · rw [if_pos e1, e1]; exact hn'
  rw [if_neg e1]
  have fwd : ∀ r, g'.getOrder i = some r → g.getOrder i = some r ∧ i ≠ id := by
    intro r h
    have hri := own_id hr' h
    by_cases hs1 : r.symbolId = o.symbolId
    · obtain ⟨k', hk'⟩ := kindOf hr' h
      have := (lines_complete hr' hb' (k := k') (r := r)).2 ⟨by rw [hri]; exact h, hs1, hk'⟩
      rcases (hmem k' r).1 this with ⟨_, rfl⟩ | ⟨h1, h2⟩
      · exact absurd (hri.symm.trans htid) e1
      · have := ((lines_complete hr hb).1 h1).1
        rw [hri] at this
        exact ⟨this, by rw [← hri]; exact h2⟩
    · have h3 := (hiso i r hs1).1 h
      refine ⟨h3, fun e => ?_⟩
      rw [e, ho] at h3; cases h3
      exact hs1 rfl
  by_cases e2 : i = id
  · rw [if_pos e2]
    cases h : g'.getOrder i with
    | none => rfl
    | some r => exact absurd e2 (fwd r h).2
  · rw [if_neg e2]
    cases h : g'.getOrder i with
    | some r => rw [(fwd r h).1]
    | none =>
      cases h' : g.getOrder i with
      | none => rfl
      | some r =>
        exfalso
        have hri := own_id hr h'
        by_cases hs1 : r.symbolId = o.symbolId
        · obtain ⟨k', hk'⟩ := kindOf hr h'
          have := (lines_complete hr hb (k := k') (r := r)).2 ⟨by rw [hri]; exact h', hs1, hk'⟩
          have := ((lines_complete hr' hb').1 ((hmem k' r).2 (.inr ⟨this, by rw [hri]; exact e2⟩))).1
          rw [hri, h] at this; cases this
        · rw [(hiso i r hs1).2 h'] at h; cases h

/-- C23 applies: an order in the middle of a level is replaced at another price. -/
example : ∃ (g g' : Mgr) (e : ErrorCode), g.Reachable ∧ g.Admissible (.replaceOrder 2 7 101 9) ∧ g.step (.replaceOrder 2 7 101 9) = .ok (g', e) ∧
    (decide (e = .ok) && !g.matching && decide (g.refusal (.replaceOrder 2 7 101 9) = none) && (g.getOrder 7).isNone &&
      decide ((g.lines 1 .ask).map (·.id) = [1, 2, 4, 3]) && decide ((g'.lines 1 .ask).map (fun (r : Order) => (r.id, r.leaves, r.tif, r.maxVisible)) =
        [(1, 10, .gtc, MAX64), (4, 5, .gtc, MAX64), (3, 5, .gtc, MAX64), (7, 9, .aon, 2)])) = true :=
  demoStep (p := fun g g' e => decide (e = .ok) && !g.matching && decide (g.refusal (.replaceOrder 2 7 101 9) = none) && (g.getOrder 7).isNone &&
      decide ((g.lines 1 .ask).map (·.id) = [1, 2, 4, 3]) && decide ((g'.lines 1 .ask).map (fun (r : Order) => (r.id, r.leaves, r.tif, r.maxVisible)) =
        [(1, 10, .gtc, MAX64), (4, 5, .gtc, MAX64), (3, 5, .gtc, MAX64), (7, 9, .aon, 2)]))
    (opening ++ [.addOrder (.mkLimit 1 1 .sell 100 10), .addOrder (.mkLimit 2 1 .sell 100 5 .aon 2), .addOrder (.mkLimit 3 1 .sell 101 5), .addOrder (.mkLimit 4 1 .sell 100 5)])
    (.replaceOrder 2 7 101 9) (by decide +kernel)

/-- With an id in use the old order is lost and ORDER_DUPLICATE is returned. -/
theorem C23_duplicate_witness : ∃ (g g' : Mgr) (e : ErrorCode), g.Reachable ∧ g.Admissible (.replaceOrder 2 1 101 9) ∧
    g.step (.replaceOrder 2 1 101 9) = .ok (g', e) ∧
    (decide (e = .orderDuplicate) && (g.getOrder 2).isSome && (g'.getOrder 2).isNone && decide (g'.getOrder 1 = g.getOrder 1)) = true :=
  demoStep (p := fun g g' e => decide (e = .orderDuplicate) && (g.getOrder 2).isSome && (g'.getOrder 2).isNone && decide (g'.getOrder 1 = g.getOrder 1))
    (opening ++ [.addOrder (.mkLimit 1 1 .sell 100 10), .addOrder (.mkLimit 2 1 .sell 100 5)]) (.replaceOrder 2 1 101 9) (by decide +kernel)

end CppTrader
