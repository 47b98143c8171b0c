import Verif.Proof.PitMgr
/-
How many executions a trading place makes: every two of them are paid for by an order that goes.
-/

namespace CppTrader
namespace Budget

open Core

/-! ### Counting the orders of a board -/

/-- The number of orders. -/
def cnt (l : Board) : Nat := (l .bid).length + (l .ask).length + (l .buyStop).length + (l .sellStop).length + (l .tBuyStop).length + (l .tSellStop).length

theorem cnt_eq (l : Board) : l.orders.length = cnt l := by
  simp only [Board.orders, Kind.all, List.flatMap_cons, List.flatMap_nil, List.append_nil, List.length_append, cnt]
  omega

/-- The quantity in one line. -/
def vol (rs : List Order) : Nat := (rs.map (·.leaves)).sum

theorem size_eq (l : Board) : l.size = vol (l .bid) + vol (l .ask) + vol (l .buyStop) + vol (l .sellStop) + vol (l .tBuyStop) + vol (l .tSellStop) := by
  simp only [Board.size, Kind.all, List.map_cons, List.map_nil, List.sum_cons, List.sum_nil, vol]
  omega

theorem vol_cons (r : Order) (rs : List Order) : vol (r :: rs) = r.leaves + vol rs := by
  unfold vol; rw [List.map_cons, List.sum_cons]

theorem vol_append (xs ys : List Order) : vol (xs ++ ys) = vol xs + vol ys := by
  unfold vol; rw [List.map_append, List.sum_append]

theorem vol_mem {r : Order} {rs : List Order} (h : r ∈ rs) : r.leaves ≤ vol rs := by
  induction rs with
  | nil => cases h
  | cons a rs ih =>
    rw [vol_cons]
    rcases List.mem_cons.1 h with rfl | h
    · omega
    · have := ih h; omega

/-- Six kinds, summed: one argument for all of them. -/
theorem six_le {f g : Kind → Nat} (h : ∀ k, f k ≤ g k) :
    f .bid + f .ask + f .buyStop + f .sellStop + f .tBuyStop + f .tSellStop ≤ g .bid + g .ask + g .buyStop + g .sellStop + g .tBuyStop + g .tSellStop := by
  have h1 := h .bid; have h2 := h .ask; have h3 := h .buyStop; have h4 := h .sellStop; have h5 := h .tBuyStop; have h6 := h .tSellStop
  omega

theorem six_lt {f g : Kind → Nat} (n : Nat) (h : ∀ k, f k ≤ g k) {k : Kind} (hk : f k + n ≤ g k) :
    f .bid + f .ask + f .buyStop + f .sellStop + f .tBuyStop + f .tSellStop + n ≤ g .bid + g .ask + g .buyStop + g .sellStop + g .tBuyStop + g .tSellStop := by
  have h1 := h .bid; have h2 := h .ask; have h3 := h .buyStop; have h4 := h .sellStop; have h5 := h .tBuyStop; have h6 := h .tSellStop
  cases k <;> omega

/-- Ids are distinct. -/
structure Neat (l : Board) : Prop where
  line : ∀ k, ((l k).map (·.id)).Nodup
  cross : ∀ k k' r r', r ∈ l k → r' ∈ l k' → r.id = r'.id → k = k'

theorem Neat.one {l : Board} (h : Neat l) {k : Kind} {r r' : Order} (hr : r ∈ l k) (hr' : r' ∈ l k) (e : r.id = r'.id) : r = r' := by
  have hn := h.line k
  revert hn hr hr'
  generalize l k = rs
  induction rs with
  | nil => intro h; cases h
  | cons a rs ih =>
    intro h1 h2 hn
    rw [List.map_cons, List.nodup_cons] at hn
    rcases List.mem_cons.1 h1 with g1 | g1 <;> rcases List.mem_cons.1 h2 with g2 | g2
    · rw [g1, g2]
    · exact absurd (List.mem_map.2 ⟨r', g2, by rw [← e, g1]⟩) hn.1
    · exact absurd (List.mem_map.2 ⟨r, g1, by rw [e, g2]⟩) hn.1
    · exact ih g1 g2 hn.2

/-- Lines that only lost orders (or had some of them reduced). -/
theorem Neat.sub {l l' : Board} (h : Neat l) (hs : ∀ k, ((l' k).map (·.id)).Sublist ((l k).map (·.id))) : Neat l' where
  line k := (hs k).nodup (h.line k)
  cross k k' r r' hr hr' e := by
    obtain ⟨x, hx, ex⟩ := List.mem_map.1 ((hs k).subset (List.mem_map.2 ⟨r, hr, rfl⟩))
    obtain ⟨y, hy, ey⟩ := List.mem_map.1 ((hs k').subset (List.mem_map.2 ⟨r', hr', rfl⟩))
    exact h.cross k k' x y hx hy (by rw [ex, ey, e])

/-! ### Changes -/

theorem chg_ids {id : Nat} {v : Option Order} (hv : ∀ o, v = some o → o.id = id) (rs : List Order) :
    ((chg id v rs).map (·.id)).Sublist (rs.map (·.id)) := by
  unfold chg
  induction rs with
  | nil => exact List.Sublist.refl _
  | cons r rs ih =>
    by_cases c : r.id = id
    · cases v with
      | none => rw [List.filterMap_cons_none (by simp [c])]; exact ih.cons _
      | some o =>
        rw [List.filterMap_cons_some (b := o) (by simp [c]), List.map_cons, List.map_cons, hv o rfl, c]
        exact ih.cons_cons _
    · rw [List.filterMap_cons_some (b := r) (by simp [c])]
      exact ih.cons_cons _

theorem chg_len (id : Nat) (v : Option Order) (rs : List Order) : (chg id v rs).length ≤ rs.length := by
  unfold chg; exact List.length_filterMap_le _ _

theorem chg_len_mem {r : Order} {rs : List Order} (h : r ∈ rs) : (chg r.id none rs).length + 1 ≤ rs.length := by
  unfold chg
  induction rs with
  | nil => cases h
  | cons a rs ih =>
    by_cases c : a.id = r.id
    · rw [List.filterMap_cons_none (by simp [c])]
      have := chg_len r.id none rs
      unfold chg at this
      simp only [List.length_cons]; omega
    · rw [List.filterMap_cons_some (b := a) (by simp [c])]
      rcases List.mem_cons.1 h with rfl | h
      · exact absurd rfl c
      · have := ih h
        simp only [List.length_cons]; omega

theorem chg_vol {id : Nat} {v : Option Order} (rs : List Order) (hv : ∀ o, v = some o → ∀ r ∈ rs, r.id = id → o.leaves ≤ r.leaves) :
    vol (chg id v rs) ≤ vol rs := by
  unfold chg
  induction rs with
  | nil => exact Nat.le_refl _
  | cons a rs ih =>
    have ih := ih (fun o ho r hr => hv o ho r (List.mem_cons_of_mem _ hr))
    rw [vol_cons]
    by_cases c : a.id = id
    · cases v with
      | none => rw [List.filterMap_cons_none (by simp [c])]; omega
      | some o =>
        rw [List.filterMap_cons_some (b := o) (by simp [c]), vol_cons]
        have := hv o rfl a List.mem_cons_self c
        omega
    · rw [List.filterMap_cons_some (b := a) (by simp [c]), vol_cons]
      omega

theorem chg_vol_mem {r : Order} {rs : List Order} (h : r ∈ rs) : vol (chg r.id none rs) + r.leaves ≤ vol rs := by
  unfold chg
  induction rs with
  | nil => cases h
  | cons a rs ih =>
    rw [vol_cons]
    by_cases c : a.id = r.id
    · rw [List.filterMap_cons_none (by simp [c])]
      rcases List.mem_cons.1 h with rfl | h
      · have := chg_vol (id := r.id) (v := none) rs (by intro o ho; cases ho)
        unfold chg at this
        omega
      · have := ih h
        omega
    · rw [List.filterMap_cons_some (b := a) (by simp [c]), vol_cons]
      rcases List.mem_cons.1 h with rfl | h
      · exact absurd rfl c
      · have := ih h
        omega

/-- What is kept when a line or a board is changed. -/
theorem change_le (l : Board) (id : Nat) (v : Option Order) : cnt (l.change id v) ≤ cnt l :=
  six_le (f := fun k => ((l.change id v) k).length) (g := fun k => (l k).length) (fun k => chg_len id v (l k))

theorem change_lt {l : Board} {k : Kind} {r : Order} (h : r ∈ l k) : cnt (l.change r.id none) + 1 ≤ cnt l :=
  six_lt (f := fun k => ((l.change r.id none) k).length) (g := fun k => (l k).length) 1 (fun k => chg_len r.id none (l k)) (chg_len_mem h)

theorem change_size {l : Board} {id : Nat} {v : Option Order} (hv : ∀ o, v = some o → ∀ k, ∀ r ∈ l k, r.id = id → o.leaves ≤ r.leaves) :
    (l.change id v).size ≤ l.size := by
  rw [size_eq, size_eq]
  exact six_le (f := fun k => vol ((l.change id v) k)) (g := fun k => vol (l k)) (fun k => chg_vol (l k) (fun o ho => hv o ho k))

theorem change_size_mem {l : Board} {k : Kind} {r : Order} (h : r ∈ l k) : (l.change r.id none).size + r.leaves ≤ l.size := by
  rw [size_eq, size_eq]
  exact six_lt (f := fun k => vol ((l.change r.id none) k)) (g := fun k => vol (l k)) r.leaves
    (fun k => chg_vol (l k) (by intro o ho; cases ho)) (chg_vol_mem h)

theorem change_neat {l : Board} (h : Neat l) {id : Nat} {v : Option Order} (hv : ∀ o, v = some o → o.id = id) : Neat (l.change id v) :=
  h.sub (fun k => chg_ids hv (l k))

theorem change_keep {l : Board} {k : Kind} {id : Nat} {v : Option Order} {r : Order} (h : r ∈ l k) (hne : r.id ≠ id) : r ∈ (l.change id v) k :=
  chg_keep h hne

theorem change_gone {l : Board} {id : Nat} {k : Kind} {r : Order} (h : r ∈ (l.change id none) k) : r.id ≠ id := by
  obtain ⟨x, _, e⟩ := List.mem_filterMap.1 h
  by_cases c : x.id = id
  · rw [if_pos c] at e; cases e
  · rw [if_neg c] at e; cases e; exact c

/-! ### Joining a line -/

theorem enqueue_len (k : Kind) (t : Order) (rs : List Order) : (enqueue k t rs).length = rs.length + 1 := by
  induction rs with
  | nil => rfl
  | cons r rs ih =>
    unfold enqueue
    split
    · rfl
    · simp only [List.length_cons, ih]

theorem enqueue_vol (k : Kind) (t : Order) (rs : List Order) : vol (enqueue k t rs) = vol rs + t.leaves := by
  induction rs with
  | nil => simp [enqueue, vol]
  | cons r rs ih =>
    unfold enqueue
    split
    · rw [vol_cons]; omega
    · rw [vol_cons, vol_cons, ih]; omega

theorem enqueue_nodup {k : Kind} {t : Order} {rs : List Order} (h : (rs.map (·.id)).Nodup) (ht : ∀ r ∈ rs, r.id ≠ t.id) :
    ((enqueue k t rs).map (·.id)).Nodup := by
  induction rs with
  | nil => simp [enqueue]
  | cons r rs ih =>
    unfold enqueue
    split
    · rw [List.map_cons, List.nodup_cons]
      refine ⟨fun hm => ?_, h⟩
      obtain ⟨x, hx, e⟩ := List.mem_map.1 hm
      exact ht x hx e
    · rw [List.map_cons, List.nodup_cons] at h ⊢
      refine ⟨fun hm => ?_, ih h.2 (fun x hx => ht x (List.mem_cons_of_mem _ hx))⟩
      obtain ⟨x, hx, e⟩ := List.mem_map.1 hm
      rcases enqueue_mem.1 hx with rfl | hx
      · exact ht r List.mem_cons_self e.symm
      · exact h.1 (List.mem_map.2 ⟨x, hx, e⟩)

theorem insert_cases (l : Board) (t : Order) : l.insert t = l ∨ ∃ k, l.insert t = l.put k (enqueue k t (l k)) := by
  cases hh : t.home with
  | none =>
    refine .inl (funext fun k => ?_)
    unfold Board.insert
    rw [hh]
    rw [if_neg (by simp)]
  | some a =>
    refine .inr ⟨a.1, funext fun k => ?_⟩
    unfold Board.insert Board.put
    rw [hh]
    by_cases c : k = a.1
    · subst c; rw [if_pos (by simp), if_pos rfl]
    · rw [if_neg (by simpa using fun e => c e.symm), if_neg c]

theorem put_cnt (l : Board) (k : Kind) (rs : List Order) : cnt (l.put k rs) + (l k).length = cnt l + rs.length := by
  unfold cnt Board.put
  cases k <;> simp <;> omega

theorem put_size (l : Board) (k : Kind) (rs : List Order) : (l.put k rs).size + vol (l k) = l.size + vol rs := by
  rw [size_eq, size_eq]
  unfold Board.put
  cases k <;> simp <;> omega

theorem insert_cnt (l : Board) (t : Order) : cnt (l.insert t) ≤ cnt l + 1 := by
  rcases insert_cases l t with h | ⟨k, h⟩
  · rw [h]; omega
  · rw [h]
    have := put_cnt l k (enqueue k t (l k))
    rw [enqueue_len] at this
    omega

theorem insert_size (l : Board) (t : Order) : (l.insert t).size ≤ l.size + t.leaves := by
  rcases insert_cases l t with h | ⟨k, h⟩
  · rw [h]; omega
  · rw [h]
    have := put_size l k (enqueue k t (l k))
    rw [enqueue_vol] at this
    omega

theorem insert_keep {l : Board} {t r : Order} {k : Kind} (h : r ∈ l k) : r ∈ (l.insert t) k := by
  unfold Board.insert
  split
  · exact enqueue_mem.2 (.inr h)
  · exact h

theorem insert_neat {l : Board} (h : Neat l) {t : Order} (ht : ∀ k, ∀ r ∈ l k, r.id ≠ t.id) : Neat (l.insert t) := by
  have hm : ∀ k r, r ∈ (l.insert t) k → (r = t ∧ t.home.map (·.1) = some k) ∨ r ∈ l k := by
    intro k r hr
    unfold Board.insert at hr
    split at hr
    · next c =>
      rcases enqueue_mem.1 hr with rfl | hr
      · exact .inl ⟨rfl, c⟩
      · exact .inr hr
    · exact .inr hr
  refine ⟨fun k => ?_, fun k k' r r' hr hr' e => ?_⟩
  · unfold Board.insert
    split
    · exact enqueue_nodup (h.line k) (ht k)
    · exact h.line k
  · rcases hm k r hr with ⟨g1, c⟩ | g1 <;> rcases hm k' r' hr' with ⟨g2, c'⟩ | g2
    · rw [c] at c'; cases c'; rfl
    · exact absurd (by rw [← e, g1]) (ht k' r' g2)
    · exact absurd (by rw [e, g2]) (ht k r g1)
    · exact h.cross k k' r r' g1 g2 e

/-! ### Incoming orders -/

theorem greedy_done {t : Order} (h : t.leaves = 0) (rs : List Order) : greedy t rs = [] ∧ greedyLeft t rs = t := by
  cases rs with
  | nil => exact ⟨rfl, rfl⟩
  | cons r rs => unfold greedy greedyLeft; rw [if_pos (show t.stopsAt r from .inl h), if_pos (show t.stopsAt r from .inl h)]; exact ⟨rfl, rfl⟩

/-- An order still in hand. -/
def hand (t : Order) : Nat := if t.leaves = 0 then 0 else 1

theorem hand_le (t : Order) : hand t ≤ 1 := by unfold hand; split <;> omega

theorem greedy_paid (rs : List Order) : ∀ t : Order,
    (greedy t rs).length + 2 * ((greedyRest t rs).length + hand (greedyLeft t rs)) ≤ 2 * (rs.length + 1) := by
  induction rs with
  | nil => intro t; have := hand_le t; simp only [greedy, greedyRest, greedyLeft, List.length_nil]; omega
  | cons r rs ih =>
    intro t
    have hl := hand_le t
    unfold greedy greedyRest greedyLeft
    by_cases c : t.stopsAt r
    · simp only [if_pos c, List.length_nil, List.length_cons]; omega
    · simp only [if_neg c, List.length_cons]
      by_cases d : min r.leaves t.leaves = r.leaves
      · simp only [if_pos d]
        have := ih (t.afterExec (min r.leaves t.leaves))
        omega
      · simp only [if_neg d, List.length_cons]
        have h0 : (t.afterExec (min r.leaves t.leaves)).leaves = 0 := by simp only [Order.afterExec]; omega
        rw [(greedy_done h0 rs).1, (greedy_done h0 rs).2]
        have : hand (t.afterExec (min r.leaves t.leaves)) = 0 := by unfold hand; rw [if_pos h0]
        rw [this]
        simp only [List.length_nil]; omega

theorem greedy_rest (rs : List Order) : ∀ t : Order, ((greedyRest t rs).map (·.id)).Sublist (rs.map (·.id)) ∧
    vol (greedyRest t rs) ≤ vol rs := by
  induction rs with
  | nil => intro t; exact ⟨List.Sublist.refl _, Nat.le_refl _⟩
  | cons r rs ih =>
    intro t
    unfold greedyRest
    by_cases c : t.stopsAt r
    · rw [if_pos c]; exact ⟨List.Sublist.refl _, Nat.le_refl _⟩
    · rw [if_neg c]
      by_cases d : min r.leaves t.leaves = r.leaves
      · simp only [if_pos d]
        have := ih (t.afterExec (min r.leaves t.leaves))
        rw [vol_cons]
        exact ⟨this.1.cons _, by omega⟩
      · simp only [if_neg d]
        rw [vol_cons, vol_cons]
        exact ⟨List.Sublist.refl _, by simp only [Order.afterExec]; omega⟩

theorem greedy_left (rs : List Order) : ∀ t : Order, (greedyLeft t rs).id = t.id ∧ (greedyLeft t rs).leaves ≤ t.leaves := by
  induction rs with
  | nil => intro t; exact ⟨rfl, Nat.le_refl _⟩
  | cons r rs ih =>
    intro t
    unfold greedyLeft
    by_cases c : t.stopsAt r
    · rw [if_pos c]; exact ⟨rfl, Nat.le_refl _⟩
    · rw [if_neg c]
      have := ih (t.afterExec (min r.leaves t.leaves))
      simp only [Order.afterExec] at this ⊢
      exact ⟨this.1, by omega⟩

theorem afterChain_rest (xs : List (Order × Nat)) : ∀ rs : List Order, ((afterChain xs rs).map (·.id)).Sublist (rs.map (·.id)) ∧
    vol (afterChain xs rs) ≤ vol rs ∧ (afterChain xs rs).length ≤ rs.length := by
  induction xs with
  | nil => intro rs; simp only [afterChain]; exact ⟨List.Sublist.refl _, Nat.le_refl _, Nat.le_refl _⟩
  | cons x xs ih =>
    intro rs
    cases rs with
    | nil => exact ⟨List.Sublist.refl _, Nat.le_refl _, Nat.le_refl _⟩
    | cons r rs =>
      have := ih rs
      unfold afterChain
      split
      · rw [vol_cons, vol_cons]
        simp only [List.map_cons, List.length_cons]
        exact ⟨this.1.cons_cons _, by simp only [Order.afterExec]; omega, by omega⟩
      · rw [vol_cons]
        simp only [List.map_cons, List.length_cons]
        exact ⟨this.1.cons _, by omega, by omega⟩

theorem chain_paid {t : Order} (rs : List Order) : ∀ {need : Nat} {xs : List (Order × Nat)}, chain t need rs = some xs →
    xs.length + 1 + 2 * (afterChain xs rs).length ≤ 2 * (rs.length + 1) := by
  induction rs with
  | nil => intro need xs h; simp [chain] at h
  | cons r rs ih =>
    intro need xs h
    unfold chain at h
    by_cases c : need = 0 ∨ ¬ t.accepts r.price
    · rw [if_pos c] at h; cases h
    · rw [if_neg c] at h
      simp only [] at h
      generalize hq : (if r.isAON then r.leaves else min r.leaves need) = q at h
      by_cases d : q = need
      · rw [if_pos d] at h
        cases h
        have := (afterChain_rest [(r, q)] (r :: rs)).2.2
        simp only [List.length_cons, List.length_nil] at this ⊢; omega
      · rw [if_neg d] at h
        by_cases e : need < q
        · rw [if_pos e] at h; cases h
        · rw [if_neg e] at h
          obtain ⟨ys, hy, rfl⟩ := Option.map_eq_some_iff.1 h
          have hr : q = r.leaves := by
            by_cases a : r.isAON
            · rw [if_pos a] at hq; exact hq.symm
            · rw [if_neg a] at hq; omega
          have := ih hy
          unfold afterChain
          rw [if_neg (by omega)]
          simp only [List.length_cons]; omega

theorem taker_paid (t : Order) (rs : List Order) :
    (t.fills rs).length + 2 * ((t.leaveLine rs).length + hand (t.left rs)) ≤ 2 * (rs.length + 1) := by
  have hl := hand_le t
  unfold Order.fills Order.leaveLine Order.left
  by_cases w : t.whole
  · rw [if_pos w, if_pos w, if_pos w]
    cases h : chain t t.leaves rs with
    | none => simp only [List.length_nil]; omega
    | some xs =>
      have h0 : hand (t.afterExec t.leaves) = 0 := by unfold hand; rw [if_pos (by simp only [Order.afterExec]; omega)]
      have := chain_paid rs h
      simp only [List.length_append, List.length_map, List.length_cons, List.length_nil]
      omega
  · rw [if_neg w, if_neg w, if_neg w]
    exact greedy_paid rs t

theorem taker_rest (t : Order) (rs : List Order) : ((t.leaveLine rs).map (·.id)).Sublist (rs.map (·.id)) ∧ vol (t.leaveLine rs) ≤ vol rs := by
  unfold Order.leaveLine
  by_cases w : t.whole
  · rw [if_pos w]
    cases h : chain t t.leaves rs with
    | none => exact ⟨List.Sublist.refl _, Nat.le_refl _⟩
    | some xs => exact ⟨(afterChain_rest xs rs).1, (afterChain_rest xs rs).2.1⟩
  · rw [if_neg w]; exact greedy_rest rs t

theorem taker_left (t : Order) (rs : List Order) : (t.left rs).id = t.id ∧ (t.left rs).leaves ≤ t.leaves := by
  unfold Order.left
  by_cases w : t.whole
  · rw [if_pos w]
    cases h : chain t t.leaves rs with
    | none => exact ⟨rfl, Nat.le_refl _⟩
    | some xs => exact ⟨rfl, by simp only [Order.afterExec]; omega⟩
  · rw [if_neg w]; exact greedy_left rs t

theorem capped_same (t : Order) (rs : List Order) : (t.capped rs).id = t.id ∧ (t.capped rs).leaves = t.leaves := by
  unfold Order.capped
  split
  · exact ⟨rfl, rfl⟩
  · exact ⟨rfl, rfl⟩

/-- An order in hand is executed against a board. -/
theorem strike_paid (m : Bool) {l : Board} (h : Neat l) (t : Order) :
    (l.strike m t).1.length + 2 * (cnt (l.strike m t).2.2 + hand (l.strike m t).2.1) ≤ 2 * (cnt l + 1) ∧
    Neat (l.strike m t).2.2 ∧ (l.strike m t).2.2.size ≤ l.size ∧ (l.strike m t).2.1.id = t.id ∧ (l.strike m t).2.1.leaves ≤ t.leaves ∧
    (∀ k r, r ∈ (l.strike m t).2.2 k → ∃ r' ∈ l k, r'.id = r.id) ∧
    (∀ k, k.isLimit = false → (l.strike m t).2.2 k = l k) := by
  unfold Board.strike
  cases m with
  | false =>
    have := hand_le t
    exact ⟨by simp only [Bool.false_eq_true, if_false, List.length_nil]; omega, h, Nat.le_refl _, rfl, Nat.le_refl _, fun k r hr => ⟨r, hr, rfl⟩, fun _ _ => rfl⟩
  | true =>
    simp only [if_true]
    generalize hk : t.side.other.limits = k
    have hlim : k.isLimit = true := by rw [← hk]; cases t.side <;> rfl
    obtain ⟨c1, c2⟩ := capped_same t (l k)
    generalize t.capped (l k) = u at c1 c2
    have h1 := taker_paid u (l k)
    have h2 := taker_rest u (l k)
    have h3 := taker_left u (l k)
    have h4 := put_cnt l k (u.leaveLine (l k))
    have h5 := put_size l k (u.leaveLine (l k))
    have hs : ∀ k', (((l.put k (u.leaveLine (l k))) k').map (·.id)).Sublist ((l k').map (·.id)) := by
      intro k'
      unfold Board.put
      by_cases c : k' = k
      · subst c; rw [if_pos rfl]; exact h2.1
      · rw [if_neg c]; exact List.Sublist.refl _
    refine ⟨by omega, h.sub hs, by omega, by rw [h3.1, c1], by omega, fun k' r hr => ?_, fun k' hk' => ?_⟩
    · obtain ⟨x, hx, e⟩ := List.mem_map.1 ((hs k').subset (List.mem_map.2 ⟨r, hr, rfl⟩))
      exact ⟨x, hx, e⟩
    · unfold Board.put
      rw [if_neg (fun c => by rw [c, hlim] at hk'; cases hk')]

/-! ### A crossed book -/

theorem drawn_paid (rs : List Order) : ∀ n : Nat, (drawn n rs).length + (afterChain (drawn n rs) rs).length ≤ rs.length + 1 := by
  induction rs with
  | nil => intro n; simp [drawn, afterChain]
  | cons r rs ih =>
    intro n
    unfold drawn
    by_cases c : n = 0
    · rw [if_pos c]; simp only [afterChain, List.length_nil, List.length_cons]; omega
    · rw [if_neg c]
      simp only []
      unfold afterChain
      generalize hq : (if r.isAON then r.leaves else min r.leaves n) = q
      by_cases d : q < r.leaves
      · have hn : q = n := by
          by_cases a : r.isAON
          · rw [if_pos a] at hq; omega
          · rw [if_neg a] at hq; omega
        rw [if_pos d, hn, show sub64 n n = 0 from by unfold sub64; omega]
        rw [show drawn 0 rs = [] from drawn_zero rs]
        simp only [afterChain, List.length_cons, List.length_nil]; omega
      · rw [if_neg d]
        have := ih (sub64 n q)
        simp only [List.length_cons]; omega

/-- The first order of the line is executed completely. -/
theorem drawn_whole {r : Order} {rs : List Order} {n : Nat} (h : n ≠ 0) (hr : r.isAON = true ∨ r.leaves ≤ n) :
    (afterChain (drawn n (r :: rs)) (r :: rs)).length ≤ rs.length ∧ (drawn n (r :: rs)).length + (afterChain (drawn n (r :: rs)) (r :: rs)).length ≤ rs.length + 2 := by
  refine ⟨?_, drawn_paid (r :: rs) n⟩
  unfold drawn
  rw [if_neg h]
  simp only []
  unfold afterChain
  rw [if_neg (by
    by_cases a : r.isAON = true
    · rw [if_pos a]; omega
    · rw [if_neg a]; rcases hr with hr | hr
      · exact absurd hr a
      · omega)]
  exact (afterChain_rest _ rs).2.2

/-- Only one order of the line is hit. -/
theorem drawn_single {r : Order} {rs : List Order} {n : Nat} (h : n ≠ 0) (hr : n ≤ r.leaves) (hn : r.isAON = true → r.leaves = n) :
    (drawn n (r :: rs)).length = 1 := by
  unfold drawn
  rw [if_neg h]
  simp only []
  have hq : (if r.isAON then r.leaves else min r.leaves n) = n := by
    by_cases a : r.isAON = true
    · rw [if_pos a]; exact hn a
    · rw [if_neg a]; omega
  rw [hq, show sub64 n n = 0 from by unfold sub64; omega, show drawn 0 rs = [] from drawn_zero rs]
  rfl

theorem groups_flat (rs : List Order) : (priceGroups rs).flatten = rs := by
  induction rs with
  | nil => rfl
  | cons r rs ih =>
    unfold priceGroups
    cases h : priceGroups rs with
    | nil => rw [h] at ih; simp at ih; simp [← ih]
    | cons g gs =>
      rw [h] at ih
      cases g with
      | nil => simp only []; simp at ih ⊢; exact ih
      | cons x xs =>
        simp only []
        split
        · simp at ih ⊢; exact ih
        · simp at ih ⊢; exact ih

theorem vol_headD (gs : List (List Order)) : vol (gs.headD []) + vol gs.tail.flatten = vol gs.flatten := by
  cases gs with
  | nil => rfl
  | cons g gs => simp only [List.headD_cons, List.tail_cons, List.flatten_cons]; rw [vol_append]

theorem vol_tail (rs : List Order) : vol rs.tail ≤ vol rs := by
  cases rs with
  | nil => exact Nat.le_refl _
  | cons r rs => rw [vol_cons]; exact Nat.le_add_left _ _

theorem sub64_le {a b : Nat} (h : b ≤ a) (ha : a < W64) : sub64 a b = a - b := by
  unfold sub64; omega

theorem add64_fits {a b : Nat} (h : a + b < W64) : add64 a b = a + b := Nat.mod_eq_of_lt h

/-- The quantity to be crossed is at least what is wanted first. -/
theorem tally_ge (n : Nat) : ∀ (L S : List (List Order)) (lo so : List Order) (need got : Nat), got ≤ need →
    need + got + vol lo.tail + vol so + vol L.tail.flatten + vol S.tail.flatten < W64 →
    tally n L S lo so need got = 0 ∨ need ≤ tally n L S lo so need got := by
  induction n with
  | zero => intro L S lo so need got _ _; exact .inl (by simp [tally])
  | succ n ih =>
    intro L S lo so need got hle hv
    cases L with
    | nil => exact .inl (by simp [tally])
    | cons G L =>
      cases S with
      | nil => exact .inl (by simp [tally])
      | cons H S =>
        have vL := vol_headD L
        have vS := vol_headD S
        simp only [List.tail_cons] at hv
        cases lo with
        | nil =>
          have t1 := vol_tail (L.headD [])
          cases so with
          | nil =>
            simp only [tally]
            refine ih L S _ _ need got hle ?_
            simp only [List.tail_nil] at hv
            have : vol ([] : List Order) = 0 := rfl
            omega
          | cons y so =>
            simp only [tally]
            refine ih L (H :: S) _ _ need got hle ?_
            simp only [List.tail_nil, List.tail_cons] at hv ⊢
            have : vol ([] : List Order) = 0 := rfl
            omega
        | cons x lo =>
          simp only [List.tail_cons] at hv
          cases so with
          | nil =>
            simp only [tally]
            refine ih (G :: L) S _ _ need got hle ?_
            simp only [List.tail_cons]
            have : vol ([] : List Order) = 0 := rfl
            omega
          | cons y so =>
            rw [vol_cons] at hv
            simp only [tally]
            rw [sub64_le hle (by omega)]
            generalize hq : (if y.isAON then y.leaves else min y.leaves (need - got)) = q
            have hqy : q ≤ y.leaves := by rw [← hq]; split <;> omega
            rw [add64_fits (show got + q < W64 by omega)]
            by_cases c : need = got + q
            · rw [if_pos c]; exact .inr (Nat.le_refl _)
            · rw [if_neg c]
              by_cases d : need < got + q
              · rw [if_pos d]
                have := ih (G :: L) (H :: S) (y :: so) lo (got + q) need (by omega) (by simp only [List.tail_cons]; omega)
                rcases this with h | h
                · exact .inl h
                · exact .inr (by omega)
              · rw [if_neg d]
                exact ih (G :: L) (H :: S) (x :: lo) so need (got + q) (by omega) (by simp only [List.tail_cons]; omega)

/-- The first order in line wants `x`, and meets `y` first. -/
theorem tally_first {xs ys : List Order} {x y : Order} (hv : vol (x :: xs) + vol (y :: ys) < W64) {N m : Nat} (hN : N = m + 1)
    (h : tally N (priceGroups (x :: xs)) (priceGroups (y :: ys)) ((priceGroups (x :: xs)).headD []) ((priceGroups (y :: ys)).headD []) x.leaves 0 ≠ 0) :
    x.leaves ≤ tally N (priceGroups (x :: xs)) (priceGroups (y :: ys)) ((priceGroups (x :: xs)).headD []) ((priceGroups (y :: ys)).headD []) x.leaves 0 ∧
    (x.leaves ≤ y.leaves → y.isAON = false →
      tally N (priceGroups (x :: xs)) (priceGroups (y :: ys)) ((priceGroups (x :: xs)).headD []) ((priceGroups (y :: ys)).headD []) x.leaves 0 = x.leaves) := by
  have fx := groups_flat (x :: xs)
  have fy := groups_flat (y :: ys)
  obtain ⟨gx, GX, ex⟩ := priceGroups_head x xs
  obtain ⟨gy, GY, ey⟩ := priceGroups_head y ys
  rw [ex] at fx h ⊢
  rw [ey] at fy h ⊢
  simp only [List.headD_cons] at h ⊢
  have vx : vol (x :: gx) + vol GX.flatten = vol (x :: xs) := by rw [← vol_append, ← fx]; rfl
  have vy : vol (y :: gy) + vol GY.flatten = vol (y :: ys) := by rw [← vol_append, ← fy]; rfl
  rw [vol_cons] at vx
  constructor
  · rcases tally_ge N ((x :: gx) :: GX) ((y :: gy) :: GY) (x :: gx) (y :: gy) x.leaves 0 (Nat.zero_le _)
      (by simp only [List.tail_cons]; omega) with h' | h'
    · exact absurd h' h
    · exact h'
  · intro h1 h2
    rw [vol_cons] at vy
    rw [hN]
    simp only [tally]
    have hq : (if y.isAON = true then y.leaves else min y.leaves (x.leaves - 0)) = min y.leaves (x.leaves - 0) := by
      rw [if_neg (by rw [h2]; exact Bool.false_ne_true)]
    rw [sub64_le (Nat.zero_le _) (show x.leaves < W64 by omega), hq,
      add64_fits (show 0 + min y.leaves (x.leaves - 0) < W64 by omega), if_pos (by omega)]

/-- Everything drawn from both lines is paid for. -/
theorem both_paid {xs ys : List Order} {x y : Order} {n : Nat} (hn : n ≠ 0) (hx : x.leaves ≤ n)
    (hy : x.leaves ≤ y.leaves → y.isAON = false → n = x.leaves) :
    (drawn n (x :: xs)).length + (drawn n (y :: ys)).length +
      2 * ((afterChain (drawn n (x :: xs)) (x :: xs)).length + (afterChain (drawn n (y :: ys)) (y :: ys)).length) ≤
    2 * ((x :: xs).length + (y :: ys).length) := by
  obtain ⟨a1, a2⟩ := drawn_whole (r := x) (rs := xs) hn (.inr hx)
  simp only [List.length_cons]
  by_cases c : y.isAON = true ∨ y.leaves ≤ n
  · obtain ⟨b1, b2⟩ := drawn_whole (r := y) (rs := ys) hn c
    omega
  · have c1 : y.isAON = false := by
      cases h : y.isAON with
      | false => rfl
      | true => exact absurd (.inl h) c
    have c2 : n < y.leaves := by
      rcases Nat.lt_or_ge n y.leaves with h | h
      · exact h
      · exact absurd (.inr h) c
    have e := hy (by omega) c1
    have d1 := drawn_single (r := x) (rs := xs) hn (by omega) (fun _ => e.symm)
    have d2 := drawn_single (r := y) (rs := ys) hn (by omega) (fun h => by rw [c1] at h; cases h)
    have := (afterChain_rest (drawn n (y :: ys)) (y :: ys)).2.2
    simp only [List.length_cons] at this
    omega

theorem cross_paid {bids asks : List Order} (hv : vol bids + vol asks < W64) {n : Nat} (e : crossing bids asks = n) (hn : n ≠ 0) :
    (drawn n bids).length + (drawn n asks).length +
      2 * ((afterChain (drawn n bids) bids).length + (afterChain (drawn n asks) asks).length) ≤ 2 * (bids.length + asks.length) := by
  cases bids with
  | nil => exact absurd (by rw [← e]; rfl) hn
  | cons b bs =>
    cases asks with
    | nil => exact absurd (by rw [← e]; rfl) hn
    | cons a as =>
      unfold crossing at e
      simp only [] at e
      by_cases c : a.isAON = true ∧ (b.isAON = true → b.leaves < a.leaves)
      · rw [if_pos c] at e
        have := tally_first (x := a) (y := b) (xs := as) (ys := bs) (by omega) rfl (by rw [e]; exact hn)
        rw [e] at this
        have := both_paid (x := a) (y := b) (xs := as) (ys := bs) hn this.1 this.2
        omega
      · rw [if_neg c] at e
        have := tally_first (x := b) (y := a) (xs := bs) (ys := as) (by omega) rfl (by rw [e]; exact hn)
        rw [e] at this
        exact both_paid (x := b) (y := a) (xs := bs) (ys := as) hn this.1 this.2

/-! ### A trading place -/

/-- Ids are distinct and the total quantity fits in 64 bits. -/
structure Fine (p : Pit) : Prop where
  neat : Neat p.board
  fits : p.board.size < W64

/-- What happened (executions, state afterwards) was paid for by orders that went. -/
structure Paid (p : Pit) (r : List Execution × Pit) : Prop where
  fine : Fine r.2
  size : r.2.board.size ≤ p.board.size
  paid : r.1.length + 2 * cnt r.2.board ≤ 2 * cnt p.board

theorem Paid.refl {p : Pit} (h : Fine p) : Paid p ([], p) := ⟨h, Nat.le_refl _, by simp⟩

theorem Paid.trans {p : Pit} {r r' : List Execution × Pit} (h : Paid p r) (h' : Paid r.2 r') : Paid p (r.1 ++ r'.1, r'.2) :=
  ⟨h'.fine, Nat.le_trans h'.size h.size, by have := h.paid; have := h'.paid; simp only [List.length_append]; omega⟩

/-- Prices other than those of the orders do not matter. -/
theorem Paid.to {p : Pit} {r : List Execution × Pit} (h : Paid p r) {q : Pit} (hq : q.board = r.2.board) : Paid p (r.1, q) :=
  ⟨⟨by rw [hq]; exact h.fine.neat, by rw [hq]; exact h.fine.fits⟩, by rw [hq]; exact h.size, by rw [hq]; exact h.paid⟩

theorem Paid.of {p q : Pit} {r : List Execution × Pit} (h : Paid p r) (hq : q.board = p.board) : Paid q r :=
  ⟨h.fine, by rw [hq]; exact h.size, by rw [hq]; exact h.paid⟩

theorem Paid.meet {p : Pit} (hp : Fine p) {b a : Order} (hb : b ∈ p.board .bid) (ha : a ∈ p.board .ask) : Paid p (p.meet b a) := by
  have hx : (p.meet b a).1.length = 2 := by unfold Pit.meet; rfl
  obtain ⟨e, r, v, h1, h2, h3⟩ := meet_board p b a
  have hbd : (p.meet b a).2.board = (p.board.change e.id none).change r.id v := funext h3
  obtain ⟨ke, he⟩ : ∃ k, e ∈ p.board k := by
    rcases h1 with ⟨e1, _⟩ | ⟨e1, _⟩
    · exact ⟨.ask, by rw [e1]; exact ha⟩
    · exact ⟨.bid, by rw [e1]; exact hb⟩
  obtain ⟨kr, hr⟩ : ∃ k, r ∈ p.board k := by
    rcases h1 with ⟨_, e1⟩ | ⟨_, e1⟩
    · exact ⟨.bid, by rw [e1]; exact hb⟩
    · exact ⟨.ask, by rw [e1]; exact ha⟩
  have c1 := change_lt he
  have c2 := change_le (p.board.change e.id none) r.id v
  have n1 : Neat (p.board.change e.id none) := change_neat hp.neat (by intro o ho; cases ho)
  have n2 : Neat ((p.board.change e.id none).change r.id v) := change_neat n1 (by
    intro o ho
    rcases h2 with h2 | h2
    · rw [h2] at ho; cases ho
    · rw [h2] at ho; cases ho; rfl)
  have s1 : (p.board.change e.id none).size ≤ p.board.size := change_size (by intro o ho; cases ho)
  have s2 : ((p.board.change e.id none).change r.id v).size ≤ (p.board.change e.id none).size := change_size (by
    intro o ho k x hx hid
    rcases h2 with h2 | h2
    · rw [h2] at ho; cases ho
    · rw [h2] at ho; cases ho
      rcases chg_from hx with hx | ⟨_, _, _, hv⟩
      · have hk := hp.neat.cross _ _ _ _ hx hr hid
        subst hk
        rw [hp.neat.one hx hr hid]
        simp only [Order.afterExec]; omega
      · cases hv)
  refine ⟨⟨by rw [hbd]; exact n2, by rw [hbd]; have := hp.fits; omega⟩, by rw [hbd]; omega, ?_⟩
  rw [hx, hbd]
  omega

theorem draw_board (p : Pit) (k : Kind) (price n : Nat) :
    (p.draw k price n).2.board = p.board.put k (afterChain (drawn n (p.board k)) (p.board k)) ∧
    (p.draw k price n).1.length = (drawn n (p.board k)).length := ⟨rfl, by unfold Pit.draw; simp only [List.length_map]⟩

theorem put_neat {l : Board} (h : Neat l) {k : Kind} {rs : List Order} (hs : (rs.map (·.id)).Sublist ((l k).map (·.id))) : Neat (l.put k rs) :=
  h.sub (fun k' => by
    unfold Board.put
    by_cases c : k' = k
    · subst c; rw [if_pos rfl]; exact hs
    · rw [if_neg c]; exact List.Sublist.refl _)

theorem draws_paid {p : Pit} (hp : Fine p) {k k' : Kind} (hk : k' ≠ k) {price n : Nat}
    (hE : (drawn n (p.board k)).length + (drawn n (p.board k')).length +
      2 * ((afterChain (drawn n (p.board k)) (p.board k)).length + (afterChain (drawn n (p.board k')) (p.board k')).length) ≤
      2 * ((p.board k).length + (p.board k').length)) :
    Paid p ((p.draw k price n).1 ++ ((p.draw k price n).2.draw k' price n).1, ((p.draw k price n).2.draw k' price n).2) := by
  obtain ⟨b1, x1⟩ := draw_board p k price n
  obtain ⟨b2, x2⟩ := draw_board (p.draw k price n).2 k' price n
  have hsame : (p.draw k price n).2.board k' = p.board k' := by rw [b1]; unfold Board.put; rw [if_neg hk]
  rw [hsame] at b2 x2
  have r1 := afterChain_rest (drawn n (p.board k)) (p.board k)
  have r2 := afterChain_rest (drawn n (p.board k')) (p.board k')
  have n1 : Neat (p.draw k price n).2.board := by rw [b1]; exact put_neat hp.neat r1.1
  have n2 : Neat ((p.draw k price n).2.draw k' price n).2.board := by rw [b2]; exact put_neat n1 (by rw [hsame]; exact r2.1)
  have c1 := put_cnt p.board k (afterChain (drawn n (p.board k)) (p.board k))
  have c2 := put_cnt (p.draw k price n).2.board k' (afterChain (drawn n (p.board k')) (p.board k'))
  have s1 := put_size p.board k (afterChain (drawn n (p.board k)) (p.board k))
  have s2 := put_size (p.draw k price n).2.board k' (afterChain (drawn n (p.board k')) (p.board k'))
  rw [hsame, ← b2] at c2 s2
  rw [← b1] at c1 s1
  have hf := hp.fits
  refine ⟨⟨n2, by simp only []; omega⟩, by simp only []; omega, ?_⟩
  simp only [List.length_append]
  rw [x1, x2]
  omega

theorem Paid.crossWhole {p : Pit} (hp : Fine p) (b a : Order) : Paid p (p.crossWhole b a).2 := by
  unfold Pit.crossWhole
  simp only []
  generalize hn : crossing (p.board .bid) (p.board .ask) = n
  by_cases c : n = 0
  · rw [if_pos c]; exact .refl hp
  · rw [if_neg c]
    have hv : vol (p.board .bid) + vol (p.board .ask) < W64 := by have := hp.fits; rw [size_eq] at this; omega
    have := cross_paid hv hn c
    cases b.isAON with
    | true => exact draws_paid hp (k := .bid) (k' := .ask) (by decide) this
    | false => exact draws_paid hp (k := .ask) (k' := .bid) (by decide) (by omega)

theorem Paid.pairs (bs : List Order) : ∀ (as : List Order) {p : Pit}, Fine p → (∀ b ∈ bs, b ∈ p.board .bid) → (∀ a ∈ as, a ∈ p.board .ask) →
    (bs.map (·.id)).Nodup → (as.map (·.id)).Nodup → Paid p (Pit.pairs bs as p).2 := by
  induction bs with
  | nil => intro as p hp _ _ _ _; simp only [Pit.pairs]; exact .refl hp
  | cons b bs ih =>
    intro as p hp h1 h2 h3 h4
    cases as with
    | nil => simp only [Pit.pairs]; exact .refl hp
    | cons a as =>
      simp only [Pit.pairs]
      by_cases c : b.isAON = true ∨ a.isAON = true
      · rw [if_pos c]; exact .crossWhole hp b a
      · rw [if_neg c]
        rw [List.map_cons, List.nodup_cons] at h3 h4
        have hb := h1 b List.mem_cons_self
        have ha := h2 a List.mem_cons_self
        have hm : Paid p (p.meet b a) := .meet hp hb ha
        refine Paid.trans hm (ih as hm.fine (fun x hx => ?_) (fun x hx => ?_) h3.2 h4.2)
        · have hxb := h1 x (List.mem_cons_of_mem _ hx)
          refine meet_keep p hxb (fun e => h3.1 (List.mem_map.2 ⟨x, hx, e⟩)) (fun e => ?_)
          cases hp.neat.cross _ _ _ _ hxb ha e
        · have hxa := h2 x (List.mem_cons_of_mem _ hx)
          refine meet_keep p hxa (fun e => ?_) (fun e => h4.1 (List.mem_map.2 ⟨x, hx, e⟩))
          cases hp.neat.cross _ _ _ _ hxa hb e

theorem groups_first (rs : List Order) : ((priceGroups rs).headD []).Sublist rs := by
  have h := groups_flat rs
  cases e : priceGroups rs with
  | nil => exact List.nil_sublist _
  | cons g gs =>
    rw [e, List.flatten_cons] at h
    rw [List.headD_cons, ← h]
    exact List.sublist_append_left _ _

/-! ### Stop orders -/

/-- An order in hand is executed, and what is left stays if it may. -/
theorem land_paid (m : Bool) {p : Pit} (hn : Neat p.board) {t : Order} (ht : ∀ k, ∀ r ∈ p.board k, r.id ≠ t.id) (hs : p.board.size + t.leaves < W64) :
    Fine ((p.strike m t).2.2.land (p.strike m t).2.1) ∧ ((p.strike m t).2.2.land (p.strike m t).2.1).board.size ≤ p.board.size + t.leaves ∧
    (p.strike m t).1.length + 2 * cnt ((p.strike m t).2.2.land (p.strike m t).2.1).board ≤ 2 * (cnt p.board + 1) ∧
    ∀ k, k.isLimit = false → ∀ r ∈ p.board k, r ∈ ((p.strike m t).2.2.land (p.strike m t).2.1).board k := by
  obtain ⟨h1, h2, h3, h4, h5, h6, h7⟩ := strike_paid m hn t
  have e1 : (p.strike m t).1 = (p.board.strike m t).1 := rfl
  have e2 : (p.strike m t).2.1 = (p.board.strike m t).2.1 := rfl
  have e3 : (p.strike m t).2.2.board = (p.board.strike m t).2.2 := rfl
  rw [← e1, ← e2, ← e3] at h1
  rw [← e3] at h2 h3 h6 h7
  rw [← e2] at h4 h5
  generalize (p.strike m t).2.2 = q at *
  generalize (p.strike m t).2.1 = u at *
  unfold Pit.land
  by_cases c : u.rests
  · rw [if_pos c]
    have hu : hand u = 1 := by unfold hand; rw [if_neg (by have := c.1; omega)]
    have i1 := insert_cnt q.board u
    have i2 := insert_size q.board u
    have i3 : Neat (q.board.insert u) := insert_neat h2 (fun k r hr e => by
      obtain ⟨x, hx, ex⟩ := h6 k r hr
      exact ht k x hx (by rw [ex, e, h4]))
    refine ⟨⟨i3, by simp only []; omega⟩, by simp only []; omega, by simp only []; omega, fun k hk r hr => ?_⟩
    exact insert_keep (by rw [h7 k hk]; exact hr)
  · rw [if_neg c]
    exact ⟨⟨h2, by omega⟩, by omega, by omega, fun k hk r hr => by rw [h7 k hk]; exact hr⟩

theorem released_same (o : Order) : o.released.id = o.id ∧ o.released.leaves = o.leaves := by
  unfold Order.released; cases o.type <;> exact ⟨rfl, rfl⟩

theorem Paid.release {p : Pit} (hp : Fine p) {o : Order} {k : Kind} (ho : o ∈ p.board k) : Paid p (p.release o) ∧
    ∀ k', k'.isLimit = false → ∀ r ∈ p.board k', r.id ≠ o.id → r ∈ (p.release o).2.board k' := by
  obtain ⟨e1, e2⟩ := released_same o
  have hs := change_size_mem ho
  have hc := change_lt ho
  have hf := hp.fits
  have hn : Neat (p.change o.id none).board := change_neat hp.neat (by intro x hx; cases hx)
  obtain ⟨g1, g2, g3, g4⟩ := land_paid true hn (t := o.released) (fun k r hr => by rw [e1]; exact change_gone hr)
    (by rw [e2]; show (p.board.change o.id none).size + _ < _; omega)
  rw [e2] at g2
  have hb : (p.change o.id none).board = p.board.change o.id none := rfl
  rw [hb] at g2 g3 g4
  refine ⟨⟨g1, by show _ ≤ _; exact Nat.le_trans g2 (by omega), ?_⟩, fun k' hk' r hr hne => g4 k' hk' r (change_keep hr hne)⟩
  exact Nat.le_trans g3 (by omega)

theorem Paid.releaseAll {k : Kind} (hk : k.isLimit = false) (os : List Order) : ∀ {p : Pit}, Fine p → (∀ o ∈ os, o ∈ p.board k) → (os.map (·.id)).Nodup →
    Paid p (Pit.releaseAll os p) := by
  induction os with
  | nil => intro p hp _ _; exact .refl hp
  | cons o os ih =>
    intro p hp h1 h2
    rw [List.map_cons, List.nodup_cons] at h2
    obtain ⟨g1, g2⟩ := Paid.release hp (h1 o List.mem_cons_self)
    simp only [Pit.releaseAll]
    exact Paid.trans g1 (ih g1.fine (fun x hx => g2 k hk x (h1 x (List.mem_cons_of_mem _ hx)) (fun e => h2.1 (List.mem_map.2 ⟨x, hx, e⟩))) h2.2)

theorem due_sub (p : Pit) (k : Kind) : (p.due k).Sublist (p.board k) := by
  unfold Pit.due
  cases p.board k with
  | nil => exact List.Sublist.refl _
  | cons o os =>
    simp only []
    split
    · exact (List.takeWhile_sublist _).cons_cons _
    · exact List.nil_sublist _

theorem Paid.due {p : Pit} (hp : Fine p) {k : Kind} (hk : k.isLimit = false) : Paid p (Pit.releaseAll (p.due k) p) :=
  .releaseAll hk _ hp (fun o ho => (due_sub p k).subset ho) (((due_sub p k).map _).nodup (hp.neat.line k))

theorem Paid.next {p : Pit} (hp : Fine p) {k k' : Kind} (hk : k.isLimit = false) (hk' : k'.isLimit = false) :
    Paid p (Pit.releaseAll (p.next k k') p) := by
  unfold Pit.next
  split
  · exact .due hp hk'
  · exact .due hp hk

/-! ### Trailing orders -/

theorem retrailed_same (m : Nat) (o : Order) : (o.retrailed m).id = o.id ∧ (o.retrailed m).leaves = o.leaves := by
  unfold Order.retrailed; split <;> exact ⟨rfl, rfl⟩

theorem retrail_paid (m : Nat) {k : Kind} (os : List Order) : ∀ {l : Board}, Neat l → (∀ o ∈ os, o ∈ l k) → (os.map (·.id)).Nodup →
    Neat (Board.retrail m os l) ∧ (Board.retrail m os l).size ≤ l.size ∧ cnt (Board.retrail m os l) ≤ cnt l := by
  induction os with
  | nil => intro l h _ _; exact ⟨h, Nat.le_refl _, Nat.le_refl _⟩
  | cons o os ih =>
    intro l h h1 h2
    rw [List.map_cons, List.nodup_cons] at h2
    have h1' : ∀ x ∈ os, x ∈ l k := fun x hx => h1 x (List.mem_cons_of_mem _ hx)
    unfold Board.retrail
    by_cases c : o.trailMoves m
    · rw [if_pos c]
      obtain ⟨e1, e2⟩ := retrailed_same m o
      have ho := h1 o List.mem_cons_self
      have a1 := change_size_mem ho
      have a2 := change_lt ho
      have a3 := insert_size (l.change o.id none) (o.retrailed m)
      have a4 := insert_cnt (l.change o.id none) (o.retrailed m)
      have hn : Neat ((l.change o.id none).insert (o.retrailed m)) :=
        insert_neat (change_neat h (by intro x hx; cases hx)) (fun k r hr => by rw [e1]; exact change_gone hr)
      obtain ⟨b1, b2, b3⟩ := ih hn (fun x hx => insert_keep (change_keep (h1' x hx) (fun e => h2.1 (List.mem_map.2 ⟨x, hx, e⟩)))) h2.2
      rw [e2] at a3
      exact ⟨b1, by omega, by omega⟩
    · rw [if_neg c]; exact ih h h1' h2.2

theorem Paid.followAsk {p : Pit} (hp : Fine p) : Paid p ([], p.followAsk) := by
  unfold Pit.followAsk
  split
  · exact .refl hp
  · have h := retrail_paid p.trailAsk (k := .tBuyStop) (p.board .tBuyStop) hp.neat (fun _ h => h) (hp.neat.line _)
    have hf := hp.fits
    split
    · exact ⟨⟨h.1, by simp only []; omega⟩, h.2.1, by have := h.2.2; simp only [List.length_nil]; omega⟩
    · exact (Paid.refl hp).to rfl

theorem Paid.followBid {p : Pit} (hp : Fine p) : Paid p ([], p.followBid) := by
  unfold Pit.followBid
  split
  · exact .refl hp
  · have h := retrail_paid p.trailBid (k := .tSellStop) (p.board .tSellStop) hp.neat (fun _ h => h) (hp.neat.line _)
    have hf := hp.fits
    split
    · exact ⟨⟨h.1, by simp only []; omega⟩, h.2.1, by have := h.2.2; simp only [List.length_nil]; omega⟩
    · exact (Paid.refl hp).to rfl

theorem Paid.round {p : Pit} (hp : Fine p) : Paid p p.round.2 := by
  unfold Pit.round
  simp only []
  have h1 : Paid p (Pit.releaseAll (p.next .buyStop .tBuyStop) p) := .next hp rfl rfl
  have h2 := Paid.trans h1 (Paid.followAsk h1.fine)
  rw [List.append_nil] at h2
  have h3 := Paid.trans h2 (Paid.next h2.fine (k := .sellStop) (k' := .tSellStop) rfl rfl)
  have h4 := Paid.trans h3 (Paid.followBid h3.fine)
  rw [List.append_nil] at h4
  exact h4

theorem Paid.rounds (n : Nat) : ∀ {p : Pit}, Fine p → Paid p (Pit.rounds n p).2 := by
  induction n with
  | zero => intro p hp; exact .refl hp
  | succ n ih =>
    intro p hp
    have h := Paid.round hp
    simp only [Pit.rounds]
    split
    · exact Paid.trans h (ih h.fine)
    · exact h

theorem Paid.settle (n : Nat) : ∀ {p : Pit}, Fine p → Paid p (p.settle n) := by
  induction n with
  | zero => intro p hp; exact .refl hp
  | succ n ih =>
    intro p hp
    simp only [Pit.settle]
    split
    · have h := Paid.pairs ((priceGroups (p.board .bid)).headD []) ((priceGroups (p.board .ask)).headD []) hp
        (fun b hb => (groups_first _).subset hb) (fun a ha => (groups_first _).subset ha)
        (((groups_first _).map _).nodup (hp.neat.line .bid)) (((groups_first _).map _).nodup (hp.neat.line .ask))
      split
      · exact h
      · have h1 := Paid.trans h (Paid.due h.fine (k := .buyStop) rfl)
        have h2 := Paid.trans h1 (Paid.due h1.fine (k := .sellStop) rfl)
        exact Paid.trans h2 (ih h2.fine)
    · have h := Paid.rounds (p.board.stops + 1) hp
      split
      · exact Paid.trans h (ih h.fine)
      · exact h

theorem Paid.rest {p : Pit} (hp : Fine p) : Paid p p.rest := .settle _ hp

theorem Paid.close {p : Pit} (hp : Fine p) (m : Bool) : Paid p (p.close m) := by
  unfold Pit.close
  cases m with
  | true => exact (Paid.rest hp).to rfl
  | false => exact (Paid.refl hp).to rfl

end Budget
end CppTrader
