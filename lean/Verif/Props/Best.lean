import Verif.Best
import Verif.Textbook
import Verif.Props.Filled
import Verif.Props.Client
/-
C77: best execution. C78: splitting an order.
-/

namespace CppTrader
open Core

namespace Best

theorem total_cons (sd : Side) (x : Order × Nat × Nat) (xs) :
    sideTotal sd (x :: xs) = (if x.1.side = sd then x.2.2 else 0) + sideTotal sd xs := by
  unfold sideTotal
  by_cases h : x.1.side = sd <;> simp [h]

theorem value_cons (sd : Side) (x : Order × Nat × Nat) (xs) :
    sideValue sd (x :: xs) = (if x.1.side = sd then x.2.1 * x.2.2 else 0) + sideValue sd xs := by
  unfold sideValue
  by_cases h : x.1.side = sd <;> simp [h]

theorem total_append (sd : Side) (xs ys) : sideTotal sd (xs ++ ys) = sideTotal sd xs + sideTotal sd ys := by
  unfold sideTotal; simp

theorem value_append (sd : Side) (xs ys) : sideValue sd (xs ++ ys) = sideValue sd xs + sideValue sd ys := by
  unfold sideValue; simp

/-- One hit, on the side of the incoming order. -/
theorem hit_total {t r : Order} (hs : r.side ≠ t.side) (q : Nat) (xs) :
    sideTotal t.side ((r, r.price, q) :: (t, r.price, q) :: xs) = q + sideTotal t.side xs := by
  rw [total_cons, total_cons, if_neg hs, if_pos rfl]; show 0 + (q + _) = _; omega

theorem hit_value {t r : Order} (hs : r.side ≠ t.side) (q : Nat) (xs) :
    sideValue t.side ((r, r.price, q) :: (t, r.price, q) :: xs) = r.price * q + sideValue t.side xs := by
  rw [value_cons, value_cons, if_neg hs, if_pos rfl]; show 0 + (r.price * q + _) = _; omega

/-- Greedy filling takes as much as is available. -/
theorem greedy_lots (rs : List Order) : ∀ {t : Order}, (∀ r ∈ rs, r.isAON = false ∧ r.side ≠ t.side) → InLine t.side.other.limits rs →
    sideTotal t.side (greedy t rs) = min t.leaves (t.available rs) := by
  induction rs with
  | nil => intro t _ _; simp [greedy, Order.available, sideTotal]
  | cons a rs ih =>
    intro t hn hso
    by_cases hst : t.stopsAt a
    · rw [(greedy_stop hst rs).1]
      rcases hst with h | h | h
      · rw [h]; simp [sideTotal]
      · rw [available_none (hso.worse h)]; simp [sideTotal]
      · rw [(hn a (by simp)).1] at h; cases h.1
    · have hacc : t.accepts a.price := Decidable.not_not.1 fun h => hst (.inr (.inl h))
      rw [(greedy_hit hst rs).1, available_cons, if_pos hacc, hit_total (hn a (by simp)).2]
      have := ih (t := t.afterExec (min a.leaves t.leaves)) (fun r hr => hn r (by simp [hr])) (hso.sub (List.sublist_cons_self ..))
      change sideTotal t.side _ = min (t.leaves - min a.leaves t.leaves) (t.available rs) at this
      rw [this]
      omega

theorem lots_cons (r : Order) (rs) (a : Order → Nat) : basketLots (r :: rs) a = a r + basketLots rs a := by
  unfold basketLots; simp

theorem cost_cons (r : Order) (rs) (a : Order → Nat) : basketValue (r :: rs) a = r.price * a r + basketValue rs a := by
  unfold basketValue; simp

/-- Nothing in a basket is cheaper than the cheapest price. -/
theorem cost_low (p : Nat) (rs : List Order) (a : Order → Nat) (hp : ∀ r ∈ rs, p ≤ r.price) : p * basketLots rs a ≤ basketValue rs a := by
  induction rs with
  | nil => simp [basketLots, basketValue]
  | cons r rs ih =>
    rw [lots_cons, cost_cons, Nat.mul_add]
    exact Nat.add_le_add (Nat.mul_le_mul_right _ (hp r (by simp))) (ih fun r hr => hp r (by simp [hr]))

theorem cost_high (p : Nat) (rs : List Order) (a : Order → Nat) (hp : ∀ r ∈ rs, r.price ≤ p) : basketValue rs a ≤ p * basketLots rs a := by
  induction rs with
  | nil => simp [basketLots, basketValue]
  | cons r rs ih =>
    rw [lots_cons, cost_cons, Nat.mul_add]
    exact Nat.add_le_add (Nat.mul_le_mul_right _ (hp r (by simp))) (ih fun r hr => hp r (by simp [hr]))

/-- A greedy buyer pays no more than for any other basket; `d` further lots in the basket cost at least `p` each. -/
theorem greedy_cheap (rs : List Order) : ∀ {t : Order} (p d : Nat) (a : Order → Nat), t.side = .buy → (∀ r ∈ rs, r.side ≠ t.side) →
    InLine .ask rs → (∀ r ∈ rs, p ≤ r.price) → Basket rs a → basketLots rs a = sideTotal t.side (greedy t rs) + d →
    sideValue t.side (greedy t rs) + p * d ≤ basketValue rs a := by
  induction rs with
  | nil =>
    intro t p d a _ _ _ _ _ h
    have : d = 0 := by simp [basketLots, greedy, sideTotal] at h; omega
    subst this; simp [greedy, sideValue]
  | cons r rs ih =>
    intro t p d a hb hn hso hp ha h
    by_cases hst : t.stopsAt r
    · rw [(greedy_stop hst rs).1] at h ⊢
      have h0 : basketLots (r :: rs) a = d := by rw [h]; simp [sideTotal]
      have := cost_low p (r :: rs) a hp
      rw [h0] at this
      have e : sideValue t.side [] = 0 := by simp [sideValue]
      omega
    · rw [(greedy_hit hst rs).1] at h ⊢
      rw [hit_total (hn r (by simp)), lots_cons] at h
      rw [hit_value (hn r (by simp)), cost_cons]
      have har := ha r (by simp)
      have hle : a r ≤ min r.leaves t.leaves + d := by
        by_cases hc : r.leaves ≤ t.leaves
        · omega
        · have h0 : sideTotal t.side (greedy (t.afterExec (min r.leaves t.leaves)) rs) = 0 := by
            have hz : (t.afterExec (min r.leaves t.leaves)).leaves = 0 := by
              show t.leaves - min r.leaves t.leaves = 0; omega
            cases rs with
            | nil => simp [greedy, sideTotal]
            | cons y ys => rw [(greedy_stop (.inl hz) ys).1]; simp [sideTotal]
          omega
      have h2 := ih (t := t.afterExec (min r.leaves t.leaves)) r.price (min r.leaves t.leaves + d - a r) a hb
        (fun x hx => hn x (by simp [hx])) (hso.sub (List.sublist_cons_self ..)) (fun x hx => by simpa [Kind.highestFirst] using hso.head hx)
        (fun x hx => ha x (by simp [hx])) (by change _ = sideTotal t.side _ + _; omega)
      change sideValue t.side _ + _ ≤ _ at h2
      have h3 : p * d ≤ r.price * d := Nat.mul_le_mul_right _ (hp r (by simp))
      have h4 : r.price * (min r.leaves t.leaves + d - a r) + r.price * a r = r.price * min r.leaves t.leaves + r.price * d := by
        rw [← Nat.mul_add, ← Nat.mul_add]; congr 1; omega
      omega

/-- A greedy seller receives no less than for any other basket. -/
theorem greedy_dear (rs : List Order) : ∀ {t : Order} (p d : Nat) (a : Order → Nat), t.side = .sell → (∀ r ∈ rs, r.side ≠ t.side) →
    InLine .bid rs → (∀ r ∈ rs, r.price ≤ p) → Basket rs a → basketLots rs a = sideTotal t.side (greedy t rs) + d →
    basketValue rs a ≤ sideValue t.side (greedy t rs) + p * d := by
  induction rs with
  | nil =>
    intro t p d a _ _ _ _ _ h
    have : d = 0 := by simp [basketLots, greedy, sideTotal] at h; omega
    subst this; simp [basketValue]
  | cons r rs ih =>
    intro t p d a hb hn hso hp ha h
    by_cases hst : t.stopsAt r
    · rw [(greedy_stop hst rs).1] at h ⊢
      have h0 : basketLots (r :: rs) a = d := by rw [h]; simp [sideTotal]
      have := cost_high p (r :: rs) a hp
      rw [h0] at this
      omega
    · rw [(greedy_hit hst rs).1] at h ⊢
      rw [hit_total (hn r (by simp)), lots_cons] at h
      rw [hit_value (hn r (by simp)), cost_cons]
      have har := ha r (by simp)
      have hle : a r ≤ min r.leaves t.leaves + d := by
        by_cases hc : r.leaves ≤ t.leaves
        · omega
        · have h0 : sideTotal t.side (greedy (t.afterExec (min r.leaves t.leaves)) rs) = 0 := by
            have hz : (t.afterExec (min r.leaves t.leaves)).leaves = 0 := by
              show t.leaves - min r.leaves t.leaves = 0; omega
            cases rs with
            | nil => simp [greedy, sideTotal]
            | cons y ys => rw [(greedy_stop (.inl hz) ys).1]; simp [sideTotal]
          omega
      have h2 := ih (t := t.afterExec (min r.leaves t.leaves)) r.price (min r.leaves t.leaves + d - a r) a hb
        (fun x hx => hn x (by simp [hx])) (hso.sub (List.sublist_cons_self ..)) (fun x hx => by simpa [Kind.highestFirst] using hso.head hx)
        (fun x hx => ha x (by simp [hx])) (by change _ = sideTotal t.side _ + _; omega)
      change _ ≤ sideValue t.side _ + _ at h2
      have h3 : r.price * d ≤ p * d := Nat.mul_le_mul_right _ (hp r (by simp))
      have h4 : r.price * (min r.leaves t.leaves + d - a r) + r.price * a r = r.price * min r.leaves t.leaves + r.price * d := by
        rw [← Nat.mul_add, ← Nat.mul_add]; congr 1; omega
      omega

/-- A basket of acceptable orders has no more lots than are available. -/
theorem lots_available {t : Order} {rs : List Order} {a : Order → Nat} (ha : Basket rs a) (hacc : ∀ r ∈ rs, a r ≠ 0 → t.accepts r.price) :
    basketLots rs a ≤ t.available rs := by
  induction rs with
  | nil => simp [basketLots]
  | cons r rs ih =>
    rw [lots_cons, available_cons]
    have h1 := ih (fun x hx => ha x (by simp [hx])) (fun x hx => hacc x (by simp [hx]))
    have h2 := ha r (by simp)
    by_cases h : t.accepts r.price
    · rw [if_pos h]; omega
    · have : a r = 0 := Decidable.not_not.1 fun h0 => h (hacc r (by simp) h0)
      rw [if_neg h]; omega

/-- The orders on one side of a book are orders of that side. -/
theorem resting_side {g : Mgr} (hr : g.Reachable) {sym : Nat} {sd : Side} {r : Order} (h : r ∈ g.resting sym sd) : r.side = sd := by
  cases hb : g.getBook sym with
  | none => unfold Mgr.resting at h; rw [lines_none (by exact hb)] at h; cases h
  | some b =>
    have := ((lines_complete hr (by rw [hb]; simp) (k := sd.limits)).1 h).2.2
    unfold Order.home at this
    cases sd <;> cases hs : r.side <;> cases ht : r.type <;> rw [ht, hs] at this <;> simp_all [Side.limits]

/-- A greedy fill is itself a basket. -/
theorem greedy_basket (rs : List Order) : ∀ {t : Order}, (∀ r ∈ rs, r.side ≠ t.side) → (rs.map (·.id)).Nodup →
    ∃ a, Basket rs a ∧ (∀ r ∈ rs, a r ≠ 0 → t.accepts r.price) ∧ basketLots rs a = sideTotal t.side (greedy t rs) ∧
      basketValue rs a = sideValue t.side (greedy t rs) := by
  induction rs with
  | nil => intro t _ _; exact ⟨fun _ => 0, (by intro r hr; cases hr), (by intro r hr; cases hr), by simp [basketLots, greedy, sideTotal], by simp [basketValue, greedy, sideValue]⟩
  | cons r rs ih =>
    intro t hn hnd
    by_cases hst : t.stopsAt r
    · rw [(greedy_stop hst rs).1]
      refine ⟨fun _ => 0, fun _ _ => Nat.zero_le _, fun _ _ h => absurd rfl h, ?_, ?_⟩
      · have : ∀ l : List Order, basketLots l (fun _ => 0) = 0 := by
          intro l; induction l with
          | nil => rfl
          | cons x l ih => rw [lots_cons, ih]
        rw [this]; simp [sideTotal]
      · have : ∀ l : List Order, basketValue l (fun _ => 0) = 0 := by
          intro l; induction l with
          | nil => rfl
          | cons x l ih => rw [cost_cons, ih]; simp
        rw [this]; simp [sideValue]
    · have hacc : t.accepts r.price := Decidable.not_not.1 fun h => hst (.inr (.inl h))
      rw [(greedy_hit hst rs).1, hit_total (hn r (by simp)), hit_value (hn r (by simp))]
      rw [List.map_cons, List.nodup_cons] at hnd
      obtain ⟨a, h1, h2, h3, h4⟩ := ih (t := t.afterExec (min r.leaves t.leaves)) (fun x hx => hn x (by simp [hx])) hnd.2
      have hne : ∀ x ∈ rs, x ≠ r := by rintro x hx rfl; exact hnd.1 (List.mem_map_of_mem hx)
      refine ⟨fun x => if x = r then min r.leaves t.leaves else a x, ?_, ?_, ?_, ?_⟩
      · intro x hx
        by_cases hxr : x = r
        · subst hxr; simp only [if_true]; omega
        · simp only [hxr, if_false]
          exact h1 x (by simpa [hxr] using hx)
      · intro x hx h0
        by_cases hxr : x = r
        · subst hxr; exact hacc
        · simp only [hxr, if_false] at h0
          exact h2 x (by simpa [hxr] using hx) h0
      · rw [lots_cons]
        simp only [if_true]
        have : basketLots rs (fun x => if x = r then min r.leaves t.leaves else a x) = basketLots rs a := by
          unfold basketLots; rw [List.map_congr_left (g := a) (fun x hx => by simp [hne x hx])]
        rw [this, h3]; rfl
      · rw [cost_cons]
        simp only [if_true]
        have : basketValue rs (fun x => if x = r then min r.leaves t.leaves else a x) = basketValue rs a := by
          unfold basketValue; rw [List.map_congr_left (g := fun x => x.price * a x) (fun x hx => by simp [hne x hx])]
        rw [this, h4]; rfl

theorem resting_nodup {g : Mgr} (hr : g.Reachable) (sym : Nat) (sd : Side) : ((g.resting sym sd).map (·.id)).Nodup := by
  unfold Mgr.resting
  cases hb : slot g.books sym with
  | none => rw [lines_none hb]; simp
  | some b => rw [lines_core hr.minv hb]; exact line_nodup (hr.minv.inv hb).1 _

/-! ### Splitting -/

/-- Any measure of the executions that is linear in the quantities: so much for each lot of an order in line, so much for each
lot of an incoming order. -/
def measure (sd : Side) (φ : Nat → Nat → Nat) (ψ : Nat → Nat) : List (Order × Nat × Nat) → Nat
  | [] => 0
  | x :: xs => (if x.1.side = sd then ψ x.2.1 else φ x.1.id x.2.1) * x.2.2 + measure sd φ ψ xs

theorem measure_append (sd φ ψ) (xs ys) : measure sd φ ψ (xs ++ ys) = measure sd φ ψ xs + measure sd φ ψ ys := by
  induction xs with
  | nil => simp [measure]
  | cons x xs ih => rw [List.cons_append, measure, measure, ih]; omega

theorem total_measure (sd : Side) (xs) : sideTotal sd xs = measure sd (fun _ _ => 0) (fun _ => 1) xs := by
  induction xs with
  | nil => rfl
  | cons x xs ih => rw [total_cons, measure, ih]; split <;> simp

theorem value_measure (sd : Side) (xs) : sideValue sd xs = measure sd (fun _ _ => 0) (fun p => p) xs := by
  induction xs with
  | nil => rfl
  | cons x xs ih => rw [value_cons, measure, ih]; split <;> simp

theorem quantityAt_measure (sd : Side) (id p : Nat) (xs) :
    quantityAt sd.other id p xs = measure sd (fun i q => if i = id ∧ q = p then 1 else 0) (fun _ => 0) xs := by
  unfold quantityAt
  induction xs with
  | nil => rfl
  | cons x xs ih =>
    rw [measure, ← ih]
    have hsd : x.1.side = sd.other ↔ ¬ x.1.side = sd := by cases x.1.side <;> cases sd <;> simp [Side.other]
    by_cases h : x.1.id = id ∧ x.2.1 = p
    · rw [List.filter_cons_of_pos (by simpa using h), total_cons, if_pos h]
      by_cases h2 : x.1.side = sd
      · rw [if_pos h2, if_neg (by rw [hsd]; simpa using h2)]; simp
      · rw [if_neg h2, if_pos (hsd.2 h2)]; simp
    · rw [List.filter_cons_of_neg (by simpa using h), if_neg h]; split <;> simp

/-- Greedy filling depends only on side, price and quantity. -/
theorem rest_congr (rs : List Order) : ∀ {t u : Order}, t.side = u.side → t.price = u.price → t.leaves = u.leaves →
    greedyRest t rs = greedyRest u rs ∧ ∀ φ ψ, measure t.side φ ψ (greedy t rs) = measure t.side φ ψ (greedy u rs) := by
  induction rs with
  | nil => intro t u _ _ _; exact ⟨rfl, fun _ _ => rfl⟩
  | cons r rs ih =>
    intro t u h1 h2 h3
    have hst : t.stopsAt r ↔ u.stopsAt r := by
      unfold Order.stopsAt Order.accepts; rw [h1, h2, h3]
    by_cases hs : t.stopsAt r
    · rw [(greedy_stop hs rs).1, (greedy_stop hs rs).2.2, (greedy_stop (hst.1 hs) rs).1, (greedy_stop (hst.1 hs) rs).2.2]
      exact ⟨rfl, fun _ _ => rfl⟩
    · have hs' : ¬ u.stopsAt r := fun h => hs (hst.2 h)
      rw [(greedy_hit hs rs).1, (greedy_hit hs rs).2.2, (greedy_hit hs' rs).1, (greedy_hit hs' rs).2.2, h3]
      have hi := ih (t := t.afterExec (min r.leaves u.leaves)) (u := u.afterExec (min r.leaves u.leaves)) h1 h2
        (by show t.leaves - _ = u.leaves - _; rw [h3])
      refine ⟨by rw [hi.1], fun φ ψ => ?_⟩
      have := hi.2 φ ψ
      change measure t.side φ ψ _ = measure t.side φ ψ _ at this
      simp only [measure]
      rw [this, if_pos trivial, if_pos h1.symm]

theorem afterExec_afterExec (r : Order) (a b : Nat) : (r.afterExec a).afterExec b = r.afterExec (a + b) := by
  unfold Order.afterExec
  have h1 : add64 (add64 r.executed a) b = add64 r.executed (a + b) := by unfold add64; omega
  simp only [h1, Nat.sub_sub]

/-- An order filled in two parts. -/
theorem split (rs : List Order) : ∀ {t t1 t2 : Order}, (∀ r ∈ rs, r.isAON = false ∧ r.side ≠ t.side) → InLine t.side.other.limits rs →
    t1.side = t.side → t2.side = t.side → t1.price = t.price → t2.price = t.price → t.leaves = t1.leaves + t2.leaves →
    greedyRest t rs = greedyRest t2 (greedyRest t1 rs) ∧
    ∀ φ ψ, measure t.side φ ψ (greedy t rs) = measure t.side φ ψ (greedy t1 rs) + measure t.side φ ψ (greedy t2 (greedyRest t1 rs)) := by
  induction rs with
  | nil => intro t t1 t2 _ _ _ _ _ _ _; exact ⟨rfl, fun _ _ => rfl⟩
  | cons r rs ih =>
    intro t t1 t2 hn hso s1 s2 p1 p2 hl
    have hna := (hn r (by simp)).1
    have hsd := (hn r (by simp)).2
    have hacc : ∀ {u : Order}, u.side = t.side → u.price = t.price → ∀ p, u.accepts p ↔ t.accepts p := by
      intro u h1 h2 p; unfold Order.accepts; rw [h1, h2]
    have hstop : ∀ {u x : Order}, x.isAON = false → (u.stopsAt x ↔ u.leaves = 0 ∨ ¬ u.accepts x.price) := by
      intro u x h; unfold Order.stopsAt; rw [h]; simp
    by_cases hz1 : t1.leaves = 0
    · rw [(greedy_stop (.inl hz1) rs).2.2, (greedy_stop (.inl hz1) rs).1]
      have h := rest_congr (r :: rs) (t := t) (u := t2) s2.symm p2.symm (by omega)
      refine ⟨h.1, fun φ ψ => ?_⟩
      rw [h.2]; simp [measure]
    · by_cases ha : t.accepts r.price
      · have hs1 : ¬ t1.stopsAt r := by rw [hstop hna, hacc s1 p1]; exact fun h => h.elim hz1 (fun h => h ha)
        have hs : ¬ t.stopsAt r := by rw [hstop hna]; exact fun h => h.elim (fun h => by omega) (fun h => h ha)
        rw [(greedy_hit hs1 rs).1, (greedy_hit hs1 rs).2.2, (greedy_hit hs rs).1, (greedy_hit hs rs).2.2]
        by_cases hq : min r.leaves t1.leaves = r.leaves
        · rw [if_pos hq, if_pos (by omega)]
          have hi := ih (t := t.afterExec (min r.leaves t.leaves)) (t1 := t1.afterExec (min r.leaves t1.leaves)) (t2 := t2)
            (fun x hx => hn x (by simp [hx])) (hso.sub (List.sublist_cons_self ..)) s1 s2 p1 p2
            (by show t.leaves - min r.leaves t.leaves = t1.leaves - min r.leaves t1.leaves + t2.leaves; omega)
          refine ⟨hi.1, fun φ ψ => ?_⟩
          have h2 := hi.2 φ ψ
          change measure t.side φ ψ _ = measure t.side φ ψ _ + measure t.side φ ψ _ at h2
          have e : min r.leaves t.leaves = min r.leaves t1.leaves := by omega
          simp only [measure]
          rw [h2, if_neg hsd, if_pos trivial, if_pos s1, e]
          omega
        · rw [if_neg hq]
          have hz : (t1.afterExec (min r.leaves t1.leaves)).leaves = 0 := by show t1.leaves - _ = 0; omega
          have e0 : ∀ l, greedy (t1.afterExec (min r.leaves t1.leaves)) l = [] := by
            intro l; cases l with
            | nil => rfl
            | cons y ys => rw [(greedy_stop (.inl hz) ys).1]
          rw [e0]
          have hm1 : min r.leaves t1.leaves = t1.leaves := by omega
          rw [hm1]
          by_cases hz2 : t2.leaves = 0
          · rw [(greedy_stop (.inl hz2) rs).1, (greedy_stop (.inl hz2) rs).2.2]
            have e1 : t.leaves = t1.leaves := by omega
            rw [e1, hm1]
            have hzt : (t.afterExec t1.leaves).leaves = 0 := by show t.leaves - _ = 0; omega
            have e2 : ∀ l, greedy (t.afterExec t1.leaves) l = [] := by
              intro l; cases l with
              | nil => rfl
              | cons y ys => rw [(greedy_stop (.inl hzt) ys).1]
            rw [e2, if_neg (by omega)]
            refine ⟨rfl, fun φ ψ => ?_⟩
            simp only [measure, if_neg hsd, s1, if_true]
            omega
          · have hs2 : ¬ t2.stopsAt (r.afterExec t1.leaves) := by
              rw [hstop (by exact hna)]
              rw [hacc s2 p2]; exact fun h => h.elim hz2 (fun h => h ha)
            rw [(greedy_hit hs2 rs).1, (greedy_hit hs2 rs).2.2]
            have er : (r.afterExec t1.leaves).leaves = r.leaves - t1.leaves := rfl
            have ep : (r.afterExec t1.leaves).price = r.price := rfl
            have hc := rest_congr rs (t := t.afterExec (min r.leaves t.leaves))
              (u := t2.afterExec (min (r.afterExec t1.leaves).leaves t2.leaves)) s2.symm p2.symm
              (by show t.leaves - min r.leaves t.leaves = t2.leaves - min (r.leaves - t1.leaves) t2.leaves; omega)
            have em : min r.leaves t.leaves = t1.leaves + min (r.leaves - t1.leaves) t2.leaves := by omega
            refine ⟨?_, fun φ ψ => ?_⟩
            · by_cases hf : min r.leaves t.leaves = r.leaves
              · rw [if_pos hf, if_pos (by rw [er]; omega), hc.1]
              · rw [if_neg hf, if_neg (by rw [er]; omega), afterExec_afterExec, er, ← em]
            · have h2 := hc.2 φ ψ
              change measure t.side φ ψ _ = measure t.side φ ψ _ at h2
              have hsd' : ¬ (r.afterExec t1.leaves).side = t.side := hsd
              have eid : (r.afterExec t1.leaves).id = r.id := rfl
              simp only [measure, if_neg hsd, if_neg hsd', s1, s2, if_true, h2, ep, er, eid]
              rw [em]
              simp only [Nat.mul_add]
              omega
      · have hs1 : t1.stopsAt r := by rw [hstop hna, hacc s1 p1]; exact .inr ha
        have hs2 : t2.stopsAt r := by rw [hstop hna, hacc s2 p2]; exact .inr ha
        have hs : t.stopsAt r := by rw [hstop hna]; exact .inr ha
        rw [(greedy_stop hs rs).1, (greedy_stop hs rs).2.2, (greedy_stop hs1 rs).1, (greedy_stop hs1 rs).2.2, (greedy_stop hs2 rs).1,
          (greedy_stop hs2 rs).2.2]
        exact ⟨rfl, fun _ _ => rfl⟩

theorem capped_facts (o : Order) (rs : List Order) : (o.capped rs).leaves = o.leaves ∧ (o.capped rs).tif = o.tif ∧ (o.capped rs).side = o.side ∧
    (o.type = .limit → o.capped rs = o) := by
  unfold Order.capped
  split
  · rename_i h; exact ⟨rfl, rfl, rfl, fun h' => by rw [h] at h'; cases h'⟩
  · exact ⟨rfl, rfl, rfl, fun _ => rfl⟩

/-- The executions of a call, for an order that is neither Fill-Or-Kill nor All-Or-None. -/
theorem fills_greedy {g : Mgr} (hr : g.Reachable) {o : Order} {g' : Mgr} {e : ErrorCode} {evs : List Event} (ha : g.Admissible (.addOrder o))
    (hs : g.step (.addOrder o) = .ok (g', e)) (hev : g'.ev = g.ev ++ evs) (hn : g.refusal (.addOrder o) = none) (hm : g.matching = true)
    (hty : o.type = .limit ∨ o.type = .market) (htif : o.tif = .gtc ∨ o.tif = .ioc) (hq : (g.lines o.symbolId).quiet)
    (hna : ∀ r ∈ g.resting o.symbolId o.side.other, r.tif ≠ .aon) :
    execsOf evs = greedy (o.capped (g.resting o.symbolId o.side.other)) (g.resting o.symbolId o.side.other) ∧
    (e = .ok → g'.lines = g.lines.set o.symbolId ((g.lines o.symbolId).arrive true o).2) ∧ ((g.lines o.symbolId).arrive true o).2.quiet := by
  obtain ⟨evs', rest, h1, h2, h3⟩ := C11_incoming hr ha hs hn hm hty
  rw [hev] at h1
  cases List.append_cancel_left h1
  have hqa := quiet_arrival hr hq hna (by rcases htif with h | h <;> rw [h] <;> simp) hty
  obtain ⟨rfl, h4⟩ := h3 hqa
  refine ⟨?_, h4, hqa⟩
  rw [h2, List.append_nil]
  unfold Order.fills
  rw [if_neg]
  unfold Order.whole
  rw [(capped_facts _ _).2.1]
  rcases htif with h | h <;> rw [h] <;> simp

end Best

/-- C77. The book of the symbol has nothing to match and no All-Or-None orders on the opposite side; an accepted limit or market order that is
neither Fill-Or-Kill nor All-Or-None comes in. (1) No basket of acceptable orders in line, up to its size, has more lots than it
gets. (2) No basket of as many lots would have been cheaper for a buyer or better for a seller. (3) What it gets is itself such a
basket, of acceptable orders at their own prices: the bounds are met. -/
theorem C77_best_execution {g : Mgr} (hr : g.Reachable) {o : Order} {g' : Mgr} {e : ErrorCode} {evs : List Event} (ha : g.Admissible (.addOrder o))
    (hs : g.step (.addOrder o) = .ok (g', e)) (hev : g'.ev = g.ev ++ evs) (hn : g.refusal (.addOrder o) = none) (hm : g.matching = true)
    (hty : o.type = .limit ∨ o.type = .market) (htif : o.tif = .gtc ∨ o.tif = .ioc) (hq : (g.lines o.symbolId).quiet)
    (hna : ∀ r ∈ g.resting o.symbolId o.side.other, r.tif ≠ .aon) {rs : List Order} (hrs : rs = g.resting o.symbolId o.side.other) :
    (∀ a, Basket rs a → (∀ r ∈ rs, a r ≠ 0 → (o.capped rs).accepts r.price) → basketLots rs a ≤ o.leaves →
      basketLots rs a ≤ sideTotal o.side (execsOf evs)) ∧
    (∀ a, Basket rs a → basketLots rs a = sideTotal o.side (execsOf evs) →
      (o.side = .buy → sideValue .buy (execsOf evs) ≤ basketValue rs a) ∧ (o.side = .sell → basketValue rs a ≤ sideValue .sell (execsOf evs))) ∧
    ∃ a, Basket rs a ∧ (∀ r ∈ rs, a r ≠ 0 → (o.capped rs).accepts r.price) ∧ basketLots rs a = sideTotal o.side (execsOf evs) ∧
      basketValue rs a = sideValue o.side (execsOf evs) ∧ basketLots rs a ≤ o.leaves := by
  have hx := (Best.fills_greedy hr ha hs hev hn hm hty htif hq hna).1
  rw [← hrs] at hx hna
  have hside : ∀ r ∈ rs, r.side ≠ (o.capped rs).side := by
    intro r h
    rw [(Best.capped_facts _ _).2.2.1, Best.resting_side hr (hrs ▸ h)]
    cases o.side <;> simp [Side.other]
  have hln : InLine (o.capped rs).side.other.limits rs := by
    have := lines_inLine hr o.symbolId o.side.other
    rw [(Best.capped_facts _ _).2.2.1, hrs]; exact this
  have hnd := Best.resting_nodup hr o.symbolId o.side.other
  rw [← hrs] at hnd
  have hlots := Best.greedy_lots rs (t := o.capped rs) (fun r h => ⟨by have := hna r h; unfold Order.isAON; simpa using this, hside r h⟩) hln
  obtain ⟨f1, _, f3, _⟩ := Best.capped_facts o rs
  rw [f1] at hlots
  generalize hu : o.capped rs = u at *
  rw [hx, ← f3]
  refine ⟨fun a hb hacc hle => ?_, fun a hb hl => ?_, ?_⟩
  · rw [hlots]
    have := Best.lots_available (t := u) hb hacc
    omega
  · constructor
    · intro hb'
      have := Best.greedy_cheap rs (t := u) 0 0 a hb' hside (by rw [hb'] at hln; exact hln) (fun _ _ => Nat.zero_le _) hb (by rw [hl]; rfl)
      rw [hb'] at this
      omega
    · intro hb'
      obtain ⟨p, hp⟩ : ∃ p, ∀ r ∈ rs, r.price ≤ p := by
        clear hrs hx hna hside hln hnd hlots hu hb hl
        induction rs with
        | nil => exact ⟨0, fun r h => by cases h⟩
        | cons x rs ih =>
          obtain ⟨p, hp⟩ := ih
          refine ⟨max p x.price, fun r h => ?_⟩
          rcases List.mem_cons.1 h with h | h
          · rw [h]; omega
          · have := hp r h; omega
      have := Best.greedy_dear rs (t := u) p 0 a hb' hside (by rw [hb'] at hln; exact hln) hp hb (by rw [hl]; rfl)
      rw [hb'] at this
      omega
  · obtain ⟨a, h1, h2, h3, h4⟩ := Best.greedy_basket rs (t := u) hside hnd
    exact ⟨a, h1, h2, h3, h4, by rw [h3, hlots]; omega⟩

/-- C78. The book of the symbol has nothing to match and no All-Or-None orders on the opposite side. A limit order, neither Fill-Or-Kill nor
All-Or-None, is submitted; or two of the same side and price and together of the same size, one after the other. The opposite side of
the book is the same afterwards, the quantity and the money that change hands are the same, and every order in line has been executed
for the same quantity at the same price. -/
theorem C78_split {g h h' : Mgr} (hr : g.Reachable) {t t1 t2 : Order} {xs ys zs : List Execution}
    (hl : g.Records [(.addOrder t, .ok, xs)] h) (hl' : g.Records [(.addOrder t1, .ok, ys), (.addOrder t2, .ok, zs)] h')
    (hm : g.matching = true) (hty : t.type = .limit ∧ t1.type = .limit ∧ t2.type = .limit)
    (htif : ∀ o ∈ [t, t1, t2], o.tif = .gtc ∨ o.tif = .ioc)
    (hsym : t1.symbolId = t.symbolId ∧ t2.symbolId = t.symbolId) (hside : t1.side = t.side ∧ t2.side = t.side)
    (hprice : t1.price = t.price ∧ t2.price = t.price) (hlv : t.leaves = t1.leaves + t2.leaves)
    (hq : (g.lines t.symbolId).quiet) (hna : ∀ r ∈ g.resting t.symbolId t.side.other, r.tif ≠ .aon) :
    h.resting t.symbolId t.side.other = h'.resting t.symbolId t.side.other ∧
    sideTotal t.side xs = sideTotal t.side (ys ++ zs) ∧ sideValue t.side xs = sideValue t.side (ys ++ zs) ∧
    ∀ id p, quantityAt t.side.other id p xs = quantityAt t.side.other id p (ys ++ zs) := by
  have ref : ∀ {g g' : Mgr} {o : Order}, g.Reachable → g.Admissible (.addOrder o) → g.step (.addOrder o) = .ok (g', .ok) →
      g.refusal (.addOrder o) = none := by
    intro g g' o hr ha hs
    cases hc : g.refusal (.addOrder o) with
    | none => rfl
    | some c =>
      have := C43_refused hr hc ha
      rw [hs] at this
      cases this
      simp only [Mgr.refusal] at hc
      by_cases h1 : o.validate = .ok
      · simp [h1] at hc
      · simp [h1] at hc
  have arr : ∀ {g : Mgr} {o : Order} {rs}, o.type = .limit → (o.tif = .gtc ∨ o.tif = .ioc) → rs = (g.lines o.symbolId) o.side.other.limits →
      ((g.lines o.symbolId).arrive true o).2 o.side.other.limits = greedyRest o rs := by
    intro g o rs hty htif hrs
    have hnw : ¬ (o.capped rs).whole := by
      unfold Order.whole; rw [(Best.capped_facts _ _).2.1]; rcases htif with h | h <;> rw [h] <;> simp
    unfold Board.arrive
    simp only [if_true]
    rw [← hrs]
    have e1 : ((g.lines o.symbolId).put o.side.other.limits ((o.capped rs).leaveLine rs)) o.side.other.limits = greedyRest o rs := by
      unfold Board.put Order.leaveLine
      rw [if_pos rfl, if_neg hnw, (Best.capped_facts o rs).2.2.2 hty]
    split
    · unfold Board.insert
      rw [if_neg, e1]
      have hlt : ((o.capped rs).left rs).type = o.type ∧ ((o.capped rs).left rs).side = o.side := by
        unfold Order.left
        rw [if_neg hnw, (Best.capped_facts o rs).2.2.2 hty]
        have gl : ∀ (l : List Order) (u : Order), (greedyLeft u l).type = u.type ∧ (greedyLeft u l).side = u.side := by
          intro l
          induction l with
          | nil => intro u; exact ⟨rfl, rfl⟩
          | cons y l ih =>
            intro u
            unfold greedyLeft
            split
            · exact ⟨rfl, rfl⟩
            · exact ih _
        exact gl rs o
      unfold Order.home
      rw [hlt.1, hlt.2, hty]
      cases o.side <;> simp [Side.other, Side.limits]
    · exact e1
  cases hl with
  | cons ha hs hev hnil =>
  cases hnil
  cases hl' with
  | cons ha1 hs1 hev1 hl2 =>
  cases hl2 with
  | cons ha2 hs2 hev2 hnil =>
  cases hnil
  rename_i evs g1 evs1 evs2
  have f0 := Best.fills_greedy hr ha hs hev (ref hr ha hs) hm (.inl hty.1) (htif t (by simp)) hq hna
  have f1 := Best.fills_greedy hr ha1 hs1 hev1 (ref hr ha1 hs1) hm (.inl hty.2.1) (htif t1 (by simp)) (by rw [hsym.1]; exact hq)
    (by rw [hsym.1, hside.1]; exact hna)
  have hr1 : g1.Reachable := hr.step ha1 hs1
  have hlines1 := f1.2.1 rfl
  have hres1 : g1.resting t.symbolId t.side.other = greedyRest t1 (g.resting t.symbolId t.side.other) := by
    unfold Mgr.resting
    rw [hlines1]
    unfold Lines.set
    rw [if_pos hsym.1.symm]
    have := arr (g := g) (o := t1) hty.2.1 (htif t1 (by simp)) rfl
    rw [hside.1] at this
    rw [this, hsym.1]
  have hm1 : g1.matching = true := by
    have := (C50_mode hr ha1 hs1).2.2.2 (by simp) (by simp)
    rw [this, hm]
  have hsub : ∀ (l : List Order) (u : Order) r, r ∈ greedyRest u l → ∃ x ∈ l, r.tif = x.tif := by
    intro l
    induction l with
    | nil => intro u r h; cases h
    | cons y l ih =>
      intro u r h
      unfold greedyRest at h
      split at h
      · exact ⟨r, h, rfl⟩
      · dsimp only at h
        split at h
        · obtain ⟨x, h1, h2⟩ := ih _ _ h
          exact ⟨x, by simp [h1], h2⟩
        · rcases List.mem_cons.1 h with h | h
          · exact ⟨y, by simp, by rw [h]; rfl⟩
          · exact ⟨r, by simp [h], rfl⟩
  have hna1 : ∀ r ∈ g1.resting t.symbolId t.side.other, r.tif ≠ .aon := by
    intro r h
    rw [hres1] at h
    obtain ⟨x, h1, h2⟩ := hsub _ _ _ h
    rw [h2]; exact hna x h1
  have hq1 : (g1.lines t.symbolId).quiet := by
    rw [hlines1]
    unfold Lines.set
    rw [if_pos hsym.1.symm]
    exact f1.2.2
  have f2 := Best.fills_greedy hr1 ha2 hs2 hev2 (ref hr1 ha2 hs2) hm1 (.inl hty.2.2) (htif t2 (by simp)) (by rw [hsym.2]; exact hq1)
    (by rw [hsym.2, hside.2]; exact hna1)
  have hnw : ∀ {o : Order} (rs), o.type = .limit → o.capped rs = o := fun rs h => (Best.capped_facts _ _).2.2.2 h
  rw [f0.1, f1.1, f2.1, hnw _ hty.1, hnw _ hty.2.1, hnw _ hty.2.2, hsym.1, hsym.2, hside.1, hside.2, hres1]
  have hsp := Best.split (g.resting t.symbolId t.side.other) (t := t) (t1 := t1) (t2 := t2)
    (fun r h => ⟨by have := hna r h; unfold Order.isAON; simpa using this, by
      rw [Best.resting_side hr h]; cases t.side <;> simp [Side.other]⟩)
    (lines_inLine hr t.symbolId t.side.other) hside.1 hside.2 hprice.1 hprice.2 hlv
  refine ⟨?_, ?_, ?_, ?_⟩
  · have e1 : h.resting t.symbolId t.side.other = greedyRest t (g.resting t.symbolId t.side.other) := by
      unfold Mgr.resting
      rw [f0.2.1 rfl]
      unfold Lines.set
      rw [if_pos rfl]
      exact arr hty.1 (htif t (by simp)) rfl
    have e2 : h'.resting t.symbolId t.side.other = greedyRest t2 (g1.resting t.symbolId t.side.other) := by
      unfold Mgr.resting
      rw [f2.2.1 rfl]
      unfold Lines.set
      rw [if_pos hsym.2.symm]
      have := arr (g := g1) (o := t2) hty.2.2 (htif t2 (by simp)) rfl
      rw [hside.2] at this
      rw [this, hsym.2]
    rw [e1, e2, hres1, hsp.1]
  · rw [Best.total_append, Best.total_measure, Best.total_measure, Best.total_measure]; exact hsp.2 _ _
  · rw [Best.value_append, Best.value_measure, Best.value_measure, Best.value_measure]; exact hsp.2 _ _
  · intro id p
    rw [Best.quantityAt_measure, Best.quantityAt_measure, Best.measure_append]; exact hsp.2 _ _

/-- A Fill-Or-Kill order does not get the best price: 5 lots stand at 100, a buyer with limit 105 pays 105. -/
theorem C77_fok_witness : ∃ (g g' : Mgr) (e : ErrorCode), g.Reachable ∧ g.Admissible (.addOrder (.mkLimit 9 1 .buy 105 5 .fok)) ∧
    g.step (.addOrder (.mkLimit 9 1 .buy 105 5 .fok)) = .ok (g', e) ∧
    (decide (e = .ok) && decide ((g.resting 1 .sell).map (fun (r : Order) => (r.price, r.leaves)) = [(100, 5)]) &&
      decide (basketLots (g.resting 1 .sell) (·.leaves) = 5) && decide (basketValue (g.resting 1 .sell) (·.leaves) = 500) &&
      decide (sideTotal .buy (execsOf (g'.ev.drop g.ev.length)) = 5) && decide (sideValue .buy (execsOf (g'.ev.drop g.ev.length)) = 525)) = true :=
  demoStep (p := fun g g' e => decide (e = .ok) && decide ((g.resting 1 .sell).map (fun (r : Order) => (r.price, r.leaves)) = [(100, 5)]) &&
      decide (basketLots (g.resting 1 .sell) (·.leaves) = 5) && decide (basketValue (g.resting 1 .sell) (·.leaves) = 500) &&
      decide (sideTotal .buy (execsOf (g'.ev.drop g.ev.length)) = 5) && decide (sideValue .buy (execsOf (g'.ev.drop g.ev.length)) = 525))
    (trading ++ [.addOrder (.mkLimit 1 1 .sell 100 5)]) (.addOrder (.mkLimit 9 1 .buy 105 5 .fok)) (by decide +kernel)

/-- C77 applies: of 5 lots at 100, 7 at 101 and 10 at 102 a buyer of 14 with limit 101 gets 12 for 1207. -/
example : ∃ (g g' : Mgr) (e : ErrorCode), g.Reachable ∧ g.Admissible (.addOrder (.mkLimit 9 1 .buy 101 14)) ∧
    g.step (.addOrder (.mkLimit 9 1 .buy 101 14)) = .ok (g', e) ∧
    (decide (g.refusal (.addOrder (.mkLimit 9 1 .buy 101 14)) = none) && g.matching &&
      (g.lines 1 .bid).isEmpty && (g.lines 1 .buyStop).isEmpty && (g.lines 1 .sellStop).isEmpty && (g.lines 1 .tBuyStop).isEmpty &&
      (g.lines 1 .tSellStop).isEmpty && decide (∀ r ∈ g.resting 1 .sell, r.tif ≠ .aon) &&
      decide (sideTotal .buy (execsOf (g'.ev.drop g.ev.length)) = 12) && decide (sideValue .buy (execsOf (g'.ev.drop g.ev.length)) = 1207)) = true :=
  demoStep (p := fun g g' _ => decide (g.refusal (.addOrder (.mkLimit 9 1 .buy 101 14)) = none) && g.matching &&
      (g.lines 1 .bid).isEmpty && (g.lines 1 .buyStop).isEmpty && (g.lines 1 .sellStop).isEmpty && (g.lines 1 .tBuyStop).isEmpty &&
      (g.lines 1 .tSellStop).isEmpty && decide (∀ r ∈ g.resting 1 .sell, r.tif ≠ .aon) &&
      decide (sideTotal .buy (execsOf (g'.ev.drop g.ev.length)) = 12) && decide (sideValue .buy (execsOf (g'.ev.drop g.ev.length)) = 1207))
    (trading ++ [.addOrder (.mkLimit 1 1 .sell 101 7), .addOrder (.mkLimit 2 1 .sell 100 5), .addOrder (.mkLimit 3 1 .sell 102 10)])
    (.addOrder (.mkLimit 9 1 .buy 101 14)) (by decide +kernel)

/-- Concrete sequences of calls, with result codes and numbers of executions. -/
def Best.recsB (g : Mgr) : List Op → Option (List (Op × ErrorCode × Nat))
  | [] => some []
  | op :: ops =>
    if admB false g op then
      match g.step op with
      | .ok (g', e) => (recsB g' ops).map ((op, e, (execsOf (g'.ev.drop g.ev.length)).length) :: ·)
      | .error _ => none
    else none

theorem Best.recsB_sound {ops : List Op} : ∀ {g : Mgr} {cs}, g.Reachable → Best.recsB g ops = some cs →
    ∃ l h, Mgr.Records g l h ∧ l.map (fun r => (r.1, r.2.1, r.2.2.length)) = cs := by
  induction ops with
  | nil => intro g cs hr h; cases h; exact ⟨[], g, .nil, rfl⟩
  | cons op ops ih =>
    intro g cs hr h
    unfold Best.recsB at h
    by_cases ha : admB false g op = true
    · simp only [ha, if_true] at h
      cases hs : g.step op with
      | error x => rw [hs] at h; cases h
      | ok q =>
        obtain ⟨g1, e⟩ := q
        rw [hs] at h
        dsimp only at h
        have had : g.Admissible op := admB_sound (fresh := false) (by simp) ha
        obtain ⟨evs, hev⟩ := events_appended hr had hs
        cases hb : Best.recsB g1 ops with
        | none => rw [hb] at h; cases h
        | some cs' =>
          rw [hb] at h; cases h
          obtain ⟨l, h', h1, h2⟩ := ih (.step hr had hs) hb
          refine ⟨(op, e, execsOf evs) :: l, h', .cons had hs hev h1, ?_⟩
          rw [List.map_cons, h2, hev]; simp
    · simp [ha] at h

/-- C78 applies: the same 14 lots in one order, or 8 and then 6. -/
example : ∃ (g h h' : Mgr) (xs ys zs : List Execution), g.Reachable ∧ g.matching = true ∧ (g.lines 1).quiet ∧ (∀ r ∈ g.resting 1 .sell, r.tif ≠ .aon) ∧
    g.Records [(.addOrder (.mkLimit 9 1 .buy 101 14), .ok, xs)] h ∧
    g.Records [(.addOrder (.mkLimit 7 1 .buy 101 8 .ioc), .ok, ys), (.addOrder (.mkLimit 8 1 .buy 101 6), .ok, zs)] h' ∧
    xs.length = 4 ∧ ys.length = 4 ∧ zs.length = 2 := by
  obtain ⟨g, hr, hp⟩ := demo (p := fun g => g.matching && (g.lines 1 .bid).isEmpty && (g.lines 1 .buyStop).isEmpty && (g.lines 1 .sellStop).isEmpty &&
      (g.lines 1 .tBuyStop).isEmpty && (g.lines 1 .tSellStop).isEmpty && decide (∀ r ∈ g.resting 1 .sell, r.tif ≠ .aon) &&
      decide (Best.recsB g [.addOrder (.mkLimit 9 1 .buy 101 14)] = some [(.addOrder (.mkLimit 9 1 .buy 101 14), .ok, 4)]) &&
      decide (Best.recsB g [.addOrder (.mkLimit 7 1 .buy 101 8 .ioc), .addOrder (.mkLimit 8 1 .buy 101 6)] =
        some [(.addOrder (.mkLimit 7 1 .buy 101 8 .ioc), .ok, 4), (.addOrder (.mkLimit 8 1 .buy 101 6), .ok, 2)]))
    (trading ++ [.addOrder (.mkLimit 1 1 .sell 101 7), .addOrder (.mkLimit 2 1 .sell 100 5), .addOrder (.mkLimit 3 1 .sell 102 10)]) (by decide +kernel)
  simp only [Bool.and_eq_true, decide_eq_true_eq, List.isEmpty_iff] at hp
  obtain ⟨⟨⟨⟨⟨⟨⟨⟨h1, h2⟩, h3⟩, h4⟩, h5⟩, h6⟩, h7⟩, h8⟩, h9⟩ := hp
  obtain ⟨l, h, hl, hm⟩ := Best.recsB_sound hr h8
  obtain ⟨l', h', hl', hm'⟩ := Best.recsB_sound hr h9
  obtain ⟨⟨_, _, xs⟩, l1, rfl, hx, hm⟩ := List.map_eq_cons_iff.1 hm
  obtain ⟨⟨_, _, ys⟩, l2, rfl, hy, hm'⟩ := List.map_eq_cons_iff.1 hm'
  obtain ⟨⟨_, _, zs⟩, l3, rfl, hz, hm'⟩ := List.map_eq_cons_iff.1 hm'
  cases List.map_eq_nil_iff.1 hm
  cases List.map_eq_nil_iff.1 hm'
  simp only [Prod.mk.injEq] at hx hy hz
  obtain ⟨rfl, rfl, hx⟩ := hx
  obtain ⟨rfl, rfl, hy⟩ := hy
  obtain ⟨rfl, rfl, hz⟩ := hz
  refine ⟨g, h, h', xs, ys, zs, hr, h1, ⟨fun b hb => ?_, fun k hk => ?_⟩, h7, hl, hl', hx, hy, hz⟩
  · rw [h2] at hb; cases hb
  · cases k <;> first | exact h3 | exact h4 | exact h5 | exact h6 | cases hk

end CppTrader
