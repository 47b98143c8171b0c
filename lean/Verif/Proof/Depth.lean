import Verif.Proof.MgrLines
/-
The volumes of a level as sums over the orders in line.
-/

namespace CppTrader
open Core

/-- Sum over the orders in line with rank `p`. -/
def volAt (f : Order → Nat) (p : Nat) (rs : List Order) : Nat := ((rs.filter (fun r => decide (r.rank = p))).map f).sum

theorem volAt_append (f p) (xs ys : List Order) : volAt f p (xs ++ ys) = volAt f p xs + volAt f p ys := by
  unfold volAt; rw [List.filter_append, List.map_append, List.sum_append]

theorem volAt_cons (f p) (x : Order) (ys : List Order) : volAt f p (x :: ys) = (if x.rank = p then f x else 0) + volAt f p ys := by
  unfold volAt; rw [List.filter_cons]
  by_cases h : x.rank = p
  · simp [h]
  · simp [h]

theorem volAt_all {s : Core} {f p ids} (h : ∀ i ∈ ids, ∃ o, s.orders i = some o ∧ o.rank = p) : volAt f p (restOf s ids) = sumOver s.orders f ids := by
  induction ids with
  | nil => rfl
  | cons i is ih =>
    obtain ⟨o, h1, h2⟩ := h i (by simp)
    have : restOf s (i :: is) = o :: restOf s is := by unfold restOf; rw [List.filterMap_cons, h1]
    rw [this, volAt_cons, if_pos h2, ih fun j hj => h j (by simp [hj]), sumOver_cons, qtyAt_some h1]

theorem volAt_none {s : Core} {f p ids} (h : ∀ i ∈ ids, ∀ o, s.orders i = some o → o.rank ≠ p) : volAt f p (restOf s ids) = 0 := by
  unfold volAt
  rw [List.filter_eq_nil_iff.2]
  · rfl
  · intro r hr
    obtain ⟨i, h1, h2⟩ := restOf_mem.1 hr
    simp [h i h1 r h2]

theorem volAt_levels {s : Core} (hi : Inv s) {k : Kind} (f p) : ∀ ls : List Level, ls.Pairwise (fun a b => k.better a.price b.price = true) →
    (∀ l ∈ ls, LevelOK s.orders s.book.symbol.id k l) →
    volAt f p (restOf s (flatOf ls)) = match ls.find? (fun l => l.price = p) with | some l => sumOver s.orders f l.ids | none => 0 := by
  intro ls
  induction ls with
  | nil => intro _ _; rfl
  | cons l ls ih =>
    intro hs hl
    have hrank : ∀ l' ∈ l :: ls, ∀ i ∈ l'.ids, ∃ o, s.orders i = some o ∧ o.rank = l'.price := by
      intro l' h' i hi'
      obtain ⟨o, a1, _, a3, a4⟩ := (hl l' h').mem i hi'
      exact ⟨o, a1, by rw [← key_rank (hi.orders i o a1).2.notMarket]; exact a4⟩
    rw [flatOf_cons, restOf_append, volAt_append, List.find?_cons]
    by_cases e : l.price = p
    · have hz : volAt f p (restOf s (flatOf ls)) = 0 := by
        refine volAt_none ?_
        intro i hi' o ho
        obtain ⟨l', h1, h2⟩ := List.mem_flatMap.1 hi'
        obtain ⟨o', a1, a2⟩ := hrank l' (by simp [h1]) i h2
        rw [ho] at a1; cases a1
        have := List.rel_of_pairwise_cons hs h1
        rw [a2]
        intro e'
        rw [e, e'] at this
        cases k <;> simp [Kind.better, Kind.isBidType] at this
      rw [hz]
      simp only [e, decide_true]
      rw [volAt_all (p := p) (fun i hi' => by rw [← e]; exact hrank l (by simp) i hi')]; rfl
    · rw [volAt_none (p := p) (ids := l.ids) (by
        intro i hi' o ho
        obtain ⟨o', a1, a2⟩ := hrank l (by simp) i hi'
        rw [ho] at a1; cases a1
        rw [a2]; exact e)]
      simp only [e, decide_false, Nat.zero_add]
      exact ih (List.Pairwise.of_cons hs) fun l' h' => hl l' (by simp [h'])

theorem depth_volAt {g : Mgr} (hi : MInv g) (sym k p) :
    g.depth sym k p = (volAt Order.leaves p (g.lines sym k), volAt Order.hiddenQty p (g.lines sym k), volAt Order.visibleQty p (g.lines sym k)) := by
  unfold Mgr.depth Mgr.getBook
  cases hb : slot g.books sym with
  | none => rw [lines_none hb]; rfl
  | some b =>
    obtain ⟨hI, hid⟩ := hi.inv hb
    rw [lines_core hi hb]
    have hk := hI.book.kinds k
    unfold Core.line queue
    rw [volAt_levels hI _ p _ hk.sorted hk.levels, volAt_levels hI _ p _ hk.sorted hk.levels, volAt_levels hI _ p _ hk.sorted hk.levels]
    simp only [Option.bind_some]
    show (match (b.lv k).find? (fun l => l.price = p) with | some l => (l.total, l.hidden, l.visible) | none => (0, 0, 0)) = _
    cases hf : (b.lv k).find? (fun l => l.price = p) with
    | none => rw [show (g.core b).book.lv k = b.lv k from rfl, hf]
    | some l =>
      rw [show (g.core b).book.lv k = b.lv k from rfl, hf]
      have hl := hk.levels l (List.mem_of_find?_eq_some hf)
      simp only
      rw [hl.total, hl.hidden, hl.visible]

theorem volAt_chg {f p id o v} : ∀ rs : List Order, (rs.map (·.id)).Nodup → (∀ r ∈ rs, r.id = id → r = o) → o ∈ rs → o.id = id → o.rank = p →
    (∀ x, v = some x → x.rank = p) →
    volAt f p (chg id v rs) + f o = volAt f p rs + (match v with | some x => f x | none => 0) := by
  intro rs
  induction rs with
  | nil => intro _ _ h; cases h
  | cons r rs ih =>
    intro hn hu hm hid hr hv
    rw [List.map_cons, List.nodup_cons] at hn
    by_cases e : r.id = id
    · have hro : r = o := hu r (by simp) e
      subst hro
      have htail : chg id v rs = rs := chg_id fun x hx hxe => hn.1 (List.mem_map.2 ⟨x, hx, by rw [hxe, e]⟩)
      have : chg id v (r :: rs) = (match v with | some x => [x] | none => []) ++ rs := by
        unfold chg at htail ⊢
        rw [List.filterMap_cons, if_pos e, htail]
        cases v <;> rfl
      rw [this, volAt_append, volAt_cons, if_pos hr]
      cases v with
      | none => simp [volAt]; omega
      | some x => simp only [volAt_cons, if_pos (hv x rfl)]; simp [volAt]; omega
    · have hm' : o ∈ rs := by
        rcases List.mem_cons.1 hm with rfl | h
        · exact absurd hid e
        · exact h
      have : chg id v (r :: rs) = r :: chg id v rs := by
        unfold chg; rw [List.filterMap_cons, if_neg e]
      rw [this, volAt_cons, volAt_cons]
      have := ih hn.2 (fun x hx => hu x (by simp [hx])) hm' hid hr hv
      omega

theorem volAt_chg' {f p id o v} (rs : List Order) (h1 : (rs.map (·.id)).Nodup) (h2 : ∀ r ∈ rs, r.id = id → r = o) (h3 : o ∈ rs) (h4 : o.id = id) (h5 : o.rank = p)
    (h6 : ∀ x, v = some x → x.rank = p) : volAt f p (chg id v rs) + f o = volAt f p rs + v.elim 0 f := by
  have := volAt_chg (f := f) (v := v) rs h1 h2 h3 h4 h5 h6
  rw [this]
  cases v <;> rfl

theorem volAt_off {f p id v} : ∀ rs : List Order, (∀ r ∈ rs, r.id = id → r.rank ≠ p) → (∀ x, v = some x → x.rank ≠ p) →
    volAt f p (chg id v rs) = volAt f p rs := by
  intro rs
  induction rs with
  | nil => intro _ _; rfl
  | cons r rs ih =>
    intro hu hv
    have ih := ih (fun x hx => hu x (by simp [hx])) hv
    by_cases e : r.id = id
    · have hp := hu r (by simp) e
      cases v with
      | none =>
        have : chg id none (r :: rs) = chg id none rs := by unfold chg; rw [List.filterMap_cons]; simp [e]
        rw [this, ih, volAt_cons, if_neg hp, Nat.zero_add]
      | some x =>
        have : chg id (some x) (r :: rs) = x :: chg id (some x) rs := by unfold chg; rw [List.filterMap_cons]; simp [e]
        rw [this, volAt_cons, volAt_cons, ih, if_neg hp, if_neg (hv x rfl)]
    · have : chg id v (r :: rs) = r :: chg id v rs := by unfold chg; rw [List.filterMap_cons, if_neg e]
      rw [this, volAt_cons, volAt_cons, ih]

theorem line_ids {s : Core} (hi : Inv s) (k : Kind) : (s.line k).map (·.id) = queue s.book k := by
  have hq : ∀ ids : List Nat, (∀ i ∈ ids, ∃ o, s.orders i = some o) → (restOf s ids).map (·.id) = ids := by
    intro ids
    induction ids with
    | nil => intro _; rfl
    | cons i is ih =>
      intro h
      obtain ⟨o, ho⟩ := h i (by simp)
      have : restOf s (i :: is) = o :: restOf s is := by unfold restOf; rw [List.filterMap_cons, ho]
      rw [this, List.map_cons, ih fun j hj => h j (by simp [hj]), (hi.orders i o ho).1]
  exact hq _ fun i h => by obtain ⟨o, h1, _⟩ := hi.book.queue_mem h; exact ⟨o, h1⟩

theorem line_nodup {s : Core} (hi : Inv s) (k : Kind) : ((s.line k).map (·.id)).Nodup := by
  rw [line_ids hi]; exact (hi.book.kinds k).nodup

end CppTrader
