import Verif.Proof.Land
/-
When the arrival of an order leaves nothing to match.
-/

namespace CppTrader
open Core

/-- Limit orders sorted by price. -/
structure InLine (k : Kind) (R : List Order) : Prop where
  type : ∀ r ∈ R, r.type = .limit
  order : R.Pairwise (fun a b => ¬ b.beats k a)

theorem InLine.sub {k R R'} (h : InLine k R) (hs : R'.Sublist R) : InLine k R' :=
  ⟨fun r hr => h.type r (hs.subset hr), h.order.sublist hs⟩

theorem InLine.head {k a R} (h : InLine k (a :: R)) {r} (hr : r ∈ R) : if k.highestFirst then r.price ≤ a.price else a.price ≤ r.price := by
  have h1 := List.rel_of_pairwise_cons h.order hr
  have e1 : a.rank = a.price := by unfold Order.rank; rw [if_pos (h.type a (by simp))]
  have e2 : r.rank = r.price := by unfold Order.rank; rw [if_pos (h.type r (by simp [hr]))]
  unfold Order.beats at h1
  rw [e1, e2] at h1
  split <;> simp_all

/-- If a price is not acceptable, worse ones are not either. -/
theorem InLine.worse {t : Order} {a R} (h : InLine t.side.other.limits (a :: R)) (ha : ¬ t.accepts a.price) :
    ∀ r ∈ a :: R, ¬ t.accepts r.price := by
  intro r hr
  rcases List.mem_cons.1 hr with rfl | hr
  · exact ha
  have h1 := h.head hr
  unfold Order.accepts at ha ⊢
  cases hs : t.side <;> simp [hs, Side.other, Side.limits, Kind.highestFirst] at h1 ha ⊢ <;> omega

/-- Without All-Or-None orders in line, greedy filling ends when the order is filled or no acceptable price is left. -/
theorem greedy_blocked (rs : List Order) : ∀ {t : Order}, (∀ r ∈ rs, r.isAON = false) → InLine t.side.other.limits rs →
    (greedyLeft t rs).leaves = 0 ∨ (∀ r ∈ greedyRest t rs, ¬ t.accepts r.price) := by
  induction rs with
  | nil => intro t _ _; right; intro r h; cases h
  | cons a rs ih =>
    intro t hn hso
    by_cases hst : t.stopsAt a
    · obtain ⟨_, g2, g3⟩ := greedy_stop hst rs
      rw [g2, g3]
      rcases hst with h | h | h
      · exact .inl h
      · exact .inr (hso.worse h)
      · rw [hn a (by simp)] at h; cases h.1
    · obtain ⟨_, g2, g3⟩ := greedy_hit hst rs
      rw [g2, g3]
      by_cases hq : min a.leaves t.leaves = a.leaves
      · rw [if_pos hq]
        exact ih (t := t.afterExec (min a.leaves t.leaves)) (fun r hr => hn r (by simp [hr])) (hso.sub (List.sublist_cons_self ..))
      · rw [if_neg hq]
        left
        have hz : (t.afterExec (min a.leaves t.leaves)).leaves = 0 := by
          show t.leaves - min a.leaves t.leaves = 0; omega
        rw [(greedy_zero hz rs).2.1]; exact hz

theorem afterChain_mem (xs : List (Order × Nat)) : ∀ {R : List Order} {r : Order}, r ∈ afterChain xs R → ∃ r' ∈ R, r.price = r'.price ∧ r.side = r'.side ∧
    r.tif = r'.tif ∧ r.type = r'.type ∧ r.id = r'.id := by
  induction xs with
  | nil => intro R r h; unfold afterChain at h; exact ⟨r, h, rfl, rfl, rfl, rfl, rfl⟩
  | cons x xs ih =>
    intro R r h
    cases R with
    | nil => unfold afterChain at h; cases h
    | cons a R =>
      unfold afterChain at h
      split at h
      · rcases List.mem_cons.1 h with rfl | h
        · exact ⟨a, by simp, rfl, rfl, rfl, rfl, rfl⟩
        · obtain ⟨r', h1, h2⟩ := ih h; exact ⟨r', by simp [h1], h2⟩
      · obtain ⟨r', h1, h2⟩ := ih h; exact ⟨r', by simp [h1], h2⟩

theorem leaveLine_mem {t : Order} {R : List Order} {r : Order} (h : r ∈ t.leaveLine R) : ∃ r' ∈ R, r.price = r'.price ∧ r.side = r'.side ∧
    r.tif = r'.tif ∧ r.type = r'.type ∧ r.id = r'.id := by
  unfold Order.leaveLine at h
  split at h
  · split at h
    · exact afterChain_mem _ h
    · exact ⟨r, h, rfl, rfl, rfl, rfl, rfl⟩
  · exact greedyRest_mem R h

theorem put_quiet {l : Board} {k} {t : Order} (h : l.quiet) : (l.put k (t.leaveLine (l k))).quiet := by
  have key : ∀ k' r, r ∈ l.put k (t.leaveLine (l k)) k' → ∃ r' ∈ l k', r.price = r'.price := by
    intro k' r hr
    unfold Board.put at hr
    split at hr
    · rename_i e; subst e
      obtain ⟨r', a, b, _⟩ := leaveLine_mem hr
      exact ⟨r', a, b⟩
    · exact ⟨r, hr, rfl⟩
  refine ⟨?_, ?_⟩
  · intro b hb a ha
    obtain ⟨b', c1, c2⟩ := key _ _ hb
    obtain ⟨a', d1, d2⟩ := key _ _ ha
    rw [c2, d2]; exact h.1 b' c1 a' d1
  · intro k' hk
    cases hl : l.put k (t.leaveLine (l k)) k' with
    | nil => rfl
    | cons r rs =>
      obtain ⟨r', a, _⟩ := key k' r (by rw [hl]; simp)
      rw [h.2 k' hk] at a; cases a

/-- The arrival of a limit or market order that is not All-Or-None in a quiet book without All-Or-None orders on the
opposite side leaves nothing to match. -/
theorem arrive_quiet {l : Board} {t : Order} (hq : l.quiet) (hso : InLine t.side.other.limits (l t.side.other.limits))
    (hna : ∀ r ∈ l t.side.other.limits, r.tif ≠ .aon) (haon : t.tif ≠ .aon) (hty : t.type = .limit ∨ t.type = .market) :
    (l.arrive true t).2.quiet := by
  unfold Board.arrive
  simp only [if_true]
  have hp := put_quiet (k := t.side.other.limits) (t := t.capped (l t.side.other.limits)) hq
  obtain ⟨f1, f2, f3, _, f5⟩ := left_facts (t.capped (l t.side.other.limits)) (l t.side.other.limits)
  have c1 : (t.capped (l t.side.other.limits)).type = t.type := by unfold Order.capped; split <;> rfl
  have c2 : (t.capped (l t.side.other.limits)).tif = t.tif := by unfold Order.capped; split <;> rfl
  by_cases hr : ((t.capped (l t.side.other.limits)).left (l t.side.other.limits)).rests
  rotate_left
  · rw [if_neg hr]; exact hp
  rw [if_pos hr]
  have hlim : t.type = .limit := by
    rcases hty with h | h
    · exact h
    · exact absurd (by rw [f3, c1]; exact h) hr.2.1
  have hgtc : t.tif = .gtc := by
    rcases hr.2.2 (by rw [f3, c1]; exact hlim) with h | h
    · rw [f5, c2] at h; exact h
    · rw [f5, c2] at h; exact absurd h haon
  have hcap : t.capped (l t.side.other.limits) = t := capped_limit (by rw [hlim]; simp) _
  rw [hcap] at f1 f2 f3 f5 hr hp ⊢
  have hnw : ¬ t.whole := by unfold Order.whole; rw [hgtc]; simp
  have hend : ∀ r ∈ t.leaveLine (l t.side.other.limits), ¬ t.accepts r.price := by
    have hpos := hr.1
    unfold Order.left at hpos
    unfold Order.leaveLine
    rw [if_neg hnw] at hpos ⊢
    rcases greedy_blocked (t := t) (l t.side.other.limits) (fun r hr => by unfold Order.isAON; simp [hna r hr]) hso with h | h
    · omega
    · exact h
  generalize hu : t.left (l t.side.other.limits) = u at *
  have hk : u.home.map (·.1) = some t.side.limits := by
    unfold Order.home; rw [f3, hlim, f1]; cases t.side <;> rfl
  have hins : ∀ k x, x ∈ (l.put t.side.other.limits (t.leaveLine (l t.side.other.limits))).insert u k → x = u ∧ k = t.side.limits ∨
      x ∈ l.put t.side.other.limits (t.leaveLine (l t.side.other.limits)) k := by
    intro k x hx
    unfold Board.insert at hx
    rw [hk] at hx
    split at hx
    · rename_i e
      rcases enqueue_mem.1 hx with h | h
      · exact .inl ⟨h, (Option.some.inj e).symm⟩
      · exact .inr h
    · exact .inr hx
  constructor
  · intro b hb a ha
    rcases hins _ _ hb with ⟨rfl, e1⟩ | hb'
    · rcases hins _ _ ha with ⟨_, e2⟩ | ha'
      · rw [← e1] at e2; cases e2
      · have hsd : t.side = .buy := by cases hs : t.side <;> simp [hs, Side.limits] at e1 ⊢
        have := hend a (by
          unfold Board.put at ha'; rw [hsd] at ha' ⊢; simpa [Side.other, Side.limits] using ha')
        unfold Order.accepts at this
        simp only [hsd] at this
        rw [f2]; omega
    · rcases hins _ _ ha with ⟨rfl, e2⟩ | ha'
      · have hsd : t.side = .sell := by cases hs : t.side <;> simp [hs, Side.limits] at e2 ⊢
        have := hend b (by
          unfold Board.put at hb'; rw [hsd] at hb' ⊢; simpa [Side.other, Side.limits] using hb')
        unfold Order.accepts at this
        simp only [hsd] at this
        rw [f2]; omega
      · exact hp.1 b hb' a ha'
  · intro k hk'
    cases hl' : (l.put t.side.other.limits (t.leaveLine (l t.side.other.limits))).insert u k with
    | nil => rfl
    | cons r rs =>
      rcases hins k r (by rw [hl']; simp) with ⟨_, e⟩ | h1
      · rw [e] at hk'; cases hs : t.side <;> simp [hs, Side.limits, Kind.isLimit] at hk'
      · rw [hp.2 k hk'] at h1; cases h1

end CppTrader
