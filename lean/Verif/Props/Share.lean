import Verif.Share
import Verif.Props.Best
import Verif.Props.Moves
/-
C82: what each order in line gets.
-/

namespace CppTrader
namespace Share

theorem of_cons (sd : Side) (id : Nat) (x : Order × Nat × Nat) (xs) :
    quantityOf sd id (x :: xs) = (if x.1.id = id ∧ x.1.side = sd then x.2.2 else 0) + quantityOf sd id xs := by
  unfold quantityOf sideTotal
  by_cases h1 : x.1.id = id
  · by_cases h2 : x.1.side = sd
    · simp [h1, h2]
    · simp [h1, h2]
  · simp [h1]

theorem of_append (sd : Side) (id : Nat) (xs ys) : quantityOf sd id (xs ++ ys) = quantityOf sd id xs + quantityOf sd id ys := by
  unfold quantityOf sideTotal; simp

theorem ahead_head (r : Order) (rs) : aheadOf r.id (r :: rs) = 0 := by
  unfold aheadOf; simp

theorem ahead_cons {id : Nat} {a : Order} (h : a.id ≠ id) (rs) : aheadOf id (a :: rs) = a.leaves + aheadOf id rs := by
  unfold aheadOf
  rw [List.takeWhile_cons, if_pos (by simpa using h), List.map_cons, List.sum_cons]

theorem greedy_none (rs : List Order) : ∀ {t : Order} {sd : Side} {id : Nat}, t.side ≠ sd → (∀ r ∈ rs, r.id ≠ id) → quantityOf sd id (greedy t rs) = 0 := by
  induction rs with
  | nil => intro t sd id _ _; rfl
  | cons a rs ih =>
    intro t sd id hs h
    by_cases hst : t.stopsAt a
    · rw [(greedy_stop hst rs).1]; rfl
    · rw [(greedy_hit hst rs).1, of_cons, of_cons, if_neg (fun h' => h a (by simp) h'.1), if_neg (fun h' => hs h'.2),
        ih (t := t.afterExec (min a.leaves t.leaves)) hs (fun r hr => h r (by simp [hr]))]

theorem greedy_share (rs : List Order) : ∀ {t : Order}, (∀ r ∈ rs, r.isAON = false ∧ r.side = t.side.other) → InLine t.side.other.limits rs →
    (rs.map (·.id)).Nodup → ∀ r ∈ rs, quantityOf t.side.other r.id (greedy t rs) =
      if t.accepts r.price then min r.leaves (t.leaves - aheadOf r.id rs) else 0 := by
  induction rs with
  | nil => intro t _ _ _ r hr; cases hr
  | cons a rs ih =>
    intro t hn hso hnd r hr
    have hts : t.side ≠ t.side.other := by cases t.side <;> simp [Side.other]
    rw [List.map_cons, List.nodup_cons] at hnd
    by_cases hst : t.stopsAt a
    · rw [(greedy_stop hst rs).1]
      show 0 = _
      rcases hst with h | h | h
      · rw [h]; simp
      · rw [if_neg (hso.worse h r hr)]
      · rw [(hn a (by simp)).1] at h; cases h.1
    · have hacc : t.accepts a.price := Decidable.not_not.1 fun h => hst (.inr (.inl h))
      rw [(greedy_hit hst rs).1, of_cons, of_cons]
      rw [if_neg (show ¬ (t.id = r.id ∧ t.side = t.side.other) from fun h => hts h.2), Nat.zero_add]
      dsimp only
      rcases List.mem_cons.1 hr with e | hr'
      · rw [e, if_pos ⟨rfl, (hn a (by simp)).2⟩, ahead_head, if_pos hacc, Nat.sub_zero]
        have := greedy_none rs (t := t.afterExec (min a.leaves t.leaves)) (sd := t.side.other) (id := a.id) hts
          (fun x hx e => hnd.1 (e ▸ List.mem_map_of_mem hx))
        rw [this]; rfl
      · have hne : a.id ≠ r.id := fun e => hnd.1 (e ▸ List.mem_map_of_mem hr')
        rw [if_neg (fun h => hne h.1), ahead_cons hne, Nat.zero_add]
        have := ih (t := t.afterExec (min a.leaves t.leaves)) (fun r hr => hn r (by simp [hr])) (hso.sub (List.sublist_cons_self ..)) hnd.2 r hr'
        change quantityOf t.side.other r.id _ = if t.accepts r.price then min r.leaves (t.leaves - min a.leaves t.leaves - _) else 0 at this
        rw [this]
        split
        · omega
        · rfl

/-- The executions of a chain. -/
def links (p : Nat) (xs : List (Order × Nat)) : List (Order × Nat × Nat) := xs.map (fun x => (x.1, p, x.2))

theorem chain_none (rs : List Order) : ∀ {t : Order} {need : Nat} {xs : List (Order × Nat)} {sd : Side} {id p : Nat}, chain t need rs = some xs → (∀ r ∈ rs, r.id ≠ id) →
    quantityOf sd id (links p xs) = 0 := by
  induction rs with
  | nil => intro t need xs sd id p h; simp [chain] at h
  | cons a rs ih =>
    intro t need xs sd id p h hne
    by_cases hz : need = 0 ∨ ¬ t.accepts a.price
    · unfold chain at h; rw [if_pos hz] at h; cases h
    · have h0 : 0 < need := Nat.pos_of_ne_zero fun e => hz (.inl e)
      rw [chain_cons rs h0 (Decidable.not_not.1 fun e => hz (.inr e)) rfl] at h
      generalize (if a.isAON = true then a.leaves else min a.leaves need) = q at h
      have hd : ¬ (a.id = id ∧ a.side = sd) := fun e => hne a (by simp) e.1
      by_cases h1 : q = need
      · rw [if_pos h1] at h
        cases h
        show quantityOf sd id ((a, p, q) :: []) = 0
        rw [of_cons, if_neg hd]; rfl
      · rw [if_neg h1] at h
        by_cases h2 : need < q
        · rw [if_pos h2] at h; cases h
        · rw [if_neg h2] at h
          obtain ⟨ys, hy, e⟩ := Option.map_eq_some_iff.1 h
          rw [← e]
          show quantityOf sd id ((a, p, q) :: links p ys) = 0
          rw [of_cons, if_neg hd, ih hy (fun r hr => hne r (by simp [hr]))]

theorem chain_share (rs : List Order) : ∀ {t : Order} {need : Nat} {xs : List (Order × Nat)} {p : Nat}, (∀ r ∈ rs, r.isAON = false ∧ r.side = t.side.other) →
    InLine t.side.other.limits rs → (rs.map (·.id)).Nodup → chain t need rs = some xs → ∀ r ∈ rs, quantityOf t.side.other r.id (links p xs) =
      if t.accepts r.price then min r.leaves (need - aheadOf r.id rs) else 0 := by
  induction rs with
  | nil => intro t need xs p _ _ _ h; simp [chain] at h
  | cons a rs ih =>
    intro t need xs p hn hso hnd h r hr
    rw [List.map_cons, List.nodup_cons] at hnd
    by_cases hz : need = 0 ∨ ¬ t.accepts a.price
    · unfold chain at h; rw [if_pos hz] at h; cases h
    · have h0 : 0 < need := Nat.pos_of_ne_zero fun e => hz (.inl e)
      have hacc : t.accepts a.price := Decidable.not_not.1 fun e => hz (.inr e)
      rw [chain_cons rs h0 hacc rfl, (hn a (by simp)).1] at h
      rw [if_neg (show ¬ (false = true) by simp)] at h
      by_cases h1 : min a.leaves need = need
      · rw [if_pos h1] at h
        cases h
        show quantityOf _ r.id ((a, p, min a.leaves need) :: []) = _
        rw [of_cons]
        rcases List.mem_cons.1 hr with e | hr'
        · rw [e, if_pos ⟨rfl, (hn a (by simp)).2⟩, ahead_head, if_pos hacc, Nat.sub_zero]; rfl
        · have hne : a.id ≠ r.id := fun e => hnd.1 (e ▸ List.mem_map_of_mem hr')
          rw [if_neg (fun h => hne h.1), ahead_cons hne]
          show 0 = _
          split
          · omega
          · rfl
      · rw [if_neg h1, if_neg (by omega)] at h
        obtain ⟨ys, hy, e⟩ := Option.map_eq_some_iff.1 h
        rw [← e]
        show quantityOf _ r.id ((a, p, min a.leaves need) :: links p ys) = _
        rw [of_cons]
        rcases List.mem_cons.1 hr with e | hr'
        · rw [e, if_pos ⟨rfl, (hn a (by simp)).2⟩, ahead_head, if_pos hacc, Nat.sub_zero,
            chain_none rs (id := a.id) hy (fun x hx e => hnd.1 (e ▸ List.mem_map_of_mem hx))]
          rfl
        · have hne : a.id ≠ r.id := fun e => hnd.1 (e ▸ List.mem_map_of_mem hr')
          rw [if_neg (fun h => hne h.1), ahead_cons hne, Nat.zero_add,
            ih (fun r hr => hn r (by simp [hr])) (hso.sub (List.sublist_cons_self ..)) hnd.2 hy r hr']
          split
          · omega
          · rfl

/-- The fills of an order which is not All-Or-None. -/
theorem fills_share {t : Order} {rs : List Order} (htif : t.tif ≠ .aon) (hp : 0 < t.leaves) (hn : ∀ r ∈ rs, r.isAON = false ∧ r.side = t.side.other)
    (hso : InLine t.side.other.limits rs) (hnd : (rs.map (·.id)).Nodup) :
    (∀ r ∈ rs, quantityOf t.side.other r.id (t.fills rs) = t.share rs r) ∧ ∀ id, (∀ r ∈ rs, r.id ≠ id) → quantityOf t.side.other id (t.fills rs) = 0 := by
  have hts : t.side ≠ t.side.other := by cases t.side <;> simp [Side.other]
  unfold Order.fills Order.share
  by_cases hw : t.whole
  · have hf : t.tif = .fok := by
      rcases hw with h | h
      · exact h
      · exact absurd h htif
    rw [if_pos hw]
    have hc := chain_iff rs (t := t) (need := t.leaves) (fun r hr => (hn r hr).1) hso hp
    cases hch : chain t t.leaves rs with
    | none =>
      rw [hch] at hc
      have : t.available rs < t.leaves := by
        rcases Nat.lt_or_ge (t.available rs) t.leaves with h | h
        · exact h
        · exact absurd (hc.2 h) (by simp)
      refine ⟨fun r _ => ?_, fun id _ => rfl⟩
      rw [if_pos ⟨hf, this⟩]; rfl
    | some xs =>
      rw [hch] at hc
      have : ¬ t.available rs < t.leaves := by have := hc.1 rfl; omega
      have hown : ∀ id, quantityOf t.side.other id [(t, t.price, t.leaves)] = 0 := by
        intro id
        rw [of_cons, if_neg (fun h => hts h.2)]; rfl
      refine ⟨fun r hr => ?_, fun id hid => ?_⟩
      · rw [if_neg (fun h => this h.2)]
        dsimp only
        rw [of_append, hown]
        exact chain_share rs hn hso hnd hch r hr
      · dsimp only
        rw [of_append, hown]
        exact chain_none rs hch hid
  · rw [if_neg hw]
    have hf : ¬ (t.tif = .fok ∧ t.available rs < t.leaves) := fun h => hw (.inl h.1)
    refine ⟨fun r hr => ?_, fun id hid => greedy_none rs hts hid⟩
    rw [if_neg hf]
    exact greedy_share rs hn hso hnd r hr

theorem links_own {p : Nat} (rs : List Order) : ∀ {t : Order} {need : Nat} {xs : List (Order × Nat)}, (∀ r ∈ rs, r.side = t.side.other) → chain t need rs = some xs →
    sideTotal t.side (links p xs) = 0 := by
  have hts : ∀ sd : Side, sd.other ≠ sd := by intro sd; cases sd <;> simp [Side.other]
  induction rs with
  | nil => intro t need xs _ h; simp [chain] at h
  | cons a rs ih =>
    intro t need xs hn h
    have hd : a.side ≠ t.side := by rw [hn a (by simp)]; exact hts _
    by_cases hz : need = 0 ∨ ¬ t.accepts a.price
    · unfold chain at h; rw [if_pos hz] at h; cases h
    · have h0 : 0 < need := Nat.pos_of_ne_zero fun e => hz (.inl e)
      rw [chain_cons rs h0 (Decidable.not_not.1 fun e => hz (.inr e)) rfl] at h
      generalize (if a.isAON = true then a.leaves else min a.leaves need) = q at h
      by_cases h1 : q = need
      · rw [if_pos h1] at h
        cases h
        show sideTotal t.side ((a, p, q) :: []) = 0
        rw [Best.total_cons, if_neg hd]; rfl
      · rw [if_neg h1] at h
        by_cases h2 : need < q
        · rw [if_pos h2] at h; cases h
        · rw [if_neg h2] at h
          obtain ⟨ys, hy, e⟩ := Option.map_eq_some_iff.1 h
          rw [← e]
          show sideTotal t.side ((a, p, q) :: links p ys) = 0
          rw [Best.total_cons, if_neg hd, ih (fun r hr => hn r (by simp [hr])) hy]

theorem fills_total {t : Order} {rs : List Order} (htif : t.tif ≠ .aon) (hp : 0 < t.leaves) (hn : ∀ r ∈ rs, r.isAON = false ∧ r.side = t.side.other)
    (hso : InLine t.side.other.limits rs) :
    sideTotal t.side (t.fills rs) = if t.tif = .fok ∧ t.available rs < t.leaves then 0 else min t.leaves (t.available rs) := by
  have hts : t.side.other ≠ t.side := by cases t.side <;> simp [Side.other]
  unfold Order.fills
  by_cases hw : t.whole
  · have hf : t.tif = .fok := by
      rcases hw with h | h
      · exact h
      · exact absurd h htif
    rw [if_pos hw]
    have hc := chain_iff rs (t := t) (need := t.leaves) (fun r hr => (hn r hr).1) hso hp
    cases hch : chain t t.leaves rs with
    | none =>
      rw [hch] at hc
      have : t.available rs < t.leaves := by
        rcases Nat.lt_or_ge (t.available rs) t.leaves with h | h
        · exact h
        · exact absurd (hc.2 h) (by simp)
      rw [if_pos ⟨hf, this⟩]; rfl
    | some xs =>
      rw [hch] at hc
      have h1 := hc.1 rfl
      rw [if_neg (fun h => by have := h.2; omega)]
      dsimp only
      rw [Best.total_append, show sideTotal t.side (xs.map (fun x => (x.1, t.price, x.2))) = 0 from links_own rs (fun r hr => (hn r hr).2) hch,
        Best.total_cons, if_pos rfl]
      show 0 + (t.leaves + 0) = _
      omega
  · rw [if_neg hw, if_neg (fun h => hw (.inl h.1))]
    exact Best.greedy_lots rs (fun r hr => ⟨(hn r hr).1, by rw [(hn r hr).2]; exact hts⟩) hso

end Share

/-- C82. There are no All-Or-None orders on the opposite side; an accepted limit or market order that is not All-Or-None comes in
(any stop orders may be waiting). Of each order in line it first takes a share given by a formula, and nothing of any other order of that side; further executions can only
come after these, and there are none if the book had nothing to match and no stop orders before the call. -/
theorem C82_share {g : Mgr} (hr : g.Reachable) {o : Order} {g' : Mgr} {e : ErrorCode} {evs : List Event} (ha : g.Admissible (.addOrder o))
    (hs : g.step (.addOrder o) = .ok (g', e)) (hev : g'.ev = g.ev ++ evs) (hn : g.refusal (.addOrder o) = none) (hm : g.matching = true)
    (hty : o.type = .limit ∨ o.type = .market) (htif : o.tif ≠ .aon)
    (hna : ∀ r ∈ g.resting o.symbolId o.side.other, r.tif ≠ .aon) {rs : List Order} (hrs : rs = g.resting o.symbolId o.side.other) :
    ∃ xs rest, execsOf evs = xs ++ rest ∧ (∀ r ∈ rs, quantityOf o.side.other r.id xs = (o.capped rs).share rs r) ∧
      (∀ id, (∀ r ∈ rs, r.id ≠ id) → quantityOf o.side.other id xs = 0) ∧
      sideTotal o.side xs = (if o.tif = .fok ∧ (o.capped rs).available rs < o.leaves then 0 else min o.leaves ((o.capped rs).available rs)) ∧
      ((g.lines o.symbolId).quiet → rest = []) := by
  obtain ⟨evs', rest, h1, h2, h3⟩ := C11_incoming hr ha hs hn hm hty
  rw [hev] at h1
  cases List.append_cancel_left h1
  have hc := Best.capped_facts o rs
  have := Share.fills_share (t := o.capped rs) (rs := rs) (by rw [hc.2.1]; exact htif) (by rw [hc.1]; exact accepted_leaves hn)
    (fun r h => ⟨by have := hna r (hrs ▸ h); unfold Order.isAON; simpa using this, by rw [hc.2.2.1]; exact Best.resting_side hr (hrs ▸ h)⟩)
    (by rw [hc.2.2.1, hrs]; exact lines_inLine hr o.symbolId o.side.other) (by rw [hrs]; exact Best.resting_nodup hr _ _)
  have htot := Share.fills_total (t := o.capped rs) (rs := rs) (by rw [hc.2.1]; exact htif) (by rw [hc.1]; exact accepted_leaves hn)
    (fun r h => ⟨by have := hna r (hrs ▸ h); unfold Order.isAON; simpa using this, by rw [hc.2.2.1]; exact Best.resting_side hr (hrs ▸ h)⟩)
    (by rw [hc.2.2.1, hrs]; exact lines_inLine hr o.symbolId o.side.other)
  rw [hc.2.2.1, hc.2.1, hc.1] at htot
  rw [hc.2.2.1] at this
  rw [← hrs] at h2
  exact ⟨_, rest, h2, this.1, this.2, htot, fun hq => (h3 (quiet_arrival hr hq hna htif hty)).1⟩

namespace Share

theorem takes {g : Mgr} {o : Order} {xs : List Execution} (h : g.Takes o xs) {rs : List Order} (hrs : rs = g.resting o.symbolId o.side.other) :
    (∀ r ∈ rs, quantityOf o.side.other r.id xs = (o.capped rs).share rs r) ∧
    (∀ id, (∀ r ∈ rs, r.id ≠ id) → quantityOf o.side.other id xs = 0) ∧
    sideTotal o.side xs = (if o.tif = .fok ∧ (o.capped rs).available rs < o.leaves then 0 else min o.leaves ((o.capped rs).available rs)) := by
  obtain ⟨g', e, evs, hs, hev, rfl⟩ := h.call
  obtain ⟨ys, rest, h1, h2, h3, h4, h5⟩ := C82_share h.reach h.allowed hs hev h.accepted h.matching h.type h.tif h.plain hrs
  rw [h1, h5 h.quiet, List.append_nil]
  exact ⟨h2, h3, h4⟩

theorem available_le {t u : Order} (h : ∀ p, t.accepts p → u.accepts p) (rs : List Order) : t.available rs ≤ u.available rs := by
  induction rs with
  | nil => exact Nat.le_refl _
  | cons a rs ih =>
    rw [available_cons, available_cons]
    by_cases h1 : t.accepts a.price
    · rw [if_pos h1, if_pos (h _ h1)]; omega
    · rw [if_neg h1]; omega

theorem share_full {t : Order} (h : t.tif ≠ .fok) (rs : List Order) (r : Order) :
    t.share rs r = if t.accepts r.price then min r.leaves (t.leaves - aheadOf r.id rs) else 0 := by
  unfold Order.share; rw [if_neg (fun h' => h h'.1)]

theorem share_le (t : Order) (rs : List Order) (r : Order) :
    t.share rs r ≤ if t.accepts r.price then min r.leaves (t.leaves - aheadOf r.id rs) else 0 := by
  unfold Order.share; split
  · exact Nat.zero_le _
  · exact Nat.le_refl _

theorem ahead_append {id : Nat} {pre : List Order} (h : ∀ r ∈ pre, r.id ≠ id) (post : List Order) :
    aheadOf id (pre ++ post) = (pre.map (·.leaves)).sum + aheadOf id post := by
  induction pre with
  | nil => simp
  | cons a pre ih =>
    rw [List.cons_append, ahead_cons (h a (by simp)), ih (fun r hr => h r (by simp [hr])), List.map_cons, List.sum_cons, Nat.add_assoc]

theorem ahead_front {id : Nat} {pre : List Order} (h : ∃ r ∈ pre, r.id = id) (post : List Order) : aheadOf id (pre ++ post) = aheadOf id pre := by
  induction pre with
  | nil => obtain ⟨r, hr, _⟩ := h; cases hr
  | cons a pre ih =>
    by_cases ha : a.id = id
    · subst ha; rw [List.cons_append, ahead_head, ahead_head]
    · rw [List.cons_append, ahead_cons ha, ahead_cons ha, ih]
      obtain ⟨r, hr, he⟩ := h
      rcases List.mem_cons.1 hr with e | e
      · exact absurd (e ▸ he) ha
      · exact ⟨r, e, he⟩

end Share

/-- C82: a larger or more aggressive order (and one that is not Fill-Or-Kill instead of one that is) takes at least as much of every
order in line, and gets at least as much. -/
theorem C82_more {g : Mgr} {o o' : Order} {xs ys : List Execution} (h : g.Takes o xs) (h' : g.Takes o' ys)
    (hsym : o'.symbolId = o.symbolId) (hside : o'.side = o.side) (htif : o'.tif ≠ .fok) (hl : o.leaves ≤ o'.leaves)
    {rs : List Order} (hrs : rs = g.resting o.symbolId o.side.other) (hacc : ∀ p, (o.capped rs).accepts p → (o'.capped rs).accepts p) :
    (∀ id, quantityOf o.side.other id xs ≤ quantityOf o.side.other id ys) ∧ sideTotal o.side xs ≤ sideTotal o.side ys := by
  obtain ⟨a1, a2, a3⟩ := Share.takes h hrs
  obtain ⟨b1, b2, b3⟩ := Share.takes h' (rs := rs) (by rw [hsym, hside]; exact hrs)
  rw [hside] at b1 b2 b3
  have c := Best.capped_facts o rs
  have c' := Best.capped_facts o' rs
  constructor
  · intro id
    by_cases hm : ∃ r ∈ rs, r.id = id
    · obtain ⟨r, hr, rfl⟩ := hm
      rw [a1 r hr, b1 r hr, Share.share_full (t := o'.capped rs) (by rw [c'.2.1]; exact htif), c'.1]
      refine Nat.le_trans (Share.share_le _ _ _) ?_
      rw [c.1]
      by_cases h1 : (o.capped rs).accepts r.price
      · rw [if_pos h1, if_pos (hacc _ h1)]; omega
      · rw [if_neg h1]; exact Nat.zero_le _
    · rw [a2 id (fun r hr e => hm ⟨r, hr, e⟩)]; exact Nat.zero_le _
  · rw [a3, b3, if_neg (show ¬ (o'.tif = .fok ∧ (o'.capped rs).available rs < o'.leaves) from fun h => htif h.1)]
    have := Share.available_le hacc rs
    split
    · exact Nat.zero_le _
    · omega

/-- C82: what counts for an order in line is only its price, its size and how much stands before it. In any two books, with anything
else different, the same incoming limit order takes no less of it where no more is before it. -/
theorem C82_queue {g h : Mgr} {o : Order} {xs ys : List Execution} (hg : g.Takes o xs) (hh : h.Takes o ys) (hty : o.type = .limit)
    (htif : o.tif ≠ .fok) {r r' : Order} (hr : r ∈ g.resting o.symbolId o.side.other) (hr' : r' ∈ h.resting o.symbolId o.side.other)
    (hid : r'.id = r.id) (hp : r'.price = r.price) (hl : r.leaves ≤ r'.leaves)
    (ha : aheadOf r.id (h.resting o.symbolId o.side.other) ≤ aheadOf r.id (g.resting o.symbolId o.side.other)) :
    quantityOf o.side.other r.id xs ≤ quantityOf o.side.other r.id ys := by
  obtain ⟨a1, _, _⟩ := Share.takes hg rfl
  obtain ⟨b1, _, _⟩ := Share.takes hh rfl
  have hb := b1 r' hr'
  rw [hid] at hb
  rw [a1 r hr, hb, (Best.capped_facts o _).2.2.2 hty, (Best.capped_facts o _).2.2.2 hty, Share.share_full htif, Share.share_full htif, hid, hp]
  split
  · omega
  · exact Nat.le_refl _

/-- C82: an order which joins the line, without trading, takes nothing from those it does not beat by its price, and the others do not
gain by it; the incoming order gets no less. -/
theorem C82_join {g h : Mgr} {n o : Order} {xs ys : List Execution} (hn : g.Takes n []) (hs : g.step (.addOrder n) = .ok (h, .ok))
    (hg : g.Takes o xs) (hh : h.Takes o ys) (hty : o.type = .limit) (htif : o.tif ≠ .fok)
    (hnt : n.type = .limit) (hsym : n.symbolId = o.symbolId) (hside : n.side = o.side.other) :
    (∀ r ∈ g.resting o.symbolId o.side.other,
      (¬ n.beats o.side.other.limits r → quantityOf o.side.other r.id ys = quantityOf o.side.other r.id xs) ∧
      quantityOf o.side.other r.id ys ≤ quantityOf o.side.other r.id xs) ∧
    sideTotal o.side xs ≤ sideTotal o.side ys := by
  have key : h.resting o.symbolId o.side.other = g.resting o.symbolId o.side.other ∨
      h.resting o.symbolId o.side.other = enqueue o.side.other.limits n (g.resting o.symbolId o.side.other) := by
    obtain ⟨evs, hev⟩ := events_appended hn.reach hn.allowed hs
    obtain ⟨evs', rest, h1, h2, h3⟩ := C11_incoming hn.reach hn.allowed hs hn.accepted hn.matching hn.type
    rw [hev] at h1
    cases List.append_cancel_left h1
    obtain ⟨rfl, h4⟩ := h3 (quiet_arrival hn.reach hn.quiet hn.plain hn.tif hn.type)
    obtain ⟨g2, e2, evs2, hs2, hev2, hx⟩ := hn.call
    rw [hs] at hs2
    cases hs2
    rw [hev] at hev2
    cases List.append_cancel_left hev2
    rw [← hx, List.append_nil, (Best.capped_facts n _).2.2.2 hnt] at h2
    have hlines := h4 rfl
    unfold Mgr.resting
    rw [hlines]
    unfold Lines.set
    rw [if_pos hsym.symm]
    unfold Board.arrive
    simp only [if_true]
    have hrs : g.lines n.symbolId n.side.other.limits = g.resting n.symbolId n.side.other := rfl
    rw [hrs]
    rw [(Best.capped_facts n _).2.2.2 hnt]
    have hk : o.side.other.limits ≠ n.side.other.limits := by
      rw [hside]; cases o.side <;> simp [Side.other, Side.limits]
    have hput : (g.lines n.symbolId).put n.side.other.limits (n.leaveLine (g.resting n.symbolId n.side.other)) o.side.other.limits =
        g.lines o.symbolId o.side.other.limits := by
      unfold Board.put; rw [if_neg hk, hsym]
    have hleft : n.left (g.resting n.symbolId n.side.other) = n := by
      revert h2
      generalize g.resting n.symbolId n.side.other = rs
      unfold Order.fills Order.left
      by_cases hw : n.whole
      · rw [if_pos hw, if_pos hw]
        cases chain n n.leaves rs with
        | none => intro _; rfl
        | some zs => intro h2; dsimp only at h2; exact absurd h2 (by simp)
      · rw [if_neg hw, if_neg hw]
        cases rs with
        | nil => intro _; rfl
        | cons r rs =>
          intro h2
          by_cases hst : n.stopsAt r
          · exact (greedy_stop hst rs).2.1
          · rw [(greedy_hit hst rs).1] at h2; cases h2
    rw [hleft]
    split
    · right
      unfold Board.insert
      rw [if_pos, hput]
      unfold Order.home
      rw [hnt, hside]
      cases o.side <;> simp [Side.other, Side.limits]
    · left; exact hput
  obtain ⟨a1, a2, a3⟩ := Share.takes hg rfl
  obtain ⟨b1, b2, b3⟩ := Share.takes hh rfl
  rw [(Best.capped_facts o _).2.2.2 hty] at a1 a3 b1 b3
  rw [if_neg (fun h => htif h.1)] at a3 b3
  rcases key with key | key
  · rw [key] at b1 b3
    refine ⟨fun r hr => ⟨fun _ => by rw [a1 r hr, b1 r hr], by rw [a1 r hr, b1 r hr]; exact Nat.le_refl _⟩, by rw [a3, b3]; exact Nat.le_refl _⟩
  · obtain ⟨pre, post, e1, e2, e3, e4⟩ := enqueue_place o.side.other.limits n (g.resting o.symbolId o.side.other)
      (lines_inLine hg.reach o.symbolId o.side.other).order
    rw [e2] at key
    rw [key] at b1 b3
    rw [e1] at a1 a3
    have hnd : ((pre ++ n :: post).map (·.id)).Nodup := by
      have := Best.resting_nodup hh.reach o.symbolId o.side.other
      rwa [key] at this
    have hnid : ∀ r ∈ pre ++ post, n.id ≠ r.id := by
      rw [List.map_append, List.map_cons, List.nodup_append, List.nodup_cons] at hnd
      intro r hr e
      rcases List.mem_append.1 hr with h1 | h1
      · exact hnd.2.2 r.id (List.mem_map_of_mem h1) n.id (by simp) e.symm
      · exact hnd.2.1.1 (e ▸ List.mem_map_of_mem h1)
    constructor
    · intro r hr
      have hr' : r ∈ pre ++ post := by rw [← e1]; exact hr
      have hrn : r ∈ pre ++ n :: post := by
        rcases List.mem_append.1 hr' with h1 | h1 <;> simp [h1]
      rw [a1 r hr', b1 r hrn, Share.share_full htif, Share.share_full htif]
      by_cases hpre : ∃ x ∈ pre, x.id = r.id
      · rw [Share.ahead_front hpre, Share.ahead_front hpre]
        exact ⟨fun _ => rfl, Nat.le_refl _⟩
      · have hp : ∀ x ∈ pre, x.id ≠ r.id := fun x hx e => hpre ⟨x, hx, e⟩
        have hrp : r ∈ post := by
          rcases List.mem_append.1 hr' with h1 | h1
          · exact absurd rfl (hp r h1)
          · exact h1
        rw [Share.ahead_append hp, Share.ahead_append hp, Share.ahead_cons (hnid r hr')]
        refine ⟨fun hb => absurd (e4 r hrp) hb, ?_⟩
        split
        · omega
        · exact Nat.le_refl _
    · rw [a3, b3]
      have app : ∀ (l l' : List Order), o.available (l ++ l') = o.available l + o.available l' := by
        intro l l'; unfold Order.available; simp
      rw [app, app, available_cons]
      omega

namespace Share

theorem resting_held {g : Mgr} (hr : g.Reachable) {sym : Nat} {sd : Side} {r : Order} (h : r ∈ g.resting sym sd) :
    g.getOrder r.id = some r ∧ r.symbolId = sym ∧ 0 < r.leaves := by
  cases hb : g.getBook sym with
  | none => unfold Mgr.resting at h; rw [lines_none (by exact hb)] at h; cases h
  | some b =>
    have := (lines_complete hr (by rw [hb]; simp) (k := sd.limits)).1 h
    refine ⟨this.1, this.2.1, ?_⟩
    have h1 := this.1
    rw [hr.minv.getOrder] at h1
    exact (hr.minv.orders _ _ h1).2.leaves

theorem change_find {x : Order} {v : Option Order} {rs : List Order} (hv : ∀ y, v = some y → y.id = x.id) {r : Order} (hr : r ∈ rs) (hne : r.id ≠ x.id) :
    r ∈ rs.filterMap (fun r => if r.id = x.id then v else some r) :=
  List.mem_filterMap.2 ⟨r, hr, if_neg hne⟩

theorem change_ahead {x : Order} {v : Option Order} (hv : ∀ y, v = some y → y.id = x.id ∧ y.leaves ≤ x.leaves) {id : Nat} (hne : id ≠ x.id) :
    ∀ {rs : List Order}, (∀ r ∈ rs, r.id = x.id → r.leaves = x.leaves) →
    aheadOf id (rs.filterMap (fun r => if r.id = x.id then v else some r)) ≤ aheadOf id rs ∧
    (aheadOf id rs ≤ aheadOf x.id rs → (∃ r ∈ rs, r.id = id) → 0 < x.leaves → (∃ r ∈ rs, r.id = x.id) →
      aheadOf id (rs.filterMap (fun r => if r.id = x.id then v else some r)) = aheadOf id rs) := by
  intro rs
  induction rs with
  | nil => intro _; exact ⟨Nat.le_refl _, fun _ _ _ _ => rfl⟩
  | cons a rs ih =>
    intro hx
    obtain ⟨i1, i2⟩ := ih (fun r hr => hx r (by simp [hr]))
    rw [List.filterMap_cons]
    by_cases ha : a.id = x.id
    · have hai : a.id ≠ id := fun e => hne (e ▸ ha)
      have hal := hx a (by simp) ha
      rw [if_pos ha, ahead_cons hai]
      refine ⟨?_, fun h _ hp _ => ?_⟩
      · cases v with
        | none => dsimp only; omega
        | some y =>
          dsimp only
          have := hv y rfl
          rw [ahead_cons (by rw [this.1, ← ha]; exact hai)]; omega
      · rw [← ha, ahead_head] at h; omega
    · rw [if_neg ha]
      dsimp only
      by_cases hai : a.id = id
      · subst hai
        rw [ahead_head, ahead_head]
        exact ⟨Nat.le_refl _, fun _ _ _ _ => rfl⟩
      · rw [ahead_cons hai, ahead_cons hai, ahead_cons ha]
        refine ⟨by omega, fun h hm hp hmx => ?_⟩
        have down : ∀ {j : Nat}, a.id ≠ j → (∃ r ∈ a :: rs, r.id = j) → ∃ r ∈ rs, r.id = j := by
          rintro j hj ⟨r, hr, e⟩
          rcases List.mem_cons.1 hr with e' | e'
          · exact absurd (e' ▸ e) hj
          · exact ⟨r, e', e⟩
        rw [i2 (by omega) (down hai hm) hp (down ha hmx)]

end Share

/-- C82: an order is deleted or reduced in size. The orders before it in line get exactly what they would have got, and no other order
gets less by it. -/
theorem C82_leave {g h : Mgr} {x o : Order} {id q : Nat} {op : Op} {xs ys : List Execution} (hop : op = .deleteOrder id ∨ op = .reduceOrder id q)
    (hs : g.step op = .ok (h, .ok)) (hx : g.getOrder id = some x) (hxr : x ∈ g.resting o.symbolId o.side.other)
    (hg : g.Takes o xs) (hh : h.Takes o ys) (hty : o.type = .limit) (htif : o.tif ≠ .fok) :
    ∀ r ∈ g.resting o.symbolId o.side.other, r.id ≠ id →
      (aheadOf r.id (g.resting o.symbolId o.side.other) ≤ aheadOf id (g.resting o.symbolId o.side.other) →
        quantityOf o.side.other r.id ys = quantityOf o.side.other r.id xs) ∧
      quantityOf o.side.other r.id xs ≤ quantityOf o.side.other r.id ys := by
  have hr := hg.reach
  have hid : x.id = id := own_id hr hx
  obtain ⟨_, hox, hxl⟩ := Share.resting_held hr hxr
  have hQ : g.Quiet x.symbolId := fun _ => by rw [hox]; exact hg.quiet
  have key : ∃ v : Option Order, (∀ y, v = some y → y.id = x.id ∧ y.leaves ≤ x.leaves) ∧
      h.resting o.symbolId o.side.other = (g.resting o.symbolId o.side.other).filterMap (fun r => if r.id = x.id then v else some r) := by
    have fin : ∀ v, h.lines = g.lines.set x.symbolId ((g.lines x.symbolId).change id v) →
        h.resting o.symbolId o.side.other = (g.resting o.symbolId o.side.other).filterMap (fun r => if r.id = x.id then v else some r) := by
      intro v hl
      unfold Mgr.resting
      rw [hl]
      unfold Lines.set
      rw [if_pos hox.symm, hox, hid]
      rfl
    rcases hop with rfl | rfl
    · obtain ⟨o', h1, evs, rest, _, _, h4⟩ := delete_call hr.minv hs
      rw [hx] at h1; cases h1
      exact ⟨none, (fun y e => by cases e), fin _ (h4 hQ).2.1⟩
    · obtain ⟨evs, hev⟩ := events_appended hr (op := .reduceOrder id q) trivial hs
      obtain ⟨_, _, h3⟩ := C34_reduce hr hx hs hev hQ
      refine ⟨_, ?_, fin _ h3⟩
      intro y hy
      split at hy
      · cases hy; exact ⟨rfl, Nat.sub_le _ _⟩
      · cases hy
  obtain ⟨v, hv, hres⟩ := key
  obtain ⟨a1, _, _⟩ := Share.takes hg rfl
  obtain ⟨b1, _, _⟩ := Share.takes hh rfl
  rw [(Best.capped_facts o _).2.2.2 hty] at a1 b1
  intro r hr' hne
  rw [← hid] at hne ⊢
  have hm : r ∈ h.resting o.symbolId o.side.other := by rw [hres]; exact Share.change_find (fun y hy => (hv y hy).1) hr' hne
  have hone : ∀ r ∈ g.resting o.symbolId o.side.other, r.id = x.id → r.leaves = x.leaves := by
    intro r hr1 e
    have := (Share.resting_held hr hr1).1
    rw [e, hid, hx] at this
    cases this; rfl
  obtain ⟨c1, c2⟩ := Share.change_ahead hv hne hone
  rw [a1 r hr', b1 r hm, Share.share_full htif, Share.share_full htif, hres]
  constructor
  · intro hle
    rw [c2 hle ⟨r, hr', rfl⟩ hxl ⟨x, hxr, rfl⟩]
  · split
    · omega
    · exact Nat.le_refl _

namespace Share

/-- A decidable version of `Mgr.Takes`, with a property of the executions. -/
def takesB (g : Mgr) (o : Order) (p : List Execution → Bool) : Bool :=
  admB false g (.addOrder o) && decide (g.refusal (.addOrder o) = none) && g.matching && decide (o.type = .limit ∨ o.type = .market) &&
  decide (o.tif ≠ .aon) && decide (∀ b ∈ g.lines o.symbolId .bid, ∀ a ∈ g.lines o.symbolId .ask, b.price < a.price) &&
  ([Kind.buyStop, .sellStop, .tBuyStop, .tSellStop].all fun k => (g.lines o.symbolId k).isEmpty) &&
  decide (∀ r ∈ g.resting o.symbolId o.side.other, r.tif ≠ .aon) &&
  match g.step (.addOrder o) with
  | .ok (g', _) => p (execsOf (g'.ev.drop g.ev.length))
  | .error _ => false

theorem takesB_sound {g : Mgr} (hr : g.Reachable) {o : Order} {p : List Execution → Bool} (h : takesB g o p = true) :
    ∃ xs, g.Takes o xs ∧ p xs = true := by
  unfold takesB at h
  simp only [Bool.and_eq_true, decide_eq_true_eq] at h
  obtain ⟨⟨⟨⟨⟨⟨⟨⟨h1, h2⟩, h3⟩, h4⟩, h5⟩, h6⟩, h7⟩, h8⟩, h9⟩ := h
  have ha := admB_sound (fun h => by cases h) h1
  cases hs : g.step (.addOrder o) with
  | error e => rw [hs] at h9; cases h9
  | ok r =>
    obtain ⟨g', e⟩ := r
    rw [hs] at h9
    obtain ⟨evs, hev⟩ := events_appended hr ha hs
    have hd : g'.ev.drop g.ev.length = evs := by rw [hev]; simp
    dsimp only at h9
    rw [hd] at h9
    refine ⟨execsOf evs, ⟨hr, ha, ⟨g', e, evs, hs, hev, rfl⟩, h2, h3, h4, h5, ⟨h6, ?_⟩, h8⟩, h9⟩
    intro k hk
    simp only [List.all_cons, List.all_nil, Bool.and_true, Bool.and_eq_true, List.isEmpty_iff] at h7
    cases k <;> first | exact h7.1 | exact h7.2.1 | exact h7.2.2.1 | exact h7.2.2.2 | cases hk

end Share

/-- Four orders in line: 5 at 100, 7 and 8 at 101, 9 at 102. -/
def shareSession : List Op := trading ++ [.addOrder (.mkLimit 1 1 .sell 101 7), .addOrder (.mkLimit 2 1 .sell 100 5),
  .addOrder (.mkLimit 3 1 .sell 101 8), .addOrder (.mkLimit 4 1 .sell 102 9), .addOrder (.mkLimit 5 1 .buy 90 1)]

/-- C82_more applies: 6 lots up to 100 against 14 lots up to 101. The shares are 5, 0, 0, 0 and 5, 7, 2, 0. -/
theorem C82_nonvacuous_more : ∃ (g : Mgr) (xs ys : List Execution), g.Takes (.mkLimit 9 1 .buy 100 6) xs ∧ g.Takes (.mkLimit 9 1 .buy 101 14) ys ∧
    [2, 1, 3, 4].map (fun id => quantityOf .sell id xs) = [5, 0, 0, 0] ∧ [2, 1, 3, 4].map (fun id => quantityOf .sell id ys) = [5, 7, 2, 0] := by
  obtain ⟨g, hr, h⟩ := demo (p := fun g =>
    Share.takesB g (.mkLimit 9 1 .buy 100 6) (fun xs => decide ([2, 1, 3, 4].map (fun id => quantityOf .sell id xs) = [5, 0, 0, 0])) &&
    Share.takesB g (.mkLimit 9 1 .buy 101 14) (fun ys => decide ([2, 1, 3, 4].map (fun id => quantityOf .sell id ys) = [5, 7, 2, 0])))
    shareSession (by decide +kernel)
  rw [Bool.and_eq_true] at h
  obtain ⟨xs, h1, h2⟩ := Share.takesB_sound hr h.1
  obtain ⟨ys, h3, h4⟩ := Share.takesB_sound hr h.2
  exact ⟨g, xs, ys, h1, h3, by simpa using h2, by simpa using h4⟩

/-- C82_join applies: an order at 100 joins behind order 2 and before the others. The buyer of 14 lots takes 5, 7, 2 without and 5, 6, 0 with it. -/
theorem C82_nonvacuous_join : ∃ (g h : Mgr) (xs ys : List Execution), g.Takes (.mkLimit 8 1 .sell 100 3) [] ∧
    g.step (.addOrder (.mkLimit 8 1 .sell 100 3)) = .ok (h, .ok) ∧ g.Takes (.mkLimit 9 1 .buy 101 14) xs ∧ h.Takes (.mkLimit 9 1 .buy 101 14) ys ∧
    [2, 1, 3, 4].map (fun id => quantityOf .sell id xs) = [5, 7, 2, 0] ∧ [2, 1, 3, 4].map (fun id => quantityOf .sell id ys) = [5, 6, 0, 0] := by
  obtain ⟨g, h, e, hr, ha, hs, hp⟩ := demoStep (p := fun g h e => decide (e = .ok) &&
    Share.takesB g (.mkLimit 8 1 .sell 100 3) (fun xs => xs.isEmpty) &&
    Share.takesB g (.mkLimit 9 1 .buy 101 14) (fun xs => decide ([2, 1, 3, 4].map (fun id => quantityOf .sell id xs) = [5, 7, 2, 0])) &&
    Share.takesB h (.mkLimit 9 1 .buy 101 14) (fun ys => decide ([2, 1, 3, 4].map (fun id => quantityOf .sell id ys) = [5, 6, 0, 0])))
    shareSession (.addOrder (.mkLimit 8 1 .sell 100 3)) (by decide +kernel)
  simp only [Bool.and_eq_true, decide_eq_true_eq] at hp
  obtain ⟨⟨⟨rfl, h1⟩, h2⟩, h3⟩ := hp
  obtain ⟨zs, k1, k2⟩ := Share.takesB_sound hr h1
  obtain ⟨xs, k3, k4⟩ := Share.takesB_sound hr h2
  obtain ⟨ys, k5, k6⟩ := Share.takesB_sound (hr.step ha hs) h3
  cases List.isEmpty_iff.1 k2
  exact ⟨g, h, xs, ys, k1, hs, k3, k5, by simpa using k4, by simpa using k6⟩

/-- C82_leave applies: order 1 is reduced by 4. The buyer of 14 lots takes 5, 7, 2 before and 5, 3, 6 after it. -/
theorem C82_nonvacuous_leave : ∃ (g h : Mgr) (xs ys : List Execution), g.step (.reduceOrder 1 4) = .ok (h, .ok) ∧ (∃ x, g.getOrder 1 = some x ∧ x ∈ g.resting 1 .sell) ∧
    g.Takes (.mkLimit 9 1 .buy 101 14) xs ∧ h.Takes (.mkLimit 9 1 .buy 101 14) ys ∧
    [2, 1, 3, 4].map (fun id => quantityOf .sell id xs) = [5, 7, 2, 0] ∧ [2, 1, 3, 4].map (fun id => quantityOf .sell id ys) = [5, 3, 6, 0] := by
  obtain ⟨g, h, e, hr, ha, hs, hp⟩ := demoStep (p := fun g h e => decide (e = .ok) &&
    (g.getOrder 1).any (fun x => decide (x ∈ g.resting 1 .sell)) &&
    Share.takesB g (.mkLimit 9 1 .buy 101 14) (fun xs => decide ([2, 1, 3, 4].map (fun id => quantityOf .sell id xs) = [5, 7, 2, 0])) &&
    Share.takesB h (.mkLimit 9 1 .buy 101 14) (fun ys => decide ([2, 1, 3, 4].map (fun id => quantityOf .sell id ys) = [5, 3, 6, 0])))
    shareSession (.reduceOrder 1 4) (by decide +kernel)
  simp only [Bool.and_eq_true, decide_eq_true_eq, Option.any_eq_true] at hp
  obtain ⟨⟨⟨rfl, x, hx, h1⟩, h2⟩, h3⟩ := hp
  obtain ⟨xs, k3, k4⟩ := Share.takesB_sound hr h2
  obtain ⟨ys, k5, k6⟩ := Share.takesB_sound (hr.step ha hs) h3
  exact ⟨g, h, xs, ys, hs, ⟨x, hx, h1⟩, k3, k5, by simpa using k4, by simpa using k6⟩

end CppTrader
