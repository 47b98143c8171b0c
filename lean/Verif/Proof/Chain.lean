import Verif.Proof.Step
/-
Matching chains: totality, and the executions they plan.
-/

namespace CppTrader

/-- A live resting limit order of the book, on side `sd`. -/
def LimAt (s : Core) (sd : Side) (i : Nat) : Prop :=
  ∃ o, s.orders i = some o ∧ o.symbolId = s.book.symbol.id ∧ o.type = .limit ∧ o.side = sd

theorem Core.get_ok {s : Core} {i o} (h : s.orders i = some o) : s.get i = .ok o := by
  unfold Core.get; rw [h]

theorem Except.bind_ok {α β : Type} (a : α) (f : α → Except Err β) : (Except.ok a >>= f) = f a := rfl

/-- The executions `ExecuteMatchingChain` makes over a list of orders. -/
def planIds (m : Nat → Option Order) : List Nat → Nat → List (Order × Nat) × Nat
  | [], v => ([], v)
  | i :: is, v =>
    if v = 0 then ([], 0)
    else match m i with
      | none => ([], v)
      | some o =>
        let q := if o.isAON then o.leaves else min o.leaves v
        ((o, q) :: (planIds m is (sub64 v q)).1, (planIds m is (sub64 v q)).2)

theorem planIds_zero (m is) : planIds m is 0 = ([], 0) := by cases is <;> simp [planIds]

theorem planIds_append {m xs ys v} (h : ∀ i ∈ xs, m i ≠ none) :
    planIds m (xs ++ ys) v = ((planIds m xs v).1 ++ (planIds m ys (planIds m xs v).2).1,
      (planIds m ys (planIds m xs v).2).2) := by
  induction xs generalizing v with
  | nil => simp [planIds]
  | cons i is ih =>
    simp only [List.cons_append, planIds]
    by_cases hv : v = 0
    · simp [hv, planIds_zero]
    · simp only [hv, if_false]
      cases hm : m i with
      | none => exact absurd hm (h i (by simp))
      | some o =>
        simp only
        rw [ih (fun j hj => h j (by simp [hj]))]
        simp

theorem planIds_congr {m m' is v} (h : ∀ i ∈ is, m i = m' i) : planIds m is v = planIds m' is v := by
  induction is generalizing v with
  | nil => rfl
  | cons i is ih =>
    simp only [planIds]
    rw [h i (by simp)]
    split
    · rfl
    · split
      · rfl
      · simp only [ih (fun j hj => h j (by simp [hj]))]

theorem planIds_mem {m is v x} (h : x ∈ (planIds m is v).1) : ∃ i ∈ is, m i = some x.1 := by
  induction is generalizing v with
  | nil => simp [planIds] at h
  | cons i is ih =>
    simp only [planIds] at h
    split at h
    · simp at h
    · split at h
      · simp at h
      · rename_i o ho
        simp only [List.mem_cons] at h
        rcases h with rfl | h
        · exact ⟨i, by simp, ho⟩
        · obtain ⟨j, hj, hj'⟩ := ih h
          exact ⟨j, by simp [hj], hj'⟩

/-- Effect of a list of executions on one side. -/
structure FillsEff (sd : Side) (ids : List Nat) (s s' : Core) : Prop where
  inv : Inv s'
  others : ∀ i, i ∉ ids → s'.orders i = s.orders i
  same : Book.SameLv (limKind sd) s.book s'.book

theorem Book.SameLv.refl (k b) : Book.SameLv k b b := ⟨rfl, fun _ _ => rfl, fun _ _ => rfl, rfl, rfl⟩
theorem Book.SameLv.trans {k b b1 b2} (h : Book.SameLv k b b1) (h' : Book.SameLv k b1 b2) : Book.SameLv k b b2 :=
  ⟨h'.symbol.trans h.symbol, fun k' e => (h'.lv k' e).trans (h.lv k' e), fun k' e => (h'.best k' e).trans (h.best k' e),
   h'.trailBid.trans h.trailBid, h'.trailAsk.trans h.trailAsk⟩

theorem execChainOrder_ok {s : Core} {id price v sd o} (hi : Inv s) (ho : s.orders id = some o)
    (hs : o.symbolId = s.book.symbol.id) (hl : o.type = .limit) (hsd : o.side = sd) (hv : 0 < v) :
    ∃ s', s.execChainOrder id price v = .ok (s', if o.isAON then o.leaves else min o.leaves v) ∧
      Fill s o price (if o.isAON then o.leaves else min o.leaves v) s' ∧ FillsEff sd [id] s s' := by
  obtain ⟨hid, hok⟩ := hi.orders id o ho
  subst hid
  have hpos := hok.leaves
  unfold Core.execChainOrder
  rw [Core.get_ok ho, Except.bind_ok]
  by_cases ha : o.isAON = true
  · simp only [ha, if_true]
    obtain ⟨s', h1, h2⟩ := hi.fill_del (o := o) (price := price) ⟨ho, hs, hl, hpos, Nat.le_refl _, fun _ => rfl⟩
    have e := h2.eff hi
    refine ⟨s', ?_, h2, e.inv, ?_, hsd ▸ e.same⟩
    · unfold Core.execDel at h1
      cases hx : s.execResting o.id price o.leaves with
      | error x => rw [hx] at h1; cases h1
      | ok s1 => rw [hx] at h1; rw [Except.bind_ok] at h1 ⊢; rw [h1]; rfl
    · intro i hne; rw [e.orders]; exact setO_other _ _ (by simpa using hne)
  · simp only [ha, Bool.false_eq_true, if_false]
    obtain ⟨s', h1, h2⟩ := hi.fill_red (o := o) (price := price) (q := min o.leaves v)
      ⟨ho, hs, hl, by omega, by omega, fun h => absurd h ha⟩
    have e := h2.eff hi
    refine ⟨s', ?_, h2, e.inv, ?_, hsd ▸ e.same⟩
    · unfold Core.execRed at h1
      cases hx : s.execResting o.id price (min o.leaves v) with
      | error x => rw [hx] at h1; cases h1
      | ok s1 => rw [hx] at h1; rw [Except.bind_ok] at h1 ⊢; rw [h1]; rfl
    · intro i hne; rw [e.orders]; exact setO_other _ _ (by simpa using hne)

theorem execChainIds_ok {price sd} (ids : List Nat) : ∀ {s : Core} {v : Nat}, Inv s → ids.Nodup →
    (∀ i ∈ ids, LimAt s sd i) →
    ∃ s', Core.execChainIds price ids s v = .ok (s', (planIds s.orders ids v).2) ∧
      Fills price s (planIds s.orders ids v).1 s' ∧ FillsEff sd ids s s' := by
  induction ids with
  | nil =>
    intro s v hi _ _
    exact ⟨s, rfl, .nil s, hi, fun _ _ => rfl, .refl _ _⟩
  | cons id is ih =>
    intro s v hi hn hl
    by_cases hv : v = 0
    · refine ⟨s, ?_, ?_, hi, fun _ _ => rfl, .refl _ _⟩
      · simp [Core.execChainIds, planIds, hv]
      · simp [planIds, hv]; exact .nil s
    · obtain ⟨o, ho, hs, hlim, hsd⟩ := hl id (by simp)
      obtain ⟨s1, e1, f1, g1⟩ := execChainOrder_ok (price := price) hi ho hs hlim hsd (by omega : 0 < v)
      have hn' := List.nodup_cons.1 hn
      have hkeep : ∀ i ∈ is, s1.orders i = s.orders i := fun i hi' =>
        g1.others i (by simp; exact fun e => hn'.1 (e ▸ hi'))
      generalize hq : (if o.isAON = true then o.leaves else min o.leaves v) = q at e1 f1
      obtain ⟨s2, e2, f2, g2⟩ := ih (s := s1) (v := sub64 v q) g1.inv hn'.2
        (fun i hi' => by
          obtain ⟨o', a, b, c, d⟩ := hl i (by simp [hi'])
          exact ⟨o', by rw [hkeep i hi']; exact a, by rw [g1.same.symbol]; exact b, c, d⟩)
      have hp : planIds s1.orders is (sub64 v q) = planIds s.orders is (sub64 v q) :=
        planIds_congr fun i hi' => hkeep i hi'
      rw [hp] at e2 f2
      refine ⟨s2, ?_, ?_, g2.inv, ?_, g1.same.trans g2.same⟩
      · simp only [Core.execChainIds, hv, if_false, planIds, ho, hq]
        rw [e1, Except.bind_ok]; exact e2
      · simp only [planIds, hv, if_false, ho, hq]
        exact .cons f1 f2
      · intro i hi'
        simp only [List.mem_cons, not_or] at hi'
        rw [g2.others i hi'.2, g1.others i (by simp [hi'.1])]

theorem Fills.append {price s xs s1 ys s2} (h : Fills price s xs s1) (h' : Fills price s1 ys s2) :
    Fills price s (xs ++ ys) s2 := by
  induction h with
  | nil => exact h'
  | cons f _ ih => exact .cons f (ih h')

theorem execChain_ok {price sd} (ls : List Level) : ∀ {s : Core} {v : Nat}, Inv s → (flatOf ls).Nodup →
    (∀ i ∈ flatOf ls, LimAt s sd i) →
    ∃ s', Core.execChain price ls s v = .ok s' ∧
      Fills price s (planIds s.orders (flatOf ls) v).1 s' ∧ FillsEff sd (flatOf ls) s s' := by
  induction ls with
  | nil =>
    intro s v hi _ _
    exact ⟨s, rfl, .nil s, hi, fun _ _ => rfl, .refl _ _⟩
  | cons l ls ih =>
    intro s v hi hn hl
    by_cases hv : v = 0
    · refine ⟨s, ?_, ?_, hi, fun _ _ => rfl, .refl _ _⟩
      · simp [Core.execChain, hv]
      · rw [hv, planIds_zero]; exact .nil s
    · rw [flatOf_cons, List.nodup_append] at hn
      obtain ⟨s1, e1, f1, g1⟩ := execChainIds_ok (price := price) (sd := sd) l.ids (v := v) hi hn.1
        (fun i hi' => hl i (by simp [hi']))
      have hkeep : ∀ i ∈ flatOf ls, s1.orders i = s.orders i := fun i hi' =>
        g1.others i (fun e => hn.2.2 i e i hi' rfl)
      obtain ⟨s2, e2, f2, g2⟩ := ih (s := s1) (v := (planIds s.orders l.ids v).2) g1.inv hn.2.1
        (fun i hi' => by
          obtain ⟨o', a, b, c, d⟩ := hl i (by simp [hi'])
          exact ⟨o', by rw [hkeep i hi']; exact a, by rw [g1.same.symbol]; exact b, c, d⟩)
      rw [planIds_congr hkeep] at f2
      refine ⟨s2, ?_, ?_, g2.inv, ?_, g1.same.trans g2.same⟩
      · simp only [Core.execChain, hv, if_false]
        rw [e1, Except.bind_ok]; exact e2
      · rw [flatOf_cons, planIds_append (fun i hi' => by
          obtain ⟨o', a, _⟩ := hl i (by simp [hi']); simp [a])]
        exact f1.append f2
      · intro i hi'
        simp only [flatOf_cons, List.mem_append, not_or] at hi'
        rw [g2.others i hi'.2, g1.others i hi'.1]

theorem sumQ_append (xs ys) : sumQ (xs ++ ys) = sumQ xs + sumQ ys := by simp [sumQ]

/-! ### `CalculateMatchingChain(level, price, volume)` -/

theorem chainOrders_ok {s : Core} {volume : Nat} (ids : List Nat) : ∀ {avail : Nat},
    (∀ i ∈ ids, ∃ o, s.orders i = some o ∧ o.leaves + volume < W64) → avail < volume → 
    ∃ r, Core.chainOrders s volume ids avail = .ok r ∧
      (match r with
       | .inr c => c ≠ 0 → c = volume ∧ (planIds s.orders ids (volume - avail)).2 = 0 ∧
          sumQ (planIds s.orders ids (volume - avail)).1 = volume - avail
       | .inl a => avail ≤ a ∧ a < volume ∧ (planIds s.orders ids (volume - avail)).2 = volume - a ∧
          sumQ (planIds s.orders ids (volume - avail)).1 = a - avail) := by
  induction ids with
  | nil => intro avail _ h; exact ⟨.inl avail, rfl, by simp [planIds, sumQ, h]⟩
  | cons i is ih =>
    intro avail hl hav
    obtain ⟨o, ho, hb⟩ := hl i (by simp)
    have hneed : sub64 volume avail = volume - avail := sub64_eq (by omega) (by omega)
    have hv0 : ¬ (volume - avail = 0) := by omega
    generalize hq : (if o.isAON = true then o.leaves else min o.leaves (volume - avail)) = q
    have hqle : q ≤ o.leaves := by rw [← hq]; split <;> omega
    have hadd : add64 avail q = avail + q := add64_eq (by omega)
    have hstep : Core.chainOrders s volume (i :: is) avail =
        if volume = avail + q then .ok (.inr (avail + q)) else if volume < avail + q then .ok (.inr 0)
        else Core.chainOrders s volume is (avail + q) := by
      simp only [Core.chainOrders, Core.get_ok ho, Except.bind_ok, hneed, hq, hadd]
    have hplan : planIds s.orders (i :: is) (volume - avail) =
        ((o, q) :: (planIds s.orders is (sub64 (volume - avail) q)).1,
          (planIds s.orders is (sub64 (volume - avail) q)).2) := by
      simp only [planIds, hv0, if_false, ho, hq]
    rw [hstep]
    by_cases h1 : volume = avail + q
    · refine ⟨.inr (avail + q), by simp [h1], ?_⟩
      intro _
      have hs : sub64 (volume - avail) q = 0 := by rw [sub64_eq (by omega) (by omega)]; omega
      rw [hplan, hs, planIds_zero]
      simp [sumQ]; omega
    · simp only [h1, if_false]
      by_cases h2 : volume < avail + q
      · refine ⟨.inr 0, by simp [h2], ?_⟩
        intro h; exact absurd rfl h
      · simp only [h2, if_false]
        have hs : sub64 (volume - avail) q = volume - (avail + q) := by
          rw [sub64_eq (by omega) (by omega)]; omega
        obtain ⟨r, e, hr⟩ := ih (avail := avail + q) (fun j hj => hl j (by simp [hj])) (by omega)
        refine ⟨r, e, ?_⟩
        rw [hplan, hs]
        cases r with
        | inr c =>
          intro hc
          obtain ⟨a1, a2, a3⟩ := hr hc
          refine ⟨a1, a2, ?_⟩
          simp only [sumQ, List.map_cons, List.sum_cons] at *; omega
        | inl a =>
          obtain ⟨a1, a2, a3, a4⟩ := hr
          refine ⟨by omega, a2, a3, ?_⟩
          simp only [sumQ, List.map_cons, List.sum_cons] at *; omega

/-- The price condition of `CalculateMatchingChain` (market_manager.cpp:1461). -/
def LevelReach (k : Kind) (price : Nat) (l : Level) : Prop :=
  if k.isBidType then price ≤ l.price else l.price ≤ price

theorem chainLevels_ok {s : Core} {k price volume} (ls : List Level) : ∀ {avail : Nat},
    (∀ i ∈ flatOf ls, ∃ o, s.orders i = some o ∧ o.leaves + volume < W64) → avail < volume →
    ∃ c, Core.chainLevels s k price volume ls avail = .ok c ∧
      (c ≠ 0 → c = volume ∧
        sumQ (planIds s.orders (flatOf ls) (volume - avail)).1 = volume - avail ∧
        ∀ x ∈ (planIds s.orders (flatOf ls) (volume - avail)).1, ∃ l ∈ ls, LevelReach k price l ∧
          ∃ i ∈ l.ids, s.orders i = some x.1) := by
  induction ls with
  | nil => intro avail _ _; exact ⟨0, rfl, by simp⟩
  | cons l ls ih =>
    intro avail hl hav
    by_cases hr : LevelReach k price l
    · obtain ⟨r, e, hr'⟩ := chainOrders_ok (s := s) (volume := volume) l.ids (avail := avail)
        (fun i hi => hl i (by simp [hi])) hav
      have hne : ∀ i ∈ l.ids, s.orders i ≠ none := fun i hi => by
        obtain ⟨o, a, _⟩ := hl i (by simp [hi]); simp [a]
      have hstep : Core.chainLevels s k price volume (l :: ls) avail =
          (match r with
            | .inr r => .ok r
            | .inl avail' => Core.chainLevels s k price volume ls avail') := by
        have hr2 : (if k.isBidType = true then price ≤ l.price else l.price ≤ price) := hr
        simp only [Core.chainLevels, hr2, if_true, e, Except.bind_ok]
        cases r <;> rfl
      rw [hstep, flatOf_cons, planIds_append hne]
      cases r with
      | inr c =>
        refine ⟨c, rfl, ?_⟩
        intro hc
        obtain ⟨a1, a2, a3⟩ := hr' hc
        refine ⟨a1, ?_, ?_⟩
        · rw [a2, planIds_zero]; simpa using a3
        · rw [a2, planIds_zero]
          intro x hx
          simp only [List.append_nil] at hx
          obtain ⟨i, hi, hx'⟩ := planIds_mem hx
          exact ⟨l, by simp, hr, i, hi, hx'⟩
      | inl a =>
        obtain ⟨a1, a2, a3, a4⟩ := hr'
        obtain ⟨c, e', hc'⟩ := ih (avail := a) (fun i hi => hl i (by simp [hi])) a2
        refine ⟨c, e', ?_⟩
        intro hc
        obtain ⟨b1, b2, b3⟩ := hc' hc
        rw [a3]
        refine ⟨b1, ?_, ?_⟩
        · rw [sumQ_append, a4, b2]; omega
        · intro x hx
          rcases List.mem_append.1 hx with hx | hx
          · obtain ⟨i, hi, hx'⟩ := planIds_mem hx
            exact ⟨l, by simp, hr, i, hi, hx'⟩
          · obtain ⟨l', h1, h2⟩ := b3 x hx
            exact ⟨l', by simp [h1], h2⟩
    · refine ⟨0, ?_, by simp⟩
      have hr2 : ¬ (if k.isBidType = true then price ≤ l.price else l.price ≤ price) := hr
      simp only [Core.chainLevels, hr2, if_false]

/-! ### `CalculateMatchingChain(bid_level, ask_level)` -/

theorem chainPair_ok {s : Core} : ∀ (n : Nat) (ll sl : List Level) (lo so : List Nat) (req avail : Nat),
    (∀ i ∈ flatOf ll, s.orders i ≠ none) → (∀ i ∈ flatOf sl, s.orders i ≠ none) →
    (∀ i ∈ lo, s.orders i ≠ none) → (∀ i ∈ so, s.orders i ≠ none) →
    lo.length + so.length + (Core.levelsSize ll.tail + ll.length.min 1) + (Core.levelsSize sl.tail + sl.length.min 1) < n →
    ∃ r, Core.chainPair s n ll sl lo so req avail = .ok r := by
  intro n
  induction n with
  | zero => intro ll sl lo so req avail _ _ _ _ h; omega
  | succ n ih =>
    intro ll sl lo so req avail h1 h2 h3 h4 hn
    have hfr : ∀ ls : List Level, (Core.frontIds ls).length + (Core.levelsSize ls.tail + ls.length.min 1) = Core.levelsSize ls := by
      intro ls; cases ls with
      | nil => simp [Core.frontIds, Core.levelsSize]
      | cons l ls =>
        have : (l :: ls).length.min 1 = 1 := by simp
        rw [this]; simp [Core.frontIds, Core.levelsSize]; omega
    have hfm : ∀ ls : List Level, (∀ i ∈ flatOf ls, s.orders i ≠ none) → ∀ i ∈ Core.frontIds ls, s.orders i ≠ none := by
      intro ls h; cases ls with
      | nil => simp [Core.frontIds]
      | cons l ls => intro i hi; exact h i (by simp [Core.frontIds] at hi ⊢; exact .inl hi)
    have one : ∀ (l : Level) (ls : List Level), (l :: ls).length.min 1 = 1 := by
      intro l ls; simp
    cases ll with
    | nil => exact ⟨0, by simp [Core.chainPair]⟩
    | cons l ll =>
      cases sl with
      | nil => exact ⟨0, by simp [Core.chainPair]⟩
      | cons m sl =>
        rw [one, one] at hn
        simp only [List.tail_cons] at hn
        have h1' : ∀ i ∈ flatOf ll, s.orders i ≠ none := fun i hi => h1 i (by simp [hi])
        have h2' : ∀ i ∈ flatOf sl, s.orders i ≠ none := fun i hi => h2 i (by simp [hi])
        have f1 := hfr ll
        have f2 := hfr sl
        cases lo with
        | nil =>
          cases so with
          | nil =>
            simp only [Core.chainPair]
            refine ih ll sl _ _ req avail h1' h2' (hfm ll h1') (hfm sl h2') ?_
            simp only [List.length_nil] at hn; omega
          | cons sid so =>
            simp only [Core.chainPair]
            refine ih ll (m :: sl) _ _ req avail h1' h2 (hfm ll h1') h4 ?_
            rw [one]; simp only [List.length_nil, List.tail_cons] at *; omega
        | cons lid lo =>
          cases so with
          | nil =>
            simp only [Core.chainPair]
            refine ih (l :: ll) sl _ _ req avail h1 h2' h3 (hfm sl h2') ?_
            rw [one]; simp only [List.length_nil, List.tail_cons] at *; omega
          | cons sid so =>
            obtain ⟨o, ho⟩ := Option.ne_none_iff_exists'.1 (h4 sid (by simp))
            simp only [Core.chainPair, Core.get_ok ho, Except.bind_ok]
            generalize (if o.isAON = true then o.leaves else min o.leaves (sub64 req avail)) = q
            split
            · exact ⟨_, rfl⟩
            · split
              · refine ih (l :: ll) (m :: sl) _ _ _ _ h1 h2 h4 (fun i hi => h3 i (by simp [hi])) ?_
                rw [one, one]; simp only [List.length_cons, List.tail_cons] at *; omega
              · refine ih (l :: ll) (m :: sl) _ _ _ _ h1 h2 h3 (fun i hi => h4 i (by simp [hi])) ?_
                rw [one, one]; simp only [List.length_cons, List.tail_cons] at *; omega

theorem chainCross_ok {s : Core} {bids asks : List Level} {b a : Nat} {bs as : List Nat}
    (hb : Core.frontIds bids = b :: bs) (ha : Core.frontIds asks = a :: as)
    (h1 : ∀ i ∈ flatOf bids, s.orders i ≠ none) (h2 : ∀ i ∈ flatOf asks, s.orders i ≠ none) :
    ∃ r, Core.chainCross s bids asks = .ok r := by
  have hfr : ∀ ls : List Level, (Core.frontIds ls).length + (Core.levelsSize ls.tail + ls.length.min 1) = Core.levelsSize ls := by
    intro ls; cases ls with
    | nil => simp [Core.frontIds, Core.levelsSize]
    | cons l ls =>
      have : (l :: ls).length.min 1 = 1 := by simp
      rw [this]; simp [Core.frontIds, Core.levelsSize]; omega
  have hfm : ∀ ls : List Level, (∀ i ∈ flatOf ls, s.orders i ≠ none) → ∀ i ∈ Core.frontIds ls, s.orders i ≠ none := by
    intro ls h; cases ls with
    | nil => simp [Core.frontIds]
    | cons l ls => intro i hi; exact h i (by simp [Core.frontIds] at hi ⊢; exact .inl hi)
  obtain ⟨bo, hbo⟩ := Option.ne_none_iff_exists'.1 (hfm bids h1 b (by simp [hb]))
  obtain ⟨ao, hao⟩ := Option.ne_none_iff_exists'.1 (hfm asks h2 a (by simp [ha]))
  have f1 := hfr bids
  have f2 := hfr asks
  unfold Core.chainCross
  simp only [hb, ha, Core.get_ok hbo, Core.get_ok hao, Except.bind_ok]
  rw [← hb, ← ha]
  split
  · split
    · exact chainPair_ok _ _ _ _ _ _ _ h2 h1 (hfm _ h2) (hfm _ h1) (by omega)
    · exact chainPair_ok _ _ _ _ _ _ _ h1 h2 (hfm _ h1) (hfm _ h2) (by omega)
  · split
    · exact chainPair_ok _ _ _ _ _ _ _ h2 h1 (hfm _ h2) (hfm _ h1) (by omega)
    · exact chainPair_ok _ _ _ _ _ _ _ h1 h2 (hfm _ h1) (hfm _ h2) (by omega)

end CppTrader
