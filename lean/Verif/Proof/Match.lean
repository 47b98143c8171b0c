import Verif.Proof.Chain
/-
`MatchOrder` and `MatchMarket`: totality and decomposition into steps.
-/

namespace CppTrader
open Core

/-- `t` is `t0` up to its fill state. -/
def Sim (t0 t : Order) : Prop := ∃ e l, t = { t0 with executed := e, leaves := l }

theorem Sim.refl (t : Order) : Sim t t := ⟨t.executed, t.leaves, rfl⟩
theorem Sim.trans {a b c : Order} (h : Sim a b) (h' : Sim b c) : Sim a c := by
  obtain ⟨e, l, rfl⟩ := h; obtain ⟨e', l', rfl⟩ := h'; exact ⟨e', l', rfl⟩
theorem Sim.taker {t0 t : Order} (h : Sim t0 t) (s : Core) (p q : Nat) : Sim t0 (s.execTaker t p q).2 :=
  h.trans ⟨_, _, rfl⟩

/-- Steps made while matching the incoming order `t0`. -/
def MatchL (t0 : Order) : Lbl → Prop
  | .trade t _ _ => Sim t0 t
  | .sweep t _ => Sim t0 t
  | _ => False

theorem oppKind_side {t o : Order} (h : o.kind = some (oppKind t)) : o.type = .limit ∧ o.side ≠ t.side := by
  unfold Order.kind oppKind at h
  cases ht : o.type <;> cases hs : o.side <;> cases hs' : t.side <;> simp_all [Order.isBuy]

theorem limKind_opp {t o : Order} (h : o.side ≠ t.side) : limKind o.side = oppKind t := by
  unfold oppKind Order.isBuy
  cases hs : o.side <;> cases hs' : t.side <;> simp_all [limKind]

theorem other_side (a : Side) : ∃ b : Side, b ≠ a := by
  cases a
  · exact ⟨.sell, by simp⟩
  · exact ⟨.buy, by simp⟩

theorem oppKind_sim {t0 t : Order} (h : Sim t0 t) : oppKind t = oppKind t0 := by
  obtain ⟨e, l, rfl⟩ := h; rfl

theorem execTaker_lv (s : Core) (t p q) : (s.execTaker t p q).1.book.lv = s.book.lv := updatePrices_lv ..
theorem execTaker_best (s : Core) (t p q) : (s.execTaker t p q).1.book.best = s.book.best := updatePrices_best ..
theorem execTaker_orders (s : Core) (t p q) : (s.execTaker t p q).1.orders = s.orders := rfl

theorem queue_congr {b b' : Book} (h : b'.lv = b.lv) (k) : queue b' k = queue b k := by unfold queue; rw [h]

theorem execRed_split {s : Core} {id price q s'} (h : s.execRed id price q = .ok s') {α : Type}
    (f : Core → Except Err α) : (do let s ← s.execResting id price q; let s ← s.reduceRec id q; f s) = f s' := by
  unfold Core.execRed at h
  cases hx : s.execResting id price q with
  | error x => rw [hx] at h; cases h
  | ok s1 => rw [hx, Except.bind_ok] at h; rw [Except.bind_ok, h, Except.bind_ok]

theorem execDel_split {s : Core} {id price q s'} (h : s.execDel id price q = .ok s') {α : Type}
    (f : Core → Except Err α) : (do let s ← s.execResting id price q; let s ← s.deleteRec id; f s) = f s' := by
  unfold Core.execDel at h
  cases hx : s.execResting id price q with
  | error x => rw [hx] at h; cases h
  | ok s1 => rw [hx, Except.bind_ok] at h; rw [Except.bind_ok, h, Except.bind_ok]

theorem matchLevel_ok {t0 : Order} (hnf : t0.isFOK = false) (hna : t0.isAON = false) (ids : List Nat) :
    ∀ {s : Core} {t : Order} {rest : List Nat}, Inv s → Fly s t → 0 < t.leaves → Sim t0 t →
    queue s.book (oppKind t0) = ids ++ rest →
    (∀ i ∈ ids, ∀ o, s.orders i = some o → reaches t0 o.price = true) →
    ∃ s' t' r, matchLevel ids s t = .ok (s', t', r) ∧ Steps (MatchL t0) s (some t) s' (some t') ∧ Sim t0 t' ∧
      (r = false → queue s'.book (oppKind t0) = rest ∧ 0 < t'.leaves) := by
  induction ids with
  | nil =>
    intro s t rest _ _ hl hsim hq _
    exact ⟨s, t, false, rfl, .refl _ _, hsim, fun _ => ⟨by simpa using hq, hl⟩⟩
  | cons id is ih =>
    intro s t rest hi hf hl hsim hq hr
    have hmem : id ∈ queue s.book (oppKind t0) := by rw [hq]; simp
    obtain ⟨o, ho, hs, hk⟩ := hi.book.queue_mem hmem
    obtain ⟨hid, hok⟩ := hi.orders id o ho
    subst hid
    obtain ⟨hlim, hside⟩ := oppKind_side hk
    have hpos := hok.leaves
    unfold matchLevel
    simp only [Core.get_ok ho, Except.bind_ok]
    by_cases haon : (o.isAON && decide (o.leaves > t.leaves)) = true
    · simp only [haon, if_true]
      exact ⟨s, t, true, rfl, .refl _ _, hsim, by simp⟩
    · simp only [haon, Bool.false_eq_true, if_false]
      have hsd : t.side = t0.side := by obtain ⟨e, l, rfl⟩ := hsim; rfl
      have hre : reaches t o.price = true := by
        have := hr o.id (by simp) o ho
        obtain ⟨e, l, rfl⟩ := hsim; exact this
      have hop := oppKind_sim hsim
      generalize hqd : min o.leaves t.leaves = q
      obtain ⟨s1, h1, h2⟩ := hi.fill_red (o := o) (price := o.price) (q := q)
        ⟨ho, hs, hlim, by omega, by omega, fun h => by simp [h] at haon; omega⟩
      have e := h2.eff hi
      rw [execRed_split h1]
      have st : Step (.trade t o q) s (some t) (s1.execTaker t o.price q).1 (some (s1.execTaker t o.price q).2) :=
        .trade h2 (by rw [hop, hq]; rfl) (hsd ▸ hside) hre hqd.symm
          (by obtain ⟨e, l, rfl⟩ := hsim; exact hnf) (by obtain ⟨e, l, rfl⟩ := hsim; exact hna)
      have hst : Steps (MatchL t0) s (some t) (s1.execTaker t o.price q).1 (some (s1.execTaker t o.price q).2) :=
        .one (show MatchL t0 (.trade t o q) from hsim) st
      have hci := st.inv ⟨hi, fun t' ht' => by cases ht'; exact hf⟩
      have hsim' := hsim.taker s1 o.price q
      by_cases hz : (s1.execTaker t o.price q).2.leaves = 0
      · simp only [hz, if_true]
        exact ⟨_, _, true, rfl, hst, hsim', by simp⟩
      · simp only [hz, if_false]
        have hz' : ¬ (t.leaves - q = 0) := hz
        have hqe : o.leaves = q := by omega
        have hq' : queue (s1.execTaker t o.price q).1.book (oppKind t0) = is ++ rest := by
          rw [queue_congr (execTaker_lv ..)]
          have := e.queue
          rw [limKind_opp hside, if_pos hqe, hq] at this
          rw [this]; simp
        obtain ⟨s', t', r, g1, g2, g3, g4⟩ := ih (rest := rest) hci.inv (hci.fly _ rfl) (by omega) hsim' hq'
          (by
            intro i hi' o' ho'
            refine hr i (by simp [hi']) o' ?_
            have hnd := (hi.book.kinds (oppKind t0)).nodup
            have hnd' : (o.id :: (is ++ rest)).Nodup := by
              have h0 : (queue s.book (oppKind t0)).Nodup := hnd
              rw [hq] at h0; simpa using h0
            have hne : i ≠ o.id := fun e' => (List.nodup_cons.1 hnd').1 (by simp [← e', hi'])
            have : s1.orders i = some o' := ho'
            rw [e.orders, setO_other _ _ hne] at this
            exact this)
        exact ⟨s', t', r, g1, hst.trans g2, g3, g4⟩

theorem levelsFrom_head {l : Level} {ls : List Level} : levelsFrom (l :: ls) l.price = l :: ls := by
  simp [levelsFrom]

theorem level_price {s : Core} (hi : Inv s) {k l i o} (hl : l ∈ s.book.lv k) (hm : i ∈ l.ids)
    (ho : s.orders i = some o) : o.key = l.price ∧ o.kind = some k ∧ o.symbolId = s.book.symbol.id := by
  obtain ⟨o', h1, h2, h3, h4⟩ := ((hi.book.kinds k).levels l hl).mem i hm
  rw [ho] at h1; cases h1; exact ⟨h4, h3, h2⟩

theorem limit_key {o : Order} (h : o.type = .limit) : o.key = o.price := by unfold Order.key; rw [h]

theorem levelReach_reaches {t : Order} {l : Level} : LevelReach (oppKind t) t.price l ↔ reaches t l.price = true := by
  unfold LevelReach reaches oppKind
  by_cases h : t.isBuy = true <;> simp [h, Kind.isBidType]

theorem order_le_volume {s : Core} (hi : Inv s) {i o k} (ho : s.orders i = some o) (hq : i ∈ queue s.book k) :
    o.leaves ≤ volume s.book := by
  obtain ⟨l, hl, hil⟩ := mem_flatOf.1 hq
  have h1 := ((hi.book.kinds k).levels l hl).total
  have h2 := sumOver_ge_mem (f := Order.leaves) hil ho
  have h3 := volOf_le_volume s.book k
  obtain ⟨xs, ys, e⟩ := mem_split hl
  rw [e] at h3
  simp at h3; omega

theorem matchOrderN_ok {t0 : Order} : ∀ (n : Nat) {s : Core} {t : Order}, Inv s → Fly s t → 0 < t.leaves → Sim t0 t →
    (queue s.book (oppKind t0)).length < n →
    ∃ s' t', matchOrderN n s t = .ok (s', t') ∧ Steps (MatchL t0) s (some t) s' (some t') ∧ Sim t0 t' := by
  intro n
  induction n with
  | zero => intro s t _ _ _ _ h; omega
  | succ n ih =>
    intro s t hi hf hl hsim hn
    have hop := oppKind_sim hsim
    unfold matchOrderN
    simp only [hop]
    cases hb : s.book.best (oppKind t0) with
    | none => exact ⟨s, t, rfl, .refl _ _, hsim⟩
    | some p =>
      simp only
      by_cases hr : reaches t p = true
      · simp only [hr, if_true]
        obtain ⟨l, ls, hlv, rfl⟩ := hi.best_level hb
        rw [hlv, levelsFrom_head]
        simp only
        have hqueue : queue s.book (oppKind t0) = flatOf (l :: ls) := by unfold queue; rw [hlv]
        by_cases htif : (t.isFOK || t.isAON) = true
        · simp only [htif, if_true]
          have hall : ∀ i ∈ flatOf (l :: ls), ∃ o, s.orders i = some o ∧ o.leaves + t.leaves < W64 := by
            intro i hi'
            obtain ⟨o, h1, _⟩ := hi.book.queue_mem (k := oppKind t0) (hqueue ▸ hi')
            have := order_le_volume hi h1 (hqueue ▸ hi' : i ∈ queue s.book (oppKind t0))
            have := hf.vol
            exact ⟨o, h1, by omega⟩
          obtain ⟨c, hc, hc'⟩ := chainLevels_ok (s := s) (k := oppKind t0) (price := t.price) (volume := t.leaves)
            (l :: ls) (avail := 0) hall hl
          rw [hc, Except.bind_ok]
          by_cases h0 : c = 0
          · simp only [h0, if_true]; exact ⟨s, t, rfl, .refl _ _, hsim⟩
          · simp only [h0, if_false]
            obtain ⟨rfl, a2, a3⟩ := hc' h0
            simp only [Nat.sub_zero] at a2 a3
            obtain ⟨sd, hsd⟩ : ∃ sd : Side, sd ≠ t.side := other_side t.side
            have hlim : ∀ i ∈ flatOf (l :: ls), LimAt s sd i := by
              intro i hi'
              obtain ⟨o, h1, h2, h3⟩ := hi.book.queue_mem (k := oppKind t0) (hqueue ▸ hi')
              rw [← hop] at h3
              obtain ⟨g1, g2⟩ := oppKind_side h3
              refine ⟨o, h1, h2, g1, ?_⟩
              revert hsd g2; cases o.side <;> cases sd <;> cases t.side <;> simp
            have hnd : (flatOf (l :: ls)).Nodup := by
              have := (hi.book.kinds (oppKind t0)).nodup; rw [hlv] at this; exact this
            obtain ⟨s1, e1, f1, g1⟩ := execChain_ok (price := t.price) (l :: ls) (v := t.leaves) hi hnd hlim
            rw [e1, Except.bind_ok]
            have st : Step (.sweep t (planIds s.orders (flatOf (l :: ls)) t.leaves).1) s (some t)
                (s1.execTaker t t.price t.leaves).1 (some (s1.execTaker t t.price t.leaves).2) := by
              refine .sweep f1 a2 hl ?_ (by simpa using htif)
              intro x hx
              obtain ⟨l', hl', hre, i, hi', ho⟩ := a3 x hx
              have hl'' : l' ∈ s.book.lv (oppKind t0) := by rw [hlv]; exact hl'
              obtain ⟨k1, k2, k3⟩ := level_price hi hl'' hi' ho
              rw [← hop] at k2 hre
              obtain ⟨g1, g2⟩ := oppKind_side k2
              refine ⟨g2, ?_⟩
              rw [limit_key g1] at k1
              rw [k1]; exact levelReach_reaches.1 hre
            refine ⟨_, _, rfl, .one (show MatchL t0 (.sweep t _) from hsim) st, hsim.taker s1 t.price t.leaves⟩
        · simp only [htif, Bool.false_eq_true, if_false]
          have hf' : t0.isFOK = false ∧ t0.isAON = false := by
            obtain ⟨e, x, rfl⟩ := hsim
            simpa [Order.isFOK, Order.isAON] using htif
          have hr0 : reaches t0 l.price = true := by obtain ⟨e, x, rfl⟩ := hsim; exact hr
          obtain ⟨s1, t1, r, g1, g2, g3, g4⟩ := matchLevel_ok hf'.1 hf'.2 l.ids (rest := flatOf ls) hi hf hl hsim
            (by rw [hqueue, flatOf_cons]) (by
              intro i hi' o ho
              obtain ⟨k1, k2, _⟩ := level_price hi (show l ∈ s.book.lv (oppKind t0) by rw [hlv]; simp) hi' ho
              obtain ⟨g1, _⟩ := oppKind_side k2
              rw [limit_key g1] at k1; rw [k1]; exact hr0)
          rw [g1, Except.bind_ok]
          simp only
          cases r with
          | true => exact ⟨s1, t1, rfl, g2, g3⟩
          | false =>
            simp only [Bool.false_eq_true, if_false]
            obtain ⟨q1, q2⟩ := g4 rfl
            have hci := g2.inv ⟨hi, fun t' ht' => by cases ht'; exact hf⟩
            have hne := ((hi.book.kinds (oppKind t0)).levels l (by rw [hlv]; simp)).nonempty
            have hlen : 0 < l.ids.length := by
              cases h : l.ids with
              | nil => exact absurd h hne
              | cons => simp
            obtain ⟨s2, t2, k1, k2, k3⟩ := ih hci.inv (hci.fly _ rfl) q2 g3 (by
              rw [q1]; rw [hqueue, flatOf_cons, List.length_append] at hn; omega)
            exact ⟨s2, t2, k1, g2.trans k2, k3⟩
      · simp only [hr, Bool.false_eq_true, if_false]
        exact ⟨s, t, rfl, .refl _ _, hsim⟩

theorem matchOrder_ok {s : Core} {t : Order} (hi : Inv s) (hf : Fly s t) (hl : 0 < t.leaves) :
    ∃ s' t', s.matchOrder t = .ok (s', t') ∧ Steps (MatchL t) s (some t) s' (some t') ∧ Sim t t' := by
  unfold matchOrder
  rw [kindCount_eq]
  exact matchOrderN_ok _ hi hf hl (.refl t) (by omega)

/-! ### Frame of matching -/

/-- What matching an incoming order leaves alone. -/
structure MatchFrame (t0 : Order) (s s' : Core) : Prop where
  same : Book.SameLv (oppKind t0) s.book s'.book
  keep : ∀ i o, s.orders i = some o → o.symbolId ≠ s.book.symbol.id ∨ o.kind ≠ some (oppKind t0) → s'.orders i = some o
  none : ∀ i, s.orders i = none → s'.orders i = none

theorem MatchFrame.refl (t0 s) : MatchFrame t0 s s := ⟨.refl _ _, fun _ _ h _ => h, fun _ h => h⟩
theorem MatchFrame.trans {t0 s s1 s2} (h : MatchFrame t0 s s1) (h' : MatchFrame t0 s1 s2) : MatchFrame t0 s s2 :=
  ⟨h.same.trans h'.same, fun i o ho hk => h'.keep i o (h.keep i o ho hk) (by rw [h.same.symbol]; exact hk),
   fun i hn => h'.none i (h.none i hn)⟩

theorem Fill.frame {s o p q s' t0} (f : Fill s o p q s') (hi : Inv s) (hs : o.side ≠ t0.side) : MatchFrame t0 s s' := by
  have e := f.eff hi
  have hk := kind_limit f.pre.lim
  rw [limKind_opp hs] at hk
  refine ⟨limKind_opp hs ▸ e.same, ?_, ?_⟩
  · intro i o' ho' hc
    rw [e.orders]
    by_cases e' : i = o.id
    · subst e'
      rw [f.pre.mem] at ho'; cases ho'
      rcases hc with h | h
      · exact absurd f.pre.sym h
      · exact absurd hk h
    · rw [setO_other _ _ e']; exact ho'
  · intro i hn
    rw [e.orders]
    by_cases e' : i = o.id
    · subst e'; rw [f.pre.mem] at hn; cases hn
    · rw [setO_other _ _ e']; exact hn

theorem Fills.frame {p s xs s'} (f : Fills p s xs s') {t0} (hi : Inv s) (hs : ∀ x ∈ xs, x.1.side ≠ t0.side) :
    MatchFrame t0 s s' := by
  induction f with
  | nil => exact .refl _ _
  | cons f _ ih =>
    exact (f.frame hi (hs (_, _) (List.mem_cons_self ..))).trans (ih (f.eff hi).inv (fun x hx => hs x (by simp [hx])))

theorem execTaker_frame (t0 s t p q) : MatchFrame t0 s (Core.execTaker s t p q).1 :=
  ⟨⟨updatePrices_symbol .., fun _ _ => by rw [execTaker_lv], fun _ _ => by rw [execTaker_best],
    updatePrices_trailBid .., updatePrices_trailAsk ..⟩, fun _ _ h _ => h, fun _ h => h⟩

/-- Weight of a configuration. -/
def weight (s : Core) (t : Option Order) : Nat := volume s.book + (match t with | some t => t.leaves | none => 0)

theorem Steps.match_frame {t0 s t s' t'} (h : Steps (MatchL t0) s t s' t') (hc : CInv s t) :
    MatchFrame t0 s s' ∧ weight s' t' ≤ weight s t := by
  induction h with
  | refl => exact ⟨.refl _ _, Nat.le_refl _⟩
  | head a st tl ih =>
    obtain ⟨i1, i2⟩ := ih (st.inv hc)
    clear ih tl
    cases st with
    | trade fill head side reach qty nf na =>
      rename_i t o q s1
      have hsim : Sim t0 t := a
      have hs0 : o.side ≠ t0.side := by obtain ⟨e, l, rfl⟩ := hsim; exact side
      refine ⟨((fill.frame hc.inv hs0).trans (execTaker_frame _ _ _ _ _)).trans i1, Nat.le_trans i2 ?_⟩
      have := (fill.eff hc.inv).vol
      unfold weight; rw [execTaker_volume]
      show volume s1.book + (t.leaves - q) ≤ _ + t.leaves
      omega
    | sweep fills sum pos sides tif =>
      rename_i t xs s1
      have hsim : Sim t0 t := a
      have hs0 : ∀ x ∈ xs, x.1.side ≠ t0.side := by
        intro x hx; have := (sides x hx).1; obtain ⟨e, l, rfl⟩ := hsim; exact this
      refine ⟨((fills.frame hc.inv hs0).trans (execTaker_frame _ _ _ _ _)).trans i1, Nat.le_trans i2 ?_⟩
      have := (fills.inv hc.inv).2.1
      unfold weight; rw [execTaker_volume]
      show volume s1.book + (t.leaves - t.leaves) ≤ _ + t.leaves
      omega
    | _ => exact absurd a (by simp [MatchL])

end CppTrader
