import Verif.Proof.Greedy
/-
An incoming Fill-Or-Kill or All-Or-None order: a chain of executions that fills it, or nothing.
-/

namespace CppTrader
open Core

theorem chain_cons {t r : Order} {need : Nat} (rs) (h : 0 < need) (ha : t.accepts r.price) {q : Nat}
    (hq : (if r.isAON = true then r.leaves else min r.leaves need) = q) :
    chain t need (r :: rs) = if q = need then some [(r, q)] else if need < q then none else (chain t (need - q) rs).map ((r, q) :: ·) := by
  conv => lhs; unfold chain
  rw [if_neg (by rintro (h' | h'); omega; exact h' ha)]
  simp only [hq]

theorem chainOrders_spec {s : Core} {t : Order} {volume : Nat} (ids : List Nat) : ∀ {avail : Nat} (R : List Order),
    (∀ i ∈ ids, ∃ o, s.orders i = some o ∧ o.leaves + volume < W64 ∧ 0 < o.leaves ∧ t.accepts o.price) → avail < volume →
    ∃ r, Core.chainOrders s volume ids avail = .ok r ∧
      (match r with
       | .inr c => if c = 0 then chain t (volume - avail) (restOf s ids ++ R) = none
          else chain t (volume - avail) (restOf s ids ++ R) = some (planIds s.orders ids (volume - avail)).1 ∧
            (planIds s.orders ids (volume - avail)).2 = 0 ∧ c = volume
       | .inl a => avail ≤ a ∧ a < volume ∧ (planIds s.orders ids (volume - avail)).2 = volume - a ∧
          chain t (volume - avail) (restOf s ids ++ R) = (chain t (volume - a) R).map ((planIds s.orders ids (volume - avail)).1 ++ ·)) := by
  induction ids with
  | nil => intro avail R _ h; exact ⟨.inl avail, rfl, Nat.le_refl _, h, rfl, by simp [restOf, planIds]⟩
  | cons i is ih =>
    intro avail R hl hav
    obtain ⟨o, ho, hb, hpos, hacc⟩ := hl i (by simp)
    have hneed : sub64 volume avail = volume - avail := sub64_eq (by omega) (by omega)
    have hv0 : ¬ (volume - avail = 0) := by omega
    generalize hq : (if o.isAON = true then o.leaves else min o.leaves (volume - avail)) = q
    have hqle : q ≤ o.leaves := by rw [← hq]; split <;> omega
    have hqpos : 0 < q := by rw [← hq]; split <;> omega
    have hadd : add64 avail q = avail + q := add64_eq (by omega)
    have hstep : Core.chainOrders s volume (i :: is) avail =
        if volume = avail + q then .ok (.inr (avail + q)) else if volume < avail + q then .ok (.inr 0)
        else Core.chainOrders s volume is (avail + q) := by
      simp only [Core.chainOrders, Core.get_ok ho, Except.bind_ok, hneed, hq, hadd]
    have hplan : planIds s.orders (i :: is) (volume - avail) =
        ((o, q) :: (planIds s.orders is (sub64 (volume - avail) q)).1,
          (planIds s.orders is (sub64 (volume - avail) q)).2) := by
      simp only [planIds, hv0, if_false, ho, hq]
    have hrest : restOf s (i :: is) ++ R = o :: (restOf s is ++ R) := by unfold restOf; simp [ho]
    rw [hstep, hplan, hrest, chain_cons _ (by omega) hacc hq]
    by_cases h1 : volume = avail + q
    · refine ⟨.inr (avail + q), by simp [h1], ?_⟩
      have hs : sub64 (volume - avail) q = 0 := by rw [sub64_eq (by omega) (by omega)]; omega
      simp only
      rw [if_neg (by omega), if_pos (by omega), hs, planIds_zero]
      exact ⟨rfl, rfl, h1.symm⟩
    · simp only [h1, if_false]
      by_cases h2 : volume < avail + q
      · refine ⟨.inr 0, by simp [h2], ?_⟩
        simp only [if_true]
        rw [if_neg (by omega), if_pos (by omega)]
      · simp only [h2, if_false]
        have hs : sub64 (volume - avail) q = volume - (avail + q) := by
          rw [sub64_eq (by omega) (by omega)]; omega
        obtain ⟨r, e, hr⟩ := ih (avail := avail + q) R (fun j hj => hl j (by simp [hj])) (by omega)
        refine ⟨r, e, ?_⟩
        rw [hs, if_neg (by omega), if_neg (by omega), show volume - avail - q = volume - (avail + q) by omega]
        cases r with
        | inr c =>
          simp only at hr ⊢
          by_cases hc : c = 0
          · rw [if_pos hc] at hr ⊢; rw [hr]; rfl
          · rw [if_neg hc] at hr ⊢
            obtain ⟨a1, a2, a3⟩ := hr
            exact ⟨by rw [a1]; rfl, a2, a3⟩
        | inl a =>
          obtain ⟨a1, a2, a3, a4⟩ := hr
          refine ⟨by omega, a2, a3, ?_⟩
          rw [a4, Option.map_map]; rfl

theorem chain_reject {t : Order} {need : Nat} {R : List Order} (h : ∀ r rs, R = r :: rs → ¬ t.accepts r.price) : chain t need R = none := by
  cases R with
  | nil => rfl
  | cons r rs => unfold chain; rw [if_pos (.inr (h r rs rfl))]

theorem chainLevels_spec {s : Core} {t : Order} {volume} (ls : List Level) : ∀ {avail : Nat},
    (∀ l ∈ ls, l.ids ≠ [] ∧ ∀ i ∈ l.ids, ∃ o, s.orders i = some o ∧ o.leaves + volume < W64 ∧ 0 < o.leaves ∧ o.price = l.price) → avail < volume →
    ∃ c, Core.chainLevels s (oppKind t) t.price volume ls avail = .ok c ∧
      if c = 0 then chain t (volume - avail) (restOf s (flatOf ls)) = none
      else c = volume ∧ chain t (volume - avail) (restOf s (flatOf ls)) = some (planIds s.orders (flatOf ls) (volume - avail)).1 := by
  induction ls with
  | nil => intro avail _ _; exact ⟨0, rfl, by simp [flatOf, restOf, chain]⟩
  | cons l ls ih =>
    intro avail hl hav
    obtain ⟨hne, hl1⟩ := hl l (by simp)
    by_cases hr : LevelReach (oppKind t) t.price l
    · have hre := reaches_accepts.1 (levelReach_reaches.1 hr)
      obtain ⟨r, e, hr'⟩ := chainOrders_spec (s := s) (t := t) (volume := volume) l.ids (avail := avail) (restOf s (flatOf ls))
        (fun i hi => by
          obtain ⟨o, a, b, c, d⟩ := hl1 i hi
          exact ⟨o, a, b, c, by rw [d]; exact hre⟩) hav
      have hnn : ∀ i ∈ l.ids, s.orders i ≠ none := fun i hi => by
        obtain ⟨o, a, _⟩ := hl1 i hi; simp [a]
      have hstep : Core.chainLevels s (oppKind t) t.price volume (l :: ls) avail =
          (match r with
            | .inr r => .ok r
            | .inl avail' => Core.chainLevels s (oppKind t) t.price volume ls avail') := by
        have hr2 : (if (oppKind t).isBidType = true then t.price ≤ l.price else l.price ≤ t.price) := hr
        simp only [Core.chainLevels, hr2, if_true, e, Except.bind_ok]
        cases r <;> rfl
      have hro : restOf s (l.ids ++ flatOf ls) = restOf s l.ids ++ restOf s (flatOf ls) := by unfold restOf; exact List.filterMap_append
      rw [hstep, flatOf_cons, planIds_append hnn, hro]
      cases r with
      | inr c =>
        refine ⟨c, rfl, ?_⟩
        simp only at hr'
        by_cases hc : c = 0
        · rw [if_pos hc] at hr' ⊢; exact hr'
        · rw [if_neg hc] at hr' ⊢
          obtain ⟨a1, a2, a3⟩ := hr'
          refine ⟨a3, ?_⟩
          rw [a1, a2, planIds_zero]; simp
      | inl a =>
        obtain ⟨a1, a2, a3, a4⟩ := hr'
        obtain ⟨c, e', hc'⟩ := ih (avail := a) (fun l' h' => hl l' (by simp [h'])) a2
        refine ⟨c, e', ?_⟩
        rw [a4, a3]
        by_cases hc : c = 0
        · rw [if_pos hc] at hc' ⊢; rw [hc']; rfl
        · rw [if_neg hc] at hc' ⊢
          rw [hc'.2]; exact ⟨hc'.1, rfl⟩
    · refine ⟨0, ?_, ?_⟩
      · have hr2 : ¬ (if (oppKind t).isBidType = true then t.price ≤ l.price else l.price ≤ t.price) := hr
        simp only [Core.chainLevels, hr2, if_false]
      · rw [if_pos rfl]
        refine chain_reject ?_
        intro r rs e
        cases hids : l.ids with
        | nil => exact absurd hids hne
        | cons i is =>
          obtain ⟨o, a, _, _, d⟩ := hl1 i (by rw [hids]; simp)
          rw [flatOf_cons, hids] at e
          unfold restOf at e
          simp only [List.cons_append, List.filterMap_cons, a] at e
          have : o = r := (List.cons.inj e).1
          subst this
          rw [d]
          exact fun h => hr (levelReach_reaches.2 (reaches_accepts.2 h))

/-- A fill of the order at the head of its line. -/
theorem Fill.rest {s o p q s' k R} (f : Fill s o p q s') (hi : Inv s) (hk : limKind o.side = k) (h : restOf s (queue s.book k) = o :: R) :
    restOf s' (queue s'.book k) = if q < o.leaves then o.afterExec q :: R else R := by
  have e := f.eff hi
  obtain ⟨i, is, hq⟩ : ∃ i is, queue s.book k = i :: is := by
    cases hq : queue s.book k with
    | nil => rw [hq] at h; cases h
    | cons i is => exact ⟨i, is, rfl⟩
  obtain ⟨o', h1, h2, h3⟩ := hi.book.queue_mem (show i ∈ queue s.book k by rw [hq]; simp)
  rw [hq] at h
  have hR : o = o' ∧ restOf s is = R := by
    unfold restOf at h ⊢
    simp only [List.filterMap_cons, h1] at h
    exact ⟨(List.cons.inj h).1.symm, (List.cons.inj h).2⟩
  obtain ⟨rfl, hR⟩ := hR
  have hid := (hi.orders i o h1).1
  subst hid
  have hnd : (o.id :: is).Nodup := by
    have h0 : (queue s.book k).Nodup := (hi.book.kinds k).nodup
    rw [hq] at h0; exact h0
  have hsame : restOf s' is = R := by
    rw [← hR]
    refine restOf_congr fun i hi' => ?_
    rw [e.orders, setO_other _ _ (fun e' : i = o.id => (List.nodup_cons.1 hnd).1 (e' ▸ hi'))]
  have heq := e.queue
  rw [hk, hq] at heq
  rw [heq]
  have hle := f.pre.le
  by_cases hqe : o.leaves = q
  · rw [if_pos hqe, if_neg (by omega)]
    simpa using hsame
  · rw [if_neg hqe, if_pos (by omega)]
    have h0 : s'.orders o.id = some (o.afterExec q) := by
      rw [e.orders]
      simp only [setO, if_true, afterFill, if_neg hqe]
      rfl
    have : restOf s' (o.id :: is) = o.afterExec q :: restOf s' is := by
      unfold restOf; simp [h0]
    rw [this, hsame]

theorem Fills.rest {t : Order} {p k} : ∀ {R : List Order} {need : Nat} {xs s s'}, Fills p s xs s' → Inv s → (∀ r ∈ R, limKind r.side = k) →
    chain t need R = some xs → restOf s (queue s.book k) = R → restOf s' (queue s'.book k) = afterChain xs R := by
  intro R
  induction R with
  | nil => intro need xs s s' _ _ _ h; cases h
  | cons r rs ih =>
    intro need xs s s' f hi hk h hR
    unfold chain at h
    by_cases h0 : need = 0 ∨ ¬ t.accepts r.price
    · rw [if_pos h0] at h; cases h
    rw [if_neg h0] at h
    simp only at h
    generalize hq : (if r.isAON = true then r.leaves else min r.leaves need) = q at h
    by_cases h1 : q = need
    · rw [if_pos h1] at h
      cases h
      cases f with
      | cons f1 f2 =>
        cases f2
        rw [f1.rest hi (hk r (by simp)) hR]
        unfold afterChain
        split
        · rfl
        · rfl
    · rw [if_neg h1] at h
      by_cases h2 : need < q
      · rw [if_pos h2] at h; cases h
      · rw [if_neg h2] at h
        cases hc : chain t (need - q) rs with
        | none => rw [hc] at h; cases h
        | some ys =>
          rw [hc] at h
          cases h
          have hqr : q = r.leaves := by
            rw [← hq]; split
            · rfl
            · rename_i hx; rw [if_neg hx] at hq; omega
          cases f with
          | cons f1 f2 =>
            have h3 := f1.rest hi (hk r (by simp)) hR
            rw [if_neg (by omega)] at h3
            rw [ih f2 (f1.eff hi).inv (fun r hr => hk r (by simp [hr])) hc h3]
            conv => rhs; unfold afterChain
            rw [if_neg (by omega)]

theorem whole_iff {t : Order} : t.whole ↔ (t.isFOK || t.isAON) = true := by
  unfold Order.whole Order.isFOK Order.isAON; simp

theorem opp_line_side {s : Core} (hi : Inv s) {t r : Order} (h : r ∈ restOf s (queue s.book (oppKind t))) : limKind r.side = oppKind t := by
  unfold restOf at h
  obtain ⟨i, h1, h2⟩ := List.mem_filterMap.1 h
  obtain ⟨o, h3, _, h4⟩ := hi.book.queue_mem h1
  rw [h2] at h3; cases h3
  exact limKind_opp (oppKind_side h4).2

theorem matchOrder_fills {s : Core} {t s' t'} (hi : Inv s) (hf : Fly s t) (hl : 0 < t.leaves) (hm : s.matchOrder t = .ok (s', t')) :
    ∃ evs, Ev s s' evs ∧ execsOf evs = t.fills (restOf s (queue s.book (oppKind t))) ∧
      t' = t.left (restOf s (queue s.book (oppKind t))) ∧
      restOf s' (queue s'.book (oppKind t)) = t.leaveLine (restOf s (queue s.book (oppKind t))) := by
  unfold Order.fills Order.left Order.leaveLine
  by_cases hw : t.whole
  rotate_left
  · simp only [hw, if_false]
    rw [whole_iff, Bool.or_eq_true, not_or] at hw
    exact matchOrder_greedy hi hf hl (by simpa using hw.1) (by simpa using hw.2) hm
  simp only [hw, if_true]
  have hw' := whole_iff.1 hw
  unfold matchOrder matchOrderN at hm
  simp only at hm
  have hnone : chain t t.leaves (restOf s (queue s.book (oppKind t))) = none → s' = s ∧ t' = t →
      ∃ evs, Ev s s' evs ∧ execsOf evs = (match chain t t.leaves (restOf s (queue s.book (oppKind t))) with
        | some xs => xs.map (fun x => (x.1, t.price, x.2)) ++ [(t, t.price, t.leaves)]
        | none => []) ∧ t' = (match chain t t.leaves (restOf s (queue s.book (oppKind t))) with
        | some _ => t.afterExec t.leaves
        | none => t) ∧ restOf s' (queue s'.book (oppKind t)) = (match chain t t.leaves (restOf s (queue s.book (oppKind t))) with
        | some xs => afterChain xs (restOf s (queue s.book (oppKind t)))
        | none => restOf s (queue s.book (oppKind t))) := by
    rintro h ⟨rfl, rfl⟩
    rw [h]
    exact ⟨[], .refl _, rfl, rfl, rfl⟩
  cases hb : s.book.best (oppKind t) with
  | none =>
    rw [hb] at hm
    cases hm
    refine hnone ?_ ⟨rfl, rfl⟩
    have : queue s.book (oppKind t) = [] := by
      have := (hi.book.kinds (oppKind t)).best
      rw [hb] at this
      unfold queue
      cases h : s.book.lv (oppKind t) with
      | nil => rfl
      | cons a as => rw [h] at this; simp at this
    rw [this]; rfl
  | some p =>
    rw [hb] at hm
    simp only at hm
    by_cases hr : reaches t p = true
    · simp only [hr, if_true] at hm
      obtain ⟨l, ls, hlv, rfl⟩ := hi.best_level hb
      rw [hlv, levelsFrom_head] at hm
      have hqueue : queue s.book (oppKind t) = flatOf (l :: ls) := by unfold queue; rw [hlv]
      simp only [hw', if_true] at hm
      obtain ⟨c, hc, hc'⟩ := chainLevels_spec (s := s) (t := t) (volume := t.leaves) (l :: ls) (avail := 0) (by
        intro l' hl'
        have hl'' : l' ∈ s.book.lv (oppKind t) := by rw [hlv]; exact hl'
        have hL := (hi.book.kinds (oppKind t)).levels l' hl''
        refine ⟨hL.nonempty, ?_⟩
        intro i hi'
        obtain ⟨o, h1, h2, h3, h4⟩ := hL.mem i hi'
        have hq : i ∈ queue s.book (oppKind t) := by
          rw [hqueue]; exact mem_flatOf.2 ⟨l', hl', hi'⟩
        have := order_le_volume hi h1 hq
        have := hf.vol
        exact ⟨o, h1, by omega, (hi.orders i o h1).2.leaves, by rw [← h4, limit_key (oppKind_side h3).1]⟩) hl
      rw [hc, Except.bind_ok] at hm
      rw [← hqueue, Nat.sub_zero] at hc'
      by_cases h0 : c = 0
      · simp only [h0, if_true] at hm hc'
        cases hm
        exact hnone hc' ⟨rfl, rfl⟩
      · simp only [h0, if_false] at hm hc'
        obtain ⟨rfl, hch⟩ := hc'
        obtain ⟨sd, hsd⟩ : ∃ sd : Side, sd ≠ t.side := other_side t.side
        have hlim : ∀ i ∈ flatOf (l :: ls), LimAt s sd i := by
          intro i hi'
          obtain ⟨o, h1, h2, h3⟩ := hi.book.queue_mem (k := oppKind t) (hqueue ▸ hi')
          obtain ⟨g1, g2⟩ := oppKind_side h3
          refine ⟨o, h1, h2, g1, ?_⟩
          revert hsd g2; cases o.side <;> cases sd <;> cases t.side <;> simp
        have hnd : (flatOf (l :: ls)).Nodup := by
          have := (hi.book.kinds (oppKind t)).nodup; rw [hlv] at this; exact this
        obtain ⟨s1, e1, f1, g1⟩ := execChain_ok (price := t.price) (l :: ls) (v := t.leaves) hi hnd hlim
        rw [e1, Except.bind_ok] at hm
        cases hm
        rw [← hqueue] at f1
        obtain ⟨evs, a1, a2, _⟩ := f1.events hi
        have hsy : t.symbolId = s1.book.symbol.id := by rw [a1.bsym]; exact hf.sym
        have b1 := (execTaker_events (s1 := s1) (t := t) (p := t.price) (q := t.leaves) hsy (by omega) (by omega)).1
        rw [hch]
        refine ⟨_, a1.trans b1, ?_, rfl, ?_⟩
        · rw [execsOf_append, a2]; rfl
        · have h2 := f1.rest hi (fun r hr => opp_line_side hi hr) hch rfl
          refine Eq.trans ?_ h2
          show restOf (s1.execTaker t t.price t.leaves).1 (queue (s1.execTaker t t.price t.leaves).1.book (oppKind t)) = _
          rw [queue_congr (execTaker_lv ..)]
          rfl
    · simp only [hr, Bool.false_eq_true, if_false] at hm
      cases hm
      refine hnone ?_ ⟨rfl, rfl⟩
      obtain ⟨r, rs, h1, h2⟩ := restOf_queue hi hb (oppKind_limit t)
      rw [h1]
      refine chain_reject ?_
      intro r' rs' e
      cases e
      rw [h2]; exact fun h => hr (reaches_accepts.2 h)

theorem Order.capped_whole (t : Order) (R) : (t.capped R).whole ↔ t.whole := by
  unfold Order.capped; split <;> exact Iff.rfl

theorem matchMarket_fills {s : Core} {t s' t'} (hi : Inv s) (hf : Fly s t) (hl : 0 < t.leaves)
    (ht : t.type = .market) (hm : s.matchMarket t = .ok (s', t')) :
    ∃ evs R, R = restOf s (queue s.book (oppKind t)) ∧ Ev s s' evs ∧ execsOf evs = (t.capped R).fills R ∧ t' = (t.capped R).left R ∧
      restOf s' (queue s'.book (oppKind t)) = (t.capped R).leaveLine R := by
  unfold matchMarket at hm
  cases hb : s.book.best (oppKind t) with
  | none =>
    have hq : queue s.book (oppKind t) = [] := by
      have := (hi.book.kinds (oppKind t)).best
      rw [hb] at this
      unfold queue
      cases h : s.book.lv (oppKind t) with
      | nil => rfl
      | cons a as => rw [h] at this; simp at this
    have : marketLimit s.book t = none := by
      unfold marketLimit; unfold oppKind at hb
      by_cases h : t.isBuy = true
      · simp only [h, if_true] at hb ⊢; rw [hb]
      · simp only [h, Bool.false_eq_true, if_false] at hb ⊢; rw [hb]
    rw [this] at hm
    cases hm
    have hcap : t.capped [] = t := by unfold Order.capped; rw [ht]
    refine ⟨[], [], by rw [hq]; rfl, .refl _, ?_, ?_, ?_⟩
    · rw [hcap]; unfold Order.fills; split <;> rfl
    · rw [hcap]; unfold Order.left; split <;> rfl
    · rw [hcap, hq]; unfold Order.leaveLine; split <;> rfl
  | some p =>
    obtain ⟨x, h1, h2⟩ := marketLimit_bounded hf.repr hb
    rw [h1] at hm
    simp only [h2] at hm
    obtain ⟨r, rs, h3, h4⟩ := restOf_queue hi hb (oppKind_limit t)
    have hx : (t.bounded p).price < W64 := by
      unfold Order.bounded
      have : p < W64 := (hi.best_lt hb)
      cases t.side <;> simp only <;> omega
    have hrep : (t.bounded p).Repr64 := by
      have := hf.repr
      unfold Order.bounded Order.Repr64 at *
      simp only at hx ⊢
      omega
    have hfl : Fly s (t.bounded p) := ⟨hrep, hf.idPos, hf.sym, hf.vol, hf.trail⟩
    obtain ⟨evs, a1, a2⟩ := matchOrder_fills hi hfl hl hm
    have hop : oppKind (t.bounded p) = oppKind t := rfl
    have hcap : t.capped (r :: rs) = t.bounded p := by
      unfold Order.capped; rw [ht]; simp only [h4]
    rw [hop, h3, ← hcap] at a2
    exact ⟨evs, _, h3.symm, a1, a2⟩

end CppTrader
