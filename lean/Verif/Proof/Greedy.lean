import Verif.Priority
import Verif.Proof.StepEv
/-
An incoming order that is neither Fill-Or-Kill nor All-Or-None fills greedily.
-/

namespace CppTrader
open Core

/-- The orders queued in a collection. -/
def restOf (s : Core) (ids : List Nat) : List Order := ids.filterMap s.orders

theorem reaches_accepts {t : Order} {p : Nat} : reaches t p = true ↔ t.accepts p := by
  unfold reaches Order.accepts Order.isBuy
  cases t.side <;> simp

theorem greedy_zero {t : Order} (h : t.leaves = 0) (rs) : greedy t rs = [] ∧ greedyLeft t rs = t ∧ greedyRest t rs = rs := by
  cases rs <;> simp [greedy, greedyLeft, greedyRest, Order.stopsAt, h]

theorem greedy_stop {t r : Order} (h : t.stopsAt r) (rs) : greedy t (r :: rs) = [] ∧ greedyLeft t (r :: rs) = t ∧ greedyRest t (r :: rs) = r :: rs := by
  simp [greedy, greedyLeft, greedyRest, h]

theorem greedy_hit {t r : Order} (h : ¬ t.stopsAt r) (rs) :
    greedy t (r :: rs) = (r, r.price, min r.leaves t.leaves) :: (t, r.price, min r.leaves t.leaves) ::
      greedy (t.afterExec (min r.leaves t.leaves)) rs ∧
    greedyLeft t (r :: rs) = greedyLeft (t.afterExec (min r.leaves t.leaves)) rs ∧
    greedyRest t (r :: rs) = (if min r.leaves t.leaves = r.leaves then greedyRest (t.afterExec (min r.leaves t.leaves)) rs
      else r.afterExec (min r.leaves t.leaves) :: rs) := by
  simp [greedy, greedyLeft, greedyRest, h]

theorem restOf_congr {s s' : Core} {ids} (h : ∀ i ∈ ids, s'.orders i = s.orders i) : restOf s' ids = restOf s ids := by
  unfold restOf
  induction ids with
  | nil => rfl
  | cons a as ih =>
    rw [List.filterMap_cons, List.filterMap_cons, h a (by simp), ih (fun i hi => h i (by simp [hi]))]

theorem matchLevel_greedy (ids : List Nat) : ∀ {s : Core} {t : Order} {rest : List Nat} {s' t' r}, Inv s → Fly s t → 0 < t.leaves →
    queue s.book (oppKind t) = ids ++ rest →
    (∀ i ∈ ids, ∀ o, s.orders i = some o → reaches t o.price = true) →
    matchLevel ids s t = .ok (s', t', r) →
    ∃ evs, Ev s s' evs ∧ t'.accepts = t.accepts ∧
      (r = true → execsOf evs = greedy t (restOf s (ids ++ rest)) ∧ t' = greedyLeft t (restOf s (ids ++ rest)) ∧
        restOf s' (queue s'.book (oppKind t)) = greedyRest t (restOf s (ids ++ rest))) ∧
      (r = false → greedy t (restOf s (ids ++ rest)) = execsOf evs ++ greedy t' (restOf s' rest) ∧
        greedyLeft t (restOf s (ids ++ rest)) = greedyLeft t' (restOf s' rest) ∧
        greedyRest t (restOf s (ids ++ rest)) = greedyRest t' (restOf s' rest)) := by
  induction ids with
  | nil =>
    intro s t rest s' t' r _ _ hl hq _ hm
    simp only [matchLevel] at hm
    cases hm
    exact ⟨[], .refl _, rfl, by simp, fun _ => ⟨by simp [execsOf], by simp, by simp⟩⟩
  | cons id is ih =>
    intro s t rest s' t' r hi hf hl hq hr hm
    have hmem : id ∈ queue s.book (oppKind t) := by rw [hq]; simp
    obtain ⟨o, ho, hs, hk⟩ := hi.book.queue_mem hmem
    obtain ⟨hid, hok⟩ := hi.orders id o ho
    subst hid
    obtain ⟨hlim, hside⟩ := oppKind_side hk
    have hpos := hok.leaves
    unfold matchLevel at hm
    simp only [Core.get_ok ho, Except.bind_ok] at hm
    have hrest : restOf s (o.id :: is ++ rest) = o :: restOf s (is ++ rest) := by
      unfold restOf; simp [ho]
    have hacc := reaches_accepts.1 (hr o.id (by simp) o ho)
    by_cases haon : (o.isAON && decide (o.leaves > t.leaves)) = true
    · simp only [haon, if_true] at hm
      cases hm
      have hst : t.stopsAt o := .inr (.inr (by simpa using haon))
      obtain ⟨g1, g2, g3⟩ := greedy_stop hst (restOf s (is ++ rest))
      rw [hrest]
      exact ⟨[], .refl _, rfl, fun _ => ⟨g1.symm, g2.symm, by rw [g3, hq, hrest]⟩, by simp⟩
    · simp only [haon, Bool.false_eq_true, if_false] at hm
      have hst : ¬ t.stopsAt o := by
        rintro (h | h | h)
        · omega
        · exact h hacc
        · exact haon (by simpa using h)
      obtain ⟨g1, g2, g3⟩ := greedy_hit hst (restOf s (is ++ rest))
      rw [hrest, g1, g2, g3]
      have hqd : min o.leaves t.leaves = min o.leaves t.leaves := rfl
      generalize hqd' : min o.leaves t.leaves = q at *
      obtain ⟨s1, h1, h2⟩ := hi.fill_red (o := o) (price := o.price) (q := q)
        ⟨ho, hs, hlim, by omega, by omega, fun h => by simp [h] at haon; omega⟩
      have e := h2.eff hi
      obtain ⟨ev1, a1, a2, a4, a3⟩ := h2.events hi
      have hsy : t.symbolId = s1.book.symbol.id := by rw [a1.bsym]; exact hf.sym
      have b1 := (execTaker_events (s1 := s1) (t := t) (p := o.price) (q := q) hsy (by omega) (by omega)).1
      rw [execRed_split h1] at hm
      have ht : (s1.execTaker t o.price q).2 = t.afterExec q := rfl
      have hso : (s1.execTaker t o.price q).1.orders = s1.orders := rfl
      have hnd : (o.id :: (is ++ rest)).Nodup := by
        have h0 : (queue s.book (oppKind t)).Nodup := (hi.book.kinds (oppKind t)).nodup
        rw [hq] at h0; simpa using h0
      have hsame : ∀ i ∈ is ++ rest, s1.orders i = s.orders i := by
        intro i hi'
        rw [e.orders, setO_other _ _ (fun e' : i = o.id => (List.nodup_cons.1 hnd).1 (e' ▸ hi'))]
      generalize hS : (s1.execTaker t o.price q).1 = S at *
      simp only [ht] at hm
      by_cases hz : (t.afterExec q).leaves = 0
      · simp only [hz, if_true] at hm
        cases hm
        obtain ⟨z1, z2, z3⟩ := greedy_zero hz (restOf s (is ++ rest))
        refine ⟨ev1 ++ [.exec t o.price q], a1.trans b1, rfl, fun _ => ⟨?_, z2.symm, ?_⟩, by simp⟩
        · rw [execsOf_append, a2, z1]; rfl
        · have hq1 : queue s'.book (oppKind t) = queue s1.book (oppKind t) := by
            subst hS; exact queue_congr (execTaker_lv ..) _
          have hrs : restOf s' (is ++ rest) = restOf s (is ++ rest) := restOf_congr fun i hi' => by rw [hso]; exact hsame i hi'
          have heq := e.queue
          rw [limKind_opp hside, hq] at heq
          rw [hq1, heq]
          by_cases hqe : o.leaves = q
          · rw [if_pos hqe, if_pos hqe.symm, z3]
            simpa using hrs
          · rw [if_neg hqe, if_neg (Ne.symm hqe)]
            have h0 : s'.orders o.id = some (o.afterExec q) := by
              rw [hso, e.orders]
              simp only [setO, if_true, afterFill, if_neg hqe]
              rfl
            have : restOf s' (o.id :: is ++ rest) = o.afterExec q :: restOf s' (is ++ rest) := by
              unfold restOf; simp [h0]
            rw [this, hrs]
      · simp only [hz, if_false] at hm
        have hz' : ¬ (t.leaves - q = 0) := hz
        have hqe : o.leaves = q := by omega
        have hci : CInv S (some (t.afterExec q)) := by
          subst hS
          refine ⟨execTaker_inv e.inv _ _ _, ?_⟩
          intro t' ht'
          cases ht'
          refine hf.of_same (execTaker_repr (s := s1) (p := o.price) (q := q) hf.repr) rfl rfl ?_ ?_ hf.trail
          · rw [execTaker_symbol]; exact e.same.symbol
          · rw [execTaker_volume]; have := e.vol; show _ + (t.leaves - q) ≤ _; omega
        have hq' : queue S.book (oppKind t) = is ++ rest := by
          subst hS
          rw [queue_congr (execTaker_lv ..)]
          have := e.queue
          rw [limKind_opp hside, if_pos hqe, hq] at this
          rw [this]; simp
        have hrs : restOf S (is ++ rest) = restOf s (is ++ rest) := restOf_congr fun i hi' => by rw [hso]; exact hsame i hi'
        obtain ⟨evs, c1, c2, c3, c4⟩ := ih (rest := rest) (s := S) (t := t.afterExec q) hci.inv (hci.fly _ rfl) (by show 0 < t.leaves - q; omega) hq'
          (by
            intro i hi' o' ho'
            rw [hso, hsame i (by simp [hi'])] at ho'
            exact hr i (by simp [hi']) o' ho') hm
        rw [hrs] at c3 c4
        rw [if_pos hqe.symm]
        have hop : oppKind (t.afterExec q) = oppKind t := rfl
        rw [hop] at c3
        refine ⟨ev1 ++ [.exec t o.price q] ++ evs, (a1.trans b1).trans c1, c2, fun h => ?_, fun h => ?_⟩
        · obtain ⟨x, y, z⟩ := c3 h
          exact ⟨by rw [execsOf_append, execsOf_append, a2, x]; rfl, y, z⟩
        · obtain ⟨x, y, z⟩ := c4 h
          exact ⟨by rw [execsOf_append, execsOf_append, a2, x]; rfl, y, z⟩

theorem restOf_queue {s : Core} (hi : Inv s) {k p} (hb : s.book.best k = some p) (hk : k.isLimit = true) :
    ∃ r rs, restOf s (queue s.book k) = r :: rs ∧ r.price = p := by
  obtain ⟨l, ls, hlv, rfl⟩ := hi.best_level hb
  have hl : l ∈ s.book.lv k := by rw [hlv]; simp
  have hne := ((hi.book.kinds k).levels l hl).nonempty
  obtain ⟨i, is, hids⟩ : ∃ i is, l.ids = i :: is := by
    cases h : l.ids with
    | nil => exact absurd h hne
    | cons i is => exact ⟨i, is, rfl⟩
  obtain ⟨o, h1, h2, h3, h4⟩ := ((hi.book.kinds k).levels l hl).mem i (by rw [hids]; simp)
  refine ⟨o, restOf s (is ++ flatOf ls), ?_, ?_⟩
  · unfold restOf queue; rw [hlv, flatOf_cons, hids]; simp [h1]
  · rw [← h4]
    have : o.type = .limit := by
      unfold Order.kind at h3
      unfold Order.isBuy at h3
      cases ht : o.type <;> cases hs : o.side <;> simp [ht, hs] at h3 <;> first | rfl | (subst h3; simp [Kind.isLimit] at hk)
    rw [limit_key this]

theorem oppKind_limit (t : Order) : (oppKind t).isLimit = true := by unfold oppKind; split <;> rfl

theorem matchOrderN_greedy : ∀ (n : Nat) {s : Core} {t s' t'}, Inv s → Fly s t → 0 < t.leaves → t.isFOK = false → t.isAON = false →
    matchOrderN n s t = .ok (s', t') →
    ∃ evs, Ev s s' evs ∧ execsOf evs = greedy t (restOf s (queue s.book (oppKind t))) ∧
      t' = greedyLeft t (restOf s (queue s.book (oppKind t))) ∧
      restOf s' (queue s'.book (oppKind t)) = greedyRest t (restOf s (queue s.book (oppKind t))) := by
  intro n
  induction n with
  | zero => intro s t s' t' _ _ _ _ _ h; simp [matchOrderN] at h
  | succ n ih =>
    intro s t s' t' hi hf hl hnf hna hm
    unfold matchOrderN at hm
    simp only at hm
    cases hb : s.book.best (oppKind t) with
    | none =>
      rw [hb] at hm
      cases hm
      have : queue s.book (oppKind t) = [] := by
        have := (hi.book.kinds (oppKind t)).best
        rw [hb] at this
        unfold queue
        cases h : s.book.lv (oppKind t) with
        | nil => rfl
        | cons a as => rw [h] at this; simp at this
      exact ⟨[], .refl _, by rw [this]; rfl, by rw [this]; rfl, by rw [this]; rfl⟩
    | some p =>
      rw [hb] at hm
      simp only at hm
      by_cases hr : reaches t p = true
      · simp only [hr, if_true] at hm
        obtain ⟨l, ls, hlv, rfl⟩ := hi.best_level hb
        rw [hlv, levelsFrom_head] at hm
        have hqueue : queue s.book (oppKind t) = l.ids ++ flatOf ls := by unfold queue; rw [hlv, flatOf_cons]
        simp only [hnf, hna, Bool.or_self, Bool.false_eq_true, if_false] at hm
        have hreach : ∀ i ∈ l.ids, ∀ o, s.orders i = some o → reaches t o.price = true := by
          intro i hi' o ho
          obtain ⟨k1, k2, _⟩ := level_price hi (show l ∈ s.book.lv (oppKind t) by rw [hlv]; simp) hi' ho
          obtain ⟨g1, _⟩ := oppKind_side k2
          rw [limit_key g1] at k1; rw [k1]; exact hr
        obtain ⟨s1, t1, r, g1, g2, g3, g4⟩ := matchLevel_ok hnf hna l.ids (rest := flatOf ls) hi hf hl (.refl t) hqueue hreach
        rw [g1, Except.bind_ok] at hm
        obtain ⟨ev1, a1, a2, a3, a4⟩ := matchLevel_greedy l.ids hi hf hl hqueue hreach g1
        rw [hqueue]
        simp only at hm
        cases r with
        | true =>
          simp only [if_true] at hm
          cases hm
          exact ⟨ev1, a1, a3 rfl⟩
        | false =>
          simp only [Bool.false_eq_true, if_false] at hm
          obtain ⟨q1, q2⟩ := g4 rfl
          obtain ⟨x, y, z⟩ := a4 rfl
          have hci := g2.inv ⟨hi, fun t' ht' => by cases ht'; exact hf⟩
          have hop := oppKind_sim g3
          have hnf' : t1.isFOK = false ∧ t1.isAON = false := by
            obtain ⟨e, l, rfl⟩ := g3; exact ⟨hnf, hna⟩
          obtain ⟨ev2, b1, b2, b3, b4⟩ := ih hci.inv (hci.fly _ rfl) q2 hnf'.1 hnf'.2 hm
          rw [hop, q1] at b2 b3 b4
          exact ⟨ev1 ++ ev2, a1.trans b1, by rw [execsOf_append, x, b2], by rw [y, b3], by rw [z, b4]⟩
      · simp only [hr, Bool.false_eq_true, if_false] at hm
        cases hm
        obtain ⟨r, rs, h1, h2⟩ := restOf_queue hi hb (oppKind_limit t)
        have hst : t.stopsAt r := .inr (.inl (by rw [h2]; exact fun h => hr (reaches_accepts.2 h)))
        obtain ⟨g1, g2, g3⟩ := greedy_stop hst rs
        rw [h1]
        exact ⟨[], .refl _, g1.symm, g2.symm, g3.symm⟩

theorem matchOrder_greedy {s : Core} {t s' t'} (hi : Inv s) (hf : Fly s t) (hl : 0 < t.leaves) (hnf : t.isFOK = false) (hna : t.isAON = false)
    (hm : s.matchOrder t = .ok (s', t')) :
    ∃ evs, Ev s s' evs ∧ execsOf evs = greedy t (restOf s (queue s.book (oppKind t))) ∧
      t' = greedyLeft t (restOf s (queue s.book (oppKind t))) ∧
      restOf s' (queue s'.book (oppKind t)) = greedyRest t (restOf s (queue s.book (oppKind t))) :=
  matchOrderN_greedy _ hi hf hl hnf hna hm

theorem marketLimit_bounded {b : Book} {t : Order} {p} (hr : t.Repr64) (h : b.best (oppKind t) = some p) :
    ∃ x, marketLimit b t = some x ∧ { t with price := x } = t.bounded p := by
  have hsl : t.slippage < W64 := by have := hr; unfold Order.Repr64 at this; omega
  unfold marketLimit Order.bounded
  unfold oppKind at h
  cases hs : t.side with
  | buy =>
    have hb : t.isBuy = true := by simp [Order.isBuy, hs]
    simp only [hb, if_true] at h ⊢
    rw [h]
    refine ⟨_, rfl, ?_⟩
    congr 1
    by_cases hc : p > MAX64 - t.slippage
    · rw [if_pos hc]; omega
    · rw [if_neg hc]; omega
  | sell =>
    have hb : t.isBuy = false := by simp [Order.isBuy, hs]
    simp only [hb, Bool.false_eq_true, if_false] at h ⊢
    rw [h]
    refine ⟨_, rfl, ?_⟩
    congr 1
    by_cases hc : p < t.slippage
    · rw [if_pos hc]; omega
    · rw [if_neg hc]

theorem matchMarket_greedy {s : Core} {t s' t'} (hi : Inv s) (hf : Fly s t) (hl : 0 < t.leaves) (hnf : t.isFOK = false) (hna : t.isAON = false)
    (ht : t.type = .market) (hm : s.matchMarket t = .ok (s', t')) :
    ∃ evs R, R = restOf s (queue s.book (oppKind t)) ∧ Ev s s' evs ∧ execsOf evs = greedy (t.capped R) R ∧ t' = greedyLeft (t.capped R) R ∧
      restOf s' (queue s'.book (oppKind t)) = greedyRest (t.capped R) R := by
  unfold matchMarket at hm
  cases hb : s.book.best (oppKind t) with
  | none =>
    have hq : queue s.book (oppKind t) = [] := by
      have := (hi.book.kinds (oppKind t)).best
      rw [hb] at this
      unfold queue
      cases h : s.book.lv (oppKind t) with
      | nil => rfl
      | cons a as => rw [h] at this; simp at this
    have : marketLimit s.book t = none := by
      unfold marketLimit; unfold oppKind at hb
      by_cases h : t.isBuy = true
      · simp only [h, if_true] at hb ⊢; rw [hb]
      · simp only [h, Bool.false_eq_true, if_false] at hb ⊢; rw [hb]
    rw [this] at hm
    cases hm
    refine ⟨[], [], by rw [hq]; rfl, .refl _, rfl, ?_, by rw [hq]; rfl⟩
    unfold Order.capped greedyLeft
    rw [ht]
  | some p =>
    obtain ⟨x, h1, h2⟩ := marketLimit_bounded hf.repr hb
    rw [h1] at hm
    simp only [h2] at hm
    obtain ⟨r, rs, h3, h4⟩ := restOf_queue hi hb (oppKind_limit t)
    have hx : (t.bounded p).price < W64 := by
      unfold Order.bounded
      have : p < W64 := (hi.best_lt hb)
      cases t.side <;> simp only <;> omega
    have hrep : (t.bounded p).Repr64 := by
      have := hf.repr
      unfold Order.bounded Order.Repr64 at *
      simp only at hx ⊢
      omega
    have hfl : Fly s (t.bounded p) := ⟨hrep, hf.idPos, hf.sym, hf.vol, hf.trail⟩
    obtain ⟨evs, a1, a2⟩ := matchOrder_greedy hi hfl hl hnf hna hm
    have hop : oppKind (t.bounded p) = oppKind t := rfl
    have hcap : t.capped (r :: rs) = t.bounded p := by
      unfold Order.capped; rw [ht]; simp only [h4]
    rw [hop, h3, ← hcap] at a2
    exact ⟨evs, _, h3.symm, a1, a2⟩

theorem greedyRest_mem (rs : List Order) : ∀ {t r : Order}, r ∈ greedyRest t rs → ∃ r' ∈ rs, r.price = r'.price ∧ r.side = r'.side ∧ r.tif = r'.tif ∧
    r.type = r'.type ∧ r.id = r'.id := by
  induction rs with
  | nil => intro t r h; simp [greedyRest] at h
  | cons a rs ih =>
    intro t r h
    unfold greedyRest at h
    simp only at h
    split at h
    · exact ⟨r, h, rfl, rfl, rfl, rfl, rfl⟩
    · split at h
      · obtain ⟨r', h1, h2⟩ := ih h; exact ⟨r', by simp [h1], h2⟩
      · rcases List.mem_cons.1 h with rfl | h
        · exact ⟨a, by simp, rfl, rfl, rfl, rfl, rfl⟩
        · exact ⟨r, by simp [h], rfl, rfl, rfl, rfl, rfl⟩

/-- Without All-Or-None orders in line, greedy filling ends because nothing is left to fill or the next order has
an unacceptable price. -/
theorem greedy_end (rs : List Order) : ∀ {t : Order}, (∀ r ∈ rs, r.isAON = false) →
    (greedyLeft t rs).leaves = 0 ∨ (∀ r rs', greedyRest t rs = r :: rs' → ¬ t.accepts r.price) := by
  induction rs with
  | nil => intro t _; right; intro r rs' h; simp [greedyRest] at h
  | cons a rs ih =>
    intro t hn
    by_cases hst : t.stopsAt a
    · obtain ⟨_, g2, g3⟩ := greedy_stop hst rs
      rw [g2, g3]
      rcases hst with h | h | h
      · exact .inl h
      · right; intro r rs' e; cases e; exact h
      · rw [hn a (by simp)] at h; cases h.1
    · obtain ⟨_, g2, g3⟩ := greedy_hit hst rs
      rw [g2, g3]
      by_cases hq : min a.leaves t.leaves = a.leaves
      · rw [if_pos hq]
        exact ih (t := t.afterExec (min a.leaves t.leaves)) fun r hr => hn r (by simp [hr])
      · rw [if_neg hq]
        left
        have hz : (t.afterExec (min a.leaves t.leaves)).leaves = 0 := by
          show t.leaves - min a.leaves t.leaves = 0; omega
        rw [(greedy_zero hz rs).2.1]; exact hz

end CppTrader
