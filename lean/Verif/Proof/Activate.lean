import Verif.Proof.Match
/-
`MatchMarket`, activation of stop orders, trailing recalculation: totality and steps.
-/

namespace CppTrader
open Core

/-- The book is unchanged on the collections in `K`. -/
structure Fr (K : Kind → Prop) (b b' : Book) : Prop where
  symbol : b'.symbol = b.symbol
  lv : ∀ k, K k → b'.lv k = b.lv k
  best : ∀ k, K k → b'.best k = b.best k

theorem Fr.refl (K b) : Fr K b b := ⟨rfl, fun _ _ => rfl, fun _ _ => rfl⟩
theorem Fr.trans {K b b1 b2} (h : Fr K b b1) (h' : Fr K b1 b2) : Fr K b b2 :=
  ⟨h'.symbol.trans h.symbol, fun k hk => (h'.lv k hk).trans (h.lv k hk), fun k hk => (h'.best k hk).trans (h.best k hk)⟩
theorem Fr.mono {K K' : Kind → Prop} {b b'} (h : Fr K b b') (hk : ∀ k, K' k → K k) : Fr K' b b' :=
  ⟨h.symbol, fun k e => h.lv k (hk k e), fun k e => h.best k (hk k e)⟩
theorem Book.SameLv.fr {k b b'} (h : Book.SameLv k b b') : Fr (· ≠ k) b b' := ⟨h.symbol, h.lv, h.best⟩
theorem Fr.queue {K b b'} (h : Fr K b b') {k} (hk : K k) : queue b' k = queue b k := by
  unfold CppTrader.queue; rw [h.lv k hk]

/-- `t` is `t0` up to price and fill state. -/
def SimP (t0 t : Order) : Prop := ∃ p e l, t = { t0 with price := p, executed := e, leaves := l }
theorem SimP.refl (t : Order) : SimP t t := ⟨t.price, t.executed, t.leaves, rfl⟩

/-- Steps made while matching the incoming order `t0`, including the price bound of market orders. -/
def InL (t0 : Order) : Lbl → Prop
  | .trade t _ _ => SimP t0 t
  | .sweep t _ => SimP t0 t
  | .bound t _ => t = t0
  | _ => False

theorem MatchL.toIn {t0 l} (h : MatchL t0 l) : InL t0 l := by
  cases l <;> simp [MatchL, InL] at h ⊢
  all_goals (obtain ⟨e, l, rfl⟩ := h; exact ⟨_, _, _, rfl⟩)

theorem matchMarket_ok {s : Core} {t : Order} (hi : Inv s) (hf : Fly s t) (hl : 0 < t.leaves) (hm : t.type = .market) :
    ∃ s' t', s.matchMarket t = .ok (s', t') ∧ Steps (InL t) s (some t) s' (some t') ∧ SimP t t' ∧
      MatchFrame t s s' ∧ weight s' (some t') ≤ weight s (some t) := by
  unfold matchMarket
  cases hml : marketLimit s.book t with
  | none => exact ⟨s, t, rfl, .refl _ _, .refl t, .refl _ _, Nat.le_refl _⟩
  | some p =>
    have st : Step (.bound t p) s (some t) s (some { t with price := p }) := .bound hm hml
    have hc := st.inv ⟨hi, fun t' ht' => by cases ht'; exact hf⟩
    obtain ⟨s', t', h1, h2, h3⟩ := matchOrder_ok hi (hc.fly _ rfl) hl
    obtain ⟨m1, m2⟩ := h2.match_frame hc
    refine ⟨s', t', h1, .head (show InL t (.bound t p) from rfl) st (h2.mono ?_), ?_, ⟨m1.same, m1.keep, m1.none⟩, m2⟩
    · intro l hl
      cases l <;> simp [MatchL, InL] at hl ⊢
      all_goals (obtain ⟨e, l, rfl⟩ := hl; exact ⟨_, _, _, rfl⟩)
    · obtain ⟨e, l, rfl⟩ := h3; exact ⟨_, _, _, rfl⟩

/-! ### The trigger condition survives the activation of earlier orders of the level -/

/-- The market price deciding on stops of side `sd` moved only towards triggering more of them. -/
def TrigLe : Side → Book → Book → Prop
  | .buy, b, b' => b.marketAsk ≤ b'.marketAsk
  | .sell, b, b' => b'.marketBid ≤ b.marketBid

theorem TrigLe.refl (sd b) : TrigLe sd b b := by cases sd <;> exact Nat.le_refl _
theorem TrigLe.trans {sd b b1 b2} (h : TrigLe sd b b1) (h' : TrigLe sd b1 b2) : TrigLe sd b b2 := by
  cases sd
  · exact Nat.le_trans (m := b1.marketAsk) h h'
  · exact Nat.le_trans (m := b1.marketBid) h' h

theorem TrigLe.triggered {sd b b'} (h : TrigLe sd b b') {o : Order} (hs : o.side = sd)
    (ht : Core.triggered b o = true) : Core.triggered b' o = true := by
  subst hs
  unfold Core.triggered at *
  cases hs : o.side <;> simp [Order.isBuy, hs] at ht ⊢ <;> rw [hs] at h <;> unfold TrigLe at h <;> simp at h <;> omega

theorem TrigLe.of_same {sd k b b'} (h : Book.SameBut k b b') (h1 : sd = .buy → k ≠ .ask) (h2 : sd = .sell → k ≠ .bid) :
    TrigLe sd b b' := by
  cases sd
  · unfold TrigLe Book.marketAsk; simp only; rw [h.matchAsk, h.best .ask (Ne.symm (h1 rfl))]; exact Nat.le_refl _
  · unfold TrigLe Book.marketBid; simp only; rw [h.matchBid, h.best .bid (Ne.symm (h2 rfl))]; exact Nat.le_refl _

theorem TrigLe.of_stop {sd k b b'} (h : Book.SameBut k b b') (hk : k.isLimit = false) : TrigLe sd b b' :=
  .of_same h (fun _ e => by rw [e] at hk; cases hk) (fun _ e => by rw [e] at hk; cases hk)

theorem best_mono {s s' : Core} {k} (hi : Inv s) (hi' : Inv s')
    (hsub : ∀ i ∈ CppTrader.queue s'.book k, i ∈ CppTrader.queue s.book k)
    (hkey : ∀ i o o', s.orders i = some o → s'.orders i = some o' → o'.key = o.key) {p' : Nat}
    (hb : s'.book.best k = some p') : ∃ p, s.book.best k = some p ∧ k.better p' p = false := by
  obtain ⟨l', ls', hlv', rfl⟩ := hi'.best_level hb
  have hl' := (hi'.book.kinds k).levels l' (by rw [hlv']; simp)
  cases hids : l'.ids with
  | nil => exact absurd hids hl'.nonempty
  | cons i is =>
    obtain ⟨o', h1, h2, h3, h4⟩ := hl'.mem i (by rw [hids]; simp)
    have hq := hsub i (mem_flatOf.2 ⟨l', by rw [hlv']; simp, by rw [hids]; simp⟩)
    obtain ⟨l, hl, hil⟩ := mem_flatOf.1 hq
    obtain ⟨o, g1, g2, g3, g4⟩ := ((hi.book.kinds k).levels l hl).mem i hil
    have hk := hkey i o o' g1 h1
    have hb2 := (hi.book.kinds k).best
    cases hlv : s.book.lv k with
    | nil => rw [hlv] at hl; cases hl
    | cons l0 ls0 =>
      rw [hlv] at hb2 hl
      refine ⟨l0.price, hb2, ?_⟩
      rw [← h4, hk, g4]
      have hs := (hi.book.kinds k).sorted
      rw [hlv] at hs
      rcases List.mem_cons.1 hl with rfl | hl
      · exact better_irrefl _ _
      · exact better_asymm (List.rel_of_pairwise_cons hs hl)

theorem Fill.matchPrices {s o p q s'} (f : Fill s o p q s') (hi : Inv s) :
    s'.book.matchBid = 0 ∧ s'.book.matchAsk = MAX64 := by
  have hid := (hi.orders _ _ f.pre.mem).2.idPos
  cases f with
  | red pre run =>
    have hq := pre.pos
    unfold execRed execResting at run
    simp only [pre.mem, Except.bind_ok] at run
    unfold reduceRec at run
    rw [if_neg (by omega)] at run
    simp only [setO_same] at run
    split at run
    · cases run
    · cases hr : reduceBody _ _ _ with
      | error e => rw [hr] at run; cases run
      | ok s1 => rw [hr] at run; cases run; exact ⟨rfl, rfl⟩
  | del pre all run =>
    unfold execDel execResting at run
    simp only [pre.mem, Except.bind_ok] at run
    unfold deleteRec at run
    rw [if_neg (by omega)] at run
    simp only [setO_same] at run
    split at run
    · cases run
    · cases hr : deleteBody _ _ with
      | error e => rw [hr] at run; cases run
      | ok s1 => rw [hr] at run; cases run; exact ⟨rfl, rfl⟩

theorem Fill.trig {s o p q s'} (f : Fill s o p q s') (hi : Inv s) {sd : Side} (hs : o.side ≠ sd) :
    TrigLe sd s.book s'.book := by
  have e := f.eff hi
  obtain ⟨m1, m2⟩ := f.matchPrices hi
  have hbm : ∀ p', s'.book.best (limKind o.side) = some p' →
      ∃ p, s.book.best (limKind o.side) = some p ∧ (limKind o.side).better p' p = false := by
    intro p' hp'
    refine best_mono hi e.inv ?_ ?_ hp'
    · intro i hiq
      rw [e.queue] at hiq
      split at hiq
      · exact List.mem_of_mem_erase hiq
      · exact hiq
    · intro i o1 o2 h1 h2
      rw [e.orders] at h2
      by_cases hio : i = o.id
      · subst hio
        rw [f.pre.mem] at h1; cases h1
        simp only [setO_same, afterFill] at h2
        split at h2 <;> cases h2
        rfl
      · rw [setO_other _ _ hio] at h2; rw [h1] at h2; cases h2; rfl
  cases hso : o.side with
  | buy =>
    cases sd with
    | buy => exact absurd hso hs
    | sell =>
      rw [hso] at hbm
      unfold TrigLe Book.marketBid; simp only
      rw [m1]
      cases hb : s'.book.best .bid with
      | none => simp
      | some p' =>
        obtain ⟨p0, hp0, hbt⟩ := hbm p' hb
        rw [show s.book.best .bid = some p0 from hp0]
        simp [Kind.better, limKind, Kind.isBidType] at hbt ⊢
        omega
  | sell =>
    cases sd with
    | sell => exact absurd hso hs
    | buy =>
      rw [hso] at hbm
      unfold TrigLe Book.marketAsk; simp only
      rw [m2]
      have hle : ∀ x, s.book.best .ask = some x → x ≤ MAX64 := fun x hx => by
        have := hi.best_lt hx; omega
      cases hb : s'.book.best .ask with
      | none =>
        cases hb0 : s.book.best .ask with
        | none => simp; omega
        | some x => have := hle x hb0; simp; omega
      | some p' =>
        obtain ⟨p0, hp0, hbt⟩ := hbm p' hb
        rw [show s.book.best .ask = some p0 from hp0]
        have := hle p0 hp0
        have := e.inv.best_lt hb
        simp [Kind.better, limKind, Kind.isBidType] at hbt ⊢
        omega

theorem Fills.trig {p s xs s'} (f : Fills p s xs s') {sd : Side} (hi : Inv s) (hs : ∀ x ∈ xs, x.1.side ≠ sd) :
    TrigLe sd s.book s'.book := by
  induction f with
  | nil => exact .refl _ _
  | cons f _ ih =>
    exact (f.trig hi (hs (_, _) (List.mem_cons_self ..))).trans (ih (f.eff hi).inv (fun x hx => hs x (by simp [hx])))

theorem execTaker_trig (s t p q) : TrigLe t.side s.book (Core.execTaker s t p q).1.book := by
  unfold Core.execTaker setPrices Book.updatePrices
  cases hs : t.side <;> exact Nat.le_refl _

theorem Steps.trig {t0 s t s' t'} (h : Steps (InL t0) s t s' t') (hc : CInv s t) :
    TrigLe t0.side s.book s'.book := by
  induction h with
  | refl => exact .refl _ _
  | head a st tl ih =>
    refine TrigLe.trans ?_ (ih (st.inv hc))
    clear ih tl
    cases st with
    | trade fill head side reach qty nf na =>
      obtain ⟨_, _, _, rfl⟩ := a
      exact (fill.trig hc.inv side).trans (execTaker_trig _ _ _ _)
    | sweep fills sum pos sides tif =>
      obtain ⟨_, _, _, rfl⟩ := a
      exact (fills.trig hc.inv (fun x hx => (sides x hx).1)).trans (execTaker_trig _ _ _ _)
    | bound ty lim => exact .refl _ _
    | _ => exact absurd a (by simp [InL])

/-- Labels of engine steps outside the preludes of the public calls. Only orders that are not
stop-like trade. -/
def EngL : Lbl → Prop
  | .trade t _ _ => t.isStopLike = false
  | .sweep t _ => t.isStopLike = false
  | .pair _ _ => True
  | .cross _ _ _ => True
  | .take _ => True
  | .put _ => True
  | .cancel _ => True
  | .activate _ _ => True
  | .bound _ _ => True
  | .retrail _ _ => True
  | .mark => True
  | .reset => True
  | _ => False

theorem InL.toEng {t0 l} (h : InL t0 l) (hs : t0.isStopLike = false) : EngL l := by
  cases l <;> simp [InL, EngL] at h ⊢
  all_goals (obtain ⟨p, e, l, rfl⟩ := h; exact hs)

theorem stopCount_eq (b : Book) : stopCount b =
    (queue b .buyStop).length + (queue b .sellStop).length + (queue b .tBuyStop).length + (queue b .tSellStop).length := by
  unfold stopCount; simp only [kindCount_eq]

theorem isLimit_opp (t : Order) : (oppKind t).isLimit = true := by unfold oppKind; split <;> rfl
theorem isLimit_limKind (sd) : (limKind sd).isLimit = true := by cases sd <;> rfl

theorem kind_type {o : Order} {k} (h : o.kind = some k) : k.isLimit = true ↔ o.type = .limit := by
  unfold Order.kind at h
  cases ht : o.type <;> simp [ht] at h <;> (try subst h) <;> split <;> simp [Kind.isLimit]

/-- Side of the orders in a stop collection. -/
def stopSide (k : Kind) : Side := if k.isBidType then .sell else .buy

/-- Result of one activation. -/
structure ActEff (k : Kind) (s s' : Core) : Prop where
  steps : Steps EngL s none s' none
  inv : Inv s'
  fr : Fr (fun k' => k'.isLimit = false ∧ k' ≠ k) s.book s'.book
  vol : volume s'.book ≤ volume s.book
  trig : TrigLe (stopSide k) s.book s'.book
  keep : ∀ k', k'.isLimit = false → ∀ i ∈ queue s'.book k', i ∈ queue s.book k' ∧ s'.orders i = s.orders i

theorem ActEff.refl {k s} (hi : Inv s) : ActEff k s s :=
  ⟨.refl _ _, hi, .refl _ _, Nat.le_refl _, .refl _ _, fun _ _ _ h => ⟨h, rfl⟩⟩

theorem ActEff.trans {k s s1 s2} (h : ActEff k s s1) (h' : ActEff k s1 s2) : ActEff k s s2 :=
  ⟨h.steps.trans h'.steps, h'.inv, h.fr.trans h'.fr, Nat.le_trans h'.vol h.vol, h.trig.trans h'.trig,
   fun k' hk' i hi => by
     obtain ⟨a1, a2⟩ := h'.keep k' hk' i hi
     obtain ⟨b1, b2⟩ := h.keep k' hk' i a1
     exact ⟨b1, a2.trans b2⟩⟩

/-- Activation of `o` keeps the other stop orders. -/
theorem keep_stops {k : Kind} {o : Order} {s s1 s2 : Core} {t : Order} (hi : Inv s) (ho : s.orders o.id = some o)
    (hko : o.kind = some k) (h1 : s1.orders = setO s.orders o.id none) (hm : MatchFrame t s1 s2) :
    ∀ k', k'.isLimit = false → ∀ i ∈ queue s.book k', i ∉ (if k' = k then [o.id] else []) →
      s2.orders i = s.orders i := by
  intro k' hk' i hq hne
  obtain ⟨o', g1, g2, g3⟩ := hi.book.queue_mem hq
  have hio : i ≠ o.id := by
    intro e
    by_cases e' : k' = k
    · simp [e', e] at hne
    · subst e; rw [ho] at g1; cases g1; rw [hko] at g3; cases g3; exact e' rfl
  rw [g1]
  refine hm.keep i o' (by rw [h1, setO_other _ _ hio]; exact g1) (.inr ?_)
  rw [g3]; intro e; cases e; rw [isLimit_opp] at hk'; cases hk'

theorem keep_of {k : Kind} {o : Order} {s s2 s' : Core} (hi : Inv s) (hk : k.isLimit = false)
    (hK : ∀ k', k'.isLimit = false → ∀ i ∈ queue s.book k', i ∉ (if k' = k then [o.id] else []) →
      s2.orders i = s.orders i)
    (hfr : Fr (fun k' => k'.isLimit = false ∧ k' ≠ k) s.book s'.book)
    (hq : queue s'.book k = (queue s.book k).erase o.id)
    (he : ∀ k', k'.isLimit = false → ∀ i ∈ queue s'.book k', s'.orders i = s2.orders i) :
    ∀ k', k'.isLimit = false → ∀ i ∈ queue s'.book k', i ∈ queue s.book k' ∧ s'.orders i = s.orders i := by
  intro k' hk' i hiq
  rw [he k' hk' i hiq]
  by_cases e : k' = k
  · subst e
    rw [hq] at hiq
    have hnd := (hi.book.kinds k').nodup
    refine ⟨List.mem_of_mem_erase hiq, hK k' hk' i (List.mem_of_mem_erase hiq) ?_⟩
    simp only [if_true, List.mem_singleton]
    intro e; subst e
    exact (List.Nodup.not_mem_erase (hnd : (queue s.book k').Nodup)) hiq
  · rw [hfr.queue ⟨hk', e⟩] at hiq
    exact ⟨hiq, hK k' hk' i hiq (by simp [e])⟩

theorem stop_side {o : Order} {k} (h : o.kind = some k) (hk : k.isLimit = false) : o.side = stopSide k := by
  unfold Order.kind at h
  cases ht : o.type <;> simp [ht] at h <;> subst h <;> cases hs : o.side <;>
    simp [Order.isBuy, hs, stopSide, Kind.isBidType, Kind.isLimit] at hk ⊢

theorem activateStop_ok {s : Core} {k : Kind} {o : Order} (hi : Inv s) (hk : k.isLimit = false)
    (ho : s.orders o.id = some o) (hq : o.id ∈ queue s.book k)
    (hty : (o.isStop || o.isTrailingStop) = true) (htr : triggered s.book o = true) :
    ∃ s', s.activateStop o = .ok s' ∧ ActEff k s s' ∧ queue s'.book k = (queue s.book k).erase o.id := by
  obtain ⟨o', ho', hs, hko⟩ := hi.book.queue_mem hq
  rw [ho] at ho'; cases ho'
  have hok := (hi.orders _ o ho).2
  obtain ⟨k', s1, a1, a2, a3, a4, a5, a6, a7⟩ := hi.unlink ho hs
  rw [hko] at a1; cases a1
  have st1 : Step (.take o) s none s1 (some o) := .take ho hs a2
  have hsd := stop_side hko hk
  have htl1 : TrigLe (stopSide k) s.book s1.book := .of_stop a5 hk
  have st2 : Step (.activate o (toMarket o)) s1 (some o) (s1.emit (.updateOrder (toMarket o))) (some (toMarket o)) :=
    .activate (.inl ⟨hty, rfl⟩) (htl1.triggered hsd htr)
  have hc := st2.inv (st1.inv (CInv.none_iff.2 hi))
  obtain ⟨s2, t2, b1, b2, b3, b4, b5⟩ := matchMarket_ok hc.inv (hc.fly _ rfl) (show 0 < (toMarket o).leaves from hok.leaves) rfl
  have st3 : Step (.cancel t2) s2 (some t2) (s2.emit (.deleteOrder t2)) none := .cancel
  have hsteps : Steps EngL s none (s2.emit (.deleteOrder t2)) none :=
    .head (show EngL (.take o) from trivial) st1 (.head (show EngL (.activate o _) from trivial) st2
      ((b2.mono (fun l hl => hl.toEng rfl)).trans (.one (show EngL (.cancel t2) from trivial) st3)))
  have hfr : Fr (· ≠ oppKind (toMarket o)) s1.book s2.book := b4.same.fr
  have hkl : ∀ k', k'.isLimit = false → k' ≠ oppKind (toMarket o) := fun k' h e => by
    rw [e, isLimit_opp] at h; cases h
  have hfr0 : Fr (fun k' => k'.isLimit = false ∧ k' ≠ k) s.book s2.book :=
    Fr.trans (a5.toLv.fr.mono fun k' h => h.2) (hfr.mono fun k' h => hkl k' h.1)
  have hq0 : queue s2.book k = (queue s.book k).erase o.id := by
    rw [hfr.queue (hkl k hk)]; exact a7
  refine ⟨s2.emit (.deleteOrder t2), ?_, ⟨hsteps, (hsteps.inv (CInv.none_iff.2 hi)).inv, hfr0, ?_, ?_, ?_⟩, hq0⟩
  · unfold activateStop
    rw [a2, Except.bind_ok]
    simp only [b1, Except.bind_ok]
  · unfold weight at b5
    show volume s2.book ≤ _
    have : volume s2.book + t2.leaves ≤ volume s1.book + o.leaves := b5
    omega
  · have := b2.trig hc
    rw [show (toMarket o).side = stopSide k from hsd] at this
    exact htl1.trans this
  · exact keep_of hi hk (keep_stops (s1 := s1.emit _) (s2 := s2) hi ho hko a4.orders b4) hfr0 hq0 (fun _ _ _ _ => rfl)

theorem activateStopLimit_ok {s : Core} {k : Kind} {o : Order} (hi : Inv s) (hk : k.isLimit = false)
    (ho : s.orders o.id = some o) (hq : o.id ∈ queue s.book k)
    (hty : (o.isStopLimit || o.isTrailingStopLimit) = true) (htr : triggered s.book o = true) :
    ∃ s', s.activateStopLimit o = .ok s' ∧ ActEff k s s' ∧ queue s'.book k = (queue s.book k).erase o.id := by
  obtain ⟨o', ho', hs, hko⟩ := hi.book.queue_mem hq
  rw [ho] at ho'; cases ho'
  have hok := (hi.orders _ o ho).2
  obtain ⟨k', s1, a1, a2, a3, a4, a5, a6, a7⟩ := hi.unlink ho hs
  rw [hko] at a1; cases a1
  have st1 : Step (.take o) s none s1 (some o) := .take ho hs a2
  have hsd := stop_side hko hk
  have htl1 : TrigLe (stopSide k) s.book s1.book := .of_stop a5 hk
  have st2 : Step (.activate o (toLimit o)) s1 (some o) (s1.emit (.updateOrder (toLimit o))) (some (toLimit o)) :=
    .activate (.inr ⟨hty, rfl⟩) (htl1.triggered hsd htr)
  have hc := st2.inv (st1.inv (CInv.none_iff.2 hi))
  obtain ⟨s2, t2, b1, b2, b3⟩ := matchOrder_ok hc.inv (hc.fly _ rfl) (show 0 < (toLimit o).leaves from hok.leaves)
  obtain ⟨b4, b5⟩ := b2.match_frame hc
  have hc2 := b2.inv hc
  have hpre : Steps EngL s none s2 (some t2) :=
    .head (show EngL (.take o) from trivial) st1 (.head (show EngL (.activate o _) from trivial) st2
      (b2.mono (fun l hl => hl.toIn.toEng rfl)))
  have hfr : Fr (· ≠ oppKind (toLimit o)) s1.book s2.book := b4.same.fr
  have hkl : ∀ k', k'.isLimit = false → k' ≠ oppKind (toLimit o) := fun k' h e => by
    rw [e, isLimit_opp] at h; cases h
  have hfr2 : Fr (fun k' => k'.isLimit = false ∧ k' ≠ k) s.book s2.book :=
    Fr.trans (a5.toLv.fr.mono fun k' h => h.2) (hfr.mono fun k' h => hkl k' h.1)
  have hq2 : queue s2.book k = (queue s.book k).erase o.id := by rw [hfr.queue (hkl k hk)]; exact a7
  have hvol2 : volume s2.book + t2.leaves ≤ volume s.book := by
    have : volume s2.book + t2.leaves ≤ volume s1.book + o.leaves := b5
    omega
  have htl2 : TrigLe (stopSide k) s.book s2.book := by
    have := (b2.mono (fun l hl => hl.toIn)).trig hc
    rw [show (toLimit o).side = stopSide k from hsd] at this
    exact htl1.trans this
  unfold activateStopLimit
  rw [a2, Except.bind_ok]
  simp only [b1, Except.bind_ok]
  by_cases hrest : (decide (t2.leaves > 0) && !t2.isIOC && !t2.isFOK) = true
  · simp only [hrest, if_true]
    have htl : t2.type = .limit := by obtain ⟨e, l, rfl⟩ := b3; rfl
    have hid : t2.id = o.id := by obtain ⟨e, l, rfl⟩ := b3; rfl
    have hnone : s2.orders t2.id = none := b4.none _ (by
      rw [hid]; show s1.orders o.id = none; rw [a4.orders]; simp)
    simp only [Bool.and_eq_true, decide_eq_true_eq, Bool.not_eq_true'] at hrest
    have hpos : 0 < t2.leaves := hrest.1.1
    have htif : t2.type = .limit → t2.tif = .gtc ∨ t2.tif = .aon := by
      intro _
      have h1 := hrest.1.2
      have h2 := hrest.2
      unfold Order.isIOC at h1; unfold Order.isFOK at h2
      cases ht : t2.tif <;> simp_all
    have hnm : t2.type ≠ .market := by rw [htl]; simp
    have hfly := hc2.fly _ rfl
    obtain ⟨k3, s3, c1, c2, c3, c4, c5, c6, pre, post, c7, c8⟩ :=
      hc2.inv.link (hfly.orderOK hpos hnm htif) hfly.sym hnone hfly.vol
    have st3 : Step (.put t2) s2 (some t2) s3 none := .put hnone hpos hnm htif c2
    have hk3 : k3.isLimit = true := (kind_type c1).2 htl
    have hfr3 : Fr (fun k' => k'.isLimit = false ∧ k' ≠ k) s.book s3.book :=
      hfr2.trans (c5.toLv.fr.mono fun k' h e => by rw [e] at h; rw [hk3] at h; simp at h)
    have hq3 : queue s3.book k = (queue s.book k).erase o.id := by
      rw [c5.toLv.fr.queue (k := k) (fun e => by rw [e] at hk; rw [hk3] at hk; simp at hk)]; exact hq2
    refine ⟨s3, c2, ⟨hpre.trans (.one (show EngL (.put t2) from trivial) st3), c3, hfr3, by omega, ?_, ?_⟩, hq3⟩
    · refine htl2.trans (.of_same c5 ?_ ?_)
      · intro e e'
        have h1 := kind_limit htl
        rw [c1] at h1
        have h2 : t2.side = stopSide k := by rw [← hsd]; obtain ⟨e, l, rfl⟩ := b3; rfl
        rw [h2, e, e'] at h1; simp [limKind] at h1
      · intro e e'
        have h1 := kind_limit htl
        rw [c1] at h1
        have h2 : t2.side = stopSide k := by rw [← hsd]; obtain ⟨e, l, rfl⟩ := b3; rfl
        rw [h2, e, e'] at h1; simp [limKind] at h1
    · refine keep_of hi hk (keep_stops (s1 := s1.emit _) (s2 := s2) hi ho hko a4.orders b4) hfr3 hq3 ?_
      intro k' hk' i hiq
      rw [c4.orders]
      refine setO_other _ _ (fun e : i = t2.id => ?_)
      have := (c3.book.queue_iff (i := i) (o := t2) (by rw [c4.orders, e]; simp) (by rw [c5.symbol]; exact hfly.sym) k').1 hiq
      rw [c1] at this; cases this
      rw [hk3] at hk'; cases hk'
  · simp only [hrest, Bool.false_eq_true, if_false]
    have st3 : Step (.cancel t2) s2 (some t2) (s2.emit (.deleteOrder t2)) none := .cancel
    have hsteps := hpre.trans (.one (show EngL (.cancel t2) from trivial) st3)
    exact ⟨s2.emit (.deleteOrder t2), rfl, ⟨hsteps, hc2.inv.emit _, hfr2, by show volume s2.book ≤ _; omega, htl2,
      keep_of hi hk (keep_stops (s1 := s1.emit _) (s2 := s2) hi ho hko a4.orders b4) hfr2 hq2 (fun _ _ _ _ => rfl)⟩, hq2⟩

theorem activateOrder_ok {s : Core} {k : Kind} {id : Nat} (hi : Inv s) (hk : k.isLimit = false)
    (hq : id ∈ queue s.book k) (htr : ∀ o, s.orders id = some o → triggered s.book o = true) :
    ∃ s', s.activateOrder id = .ok s' ∧ ActEff k s s' ∧ queue s'.book k = (queue s.book k).erase id := by
  obtain ⟨o, ho, hs, hko⟩ := hi.book.queue_mem hq
  obtain ⟨hid, hok⟩ := hi.orders id o ho
  subst hid
  have hnl : o.type ≠ .limit := fun e => by have := (kind_type hko).2 e; rw [hk] at this; cases this
  unfold activateOrder
  rw [Core.get_ok ho, Except.bind_ok]
  cases ht : o.type with
  | market => exact absurd ht hok.notMarket
  | limit => exact absurd ht hnl
  | stop => exact activateStop_ok hi hk ho hq (by simp [Order.isStop, ht]) (htr o ho)
  | trailingStop => exact activateStop_ok hi hk ho hq (by simp [Order.isTrailingStop, ht]) (htr o ho)
  | stopLimit => exact activateStopLimit_ok hi hk ho hq (by simp [Order.isStopLimit, ht]) (htr o ho)
  | trailingStopLimit => exact activateStopLimit_ok hi hk ho hq (by simp [Order.isTrailingStopLimit, ht]) (htr o ho)

theorem activateIds_ok {k : Kind} (hk : k.isLimit = false) (ids : List Nat) : ∀ {s : Core} {rest : List Nat} {r : Bool},
    Inv s → queue s.book k = ids ++ rest →
    (∀ i ∈ ids, ∀ o, s.orders i = some o → triggered s.book o = true) →
    ∃ s', activateIds ids s r = .ok (s', r || !ids.isEmpty) ∧ ActEff k s s' ∧ queue s'.book k = rest := by
  induction ids with
  | nil =>
    intro s rest r hi hq _
    exact ⟨s, by simp [activateIds], .refl hi, by simpa using hq⟩
  | cons id is ih =>
    intro s rest r hi hq htr
    obtain ⟨s1, e1, h1, q1⟩ := activateOrder_ok hi hk (id := id) (by rw [hq]; simp) (htr id (by simp))
    rw [hq] at q1
    have q1' : queue s1.book k = is ++ rest := by simpa using q1
    obtain ⟨s2, e2, h2, q2⟩ := ih (s := s1) (rest := rest) (r := true) h1.inv q1' (by
      intro i hii o ho
      obtain ⟨o', ho', hs', hk'⟩ := h1.inv.book.queue_mem (i := i) (k := k) (by rw [q1']; simp [hii])
      rw [ho] at ho'; cases ho'
      have hkp := (h1.keep k hk i (by rw [q1']; simp [hii])).2
      exact h1.trig.triggered (stop_side hk' hk) (htr i (by simp [hii]) o (hkp ▸ ho)))
    refine ⟨s2, ?_, h1.trans h2, q2⟩
    simp only [activateIds, e1, Except.bind_ok]
    rw [e2]; simp

theorem stopCount_fr {b b' : Book} {k} (hk : k.isLimit = false)
    (h : Fr (fun k' => k'.isLimit = false ∧ k' ≠ k) b b') :
    stopCount b' + (queue b k).length = stopCount b + (queue b' k).length := by
  rw [stopCount_eq, stopCount_eq]
  cases k <;> simp [Kind.isLimit] at hk
  · rw [h.queue (k := .sellStop) (by simp [Kind.isLimit]), h.queue (k := .tBuyStop) (by simp [Kind.isLimit]),
      h.queue (k := .tSellStop) (by simp [Kind.isLimit])]; omega
  · rw [h.queue (k := .buyStop) (by simp [Kind.isLimit]), h.queue (k := .tBuyStop) (by simp [Kind.isLimit]),
      h.queue (k := .tSellStop) (by simp [Kind.isLimit])]; omega
  · rw [h.queue (k := .sellStop) (by simp [Kind.isLimit]), h.queue (k := .buyStop) (by simp [Kind.isLimit]),
      h.queue (k := .tSellStop) (by simp [Kind.isLimit])]; omega
  · rw [h.queue (k := .sellStop) (by simp [Kind.isLimit]), h.queue (k := .tBuyStop) (by simp [Kind.isLimit]),
      h.queue (k := .buyStop) (by simp [Kind.isLimit])]; omega

theorem findLevel_head {l : Level} {ls : List Level} : findLevel (l :: ls) l.price = some l := by simp [findLevel]

/-- No order of stop collection `k` is triggered. -/
def NoTrig (k : Kind) (b : Book) : Prop :=
  ∀ p, b.best k = some p → if k.isBidType then p < b.marketBid else b.marketAsk < p

theorem activateLevel_ok {s : Core} {k : Kind} (p : Nat) (hi : Inv s) (hk : k.isLimit = false)
    (htrp : p = if k.isBidType then s.book.marketBid else s.book.marketAsk) :
    ∃ s' r, s.activateLevel k p = .ok (s', r) ∧ ActEff k s s' ∧ (r = false → s' = s ∧ NoTrig k s.book) ∧
      (r = true → stopCount s'.book < stopCount s.book) := by
  unfold activateLevel
  cases hb : s.book.best k with
  | none => exact ⟨s, false, rfl, .refl hi, fun _ => ⟨rfl, fun p hp => by rw [hb] at hp; cases hp⟩, by simp⟩
  | some b =>
    by_cases hc : (if k.isBidType = true then p ≤ b else b ≤ p)
    · simp only [hc, if_true]
      obtain ⟨l, ls, hlv, rfl⟩ := hi.best_level hb
      rw [hlv, findLevel_head]
      simp only
      have hq : queue s.book k = l.ids ++ flatOf ls := by unfold queue; rw [hlv, flatOf_cons]
      obtain ⟨s1, e1, h1, q1⟩ := activateIds_ok hk l.ids (r := false) hi hq (by
        intro i hii o ho
        obtain ⟨k1, k2, k3⟩ := level_price hi (show l ∈ s.book.lv k by rw [hlv]; simp) hii ho
        have h1 := stop_side k2 hk
        have h2 : o.stopPrice = l.price := by
          rw [← k1]; unfold Order.key; split
          · rename_i e; have := (kind_type k2).2 e; rw [hk] at this; cases this
          · rename_i e; simp [Order.kind, e] at k2
          · rfl
        unfold triggered; rw [h2]
        cases hkb : k.isBidType <;> simp only [stopSide, hkb, if_true, Bool.false_eq_true, if_false] at h1 <;>
          simp only [hkb, if_true, Bool.false_eq_true, if_false, htrp] at hc <;>
          simp [Order.isBuy, h1, hc])
      have hne := ((hi.book.kinds k).levels l (by rw [hlv]; simp)).nonempty
      have hlen : 0 < l.ids.length := by
        cases h : l.ids with
        | nil => exact absurd h hne
        | cons => simp
      refine ⟨s1, _, e1, h1, ?_, ?_⟩
      · intro h; simp at h; exact absurd h hne
      · intro _
        have := stopCount_fr hk h1.fr
        rw [q1, hq, List.length_append] at this
        omega
    · simp only [hc, if_false]
      refine ⟨s, false, rfl, .refl hi, fun _ => ⟨rfl, fun p' hp => ?_⟩, by simp⟩
      rw [hb] at hp; cases hp
      cases hkb : k.isBidType <;>
        simp only [hkb, if_true, Bool.false_eq_true, if_false, htrp, Nat.not_le] at hc ⊢ <;> exact hc

end CppTrader
