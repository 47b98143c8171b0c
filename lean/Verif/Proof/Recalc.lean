import Verif.Proof.Activate
/-
`RecalculateTrailingStopPrice`: totality, termination and effect.
-/

namespace CppTrader
open Core

/-- Collections of trailing stop orders. -/
def Kind.isTrail : Kind → Bool
  | .tBuyStop => true | .tSellStop => true | _ => false

theorem isTrail_notLimit {k : Kind} (h : k.isTrail = true) : k.isLimit = false := by
  cases k <;> simp [Kind.isTrail, Kind.isLimit] at *

theorem kind_trailing {o : Order} {k} (h : o.kind = some k) (hk : k.isTrail = true) : o.isTrailing = true := by
  unfold Order.kind at h
  unfold Order.isTrailing Order.isTrailingStop Order.isTrailingStopLimit
  cases ht : o.type <;> simp [ht] at h ⊢ <;> (subst h; revert hk; split <;> simp [Kind.isTrail])

/-- Everything but collection `k` and the trailing watermarks is unchanged. -/
structure SameTr (k : Kind) (b b' : Book) : Prop where
  symbol : b'.symbol = b.symbol
  lv : ∀ k', k' ≠ k → b'.lv k' = b.lv k'
  best : ∀ k', k' ≠ k → b'.best k' = b.best k'
  lastBid : b'.lastBid = b.lastBid
  lastAsk : b'.lastAsk = b.lastAsk
  matchBid : b'.matchBid = b.matchBid
  matchAsk : b'.matchAsk = b.matchAsk

theorem SameTr.refl (k b) : SameTr k b b := ⟨rfl, fun _ _ => rfl, fun _ _ => rfl, rfl, rfl, rfl, rfl⟩
theorem SameTr.trans {k b b1 b2} (h : SameTr k b b1) (h' : SameTr k b1 b2) : SameTr k b b2 :=
  ⟨h'.symbol.trans h.symbol, fun k hk => (h'.lv k hk).trans (h.lv k hk), fun k hk => (h'.best k hk).trans (h.best k hk),
   h'.lastBid.trans h.lastBid, h'.lastAsk.trans h.lastAsk, h'.matchBid.trans h.matchBid, h'.matchAsk.trans h.matchAsk⟩
theorem Book.SameBut.toTr {k b b'} (h : Book.SameBut k b b') : SameTr k b b' :=
  ⟨h.symbol, h.lv, h.best, h.lastBid, h.lastAsk, h.matchBid, h.matchAsk⟩
theorem SameTr.fr {k b b'} (h : SameTr k b b') : Fr (· ≠ k) b b' := ⟨h.symbol, h.lv, h.best⟩

theorem SameTr.ne {k k' : Kind} (hk : k.isTrail = true) (hk' : k'.isLimit = true) : k' ≠ k := by
  intro e; subst e; rw [isTrail_notLimit hk] at hk'; cases hk'

theorem SameTr.marketTrailAsk {k b b'} (h : SameTr k b b') (hk : k.isTrail = true) : b'.marketTrailAsk = b.marketTrailAsk := by
  unfold Book.marketTrailAsk; rw [h.lastAsk, h.best .ask (SameTr.ne hk rfl)]
theorem SameTr.marketTrailBid {k b b'} (h : SameTr k b b') (hk : k.isTrail = true) : b'.marketTrailBid = b.marketTrailBid := by
  unfold Book.marketTrailBid; rw [h.lastBid, h.best .bid (SameTr.ne hk rfl)]
theorem SameTr.marketAsk {k b b'} (h : SameTr k b b') (hk : k.isTrail = true) : b'.marketAsk = b.marketAsk := by
  unfold Book.marketAsk; rw [h.matchAsk, h.best .ask (SameTr.ne hk rfl)]
theorem SameTr.marketBid {k b b'} (h : SameTr k b b') (hk : k.isTrail = true) : b'.marketBid = b.marketBid := by
  unfold Book.marketBid; rw [h.matchBid, h.best .bid (SameTr.ne hk rfl)]
theorem SameTr.calc {k b b'} (h : SameTr k b b') (hk : k.isTrail = true) (o : Order) : b'.calcTrailing o = b.calcTrailing o := by
  unfold Book.calcTrailing; rw [h.marketTrailAsk hk, h.marketTrailBid hk]

/-! ### The trailing price is idempotent -/

theorem trailAbs_stop (o : Order) (m p q : Nat) : trailAbs { o with stopPrice := p, price := q } m = trailAbs o m := rfl

theorem trailPrice_idem (o : Order) (m q : Nat) :
    trailPrice { o with stopPrice := trailPrice o m, price := q } m = trailPrice o m := by
  generalize hp : trailPrice o m = p
  unfold trailPrice
  rw [trailAbs_stop]
  unfold trailPrice at hp
  generalize trailAbs o m = d at hp ⊢
  by_cases hb : o.isBuy = true
  · have hb' : ({ o with stopPrice := p, price := q } : Order).isBuy = true := hb
    simp only [hb, hb', if_true] at hp ⊢
    generalize (if m < sub64 MAX64 d.1 then add64 m d.1 else MAX64) = n at hp ⊢
    by_cases hc : n < o.stopPrice ∧ o.stopPrice - n ≥ d.2
    · rw [if_pos hc] at hp; subst hp; rw [if_neg (by omega)]
    · rw [if_neg hc] at hp; subst hp; rw [if_neg hc]
  · have hb' : ({ o with stopPrice := p, price := q } : Order).isBuy = false := by simpa [Order.isBuy] using hb
    have hb : o.isBuy = false := by simpa using hb
    simp only [hb, hb', if_false, Bool.false_eq_true] at hp ⊢
    generalize (if m > d.1 then m - d.1 else 0) = n at hp ⊢
    by_cases hc : n > o.stopPrice ∧ n - o.stopPrice ≥ d.2
    · rw [if_pos hc] at hp; subst hp; rw [if_neg (by omega)]
    · rw [if_neg hc] at hp; subst hp; rw [if_neg hc]

theorem retrail_eq {o : Order} (h : o.isTrailing = true) (p : Nat) :
    ∃ q, Core.retrail o p = { o with stopPrice := p, price := q } := by
  unfold Core.retrail
  unfold Order.isTrailing Order.isTrailingStop Order.isTrailingStopLimit at h
  cases ht : o.type <;> simp [ht] at h ⊢

theorem retrail_stop {o : Order} (h : o.isTrailing = true) (p : Nat) : (Core.retrail o p).stopPrice = p := by
  obtain ⟨q, e⟩ := retrail_eq h p; rw [e]

theorem calc_idem {b : Book} {o : Order} (h : o.isTrailing = true) :
    b.calcTrailing (Core.retrail o (b.calcTrailing o)) = b.calcTrailing o := by
  obtain ⟨q, e⟩ := retrail_eq h (b.calcTrailing o)
  rw [e]
  unfold Book.calcTrailing
  by_cases hb : o.isBuy = true
  · have hb' : ∀ p q, ({ o with stopPrice := p, price := q } : Order).isBuy = true := fun _ _ => hb
    simp only [hb, hb', if_true]; exact trailPrice_idem _ _ _
  · have hb : o.isBuy = false := by simpa using hb
    have hb' : ∀ p q, ({ o with stopPrice := p, price := q } : Order).isBuy = false := fun _ _ => hb
    simp only [hb, hb', Bool.false_eq_true, if_false]; exact trailPrice_idem _ _ _

/-! ### One pass over a level -/

/-- The order is due for a move. -/
def unst (s : Core) (i : Nat) : Bool :=
  match s.orders i with
  | some o => decide (s.book.calcTrailing o ≠ o.stopPrice)
  | none => false

/-- A trailing stop price on the far side of the market price it follows. -/
def BehindMarket (k : Kind) (b : Book) (p : Nat) : Prop :=
  if k.isBidType then p ≤ b.marketTrailBid else min b.marketTrailAsk MAX64 ≤ p

theorem trailPrice_moved {o : Order} {m : Nat} (h : trailPrice o m ≠ o.stopPrice) :
    if o.isBuy then min m MAX64 ≤ trailPrice o m else trailPrice o m ≤ m := by
  unfold trailPrice at *
  generalize trailAbs o m = d at h ⊢
  by_cases hb : o.isBuy = true
  · simp only [hb, if_true] at h ⊢
    have hn : min m MAX64 ≤ (if m < sub64 MAX64 d.1 then add64 m d.1 else MAX64) := by
      split
      · rename_i hlt
        unfold sub64 at hlt; unfold add64
        omega
      · omega
    generalize (if m < sub64 MAX64 d.1 then add64 m d.1 else MAX64) = n at h hn ⊢
    split at h
    · rename_i hc; rw [if_pos hc]; exact hn
    · exact absurd rfl h
  · have hb : o.isBuy = false := by simpa using hb
    simp only [hb, Bool.false_eq_true, if_false] at h ⊢
    have hn : (if m > d.1 then m - d.1 else 0) ≤ m := by split <;> omega
    generalize (if m > d.1 then m - d.1 else 0) = n at h hn ⊢
    split at h
    · rename_i hc; rw [if_pos hc]; exact hn
    · exact absurd rfl h

theorem behind_of_moved {k : Kind} {b : Book} {o : Order} (hk : k.isTrail = true) (hko : o.kind = some k)
    (h : b.calcTrailing o ≠ o.stopPrice) : BehindMarket k b (b.calcTrailing o) := by
  have hs := stop_side hko (isTrail_notLimit hk)
  unfold BehindMarket
  unfold Book.calcTrailing at *
  have := trailPrice_moved h
  cases hkb : k.isBidType <;> simp [stopSide, hkb] at hs <;> simp [Order.isBuy, hs] at this ⊢ <;> omega

/-- The same, strictly, for an absolute distance. -/
def Beyond (k : Kind) (b : Book) (o : Order) : Prop :=
  0 < o.trailDist → if k.isBidType then o.stopPrice < b.marketTrailBid else b.marketTrailAsk < o.stopPrice

theorem trailPrice_moved_lt {o : Order} {m : Nat} (hr : o.Repr64) (hd : 0 < o.trailDist) (h : trailPrice o m ≠ o.stopPrice) :
    if o.isBuy then m < trailPrice o m else trailPrice o m < m := by
  obtain ⟨_, _, _, hsp, _, _, _, _, _, _, hdm, _, _⟩ := hr
  unfold trailPrice at *
  have hd1 : 0 < (trailAbs o m).1 ∧ (trailAbs o m).1 < 9223372036854775808 := by
    unfold trailAbs
    rw [if_neg (by omega)]
    show 0 < o.trailDist.toNat ∧ o.trailDist.toNat < _
    omega
  generalize trailAbs o m = d at h hd1 ⊢
  by_cases hb : o.isBuy = true
  · simp only [hb, if_true] at h ⊢
    have hn : m < (if m < sub64 MAX64 d.1 then add64 m d.1 else MAX64) ∨
        (if m < sub64 MAX64 d.1 then add64 m d.1 else MAX64) = MAX64 := by
      split
      · rename_i hlt
        left
        unfold sub64 at hlt; unfold add64
        omega
      · right; rfl
    generalize (if m < sub64 MAX64 d.1 then add64 m d.1 else MAX64) = n at h hn ⊢
    split at h
    · rename_i hc; rw [if_pos hc]; omega
    · exact absurd rfl h
  · have hb : o.isBuy = false := by simpa using hb
    simp only [hb, Bool.false_eq_true, if_false] at h ⊢
    have hn : (if m > d.1 then m - d.1 else 0) < m ∨ (if m > d.1 then m - d.1 else 0) = 0 := by split <;> omega
    generalize (if m > d.1 then m - d.1 else 0) = n at h hn ⊢
    split at h
    · rename_i hc; rw [if_pos hc]; omega
    · exact absurd rfl h

theorem beyond_of_moved {k : Kind} {b : Book} {o : Order} (hk : k.isTrail = true) (hko : o.kind = some k) (hr : o.Repr64)
    (h : b.calcTrailing o ≠ o.stopPrice) : Beyond k b (Core.retrail o (b.calcTrailing o)) := by
  have hs := stop_side hko (isTrail_notLimit hk)
  obtain ⟨q, e⟩ := retrail_eq (kind_trailing hko hk) (b.calcTrailing o)
  rw [e]
  intro hd
  have hd : 0 < o.trailDist := hd
  show if k.isBidType then b.calcTrailing o < b.marketTrailBid else b.marketTrailAsk < b.calcTrailing o
  unfold Book.calcTrailing at *
  have := trailPrice_moved_lt hr hd h
  cases hkb : k.isBidType <;> simp [stopSide, hkb] at hs <;> simp [Order.isBuy, hs] at this ⊢ <;> omega

theorem SameTr.beyond {k b b'} (h : SameTr k b b') (hk : k.isTrail = true) {o} : Beyond k b' o ↔ Beyond k b o := by
  unfold Beyond; rw [h.marketTrailAsk hk, h.marketTrailBid hk]

theorem SameTr.behind {k b b'} (h : SameTr k b b') (hk : k.isTrail = true) {p} :
    BehindMarket k b' p ↔ BehindMarket k b p := by
  unfold BehindMarket; rw [h.marketTrailAsk hk, h.marketTrailBid hk]

/-- Effect of moving trailing orders. -/
structure RecEff (k : Kind) (s s' : Core) : Prop where
  steps : Steps EngL s none s' none
  inv : Inv s'
  same : SameTr k s.book s'.book
  vol : volume s'.book = volume s.book
  perm : (queue s'.book k).Perm (queue s.book k)
  keep : ∀ i, i ∉ queue s.book k → s'.orders i = s.orders i
  moved : ∀ i o', s'.orders i = some o' → s.orders i = some o' ∨ BehindMarket k s.book o'.stopPrice ∧ Beyond k s.book o'

theorem RecEff.refl {k s} (hi : Inv s) : RecEff k s s :=
  ⟨.refl _ _, hi, .refl _ _, rfl, .refl _, fun _ _ => rfl, fun _ _ h => .inl h⟩
theorem RecEff.trans {k s s1 s2} (hk : k.isTrail = true) (h : RecEff k s s1) (h' : RecEff k s1 s2) : RecEff k s s2 :=
  ⟨h.steps.trans h'.steps, h'.inv, h.same.trans h'.same, h'.vol.trans h.vol, h'.perm.trans h.perm,
   fun i hi => (h'.keep i (fun e => hi (h.perm.mem_iff.1 e))).trans (h.keep i hi),
   fun i o' ho' => by
     rcases h'.moved i o' ho' with e | e
     · exact h.moved i o' e
     · exact .inr ⟨(h.same.behind hk).1 e.1, (h.same.beyond hk).1 e.2⟩⟩

theorem countP_lt {l : List Nat} {p q : Nat → Bool} (h : ∀ x ∈ l, p x = true → q x = true) {y : Nat} (hy : y ∈ l)
    (hq : q y = true) (hp : p y = false) : l.countP p < l.countP q := by
  induction l with
  | nil => cases hy
  | cons x xs ih =>
    have hle : xs.countP p ≤ xs.countP q := List.countP_mono_left (fun z hz => h z (by simp [hz]))
    rw [List.countP_cons, List.countP_cons]
    rcases List.mem_cons.1 hy with rfl | hy
    · simp [hq, hp]; omega
    · have := ih (fun z hz => h z (by simp [hz])) hy
      have hx := h x (by simp)
      cases hpx : p x <;> cases hqx : q x <;> simp [hpx, hqx] at hx ⊢ <;> omega

/-- Number of orders due for a move. -/
def dueCount (k : Kind) (s : Core) : Nat := (queue s.book k).countP (unst s)

theorem recalcOne {k : Kind} {s : Core} {o : Order} (hk : k.isTrail = true) (hi : Inv s)
    (ho : s.orders o.id = some o) (hq : o.id ∈ queue s.book k) (hne : s.book.calcTrailing o ≠ o.stopPrice) :
    ∃ s1 s', s.unlink o = .ok s1 ∧
      (s1.emit (.updateOrder (retrail o (s.book.calcTrailing o)))).link (retrail o (s.book.calcTrailing o)) = .ok s' ∧
      RecEff k s s' ∧ (∀ i, i ≠ o.id → s'.orders i = s.orders i) ∧ unst s' o.id = false := by
  obtain ⟨o', ho', hs, hko⟩ := hi.book.queue_mem hq
  rw [ho] at ho'; cases ho'
  have hok := (hi.orders _ o ho).2
  have htr := kind_trailing hko hk
  obtain ⟨k', s1, a1, a2, a3, a4, a5, a6, a7⟩ := hi.unlink ho hs
  rw [hko] at a1; cases a1
  have hcalc := a5.toTr.calc hk
  have st1 : Step (.take o) s none s1 (some o) := .take ho hs a2
  have st2 := Step.retrail (s := s1) (o := o) htr (by rw [hcalc]; exact hne)
  rw [hcalc] at st2
  generalize ht : retrail o (s.book.calcTrailing o) = t at st2 ⊢
  have hc := st2.inv (st1.inv (CInv.none_iff.2 hi))
  have hfly := hc.fly _ rfl
  have e1 : t.id = o.id := by rw [← ht]; exact retrail_id ..
  have e2 : t.leaves = o.leaves := by rw [← ht]; exact retrail_leaves ..
  have e3 : t.type = o.type := by rw [← ht]; exact retrail_type ..
  have e4 : t.kind = o.kind := by
    unfold Order.kind Order.isBuy; rw [e3, ← ht, retrail_side]
  have hnl : o.type ≠ .limit := fun e => by
    have := (kind_type hko).2 e; rw [isTrail_notLimit hk] at this; cases this
  have hpos : 0 < t.leaves := by rw [e2]; exact hok.leaves
  have hnm : t.type ≠ .market := by rw [e3]; exact hok.notMarket
  have htif : t.type = .limit → t.tif = .gtc ∨ t.tif = .aon := fun e => by rw [e3] at e; exact absurd e hnl
  have hnone : (s1.emit (.updateOrder t)).orders t.id = none := by
    show s1.orders t.id = none
    rw [a4.orders, e1]; simp
  obtain ⟨k3, s', c1, c2, c3, c4, c5, c6, pre, post, c7, c8⟩ :=
    hc.inv.link (hfly.orderOK hpos hnm htif) hfly.sym hnone hfly.vol
  rw [e4, hko] at c1; cases c1
  have st3 : Step (.put t) (s1.emit (.updateOrder t)) (some t) s' none := .put hnone hpos hnm htif c2
  have hsame : SameTr k s.book s'.book := a5.toTr.trans c5.toTr
  refine ⟨s1, s', a2, c2, ⟨.head (show EngL (.take o) from trivial) st1 (.head (show EngL (.retrail o t) from trivial) st2
    (.one (show EngL (.put t) from trivial) st3)), c3, hsame, ?_, ?_, ?_, ?_⟩, ?_, ?_⟩
  · rw [c6, e2]; exact a6
  · rw [c8, e1]
    have h1 : (o.id :: (queue s.book k).erase o.id).Perm (queue s.book k) := (List.perm_cons_erase hq).symm
    have h2 : queue s1.book k = pre ++ post := c7
    rw [← a7, h2] at h1
    exact List.perm_middle.trans h1
  · intro i hin
    have : i ≠ o.id := fun e => hin (e ▸ hq)
    rw [c4.orders, setO_other _ _ (e1 ▸ this)]
    show s1.orders i = _
    rw [a4.orders, setO_other _ _ this]
  · intro i o' ho'
    by_cases e : i = o.id
    · right
      rw [c4.orders, e, ← e1] at ho'
      simp only [setO_same] at ho'
      cases ho'
      rw [← ht]
      exact ⟨by rw [retrail_stop htr]; exact behind_of_moved hk hko hne, beyond_of_moved hk hko hok.repr hne⟩
    · left
      rw [c4.orders, setO_other _ _ (e1 ▸ e)] at ho'
      have ho' : s1.orders i = some o' := ho'
      rw [a4.orders, setO_other _ _ e] at ho'; exact ho'
  · intro i this
    rw [c4.orders, setO_other _ _ (e1 ▸ this)]
    show s1.orders i = _
    rw [a4.orders, setO_other _ _ this]
  · unfold unst
    rw [c4.orders, ← e1]
    simp only [setO_same, decide_eq_false_iff_not, Decidable.not_not]
    rw [hsame.calc hk, ← ht, calc_idem htr, retrail_stop htr]

theorem unst_congr {k s s'} (h : SameTr k s.book s'.book) (hk : k.isTrail = true) {i} (ho : s'.orders i = s.orders i) :
    unst s' i = unst s i := by
  unfold unst; rw [ho]; cases s.orders i <;> simp [h.calc hk]

theorem recalcIds_ok {k : Kind} (hk : k.isTrail = true) (ids : List Nat) : ∀ {s : Core} (r : Bool),
    Inv s → (∀ i ∈ ids, i ∈ queue s.book k) →
    ∃ s' r', recalcIds ids s r = .ok (s', r') ∧ RecEff k s s' ∧
      (∀ i ∈ ids, unst s' i = false) ∧ (∀ i, unst s i = false → s'.orders i = s.orders i) ∧
      (∀ i, s'.orders i = s.orders i ∨ unst s' i = false) ∧
      (r' = r ∧ s' = s ∨ r' = true ∧ dueCount k s' < dueCount k s) := by
  induction ids with
  | nil =>
    intro s r hi _
    exact ⟨s, r, rfl, .refl hi, by simp, fun _ _ => rfl, fun _ => .inl rfl, .inl ⟨rfl, rfl⟩⟩
  | cons id is ih =>
    intro s r hi hq
    obtain ⟨o, ho, hs, hko⟩ := hi.book.queue_mem (hq id (by simp))
    obtain ⟨hid, hok⟩ := hi.orders id o ho
    subst hid
    unfold recalcIds
    rw [Core.get_ok ho, Except.bind_ok]
    by_cases hne : s.book.calcTrailing o ≠ o.stopPrice
    · obtain ⟨s1, s2, b1, b2, b3, b4, b5⟩ := recalcOne hk hi ho (hq o.id (by simp)) hne
      obtain ⟨s3, r3, c1, c2, c3, c4, c5, c6⟩ := ih (s := s2) true b3.inv
        (fun i hi' => b3.perm.mem_iff.2 (hq i (by simp [hi'])))
      rw [if_pos hne]
      simp only [b1, Except.bind_ok, b2, c1]
      have hu : unst s o.id = true := by unfold unst; rw [ho]; simp [hne]
      have hd : dueCount k s2 < dueCount k s := by
        unfold dueCount
        rw [b3.perm.countP_eq]
        refine countP_lt (y := o.id) ?_ (hq o.id (by simp)) hu b5
        intro x _ hx
        by_cases e : x = o.id
        · subst e; exact hu
        · rw [← unst_congr b3.same hk (b4 x e)]; exact hx
      refine ⟨s3, r3, rfl, b3.trans hk c2, ?_, ?_, ?_, .inr ?_⟩
      · intro i hi'
        rcases List.mem_cons.1 hi' with rfl | hi'
        · rw [unst_congr c2.same hk (c4 _ b5)]; exact b5
        · exact c3 i hi'
      · intro i hst
        have e : i ≠ o.id := fun e => by subst e; rw [hu] at hst; cases hst
        rw [c4 i (by rw [unst_congr b3.same hk (b4 i e)]; exact hst), b4 i e]
      · intro i
        by_cases e : i = o.id
        · subst e; right; rw [unst_congr c2.same hk (c4 _ b5)]; exact b5
        · rcases c5 i with h | h
          · left; rw [h, b4 i e]
          · right; exact h
      · rcases c6 with ⟨rfl, rfl⟩ | ⟨h1, h2⟩
        · exact ⟨rfl, hd⟩
        · exact ⟨h1, by omega⟩
    · obtain ⟨s3, r3, c1, c2, c3, c4, c5, c6⟩ := ih (s := s) r hi (fun i hi' => hq i (by simp [hi']))
      rw [if_neg hne, c1]
      have hu : unst s o.id = false := by unfold unst; rw [ho]; simpa using hne
      refine ⟨s3, r3, rfl, c2, ?_, c4, c5, c6⟩
      intro i hi'
      rcases List.mem_cons.1 hi' with rfl | hi'
      · rw [unst_congr c2.same hk (c4 _ hu)]; exact hu
      · exact c3 i hi'

/-! ### The loop over the levels -/

/-- Levels not yet visited. -/
def levelsLeft (b : Book) (k : Kind) : Option Nat → Nat
  | none => 0
  | some c => (levelsFrom (b.lv k) c).length

/-- All orders on levels better than `c` are in place. -/
def DoneBefore (k : Kind) (s : Core) (c : Nat) : Prop :=
  ∀ i o, i ∈ queue s.book k → s.orders i = some o → k.better o.key c = true → unst s i = false

/-- A level at price `p` exists. -/
def HasLevel (b : Book) (k : Kind) (p : Nat) : Prop := ∃ l ∈ b.lv k, l.price = p

theorem levels_le_count {s : Core} (hi : Inv s) (k : Kind) : (s.book.lv k).length ≤ (queue s.book k).length := by
  have h : ∀ l ∈ s.book.lv k, l.ids ≠ [] := fun l hl => ((hi.book.kinds k).levels l hl).nonempty
  unfold queue
  generalize s.book.lv k = ls at h
  induction ls with
  | nil => simp
  | cons l ls ih =>
    have h1 := ih (fun x hx => h x (by simp [hx]))
    have h2 := h l (by simp)
    rw [flatOf_cons, List.length_append]
    have : 0 < l.ids.length := List.length_pos_iff.2 h2
    simp only [List.length_cons]; omega

theorem levelsFrom_le (ls : List Level) (c : Nat) : (levelsFrom ls c).length ≤ ls.length := by
  induction ls with
  | nil => simp [levelsFrom]
  | cons l ls ih => unfold levelsFrom; split <;> simp; omega

theorem levelsLeft_le {s : Core} (hi : Inv s) (k c) : levelsLeft s.book k c ≤ (queue s.book k).length := by
  cases c with
  | none => simp [levelsLeft]
  | some c => exact Nat.le_trans (levelsFrom_le _ _) (levels_le_count hi k)

theorem recalcLoop_ok {k : Kind} (hk : k.isTrail = true) (n : Nat) : ∀ {s : Core} (prev cur : Option Nat),
    Inv s →
    dueCount k s * ((queue s.book k).length + 1) + levelsLeft s.book k cur < n →
    (∀ c, cur = some c → HasLevel s.book k c ∧ DoneBefore k s c) →
    (cur = none → ∀ i ∈ queue s.book k, unst s i = false) →
    (∀ p, prev = some p → DoneBefore k s p ∧ ∃ i o, i ∈ queue s.book k ∧ s.orders i = some o ∧ o.key = p ∧ unst s i = false) →
    ∃ s', recalcLoop k n s prev cur = .ok s' ∧ RecEff k s s' ∧ (∀ i ∈ queue s'.book k, unst s' i = false) := by
  induction n with
  | zero => intro s prev cur _ h; omega
  | succ n ih =>
    intro s prev cur hi hn hcur hdone hprev
    cases cur with
    | none => exact ⟨s, rfl, .refl hi, hdone rfl⟩
    | some c =>
      obtain ⟨⟨l, hl, rfl⟩, hdb⟩ := hcur c rfl
      have hko := hi.book.kinds k
      obtain ⟨xs, ys, hsp⟩ := mem_split hl
      have hsm := sorted_mid (hsp ▸ hko.sorted)
      have hfind : findLevel (s.book.lv k) l.price = some l := by rw [hsp]; exact findLevel_mid hsm
      unfold recalcLoop
      simp only [hfind]
      have hlq : ∀ i ∈ l.ids, i ∈ queue s.book k := fun i h => mem_flatOf.2 ⟨l, hl, h⟩
      obtain ⟨s1, r, b1, b2, b3, b4, b5, b6⟩ := recalcIds_ok hk l.ids false hi hlq
      rw [b1, Except.bind_ok]
      simp only
      have hlen : (queue s1.book k).length = (queue s.book k).length := b2.perm.length_eq
      have hdone1 : ∀ p, DoneBefore k s p → DoneBefore k s1 p := by
        intro p hp i o h1 h2 h3
        rcases b5 i with e | e
        · rw [unst_congr b2.same hk e]
          exact hp i o (b2.perm.mem_iff.1 h1) (e ▸ h2) h3
        · exact e
      rcases b6 with ⟨rfl, rfl⟩ | ⟨rfl, hlt⟩
      · simp only [Bool.false_eq_true, if_false]
        have hnext : nextLevel (s1.book.lv k) l.price = ys.head? := by rw [hsp]; exact nextLevel_mid hsm
        rw [hnext]
        have hnd : DoneBefore k s1 l.price := hdb
        have hdb2 : ∀ i o, i ∈ queue s1.book k → s1.orders i = some o →
            (o.key = l.price ∨ k.better o.key l.price = true) → unst s1 i = false := by
          intro i o h1 h2 h3
          rcases h3 with h3 | h3
          · refine b3 i ?_
            obtain ⟨l', hl', hil⟩ := mem_flatOf.1 h1
            obtain ⟨g1, _, _⟩ := level_price hi hl' hil h2
            have : l' = l := by
              rw [hsp] at hl'
              rcases List.mem_append.1 hl' with hx | hx
              · exact absurd (g1.symm.trans h3) (hsm.left_ne l' hx)
              · rcases List.mem_cons.1 hx with hx | hx
                · exact hx
                · exact absurd (g1.symm.trans h3) (hsm.right_ne l' hx)
            rw [← this]; exact hil
          · exact hdb i o h1 h2 h3
        have hpos : ∀ i o, i ∈ queue s1.book k → s1.orders i = some o →
            (o.key = l.price ∨ k.better o.key l.price = true) ∨ ∃ y ∈ ys, o.key = y.price := by
          intro i o h1 h2
          obtain ⟨l', hl', hil⟩ := mem_flatOf.1 h1
          obtain ⟨g1, _, _⟩ := level_price hi hl' hil h2
          rw [hsp] at hl'
          rcases List.mem_append.1 hl' with hx | hx
          · left; right; rw [g1]; exact hsm.1 l' hx
          · rcases List.mem_cons.1 hx with hx | hx
            · left; left; rw [g1, hx]
            · right; exact ⟨l', hx, g1⟩
        have hsorted : Sorted k (l :: ys) := by
          have := hko.sorted; rw [hsp] at this; exact (List.pairwise_append.1 this).2.1
        obtain ⟨s', e1, e2, e3⟩ := ih (s := s1) (some l.price) (ys.head?.map (·.price)) hi (by
            have h1 : levelsLeft s1.book k (some l.price) = ys.length + 1 := by
              simp only [levelsLeft]; rw [hsp, levelsFrom_mid hsm]; simp
            have h2 : levelsLeft s1.book k (ys.head?.map (·.price)) ≤ ys.length := by
              cases ys with
              | nil => simp [levelsLeft]
              | cons y ys =>
                simp only [List.head?_cons, Option.map_some, levelsLeft]
                have hsp' : s1.book.lv k = (xs ++ [l]) ++ y :: ys := by rw [hsp]; simp
                have := sorted_mid (hsp' ▸ hko.sorted)
                rw [hsp', levelsFrom_mid this]; simp
            omega)
          (by
            intro c hc
            cases ys with
            | nil => simp at hc
            | cons y ys =>
              simp at hc; subst hc
              refine ⟨⟨y, by rw [hsp]; simp, rfl⟩, ?_⟩
              intro i o h1 h2 h3
              rcases hpos i o h1 h2 with h | ⟨z, hz, e⟩
              · exact hdb2 i o h1 h2 h
              · rw [e] at h3
                rcases List.mem_cons.1 hz with rfl | hz
                · rw [better_irrefl] at h3; cases h3
                · have := List.rel_of_pairwise_cons (List.Pairwise.of_cons hsorted) hz
                  rw [better_asymm this] at h3; cases h3)
          (by
            intro hc i hiq
            obtain ⟨o, g1, g2, g3⟩ := hi.book.queue_mem hiq
            rcases hpos i o hiq g1 with h | ⟨z, hz, e⟩
            · exact hdb2 i o hiq g1 h
            · cases ys with
              | nil => cases hz
              | cons y ys => simp at hc)
          (by
            intro p hp
            cases hp
            refine ⟨hdb, ?_⟩
            cases hids : l.ids with
            | nil => exact absurd hids (hko.levels l hl).nonempty
            | cons i is =>
              have hil : i ∈ l.ids := by rw [hids]; simp
              obtain ⟨o, g1, _, _, g4⟩ := (hko.levels l hl).mem i hil
              exact ⟨i, o, hlq i hil, g1, g4, b3 i hil⟩)
        exact ⟨s', e1, e2, e3⟩
      · simp only [if_true]
        have hmeas : ∀ cur', dueCount k s1 * ((queue s1.book k).length + 1) + levelsLeft s1.book k cur' < n := by
          intro cur'
          have h1 := levelsLeft_le b2.inv k cur'
          rw [hlen] at h1 ⊢
          have h2 : (dueCount k s1 + 1) * ((queue s.book k).length + 1) ≤ dueCount k s * ((queue s.book k).length + 1) :=
            Nat.mul_le_mul_right _ hlt
          rw [Nat.succ_mul] at h2
          omega
        cases prev with
        | some p =>
          simp only
          obtain ⟨h1, i, o, h2, h3, h4, h5⟩ := hprev p rfl
          have h3' : s1.orders i = some o := by rw [b4 i h5]; exact h3
          have h2' := b2.perm.mem_iff.2 h2
          obtain ⟨s', e1, e2, e3⟩ := ih (s := s1) (some p) (some p) b2.inv (hmeas _) (by
              intro c hc; cases hc
              refine ⟨?_, hdone1 p h1⟩
              obtain ⟨l', hl', hil⟩ := mem_flatOf.1 h2'
              obtain ⟨g1, _, _⟩ := level_price b2.inv hl' hil h3'
              exact ⟨l', hl', by rw [← g1]; exact h4⟩)
            (by intro hc; cases hc)
            (by
              intro c hc; cases hc
              exact ⟨hdone1 p h1, i, o, h2', h3', h4, by rw [unst_congr b2.same hk (b4 i h5)]; exact h5⟩)
          exact ⟨s', e1, b2.trans hk e2, e3⟩
        | none =>
          simp only
          obtain ⟨s', e1, e2, e3⟩ := ih (s := s1) none (s1.book.best k) b2.inv (hmeas _) (by
              intro c hc
              obtain ⟨l', ls', h1, rfl⟩ := b2.inv.best_level hc
              refine ⟨⟨l', by rw [h1]; simp, rfl⟩, ?_⟩
              intro i o g1 g2 g3
              obtain ⟨l2, hl2, hil⟩ := mem_flatOf.1 g1
              obtain ⟨q1, _, _⟩ := level_price b2.inv hl2 hil g2
              have hs1 := (b2.inv.book.kinds k).sorted
              rw [h1] at hl2 hs1
              rw [q1] at g3
              rcases List.mem_cons.1 hl2 with rfl | hx
              · rw [better_irrefl] at g3; cases g3
              · rw [better_asymm (List.rel_of_pairwise_cons hs1 hx)] at g3; cases g3)
            (by
              intro hc i hiq
              have := (b2.inv.book.kinds k).best
              rw [hc] at this
              cases hlv : s1.book.lv k with
              | nil => unfold queue at hiq; rw [hlv] at hiq; cases hiq
              | cons a as => rw [hlv] at this; cases this)
            (by intro p hp; cases hp)
          exact ⟨s', e1, b2.trans hk e2, e3⟩

theorem recalcLoop_start {k : Kind} (hk : k.isTrail = true) {s : Core} (hi : Inv s) :
    ∃ s', recalcLoop k (recalcFuel s.book k) s none (s.book.best k) = .ok s' ∧ RecEff k s s' ∧
      (∀ i ∈ queue s'.book k, unst s' i = false) := by
  refine recalcLoop_ok hk _ none _ hi ?_ ?_ ?_ ?_
  · unfold recalcFuel
    rw [kindCount_eq]
    have h1 := levelsLeft_le hi k (s.book.best k)
    have h2 : dueCount k s ≤ (queue s.book k).length := List.countP_le_length
    have h3 := Nat.mul_le_mul_right ((queue s.book k).length + 1) h2
    generalize (queue s.book k).length = N at *
    have : (N + 1) * (N + 2) = N * (N + 1) + 2 * (N + 1) := by
      rw [Nat.mul_comm N (N+1), Nat.mul_comm 2 (N+1), ← Nat.mul_add]
    omega
  · intro c hc
    obtain ⟨l', ls', h1, rfl⟩ := hi.best_level hc
    refine ⟨⟨l', by rw [h1]; simp, rfl⟩, ?_⟩
    intro i o g1 g2 g3
    obtain ⟨l2, hl2, hil⟩ := mem_flatOf.1 g1
    obtain ⟨q1, _, _⟩ := level_price hi hl2 hil g2
    have hs1 := (hi.book.kinds k).sorted
    rw [h1] at hl2 hs1
    rw [q1] at g3
    rcases List.mem_cons.1 hl2 with rfl | hx
    · rw [better_irrefl] at g3; cases g3
    · rw [better_asymm (List.rel_of_pairwise_cons hs1 hx)] at g3; cases g3
  · intro hc i hiq
    have := (hi.book.kinds k).best
    rw [hc] at this
    cases hlv : s.book.lv k with
    | nil => unfold queue at hiq; rw [hlv] at hiq; cases hiq
    | cons a as => rw [hlv] at this; cases this
  · intro p hp; cases hp

theorem recEff_mark {k : Kind} {s : Core} (hi : Inv s) (tb ta : Nat) :
    RecEff k s { s with book := { s.book with trailBid := tb, trailAsk := ta } } := by
  have st : Step .mark s none { s with book := { s.book with trailBid := tb, trailAsk := ta } } none := .mark
  exact ⟨.one (show EngL .mark from trivial) st, (st.inv (CInv.none_iff.2 hi)).inv,
    ⟨rfl, fun _ _ => rfl, fun _ _ => rfl, rfl, rfl, rfl, rfl⟩, rfl, .refl _, fun _ _ => rfl, fun _ _ h => .inl h⟩

theorem recalcBuy_ok {s : Core} (hi : Inv s) : ∃ s', s.recalcBuy = .ok s' ∧ RecEff .tBuyStop s s' := by
  unfold recalcBuy
  cases hb : s.book.best .ask with
  | none => exact ⟨s, rfl, .refl hi⟩
  | some a =>
    simp only
    have hm := recEff_mark (k := .tBuyStop) hi s.book.trailBid s.book.marketTrailAsk
    by_cases hc : s.book.marketTrailAsk ≥ s.book.trailAsk
    · simp only [hc, if_true]; exact ⟨_, rfl, hm⟩
    · simp only [hc, if_false]
      obtain ⟨s', e1, e2, _⟩ := recalcLoop_start (k := .tBuyStop) rfl hm.inv
      exact ⟨s', e1, hm.trans rfl e2⟩

theorem recalcSell_ok {s : Core} (hi : Inv s) : ∃ s', s.recalcSell = .ok s' ∧ RecEff .tSellStop s s' := by
  unfold recalcSell
  cases hb : s.book.best .bid with
  | none => exact ⟨s, rfl, .refl hi⟩
  | some a =>
    simp only
    have hm := recEff_mark (k := .tSellStop) hi s.book.marketTrailBid s.book.trailAsk
    by_cases hc : s.book.marketTrailBid ≤ s.book.trailBid
    · simp only [hc, if_true]; exact ⟨_, rfl, hm⟩
    · simp only [hc, if_false]
      obtain ⟨s', e1, e2, _⟩ := recalcLoop_start (k := .tSellStop) rfl hm.inv
      exact ⟨s', e1, hm.trans rfl e2⟩

end CppTrader
