import Verif.Proof.Recalc
/-
`ActivateStopOrders(book)` and `Match(book)`: totality, termination and postconditions.
-/

namespace CppTrader
open Core

/-- Effect of a part of the matching engine. -/
structure EngEff (s s' : Core) : Prop where
  steps : Steps EngL s none s' none
  inv : Inv s'
  vol : volume s'.book ≤ volume s.book
  stops : stopCount s'.book ≤ stopCount s.book

theorem EngEff.refl {s} (hi : Inv s) : EngEff s s := ⟨.refl _ _, hi, Nat.le_refl _, Nat.le_refl _⟩
theorem EngEff.trans {s s1 s2} (h : EngEff s s1) (h' : EngEff s1 s2) : EngEff s s2 :=
  ⟨h.steps.trans h'.steps, h'.inv, Nat.le_trans h'.vol h.vol, Nat.le_trans h'.stops h.stops⟩

theorem RecEff.stopCount {k s s'} (h : RecEff k s s') (hk : k.isTrail = true) : stopCount s'.book = stopCount s.book := by
  have := stopCount_fr (b := s.book) (b' := s'.book) (isTrail_notLimit hk) (h.same.fr.mono fun k' e => e.2)
  have := h.perm.length_eq
  omega

theorem RecEff.eng {k s s'} (h : RecEff k s s') (hk : k.isTrail = true) : EngEff s s' :=
  ⟨h.steps, h.inv, Nat.le_of_eq h.vol, Nat.le_of_eq (h.stopCount hk)⟩

theorem activateLevel_eng {s : Core} {k : Kind} (p : Nat) (hi : Inv s) (hk : k.isLimit = false)
    (htrp : p = if k.isBidType then s.book.marketBid else s.book.marketAsk) :
    ∃ s' r, s.activateLevel k p = .ok (s', r) ∧ EngEff s s' ∧ (r = false → s' = s ∧ NoTrig k s.book) ∧
      (r = true → stopCount s'.book < stopCount s.book) := by
  obtain ⟨s', r, e1, e2, e3, e4⟩ := activateLevel_ok p hi hk htrp
  refine ⟨s', r, e1, ⟨e2.steps, e2.inv, e2.vol, ?_⟩, e3, e4⟩
  cases r with
  | false => rw [(e3 rfl).1]; exact Nat.le_refl _
  | true => exact Nat.le_of_lt (e4 rfl)

theorem activateEither_ok {s : Core} {k1 k2 : Kind} {f : Book → Nat} (hi : Inv s)
    (h1 : k1.isLimit = false) (h2 : k2.isLimit = false)
    (hf1 : ∀ b : Book, f b = if k1.isBidType then b.marketBid else b.marketAsk)
    (hf2 : ∀ b : Book, f b = if k2.isBidType then b.marketBid else b.marketAsk) :
    ∃ s' r, s.activateEither k1 k2 f = .ok (s', r) ∧ EngEff s s' ∧
      (r = false → s' = s ∧ NoTrig k1 s.book ∧ NoTrig k2 s.book) ∧
      (r = true → stopCount s'.book < stopCount s.book) := by
  obtain ⟨s1, r1, a1, a2, a3, a4⟩ := activateLevel_eng (f s.book) hi h1 (hf1 _)
  unfold activateEither
  rw [a1, Except.bind_ok]
  cases r1 with
  | true => exact ⟨s1, true, rfl, a2, by simp, a4⟩
  | false =>
    obtain ⟨rfl, a5⟩ := a3 rfl
    obtain ⟨s2, r2, b1, b2, b3, b4⟩ := activateLevel_eng (f s1.book) hi h2 (hf2 _)
    simp only [Bool.false_eq_true, if_false]
    exact ⟨s2, r2, b1, b2, fun h => ⟨(b3 h).1, a5, (b3 h).2⟩, b4⟩

/-- The stop orders are settled: no stop order is triggered by the market prices, and trailing stop
orders are not on the wrong side of them. -/
structure Settled (b : Book) : Prop where
  buyStop : NoTrig .buyStop b
  sellStop : NoTrig .sellStop b
  tBuyStop : ∀ p, b.best .tBuyStop = some p → b.marketAsk ≤ p
  tSellStop : ∀ p, b.best .tSellStop = some p → p ≤ b.marketBid

/-- The limit side of the book and its prices are unchanged. -/
structure Quiet (b b' : Book) : Prop where
  lv : ∀ k, k.isLimit = true → b'.lv k = b.lv k
  best : ∀ k, k.isLimit = true → b'.best k = b.best k

theorem Quiet.refl (b) : Quiet b b := ⟨fun _ _ => rfl, fun _ _ => rfl⟩
theorem Quiet.trans {b b1 b2} (h : Quiet b b1) (h' : Quiet b1 b2) : Quiet b b2 :=
  ⟨fun k e => (h'.lv k e).trans (h.lv k e), fun k e => (h'.best k e).trans (h.best k e)⟩
theorem SameTr.quiet {k b b'} (h : SameTr k b b') (hk : k.isTrail = true) : Quiet b b' :=
  ⟨fun k' e => h.lv k' (SameTr.ne hk e), fun k' e => h.best k' (SameTr.ne hk e)⟩

theorem SameTr.noTrig {k k' b b'} (h : SameTr k b b') (hk : k.isTrail = true) (hne : k' ≠ k) (hn : NoTrig k' b) :
    NoTrig k' b' := by
  intro p hp
  rw [h.best k' hne] at hp
  rw [h.marketAsk hk, h.marketBid hk]
  exact hn p hp

theorem marketAsk_le_trail (b : Book) : b.marketAsk ≤ min b.marketTrailAsk MAX64 ∨ b.best .ask = none ∨ ∃ p, b.best .ask = some p ∧ MAX64 < p := by
  unfold Book.marketAsk Book.marketTrailAsk
  cases hb : b.best .ask with
  | none => right; left; rfl
  | some p =>
    by_cases h : MAX64 < p
    · right; right; exact ⟨p, rfl, h⟩
    · left; simp; omega

/-- A moved trailing order does not cross the market. -/
theorem RecEff.best_buy {s s' : Core} (h : RecEff .tBuyStop s s') (hi : Inv s) (hn : NoTrig .tBuyStop s.book)
    {p} (hb : s'.book.best .tBuyStop = some p) : s'.book.marketAsk ≤ p := by
  rw [h.same.marketAsk rfl]
  obtain ⟨l, ls, hlv, rfl⟩ := h.inv.best_level hb
  have hl := (h.inv.book.kinds .tBuyStop).levels l (by rw [hlv]; simp)
  cases hids : l.ids with
  | nil => exact absurd hids hl.nonempty
  | cons i is =>
    have hil : i ∈ l.ids := by rw [hids]; simp
    obtain ⟨o, g1, g2, g3, g4⟩ := hl.mem i hil
    have hq : i ∈ queue s'.book .tBuyStop := mem_flatOf.2 ⟨l, by rw [hlv]; simp, hil⟩
    have hst : o.stopPrice = l.price := by
      rw [← g4]; unfold Order.key; split
      · rename_i e; have := (kind_type g3).2 e; cases this
      · rename_i e; simp [Order.kind, e] at g3
      · rfl
    rcases h.moved i o g1 with e | ⟨e, _⟩
    · obtain ⟨l2, hl2, hil2⟩ := mem_flatOf.1 (h.perm.mem_iff.1 hq)
      obtain ⟨k1, _, _⟩ := level_price hi hl2 hil2 e
      cases hlv2 : s.book.lv .tBuyStop with
      | nil => rw [hlv2] at hl2; cases hl2
      | cons l0 ls0 =>
        have hb0 := (hi.book.kinds .tBuyStop).best
        rw [hlv2] at hb0 hl2
        have := hn _ hb0
        simp only [Kind.isBidType, Bool.false_eq_true, if_false] at this
        have hs := (hi.book.kinds .tBuyStop).sorted
        rw [hlv2] at hs
        rw [← g4, k1]
        rcases List.mem_cons.1 hl2 with rfl | hx
        · omega
        · have := List.rel_of_pairwise_cons hs hx
          simp [Kind.better, Kind.isBidType] at this; omega
    · simp only [BehindMarket, Kind.isBidType, Bool.false_eq_true, if_false] at e
      rw [hst] at e
      have hlt : ∀ p, s.book.best .ask = some p → p ≤ MAX64 := fun p hp => by have := hi.best_lt hp; omega
      unfold Book.marketTrailAsk at e
      unfold Book.marketAsk
      cases hba : s.book.best .ask with
      | none => simp [hba] at e ⊢; omega
      | some a => have := hlt a hba; simp [hba] at e ⊢; omega

theorem RecEff.best_sell {s s' : Core} (h : RecEff .tSellStop s s') (hi : Inv s) (hn : NoTrig .tSellStop s.book)
    {p} (hb : s'.book.best .tSellStop = some p) : p ≤ s'.book.marketBid := by
  rw [h.same.marketBid rfl]
  obtain ⟨l, ls, hlv, rfl⟩ := h.inv.best_level hb
  have hl := (h.inv.book.kinds .tSellStop).levels l (by rw [hlv]; simp)
  cases hids : l.ids with
  | nil => exact absurd hids hl.nonempty
  | cons i is =>
    have hil : i ∈ l.ids := by rw [hids]; simp
    obtain ⟨o, g1, g2, g3, g4⟩ := hl.mem i hil
    have hq : i ∈ queue s'.book .tSellStop := mem_flatOf.2 ⟨l, by rw [hlv]; simp, hil⟩
    have hst : o.stopPrice = l.price := by
      rw [← g4]; unfold Order.key; split
      · rename_i e; have := (kind_type g3).2 e; cases this
      · rename_i e; simp [Order.kind, e] at g3
      · rfl
    rcases h.moved i o g1 with e | ⟨e, _⟩
    · obtain ⟨l2, hl2, hil2⟩ := mem_flatOf.1 (h.perm.mem_iff.1 hq)
      obtain ⟨k1, _, _⟩ := level_price hi hl2 hil2 e
      cases hlv2 : s.book.lv .tSellStop with
      | nil => rw [hlv2] at hl2; cases hl2
      | cons l0 ls0 =>
        have hb0 := (hi.book.kinds .tSellStop).best
        rw [hlv2] at hb0 hl2
        have := hn _ hb0
        simp only [Kind.isBidType, if_true] at this
        have hs := (hi.book.kinds .tSellStop).sorted
        rw [hlv2] at hs
        rw [← g4, k1]
        rcases List.mem_cons.1 hl2 with rfl | hx
        · omega
        · have := List.rel_of_pairwise_cons hs hx
          simp [Kind.better, Kind.isBidType] at this; omega
    · simp only [BehindMarket, Kind.isBidType, if_true] at e
      rw [hst] at e
      unfold Book.marketTrailBid at e
      unfold Book.marketBid
      omega

theorem activateLoop_ok (n : Nat) : ∀ {s : Core} (res : Bool), Inv s → stopCount s.book < n →
    ∃ s' r, activateLoop n s res = .ok (s', r) ∧ EngEff s s' ∧ Settled s'.book ∧
      (r = false → res = false ∧ Quiet s.book s'.book) ∧
      (r = true → res = true ∨ stopCount s'.book < stopCount s.book) := by
  induction n with
  | zero => intro s _ _ h; omega
  | succ n ih =>
    intro s res hi hn
    obtain ⟨s1, r1, a1, a2, a3, a4⟩ := activateEither_ok (s := s) (k1 := .buyStop) (k2 := .tBuyStop) (f := Book.marketAsk)
      hi rfl rfl (fun _ => rfl) (fun _ => rfl)
    obtain ⟨s2, b1, b2⟩ := recalcBuy_ok a2.inv
    obtain ⟨s3, r3, c1, c2, c3, c4⟩ := activateEither_ok (s := s2) (k1 := .sellStop) (k2 := .tSellStop) (f := Book.marketBid)
      b2.inv rfl rfl (fun _ => rfl) (fun _ => rfl)
    obtain ⟨s4, d1, d2⟩ := recalcSell_ok c2.inv
    have hb := b2.stopCount rfl
    have hd := d2.stopCount rfl
    have he : EngEff s s4 := ((a2.trans (b2.eng rfl)).trans c2).trans (d2.eng rfl)
    unfold activateLoop
    simp only [a1, Except.bind_ok, b1, c1, d1]
    by_cases hr : (r1 || r3) = true
    · simp only [hr, if_true]
      have hlt : stopCount s4.book < stopCount s.book := by
        rcases Bool.or_eq_true _ _ ▸ hr with h | h
        · have := a4 h; have := c2.stops; omega
        · have := c4 h; have := a2.stops; omega
      obtain ⟨s', r, e1, e2, e3, e4, e5⟩ := ih (s := s4) true d2.inv (by omega)
      refine ⟨s', r, e1, he.trans e2, e3, ?_, ?_⟩
      · intro h; have := (e4 h).1; cases this
      · intro _; right; have := e2.stops; omega
    · simp only [hr, Bool.false_eq_true, if_false]
      have h1 : r1 = false := by cases r1 <;> simp at hr ⊢
      have h3 : r3 = false := by cases r3 <;> simp_all
      obtain ⟨rfl, n1, n2⟩ := a3 h1
      obtain ⟨rfl, n3, n4⟩ := c3 h3
      refine ⟨s4, res, rfl, he, ⟨?_, ?_, ?_, ?_⟩, ?_, fun h => .inl h⟩
      · exact d2.same.noTrig rfl (by simp) (b2.same.noTrig rfl (by simp) n1)
      · exact d2.same.noTrig rfl (by simp) n3
      · intro p hp
        rw [d2.same.marketAsk rfl]
        rw [d2.same.best .tBuyStop (by simp)] at hp
        exact b2.best_buy hi n2 hp
      · intro p hp
        exact d2.best_sell b2.inv n4 hp
      · intro h
        exact ⟨h, (b2.same.quiet rfl).trans (d2.same.quiet rfl)⟩

theorem activateAll_ok {s : Core} (hi : Inv s) :
    ∃ s' r, s.activateAll = .ok (s', r) ∧ EngEff s s' ∧ Settled s'.book ∧ (r = false → Quiet s.book s'.book) ∧
      (r = true → stopCount s'.book < stopCount s.book) := by
  obtain ⟨s', r, h1, h2, h3, h4, h5⟩ := activateLoop_ok (stopCount s.book + 1) false hi (by omega)
  exact ⟨s', r, h1, h2, h3, fun h => (h4 h).2, fun h => (h5 h).resolve_left (by simp)⟩

/-! ### Pairs of resting orders -/

/-- An order on the best level of a side. -/
def AtPrice (s : Core) (sd : Side) (p i : Nat) : Prop :=
  ∃ o, s.orders i = some o ∧ o.symbolId = s.book.symbol.id ∧ o.type = .limit ∧ o.side = sd ∧ o.price = p

/-- A live All-Or-None limit order. -/
def HasAON (s : Core) : Prop :=
  ∃ i o, s.orders i = some o ∧ o.symbolId = s.book.symbol.id ∧ o.type = .limit ∧ o.isAON = true

structure PairEff (s s' : Core) : Prop where
  steps : Steps EngL s none s' none
  inv : Inv s'
  fr : Fr (fun k => k.isLimit = false) s.book s'.book

theorem Fr.stopCount {b b'} (h : Fr (fun k => k.isLimit = false) b b') : stopCount b' = stopCount b := by
  rw [stopCount_eq, stopCount_eq, h.queue rfl, h.queue rfl, h.queue rfl, h.queue rfl]

theorem Fill.frLimit {s o p q s'} (f : Fill s o p q s') (hi : Inv s) : Fr (fun k => k.isLimit = false) s.book s'.book :=
  (f.eff hi).same.fr.mono fun k hk e => by rw [e, isLimit_limKind] at hk; cases hk

theorem matchPair_ok {s : Core} {bid ask bp ap : Nat} {b a : Order} (hi : Inv s)
    (hb : s.orders bid = some b) (hbs : b.symbolId = s.book.symbol.id) (hbl : b.type = .limit) (hbd : b.side = .buy) (hbp : b.price = bp)
    (ha : s.orders ask = some a) (has : a.symbolId = s.book.symbol.id) (hal : a.type = .limit) (had : a.side = .sell) (hap : a.price = ap)
    (hx : ap ≤ bp) (hba : b.isAON = false) (haa : a.isAON = false) :
    ∃ s', s.matchPair bid ask = .ok s' ∧ PairEff s s' ∧ volume s'.book < volume s.book ∧
      ∀ i, i ≠ bid → i ≠ ask → s'.orders i = s.orders i := by
  have main : ∀ e r : Order, s.orders e.id = some e → e.symbolId = s.book.symbol.id → e.type = .limit →
      s.orders r.id = some r → r.symbolId = s.book.symbol.id → r.type = .limit → e.side ≠ r.side → e.isAON = false →
      r.isAON = false → e.leaves ≤ r.leaves →
      (∀ b a, (b = e ∧ a = r ∨ b = r ∧ a = e) → b.side = .buy → a.price ≤ b.price) →
      ∃ s', (do
        let s ← s.execResting e.id e.price e.leaves
        let s ← s.deleteRec e.id
        let s ← s.execResting r.id e.price e.leaves
        s.reduceRec r.id e.leaves : Except Err Core) = .ok s' ∧ PairEff s s' ∧ volume s'.book < volume s.book ∧
      ∀ i, i ≠ e.id → i ≠ r.id → s'.orders i = s.orders i := by
    intro e r he hes hel hr hrs hrl hne hea hra hle hc
    have heok := (hi.orders _ e he).2
    have hid : e.id ≠ r.id := fun h => by rw [h, hr] at he; cases he; exact hne rfl
    obtain ⟨s1, f1, F1⟩ := hi.fill_del (o := e) (price := e.price) ⟨he, hes, hel, heok.leaves, Nat.le_refl _, fun _ => rfl⟩
    have E1 := F1.eff hi
    have hr1 : s1.orders r.id = some r := by rw [E1.orders, setO_other _ _ (Ne.symm hid)]; exact hr
    obtain ⟨s2, f2, F2⟩ := E1.inv.fill_red (o := r) (price := e.price) (q := e.leaves)
      ⟨hr1, by rw [E1.same.symbol]; exact hrs, hrl, heok.leaves, hle, fun h => by rw [hra] at h; cases h⟩
    have E2 := F2.eff E1.inv
    have st : Step (.pair e r) s none s2 none := .pair F1 F2 hne hid hea hra hc
    refine ⟨s2, ?_, ⟨.one (show EngL (.pair e r) from trivial) st, E2.inv, (F1.frLimit hi).trans (F2.frLimit E1.inv)⟩, ?_, ?_⟩
    · cases g1 : s.execResting e.id e.price e.leaves with
      | error x => unfold Core.execDel at f1; rw [g1] at f1; cases f1
      | ok sa =>
        unfold Core.execDel at f1; rw [g1, Except.bind_ok] at f1
        rw [Except.bind_ok, f1, Except.bind_ok]
        exact f2
    · have h1 := E1.vol; have h2 := E2.vol; have := heok.leaves; omega
    · intro i h1 h2
      rw [E2.orders, setO_other _ _ h2, E1.orders, setO_other _ _ h1]
  have hbi := (hi.orders _ b hb).1
  have hai := (hi.orders _ a ha).1
  unfold matchPair
  simp only [Core.get_ok hb, Core.get_ok ha, Except.bind_ok]
  by_cases hc : b.leaves > a.leaves
  · simp only [hc, if_true]
    obtain ⟨s', e1, e2, e3, e4⟩ := main a b (hai ▸ ha) has hal (hbi ▸ hb) hbs hbl (by rw [had, hbd]; simp) haa hba (by omega) (by
      rintro b' a' (⟨rfl, rfl⟩ | ⟨rfl, rfl⟩) h
      · rw [had] at h; cases h
      · omega)
    exact ⟨s', e1, e2, e3, fun i h1 h2 => e4 i (hai ▸ h2) (hbi ▸ h1)⟩
  · simp only [hc, if_false]
    obtain ⟨s', e1, e2, e3, e4⟩ := main b a (hbi ▸ hb) hbs hbl (hai ▸ ha) has hal (by rw [had, hbd]; simp) hba haa (by omega) (by
      rintro b' a' (⟨rfl, rfl⟩ | ⟨rfl, rfl⟩) h
      · omega
      · rw [had] at h; cases h)
    exact ⟨s', e1, e2, e3, fun i h1 h2 => e4 i (hbi ▸ h1) (hai ▸ h2)⟩

theorem levelsFrom_of {s : Core} {k : Kind} {i : Nat} {o : Order} (hi : Inv s) (ho : s.orders i = some o)
    (hs : o.symbolId = s.book.symbol.id) (hk : o.kind = some k) :
    ∃ xs l ys, s.book.lv k = xs ++ l :: ys ∧ levelsFrom (s.book.lv k) o.key = l :: ys ∧ i ∈ l.ids := by
  obtain ⟨l, hl, hil⟩ := mem_flatOf.1 ((hi.book.queue_iff ho hs k).2 hk)
  obtain ⟨k1, _, _⟩ := level_price hi hl hil ho
  obtain ⟨xs, ys, hsp⟩ := mem_split hl
  refine ⟨xs, l, ys, hsp, ?_, hil⟩
  rw [k1, hsp]
  exact levelsFrom_mid (sorted_mid (hsp ▸ (hi.book.kinds k).sorted))

theorem suffix_props {s : Core} (hi : Inv s) {sd : Side} {xs : List Level} {l ys}
    (h : s.book.lv (limKind sd) = xs ++ l :: ys) :
    (flatOf (l :: ys)).Nodup ∧ ∀ i ∈ flatOf (l :: ys), LimAt s sd i := by
  constructor
  · have := (hi.book.kinds (limKind sd)).nodup
    rw [h, flatOf_append] at this
    exact (List.nodup_append.1 this).2.1
  · intro i hii
    have hq : i ∈ queue s.book (limKind sd) := by
      unfold queue; rw [h, flatOf_append]; exact List.mem_append_right _ hii
    obtain ⟨o, g1, g2, g3⟩ := hi.book.queue_mem hq
    have hl := (kind_type g3).1 (isLimit_limKind sd)
    refine ⟨o, g1, g2, hl, ?_⟩
    have := kind_limit hl
    rw [g3] at this
    revert this; cases sd <;> cases o.side <;> simp [limKind]

theorem Fills.pos {p s xs s'} (h : Fills p s xs s') (hne : xs ≠ []) : 0 < sumQ xs := by
  cases h with
  | nil => exact absurd rfl hne
  | cons f _ =>
    have := f.pre.pos
    simp only [sumQ, List.map_cons, List.sum_cons]; omega

theorem planIds_ne {m : Nat → Option Order} {i is v} (h : m i ≠ none) (hv : v ≠ 0) : (planIds m (i :: is) v).1 ≠ [] := by
  unfold planIds
  cases hm : m i with
  | none => exact absurd hm h
  | some o => simp [hv]

theorem crossRun_ok {s : Core} {sd : Side} {p chain : Nat} {l1 l2 : Level} {xs1 ys1 xs2 ys2 : List Level} (sd' : Side)
    (hsd : sd' ≠ sd) (hi : Inv s)
    (h1 : s.book.lv (limKind sd) = xs1 ++ l1 :: ys1) (h2 : s.book.lv (limKind sd') = xs2 ++ l2 :: ys2)
    (haon : HasAON s) (hc : chain ≠ 0) :
    ∃ s1 s2, execChain p (l1 :: ys1) s chain = .ok s1 ∧ execChain p (l2 :: ys2) s1 chain = .ok s2 ∧
      PairEff s s2 ∧ volume s2.book < volume s.book := by
  obtain ⟨n1, L1⟩ := suffix_props hi h1
  obtain ⟨n2, L2⟩ := suffix_props hi h2
  obtain ⟨s1, e1, F1, E1⟩ := execChain_ok (price := p) (l1 :: ys1) (v := chain) hi n1 L1
  have hdis : ∀ i ∈ flatOf (l2 :: ys2), i ∉ flatOf (l1 :: ys1) := by
    intro i g1 g2
    obtain ⟨o, a1, _, _, a4⟩ := L1 i g2
    obtain ⟨o', b1, _, _, b4⟩ := L2 i g1
    rw [a1] at b1; cases b1; exact hsd (b4.symm.trans a4)
  obtain ⟨s2, e2, F2, E2⟩ := execChain_ok (price := p) (l2 :: ys2) (v := chain) (sd := sd') E1.inv n2 (by
    intro i hii
    obtain ⟨o, a1, a2, a3, a4⟩ := L2 i hii
    exact ⟨o, by rw [E1.others i (hdis i hii)]; exact a1, by rw [E1.same.symbol]; exact a2, a3, a4⟩)
  have hl1 := (hi.book.kinds (limKind sd)).levels l1 (by rw [h1]; simp)
  have hne : (planIds s.orders (flatOf (l1 :: ys1)) chain).1 ≠ [] := by
    cases hids : l1.ids with
    | nil => exact absurd hids hl1.nonempty
    | cons i is =>
      rw [flatOf_cons, hids, List.cons_append]
      refine planIds_ne ?_ hc
      obtain ⟨o, g, _⟩ := hl1.mem i (by rw [hids]; simp)
      rw [g]; simp
  have side1 : ∀ x ∈ (planIds s.orders (flatOf (l1 :: ys1)) chain).1, x.1.side = sd := by
    intro x hx
    obtain ⟨i, g1, g2⟩ := planIds_mem hx
    obtain ⟨o, a1, _, _, a4⟩ := L1 i g1
    rw [g2] at a1; cases a1; exact a4
  have side2 : ∀ x ∈ (planIds s1.orders (flatOf (l2 :: ys2)) chain).1, x.1.side ≠ sd := by
    intro x hx
    obtain ⟨i, g1, g2⟩ := planIds_mem hx
    obtain ⟨o, a1, _, _, a4⟩ := L2 i g1
    rw [E1.others i (hdis i g1)] at g2
    rw [g2] at a1; cases a1; rw [a4]; exact hsd
  have st : Step (.cross p _ _) s none s2 none := .cross F1 F2 hne haon ⟨sd, side1, side2⟩
  refine ⟨s1, s2, e1, e2, ⟨.one (show EngL (.cross p _ _) from trivial) st, E2.inv, ?_⟩, ?_⟩
  · exact (E1.same.fr.mono fun k hk e => by rw [e, isLimit_limKind] at hk; cases hk).trans
      (E2.same.fr.mono fun k hk e => by rw [e, isLimit_limKind] at hk; cases hk)
  · have v1 := (F1.inv hi).2.1
    have v2 := (F2.inv E1.inv).2.1
    have := F1.pos hne
    omega

theorem matchPairs_ok {bp ap : Nat} (hx : ap ≤ bp) (bs : List Nat) : ∀ (as : List Nat) {s : Core}, Inv s →
    bs.Nodup → as.Nodup → (∀ i ∈ bs, AtPrice s .buy bp i) → (∀ i ∈ as, AtPrice s .sell ap i) →
    ∃ s' ret, matchPairs bp ap bs as s = .ok (s', ret) ∧ PairEff s s' ∧ volume s'.book ≤ volume s.book ∧
      (ret = true → HasAON s') ∧ (ret = false → bs ≠ [] → as ≠ [] → volume s'.book < volume s.book) := by
  induction bs with
  | nil =>
    intro as s hi _ _ _ _
    exact ⟨s, false, by simp [matchPairs], ⟨.refl _ _, hi, .refl _ _⟩, Nat.le_refl _, by simp, by simp⟩
  | cons bid bs ih =>
    intro as s hi hbn han hb ha
    cases as with
    | nil => exact ⟨s, false, by simp [matchPairs], ⟨.refl _ _, hi, .refl _ _⟩, Nat.le_refl _, by simp, by simp⟩
    | cons ask as =>
      obtain ⟨b, b1, b2, b3, b4, b5⟩ := hb bid (by simp)
      obtain ⟨a, a1, a2, a3, a4, a5⟩ := ha ask (by simp)
      unfold matchPairs
      simp only [Core.get_ok b1, Core.get_ok a1, Except.bind_ok]
      by_cases haon : (b.isAON || a.isAON) = true
      · simp only [haon, if_true]
        have hA : HasAON s := by
          rcases (Bool.or_eq_true _ _).mp haon with h | h
          · exact ⟨bid, b, b1, b2, b3, h⟩
          · exact ⟨ask, a, a1, a2, a3, h⟩
        obtain ⟨xs1, l1, ys1, c1, c2, c3⟩ := levelsFrom_of hi b1 b2 (k := .bid) (by have := kind_limit b3; rw [b4] at this; exact this)
        obtain ⟨xs2, l2, ys2, d1, d2, d3⟩ := levelsFrom_of hi a1 a2 (k := .ask) (by have := kind_limit a3; rw [a4] at this; exact this)
        rw [limit_key b3, b5] at c2
        rw [limit_key a3, a5] at d2
        rw [c2, d2]
        obtain ⟨n1, L1⟩ := suffix_props (sd := .buy) hi c1
        obtain ⟨n2, L2⟩ := suffix_props (sd := .sell) hi d1
        have g1 : ∃ i is, l1.ids = i :: is := by
          cases h : l1.ids with
          | nil => rw [h] at c3; cases c3
          | cons i is => exact ⟨i, is, rfl⟩
        have g2 : ∃ i is, l2.ids = i :: is := by
          cases h : l2.ids with
          | nil => rw [h] at d3; cases d3
          | cons i is => exact ⟨i, is, rfl⟩
        obtain ⟨i1, is1, g1⟩ := g1
        obtain ⟨i2, is2, g2⟩ := g2
        obtain ⟨chain, hch⟩ := chainCross_ok (s := s) (bids := l1 :: ys1) (asks := l2 :: ys2) (b := i1) (a := i2) (bs := is1) (as := is2)
          g1 g2 (fun i h => by obtain ⟨o, g, _⟩ := L1 i h; rw [g]; simp) (fun i h => by obtain ⟨o, g, _⟩ := L2 i h; rw [g]; simp)
        rw [hch, Except.bind_ok]
        by_cases hz : chain = 0
        · simp only [hz, if_true]
          exact ⟨s, true, rfl, ⟨.refl _ _, hi, .refl _ _⟩, Nat.le_refl _, fun _ => hA, by simp⟩
        · simp only [hz, if_false]
          by_cases hbA : b.isAON = true
          · simp only [hbA, if_true]
            obtain ⟨s1, s2, e1, e2, e3, e4⟩ := crossRun_ok (s := s) (sd := .buy) .sell (by simp) (p := b.price) hi c1 d1 hA hz
            rw [e1, Except.bind_ok, e2, Except.bind_ok]
            exact ⟨s2, false, rfl, e3, Nat.le_of_lt e4, by simp, fun _ _ _ => e4⟩
          · simp only [hbA, Bool.false_eq_true, if_false]
            obtain ⟨s1, s2, e1, e2, e3, e4⟩ := crossRun_ok (s := s) (sd := .sell) .buy (by simp) (p := a.price) hi d1 c1 hA hz
            rw [e1, Except.bind_ok, e2, Except.bind_ok]
            exact ⟨s2, false, rfl, e3, Nat.le_of_lt e4, by simp, fun _ _ _ => e4⟩
      · simp only [haon, Bool.false_eq_true, if_false]
        simp only [Bool.or_eq_true, not_or, Bool.not_eq_true] at haon
        obtain ⟨s1, e1, e2, e3, e4⟩ := matchPair_ok hi b1 b2 b3 b4 b5 a1 a2 a3 a4 a5 hx haon.1 haon.2
        have hne : ∀ i, AtPrice s .buy bp i → i ≠ ask := by
          rintro i ⟨o, h1, _, _, h4, _⟩ rfl; rw [a1] at h1; cases h1; rw [a4] at h4; cases h4
        have hne' : ∀ i, AtPrice s .sell ap i → i ≠ bid := by
          rintro i ⟨o, h1, _, _, h4, _⟩ rfl; rw [b1] at h1; cases h1; rw [b4] at h4; cases h4
        rw [List.nodup_cons] at hbn han
        have keep : ∀ sd p i, AtPrice s sd p i → i ≠ bid → i ≠ ask → AtPrice s1 sd p i := by
          rintro sd p i ⟨o, h1, h2, h3, h4, h5⟩ n1 n2
          exact ⟨o, by rw [e4 i n1 n2]; exact h1, by rw [e2.fr.symbol]; exact h2, h3, h4, h5⟩
        obtain ⟨s2, ret, f1, f2, f3, f4, f5⟩ := ih as (s := s1) e2.inv hbn.2 han.2
          (fun i h => keep _ _ i (hb i (by simp [h])) (fun e => hbn.1 (e ▸ h)) (hne i (hb i (by simp [h]))))
          (fun i h => keep _ _ i (ha i (by simp [h])) (hne' i (ha i (by simp [h]))) (fun e => han.1 (e ▸ h)))
        rw [e1, Except.bind_ok]
        exact ⟨s2, ret, f1, ⟨e2.steps.trans f2.steps, f2.inv, e2.fr.trans f2.fr⟩, by omega, f4, fun _ _ _ => by omega⟩

/-! ### `Match(book)` -/

/-- Best bid below best ask, where both exist. -/
def Uncrossed (b : Book) : Prop := ∀ bp ap, b.best .bid = some bp → b.best .ask = some ap → bp < ap

theorem matchBookN_ok (n : Nat) : ∀ {s : Core}, Inv s → volume s.book + stopCount s.book < n →
    ∃ s', matchBookN n s = .ok s' ∧ EngEff s s' ∧ (HasAON s' ∨ Uncrossed s'.book ∧ Settled s'.book) := by
  induction n with
  | zero => intro s _ h; omega
  | succ n ih =>
    intro s hi hn
    unfold matchBookN
    cases hcr : crossed s.book with
    | none =>
      simp only
      obtain ⟨s1, r, e1, e2, e3, e4, e5⟩ := activateAll_ok hi
      rw [e1, Except.bind_ok]
      cases r with
      | true =>
        simp only [if_true]
        have := e5 rfl
        have := e2.vol
        obtain ⟨s2, f1, f2, f3⟩ := ih e2.inv (by omega)
        exact ⟨s2, f1, e2.trans f2, f3⟩
      | false =>
        simp only [Bool.false_eq_true, if_false]
        refine ⟨s1, rfl, e2, .inr ⟨?_, e3⟩⟩
        have hq := e4 rfl
        intro bp ap hb ha
        rw [hq.best .bid rfl] at hb
        rw [hq.best .ask rfl] at ha
        unfold crossed at hcr
        rw [hb, ha] at hcr
        simp only at hcr
        split at hcr
        · cases hcr
        · omega
    | some c =>
      obtain ⟨bp, ap⟩ := c
      have hcr' : s.book.best .bid = some bp ∧ s.book.best .ask = some ap ∧ ap ≤ bp := by
        unfold crossed at hcr
        split at hcr
        · rename_i x y hb ha
          split at hcr
          · cases hcr; exact ⟨hb, ha, by assumption⟩
          · cases hcr
        · cases hcr
      obtain ⟨hb, ha, hle⟩ := hcr'
      obtain ⟨bl, bls, h1, rfl⟩ := hi.best_level hb
      obtain ⟨al, als, h2, rfl⟩ := hi.best_level ha
      have g1 : findLevel (s.book.lv .bid) bl.price = some bl := by rw [h1]; exact findLevel_head
      have g2 : findLevel (s.book.lv .ask) al.price = some al := by rw [h2]; exact findLevel_head
      simp only [g1, g2]
      have lb := (hi.book.kinds .bid).levels bl (by rw [h1]; simp)
      have la := (hi.book.kinds .ask).levels al (by rw [h2]; simp)
      obtain ⟨s1, ret, e1, e2, e3, e4, e5⟩ := matchPairs_ok hle bl.ids al.ids hi lb.nodup la.nodup (by
          intro i hii
          obtain ⟨o, k1, k2, k3, k4⟩ := lb.mem i hii
          have hl := (kind_type k3).1 rfl
          have hk := kind_limit hl
          rw [k3] at hk
          exact ⟨o, k1, k2, hl, by revert hk; cases o.side <;> simp [limKind], by rw [← k4, limit_key hl]⟩)
        (by
          intro i hii
          obtain ⟨o, k1, k2, k3, k4⟩ := la.mem i hii
          have hl := (kind_type k3).1 rfl
          have hk := kind_limit hl
          rw [k3] at hk
          exact ⟨o, k1, k2, hl, by revert hk; cases o.side <;> simp [limKind], by rw [← k4, limit_key hl]⟩)
      have hsc := e2.fr.stopCount
      have E1 : EngEff s s1 := ⟨e2.steps, e2.inv, e3, Nat.le_of_eq hsc⟩
      rw [e1, Except.bind_ok]
      cases ret with
      | true =>
        simp only [if_true]
        exact ⟨s1, rfl, E1, .inl (e4 rfl)⟩
      | false =>
        simp only [Bool.false_eq_true, if_false]
        have hlt := e5 rfl lb.nonempty la.nonempty
        obtain ⟨s2, r2, f1, f2, _, _⟩ := activateLevel_eng (k := .buyStop) s1.book.marketAsk E1.inv rfl rfl
        obtain ⟨s3, r3, k1, k2, _, _⟩ := activateLevel_eng (k := .sellStop) s2.book.marketBid f2.inv rfl rfl
        rw [f1, Except.bind_ok]
        simp only
        rw [k1, Except.bind_ok]
        simp only
        have := f2.vol; have := f2.stops; have := k2.vol; have := k2.stops
        obtain ⟨s4, m1, m2, m3⟩ := ih k2.inv (by omega)
        exact ⟨s4, m1, ((E1.trans f2).trans k2).trans m2, m3⟩

theorem matchBook_ok {s : Core} (hi : Inv s) :
    ∃ s', s.matchBook = .ok s' ∧ EngEff s s' ∧ (HasAON s' ∨ Uncrossed s'.book ∧ Settled s'.book) := by
  unfold matchBook matchFuel
  exact matchBookN_ok _ hi (by omega)

end CppTrader
