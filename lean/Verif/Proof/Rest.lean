import Verif.Proof.Prices
import Verif.Proof.LandOps
/-
`Match(book)` leaves a book at rest: calling it again changes nothing.
-/

namespace CppTrader
open Core

/-! ### Moving trailing orders keeps the watermarks -/

/-- The same trailing watermarks. -/
def SameMark (b b' : Book) : Prop := b'.trailBid = b.trailBid ∧ b'.trailAsk = b.trailAsk

theorem SameMark.refl (b : Book) : SameMark b b := ⟨rfl, rfl⟩
theorem SameMark.trans {b b1 b2} (h : SameMark b b1) (h' : SameMark b1 b2) : SameMark b b2 :=
  ⟨h'.1.trans h.1, h'.2.trans h.2⟩
theorem Book.SameBut.mark {k b b'} (h : Book.SameBut k b b') : SameMark b b' := ⟨h.trailBid, h.trailAsk⟩

theorem link_mark {s s' : Core} {o : Order} (h : s.link o = .ok s') : SameMark s.book s'.book := by
  unfold link at h
  cases hk : o.kind with
  | none => rw [hk] at h; cases h
  | some k =>
    rw [hk] at h
    have := Except.ok.inj h
    subst this
    have hm := (addOrder_same s.book k o).mark
    cases k.isLimit <;> exact hm

theorem deleteOrder_mark {b b' : Book} {k : Kind} {o : Order} {u} (h : b.deleteOrder k o = .ok (b', u)) : SameMark b b' := by
  unfold Book.deleteOrder at h
  split at h
  · cases h
  · rename_i l hl
    split at h
    · have h := congrArg Prod.fst (Except.ok.inj h)
      subst h
      exact (settle_same _ _ _).mark
    · cases h

theorem unlink_mark {s s' : Core} {o : Order} (h : s.unlink o = .ok s') : SameMark s.book s'.book := by
  unfold unlink at h
  cases hk : o.kind with
  | none => rw [hk] at h; cases h
  | some k =>
    rw [hk] at h
    dsimp only at h
    cases hd : s.book.deleteOrder k o with
    | error e => rw [hd] at h; cases h
    | ok r =>
      obtain ⟨b, u⟩ := r
      rw [hd] at h
      have := Except.ok.inj h
      subst this
      have hm := deleteOrder_mark hd
      cases k.isLimit <;> exact hm

theorem recalcIds_mark : ∀ (ids : List Nat) {s s' : Core} {r r'}, recalcIds ids s r = .ok (s', r') → SameMark s.book s'.book := by
  intro ids
  induction ids with
  | nil => intro s s' r r' h; cases h; exact .refl _
  | cons id ids ih =>
    intro s s' r r' h
    unfold recalcIds at h
    obtain ⟨o, ho, h⟩ := bind_inv h
    dsimp only at h
    split at h
    · obtain ⟨s1, h1, h⟩ := bind_inv h
      obtain ⟨s2, h2, h⟩ := bind_inv h
      have m2 : SameMark s1.book s2.book := link_mark (s := s1.emit _) h2
      exact ((unlink_mark h1).trans m2).trans (ih h)
    · exact ih h

theorem recalcLoop_mark {k : Kind} : ∀ (n : Nat) {s s' : Core} {prev cur}, recalcLoop k n s prev cur = .ok s' → SameMark s.book s'.book := by
  intro n
  induction n with
  | zero => intro s s' prev cur h; cases h
  | succ n ih =>
    intro s s' prev cur h
    cases cur with
    | none => cases h; exact .refl _
    | some c =>
      unfold recalcLoop at h
      dsimp only at h
      split at h
      · cases h
      · obtain ⟨⟨s1, r⟩, h1, h⟩ := bind_inv h
        dsimp only at h
        have m1 := recalcIds_mark _ h1
        split at h
        · exact m1.trans (ih h)
        · exact m1.trans (ih h)

/-- The watermark of the asks is up to date, or there are no asks. -/
def MarkAsk (b : Book) : Prop := b.best .ask = none ∨ b.trailAsk = b.marketTrailAsk
/-- The watermark of the bids is up to date, or there are no bids. -/
def MarkBid (b : Book) : Prop := b.best .bid = none ∨ b.trailBid = b.marketTrailBid

theorem recalcBuy_mark {s s' : Core} (hi : Inv s) (h : s.recalcBuy = .ok s') : MarkAsk s'.book := by
  obtain ⟨s2, e1, e2⟩ := recalcBuy_ok hi
  rw [h] at e1; cases e1
  cases hb : s.book.best .ask with
  | none => left; rw [e2.same.best .ask (by simp)]; exact hb
  | some a =>
    right
    rw [e2.same.marketTrailAsk rfl]
    unfold recalcBuy at h
    rw [hb] at h
    dsimp only at h
    split at h
    · cases h; rfl
    · exact (recalcLoop_mark _ h).2

theorem recalcSell_mark {s s' : Core} (hi : Inv s) (h : s.recalcSell = .ok s') : MarkBid s'.book ∧ s'.book.trailAsk = s.book.trailAsk := by
  obtain ⟨s2, e1, e2⟩ := recalcSell_ok hi
  rw [h] at e1; cases e1
  cases hb : s.book.best .bid with
  | none =>
    refine ⟨?_, ?_⟩
    · left; rw [e2.same.best .bid (by simp)]; exact hb
    · unfold recalcSell at h; rw [hb] at h; cases h; rfl
  | some a =>
    refine ⟨.inr ?_, ?_⟩
    · rw [e2.same.marketTrailBid rfl]
      unfold recalcSell at h
      rw [hb] at h
      dsimp only at h
      split at h
      · cases h; rfl
      · exact (recalcLoop_mark _ h).1
    · unfold recalcSell at h
      rw [hb] at h
      dsimp only at h
      split at h
      · cases h; rfl
      · exact (recalcLoop_mark _ h).2

theorem recalcBuy_rest {s : Core} (h : MarkAsk s.book) : s.recalcBuy = .ok s := by
  unfold recalcBuy
  cases hb : s.book.best .ask with
  | none => rfl
  | some a =>
    have h := h.resolve_left (by rw [hb]; simp)
    dsimp only
    rw [← h, if_pos (Nat.le_refl _)]

theorem recalcSell_rest {s : Core} (h : MarkBid s.book) : s.recalcSell = .ok s := by
  unfold recalcSell
  cases hb : s.book.best .bid with
  | none => rfl
  | some a =>
    have h := h.resolve_left (by rw [hb]; simp)
    dsimp only
    rw [← h, if_pos (Nat.le_refl _)]

/-! ### Books at rest -/

/-- Nothing to do for `Match`. -/
structure AtRest (s : Core) : Prop where
  apart : crossed s.book = none
  calm : ∀ k, k.isLimit = false → NoTrig k s.book
  ask : MarkAsk s.book
  bid : MarkBid s.book

theorem activateLevel_rest {s : Core} {k : Kind} {p : Nat} (hn : NoTrig k s.book)
    (htrp : p = if k.isBidType then s.book.marketBid else s.book.marketAsk) : s.activateLevel k p = .ok (s, false) := by
  unfold activateLevel
  cases hb : s.book.best k with
  | none => rfl
  | some q =>
    have := hn q hb
    dsimp only
    rw [if_neg]
    subst htrp
    cases hk : k.isBidType <;> simp [hk] at this ⊢ <;> omega

theorem AtRest.activateAll {s : Core} (h : AtRest s) : s.activateAll = .ok (s, false) := by
  have e1 : s.activateEither .buyStop .tBuyStop Book.marketAsk = .ok (s, false) := by
    unfold activateEither
    rw [activateLevel_rest (p := s.book.marketAsk) (h.calm .buyStop rfl) rfl, Except.bind_ok]
    exact activateLevel_rest (p := s.book.marketAsk) (h.calm .tBuyStop rfl) rfl
  have e2 : s.activateEither .sellStop .tSellStop Book.marketBid = .ok (s, false) := by
    unfold activateEither
    rw [activateLevel_rest (p := s.book.marketBid) (h.calm .sellStop rfl) rfl, Except.bind_ok]
    exact activateLevel_rest (p := s.book.marketBid) (h.calm .tSellStop rfl) rfl
  unfold Core.activateAll activateLoop
  simp only [e1, Except.bind_ok, recalcBuy_rest h.ask, e2, recalcSell_rest h.bid]
  rfl

theorem AtRest.matchBook {s : Core} (h : AtRest s) : s.matchBook = .ok s := by
  unfold Core.matchBook matchFuel matchBookN
  simp only [h.apart, h.activateAll, Except.bind_ok]
  rfl

/-! ### `Match` brings a book to rest -/

theorem trail_key {o : Order} {k : Kind} (hk : k.isTrail = true) (hko : o.kind = some k) : o.key = o.stopPrice := by
  unfold Order.key; split
  · rename_i e; have := (kind_type hko).2 e; rw [isTrail_notLimit hk] at this; cases this
  · rename_i e; simp [Order.kind, e] at hko
  · rfl

theorem marketAsk_le_trailAsk (b : Book) : b.marketAsk ≤ b.marketTrailAsk := by
  unfold Book.marketAsk Book.marketTrailAsk; omega
theorem marketTrailBid_le_bid (b : Book) : b.marketTrailBid ≤ b.marketBid := by
  unfold Book.marketBid Book.marketTrailBid; omega

/-- Moving trailing orders that follow at an absolute distance triggers none of them. -/
theorem RecEff.calm {k : Kind} {s s' : Core} (hk : k.isTrail = true) (h : RecEff k s s') (hi : Inv s) (hn : NoTrig k s.book)
    (hd : ∀ i o, i ∈ queue s'.book k → s'.orders i = some o → 0 < o.trailDist) : NoTrig k s'.book := by
  intro p hb
  rw [h.same.marketAsk hk, h.same.marketBid hk]
  obtain ⟨l, ls, hlv, rfl⟩ := h.inv.best_level hb
  have hl := (h.inv.book.kinds k).levels l (by rw [hlv]; simp)
  cases hids : l.ids with
  | nil => exact absurd hids hl.nonempty
  | cons i is =>
    have hil : i ∈ l.ids := by rw [hids]; simp
    obtain ⟨o, g1, g2, g3, g4⟩ := hl.mem i hil
    have hq : i ∈ queue s'.book k := mem_flatOf.2 ⟨l, by rw [hlv]; simp, hil⟩
    have hst : o.stopPrice = l.price := by rw [← g4]; exact (trail_key hk g3).symm
    have hm1 := marketAsk_le_trailAsk s.book
    have hm2 := marketTrailBid_le_bid s.book
    rcases h.moved i o g1 with e | ⟨_, e⟩
    · obtain ⟨l2, hl2, hil2⟩ := mem_flatOf.1 (h.perm.mem_iff.1 hq)
      obtain ⟨k1, _, _⟩ := level_price hi hl2 hil2 e
      cases hlv2 : s.book.lv k with
      | nil => rw [hlv2] at hl2; cases hl2
      | cons l0 ls0 =>
        have hb0 := (hi.book.kinds k).best
        rw [hlv2] at hb0 hl2
        have h0 := hn _ hb0
        have hs := (hi.book.kinds k).sorted
        rw [hlv2] at hs
        rw [← g4, k1]
        rcases List.mem_cons.1 hl2 with rfl | hx
        · exact h0
        · have := List.rel_of_pairwise_cons hs hx
          unfold Kind.better at this
          cases hkb : k.isBidType <;> simp [hkb] at this h0 ⊢ <;> omega
    · have e := e (hd i o hq g1)
      rw [hst] at e
      cases hkb : k.isBidType <;> simp [hkb] at e ⊢ <;> omega

/-- Every trailing order follows the market at an absolute distance. -/
def Afar (s : Core) : Prop := ∀ i o, s.orders i = some o → o.symbolId = s.book.symbol.id → o.isTrailing = true → 0 < o.trailDist

theorem queue_trailing {s : Core} (hi : Inv s) {k : Kind} (hk : k.isTrail = true) {i : Nat} {o : Order} (hq : i ∈ queue s.book k)
    (ho : s.orders i = some o) : o.symbolId = s.book.symbol.id ∧ o.isTrailing = true ∧ o.kind = some k := by
  obtain ⟨o', h1, h2, h3⟩ := hi.book.queue_mem hq
  rw [ho] at h1; cases h1
  exact ⟨h2, kind_trailing h3 hk, h3⟩

theorem activateAll_rest {s s' : Core} (hi : Inv s) (hc : crossed s.book = none) (run : s.activateAll = .ok (s', false))
    (haf : Afar s') : AtRest s' := by
  obtain ⟨s1, r1, a1, a2, a3, a4⟩ := activateEither_ok (s := s) (k1 := .buyStop) (k2 := .tBuyStop) (f := Book.marketAsk)
    hi rfl rfl (fun _ => rfl) (fun _ => rfl)
  obtain ⟨s2, b1, b2⟩ := recalcBuy_ok a2.inv
  obtain ⟨s3, r3, c1, c2, c3, c4⟩ := activateEither_ok (s := s2) (k1 := .sellStop) (k2 := .tSellStop) (f := Book.marketBid)
    b2.inv rfl rfl (fun _ => rfl) (fun _ => rfl)
  obtain ⟨s4, d1, d2⟩ := recalcSell_ok c2.inv
  have hb := b2.stopCount rfl
  have hd := d2.stopCount rfl
  unfold Core.activateAll activateLoop at run
  simp only [a1, Except.bind_ok, b1, c1, d1] at run
  by_cases hr : (r1 || r3) = true
  · simp only [hr, if_true] at run
    have hlt : stopCount s4.book < stopCount s.book := by
      rcases Bool.or_eq_true _ _ ▸ hr with h | h
      · have := a4 h; have := c2.stops; omega
      · have := c4 h; have := a2.stops; omega
    obtain ⟨s', r, e1, _, _, e4, _⟩ := activateLoop_ok (stopCount s.book) (s := s4) true d2.inv hlt
    rw [run] at e1
    cases e1
    have := (e4 rfl).1; cases this
  · simp only [hr, Bool.false_eq_true, if_false] at run
    cases run
    have h1 : r1 = false := by cases r1 <;> simp at hr ⊢
    have h3 : r3 = false := by cases r3 <;> simp_all
    obtain ⟨rfl, n1, n2⟩ := a3 h1
    obtain ⟨rfl, n3, n4⟩ := c3 h3
    have hst : s'.book.symbol = s1.book.symbol := d2.same.symbol.trans b2.same.symbol
    have keepBuy : ∀ i, i ∈ queue s3.book .tBuyStop → s'.orders i = s3.orders i := by
      intro i hq
      refine d2.keep i fun hq' => ?_
      obtain ⟨o, g1, _, g3⟩ := b2.inv.book.queue_mem hq
      obtain ⟨o', g1', _, g3'⟩ := b2.inv.book.queue_mem hq'
      rw [g1] at g1'; cases g1'; rw [g3] at g3'; cases g3'
    refine ⟨?_, ?_, ?_, ?_⟩
    · have q : Quiet s1.book s'.book := (b2.same.quiet rfl).trans (d2.same.quiet rfl)
      unfold crossed at hc ⊢
      rw [q.best .bid rfl, q.best .ask rfl]; exact hc
    · intro k hk
      cases k with
      | bid => cases hk
      | ask => cases hk
      | buyStop => exact d2.same.noTrig rfl (by simp) (b2.same.noTrig rfl (by simp) n1)
      | sellStop => exact d2.same.noTrig rfl (by simp) n3
      | tBuyStop =>
        refine d2.same.noTrig rfl (by simp) (b2.calm rfl hi n2 ?_)
        intro i o hq ho
        obtain ⟨h2, h3, _⟩ := queue_trailing b2.inv rfl hq ho
        exact haf i o (by rw [keepBuy i hq]; exact ho) (by rw [d2.same.symbol]; exact h2) h3
      | tSellStop =>
        refine d2.calm rfl b2.inv n4 ?_
        intro i o hq ho
        obtain ⟨h2, h3, _⟩ := queue_trailing d2.inv rfl hq ho
        exact haf i o ho h2 h3
    · have hm := recalcBuy_mark hi b1
      unfold MarkAsk
      rw [d2.same.best .ask (by simp), d2.same.marketTrailAsk rfl, (recalcSell_mark b2.inv d1).2]
      exact hm
    · exact (recalcSell_mark b2.inv d1).1

theorem matchBookN_rest (n : Nat) : ∀ {s s' : Core}, Inv s → volume s.book + stopCount s.book < n → matchBookN n s = .ok s' →
    ¬ HasAON s' → Afar s' → AtRest s' := by
  induction n with
  | zero => intro s _ _ h; omega
  | succ n ih =>
    intro s s' hi hn run hna haf
    unfold matchBookN at run
    cases hcr : crossed s.book with
    | none =>
      simp only [hcr] at run
      obtain ⟨s1, r, e1, e2, e3, e4, e5⟩ := activateAll_ok hi
      rw [e1, Except.bind_ok] at run
      cases r with
      | true =>
        simp only [if_true] at run
        have := e5 rfl
        have := e2.vol
        exact ih e2.inv (by omega) run hna haf
      | false =>
        simp only [Bool.false_eq_true, if_false] at run
        cases run
        exact activateAll_rest hi hcr e1 haf
    | some c =>
      obtain ⟨bp, ap⟩ := c
      have hcr' : s.book.best .bid = some bp ∧ s.book.best .ask = some ap ∧ ap ≤ bp := by
        unfold crossed at hcr
        split at hcr
        · rename_i x y hb ha
          split at hcr
          · cases hcr; exact ⟨hb, ha, by assumption⟩
          · cases hcr
        · cases hcr
      obtain ⟨hb, ha, hle⟩ := hcr'
      obtain ⟨bl, bls, h1, rfl⟩ := hi.best_level hb
      obtain ⟨al, als, h2, rfl⟩ := hi.best_level ha
      have g1 : findLevel (s.book.lv .bid) bl.price = some bl := by rw [h1]; exact findLevel_head
      have g2 : findLevel (s.book.lv .ask) al.price = some al := by rw [h2]; exact findLevel_head
      simp only [hcr, g1, g2] at run
      have lb := (hi.book.kinds .bid).levels bl (by rw [h1]; simp)
      have la := (hi.book.kinds .ask).levels al (by rw [h2]; simp)
      obtain ⟨s1, ret, e1, e2, e3, e4, e5⟩ := matchPairs_ok hle bl.ids al.ids hi lb.nodup la.nodup (by
          intro i hii
          obtain ⟨o, k1, k2, k3, k4⟩ := lb.mem i hii
          have hl := (kind_type k3).1 rfl
          have hk := kind_limit hl
          rw [k3] at hk
          exact ⟨o, k1, k2, hl, by revert hk; cases o.side <;> simp [limKind], by rw [← k4, limit_key hl]⟩)
        (by
          intro i hii
          obtain ⟨o, k1, k2, k3, k4⟩ := la.mem i hii
          have hl := (kind_type k3).1 rfl
          have hk := kind_limit hl
          rw [k3] at hk
          exact ⟨o, k1, k2, hl, by revert hk; cases o.side <;> simp [limKind], by rw [← k4, limit_key hl]⟩)
      have hsc := e2.fr.stopCount
      have E1 : EngEff s s1 := ⟨e2.steps, e2.inv, e3, Nat.le_of_eq hsc⟩
      rw [e1, Except.bind_ok] at run
      cases ret with
      | true =>
        simp only [if_true] at run
        cases run
        exact absurd (e4 rfl) hna
      | false =>
        simp only [Bool.false_eq_true, if_false] at run
        have hlt := e5 rfl lb.nonempty la.nonempty
        obtain ⟨s2, r2, f1, f2, _, _⟩ := activateLevel_eng (k := .buyStop) s1.book.marketAsk E1.inv rfl rfl
        obtain ⟨s3, r3, k1, k2, _, _⟩ := activateLevel_eng (k := .sellStop) s2.book.marketBid f2.inv rfl rfl
        rw [f1, Except.bind_ok] at run
        simp only at run
        rw [k1, Except.bind_ok] at run
        simp only at run
        have := f2.vol; have := f2.stops; have := k2.vol; have := k2.stops
        exact ih k2.inv (by omega) run hna haf

theorem matchBook_rest {s s' : Core} (hi : Inv s) (run : s.matchBook = .ok s') (hna : ¬ HasAON s') (haf : Afar s') : AtRest s' :=
  matchBookN_rest _ hi (by unfold matchFuel; omega) run hna haf

/-! ### All books -/

/-- The book of a symbol, if there is one, is at rest. -/
def RestAt (g : Mgr) (i : Nat) : Prop := ∀ b, slot g.books i = some b → AtRest (g.core b)

theorem AtRest.keep {g g' : Mgr} {b : Book} (h : AtRest (g.core b)) : AtRest (g'.core b) := ⟨h.apart, h.calm, h.ask, h.bid⟩

theorem set_slot {l : List (Option Book)} {i : Nat} {b : Book} (h : slot l i = some b) : l.set i (some b) = l := by
  refine List.ext_getElem? fun j => ?_
  by_cases e : i = j
  · subst e
    have hlt : i < l.length := slot_lt h
    rw [List.getElem?_set_self hlt]
    unfold slot at h
    cases hg : l[i]? with
    | none => rw [hg] at h; cases h
    | some x => rw [hg] at h; cases h; rfl
  · rw [List.getElem?_set_ne e]

theorem matchAt_rest {g : Mgr} {i : Nat} (h : RestAt g i) : g.matchAt i = .ok g := by
  unfold Mgr.matchAt
  cases hb : slot g.books i with
  | none => rfl
  | some b =>
    have hm : Core.matchBook ⟨g.orders, b, g.ev⟩ = .ok ⟨g.orders, b, g.ev⟩ := (h b hb).matchBook
    simp only [hm, Except.bind_ok, set_slot hb]

theorem matchFrom_rest : ∀ (is : List Nat) {g : Mgr}, (∀ i, RestAt g i) → Mgr.matchFrom is g = .ok g
  | [], _, _ => rfl
  | i :: is, g, h => by
    unfold Mgr.matchFrom
    rw [matchAt_rest (h i), Except.bind_ok]
    exact matchFrom_rest is h

/-- No order of the symbol is All-Or-None, and its trailing orders follow the market at absolute distances. -/
def Mgr.Tame (g : Mgr) (sym : Nat) : Prop :=
  g.NoAON sym ∧ ∀ i o, g.getOrder i = some o → o.symbolId = sym → o.isTrailing = true → 0 < o.trailDist

theorem Mgr.Tame.back {g g' : Mgr} {i : Nat} (hi : MInv g) (hi' : MInv g') (h : g'.Tame i)
    (ho : ∀ id o, o.symbolId = i → g.orders id = some o → g'.orders id = some o) : g.Tame i := by
  refine ⟨fun id o h1 h2 => ?_, fun id o h1 h2 => ?_⟩
  · exact h.1 id o (by rw [hi'.getOrder]; rw [hi.getOrder] at h1; exact ho id o h2 h1) h2
  · exact h.2 id o (by rw [hi'.getOrder]; rw [hi.getOrder] at h1; exact ho id o h2 h1) h2

theorem matchAt_restAt {g g' : Mgr} (hi : MInv g) {i : Nat} (run : g.matchAt i = .ok g') (ht : g'.Tame i) : RestAt g' i := by
  obtain ⟨g1, a1, hi', _⟩ := matchAt_ok hi i
  rw [run] at a1; cases a1
  unfold Mgr.matchAt at run
  cases hb : slot g.books i with
  | none =>
    rw [hb] at run; cases run
    intro b h; rw [hb] at h; cases h
  | some b =>
    rw [hb] at run
    dsimp only at run
    obtain ⟨c, h1, h2⟩ := bind_inv run
    have h2 : g.put i c = g' := Except.ok.inj h2
    subst h2
    obtain ⟨hinv, hid⟩ := hi.inv hb
    intro b' hb'
    have hs : slot (g.put i c).books i = some c.book := put_getBook_same hb
    have hb2 := hb'
    rw [hs] at hb2; cases hb2
    obtain ⟨_, hid'⟩ := hi'.inv hb'
    have hna := noAON_core hi' hb' ht.1
    have : AtRest c := matchBook_rest hinv h1 hna (by
      intro id o ho hsym htr
      refine ht.2 id o (by rw [hi'.getOrder]; exact ho) ?_ htr
      rw [hsym]; exact hid')
    exact ⟨this.apart, this.calm, this.ask, this.bid⟩

theorem matchFrom_restAt : ∀ (is : List Nat) {g g' : Mgr}, is.Nodup → MInv g → Mgr.matchFrom is g = .ok g' →
    ∀ i ∈ is, g'.Tame i → RestAt g' i
  | [], _, _, _, _, _, i, h, _ => by cases h
  | j :: is, g, g', hnd, hi, run, i, hm, ht => by
    obtain ⟨hnj, hnd'⟩ := List.nodup_cons.1 hnd
    obtain ⟨g1, a1, a2, a3, a4, a5, a6, a7, a8, a9⟩ := matchAt_ok hi j
    unfold Mgr.matchFrom at run
    rw [a1, Except.bind_ok] at run
    by_cases e : i ∈ is
    · exact matchFrom_restAt is hnd' a2 run i e ht
    · have : i = j := by simpa [e] using hm
      subst this
      obtain ⟨g2, b1, b2, b3, b4, b5, b6, _⟩ := matchFrom_ok is hnd' a2
      rw [run] at b1; cases b1
      have ht1 : g1.Tame i := ht.back a2 b2 fun id o h1 h2 => (b6 i e id o h1).1 h2
      have := matchAt_restAt hi a1 ht1
      intro b hb
      rw [b5 i e] at hb
      exact (this b hb).keep

theorem matchFrom_keeps {i : Nat} : ∀ (is : List Nat) {g g' : Mgr}, MInv g → RestAt g i → Mgr.matchFrom is g = .ok g' →
    slot g'.books i = slot g.books i ∧ (∀ id o, o.symbolId = i → (g'.orders id = some o ↔ g.orders id = some o)) ∧
    ∃ evs, g'.ev = g.ev ++ evs ∧ ∀ ev ∈ evs, ev.symbol ≠ i
  | [], _, _, _, _, run => by cases run; exact ⟨rfl, fun _ _ _ => Iff.rfl, [], by simp, by simp⟩
  | j :: is, g, g', hi, hr, run => by
    unfold Mgr.matchFrom at run
    by_cases e : j = i
    · subst e
      rw [matchAt_rest hr, Except.bind_ok] at run
      exact matchFrom_keeps is hi hr run
    · obtain ⟨g1, a1, a2, a3, a4, a5, a6, _⟩ := matchAt_ok hi j
      rw [a1, Except.bind_ok] at run
      have hb := a5 i (Ne.symm e)
      obtain ⟨b1, b2, evs, b3, b4⟩ := matchFrom_keeps is a2 (by intro b h; rw [hb] at h; exact (hr b h).keep) run
      obtain ⟨evs1, ls, c1⟩ := a3.events hi
      refine ⟨b1.trans hb, fun id o ho => (b2 id o ho).trans ⟨fun h => a6.back id o h (by omega), fun h => a6.keep id o h (by omega)⟩,
        evs1 ++ evs, by rw [b3, c1.ev, List.append_assoc], ?_⟩
      intro ev hev
      rcases List.mem_append.1 hev with h | h
      · obtain ⟨l, hl, _⟩ := c1.sym ev h
        rw [hl]; exact e
      · exact b4 ev h

theorem matchAll_restAt {g g' : Mgr} (hi : MInv g) (run : g.matchAll = .ok g') {i : Nat} (ht : g'.Tame i) : RestAt g' i := by
  by_cases h : i < g.books.length
  · exact matchFrom_restAt _ List.nodup_range hi run i (List.mem_range.2 h) ht
  · obtain ⟨g1, a1, _, _, _, b5, _⟩ := matchFrom_ok (List.range g.books.length) List.nodup_range hi
    have run : Mgr.matchFrom (List.range g.books.length) g = .ok g' := run
    rw [run] at a1; cases a1
    intro b hb
    rw [b5 i (by simpa using h)] at hb
    exact absurd (slot_lt hb) h

end CppTrader
