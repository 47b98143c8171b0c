import Verif.Proof.Lines
import Verif.Proof.Whole
/-
Public calls that bring an incoming order: the executions start with its greedy fill, and there are no others
when nothing else can trade.
-/

namespace CppTrader
open Core

/-! ### Matching with nothing to do -/

theorem kindCount_none {s : Core} (hi : Inv s) {k} (h : kindCount s.book k = 0) : s.book.best k = none := by
  cases hb : s.book.best k with
  | none => rfl
  | some p =>
    exfalso
    obtain ⟨l, ls, hlv, rfl⟩ := hi.best_level hb
    have hne := ((hi.book.kinds k).levels l (by rw [hlv]; simp)).nonempty
    rw [kindCount_eq] at h
    unfold queue at h
    rw [hlv, flatOf_cons, List.length_append] at h
    have : l.ids.length ≠ 0 := by
      cases h : l.ids with
      | nil => exact absurd h hne
      | cons => simp
    omega

/-- `s` up to the trailing prices. -/
def Core.trail (s : Core) (tb ta : Nat) : Core := { s with book := { s.book with trailBid := tb, trailAsk := ta } }

theorem recalcBuy_idle {s : Core} (h : s.book.best .tBuyStop = none) : ∃ ta, s.recalcBuy = .ok (s.trail s.book.trailBid ta) := by
  unfold recalcBuy
  cases s.book.best .ask with
  | none => exact ⟨_, rfl⟩
  | some p =>
    simp only
    split
    · exact ⟨_, rfl⟩
    · rw [h]
      unfold recalcFuel
      exact ⟨_, rfl⟩

theorem recalcSell_idle {s : Core} (h : s.book.best .tSellStop = none) : ∃ tb, s.recalcSell = .ok (s.trail tb s.book.trailAsk) := by
  unfold recalcSell
  cases s.book.best .bid with
  | none => exact ⟨_, rfl⟩
  | some p =>
    simp only
    split
    · exact ⟨_, rfl⟩
    · rw [h]
      unfold recalcFuel
      exact ⟨_, rfl⟩

theorem activateLevel_idle {s : Core} {k p} (h : s.book.best k = none) : s.activateLevel k p = .ok (s, false) := by
  unfold activateLevel; rw [h]

theorem activateEither_idle {s : Core} {k k' f} (h : s.book.best k = none) (h' : s.book.best k' = none) :
    s.activateEither k k' f = .ok (s, false) := by
  unfold activateEither
  rw [activateLevel_idle h, Except.bind_ok]
  simp only [Bool.false_eq_true, if_false]
  rw [activateLevel_idle h']

theorem activateLoop_idle {s : Core} (n : Nat) (h : ∀ k, k.isLimit = false → s.book.best k = none) :
    ∃ tb ta, activateLoop (n + 1) s false = .ok (s.trail tb ta, false) := by
  unfold activateLoop
  rw [activateEither_idle (h _ rfl) (h _ rfl), Except.bind_ok]
  simp only
  obtain ⟨ta, e1⟩ := recalcBuy_idle (h .tBuyStop rfl)
  rw [e1, Except.bind_ok, activateEither_idle (s := s.trail s.book.trailBid ta) (h .sellStop rfl) (h .tSellStop rfl), Except.bind_ok]
  simp only
  obtain ⟨tb, e2⟩ := recalcSell_idle (s := s.trail s.book.trailBid ta) (h .tSellStop rfl)
  rw [e2, Except.bind_ok]
  exact ⟨_, _, rfl⟩

theorem matchBook_idle {s : Core} (hi : Inv s) (hu : Uncrossed s.book) (hn : stopCount s.book = 0) :
    ∃ tb ta, s.matchBook = .ok (s.trail tb ta) := by
  have hb : ∀ k, k.isLimit = false → s.book.best k = none := by
    intro k hk
    refine kindCount_none hi ?_
    unfold stopCount at hn
    cases k <;> first | (simp [Kind.isLimit] at hk; done) | omega
  unfold matchBook matchFuel
  rw [show volume s.book + stopCount s.book + 1 = (volume s.book + stopCount s.book) + 1 from rfl]
  unfold matchBookN
  have hc : crossed s.book = none := by
    unfold crossed
    cases h1 : s.book.best .bid with
    | none => rfl
    | some bp =>
      cases h2 : s.book.best .ask with
      | none => rfl
      | some ap =>
        have := hu bp ap h1 h2
        simp only
        rw [if_neg (by omega)]
  rw [hc]
  obtain ⟨tb, ta, e⟩ := activateLoop_idle (stopCount s.book) hb
  refine ⟨tb, ta, ?_⟩
  unfold activateAll
  simp only [e, Except.bind_ok, Bool.false_eq_true, if_false]

/-- Final matching has nothing to do. -/
def Calm (m : Bool) (s : Core) : Prop := m = true → Uncrossed s.book ∧ stopCount s.book = 0

theorem finish_idle {m : Bool} {s : Core} (hi : Inv s) (hq : Calm m s) :
    ∃ s', s.finish m = .ok (s', .ok) ∧ s'.ev = s.ev ∧ s'.orders = s.orders ∧ (∀ k, s'.line k = s.line k) := by
  unfold finish
  cases m with
  | false => exact ⟨s.reset, rfl, rfl, rfl, fun _ => rfl⟩
  | true =>
    obtain ⟨hu, hn⟩ := hq rfl
    obtain ⟨tb, ta, e⟩ := matchBook_idle hi hu hn
    simp only [if_true, e, Except.bind_ok]
    exact ⟨_, rfl, rfl, rfl, fun _ => rfl⟩

theorem line_mem {s : Core} (hi : Inv s) {k r} : r ∈ s.line k ↔ s.orders r.id = some r ∧ r.symbolId = s.book.symbol.id ∧ r.kind = some k := by
  unfold Core.line
  rw [restOf_mem]
  constructor
  · rintro ⟨i, h1, h2⟩
    obtain ⟨o, h3, h4, h5⟩ := hi.book.queue_mem h1
    rw [h2] at h3; cases h3
    rw [(hi.orders i r h2).1]
    exact ⟨h2, h4, h5⟩
  · rintro ⟨h1, h2, h3⟩
    exact ⟨r.id, (hi.book.queue_iff h1 h2 k).2 h3, h1⟩

theorem stopCount_lines {s : Core} (hi : Inv s) : stopCount s.book = 0 ↔ ∀ k, k.isLimit = false → s.line k = [] := by
  have h1 : ∀ k, kindCount s.book k = 0 ↔ s.line k = [] := by
    intro k
    rw [kindCount_eq]
    constructor
    · intro h; unfold Core.line; rw [List.length_eq_zero_iff.1 h]; rfl
    · intro h
      cases hq : queue s.book k with
      | nil => rfl
      | cons i is =>
        obtain ⟨o, h2, h3, h4⟩ := hi.book.queue_mem (show i ∈ queue s.book k by rw [hq]; simp)
        have : o ∈ s.line k := restOf_mem.2 ⟨i, by rw [hq]; simp, h2⟩
        rw [h] at this; cases this
  unfold stopCount
  constructor
  · intro h k hk
    rw [← h1]
    cases k <;> first | (simp [Kind.isLimit] at hk; done) | omega
  · intro h
    have a := (h1 _).2 (h .buyStop rfl)
    have b := (h1 _).2 (h .sellStop rfl)
    have c := (h1 _).2 (h .tBuyStop rfl)
    have d := (h1 _).2 (h .tSellStop rfl)
    omega

theorem uncrossed_lines {s : Core} (hi : Inv s) : Uncrossed s.book ↔ ∀ b ∈ s.line .bid, ∀ a ∈ s.line .ask, b.price < a.price := by
  rw [hi.uncrossed_iff]
  constructor
  · intro h b hb a ha
    obtain ⟨b1, b2, b3⟩ := (line_mem hi).1 hb
    obtain ⟨a1, a2, a3⟩ := (line_mem hi).1 ha
    have kb : b.type = .limit ∧ b.side = .buy := by
      unfold Order.kind Order.isBuy at b3
      cases h1 : b.type <;> cases h2 : b.side <;> simp [h1, h2] at b3 <;> exact ⟨rfl, rfl⟩
    have ka : a.type = .limit ∧ a.side = .sell := by
      unfold Order.kind Order.isBuy at a3
      cases h1 : a.type <;> cases h2 : a.side <;> simp [h1, h2] at a3 <;> exact ⟨rfl, rfl⟩
    exact h _ _ b a b1 a1 b2 a2 kb.1 ka.1 kb.2 ka.2
  · intro h i j b a hb ha sb sa tb ta db da
    have kb : b.kind = some .bid := by rw [kind_limit tb, db]; rfl
    have ka : a.kind = some .ask := by rw [kind_limit ta, da]; rfl
    have e1 := (hi.orders i b hb).1
    have e2 := (hi.orders j a ha).1
    exact h b ((line_mem hi).2 ⟨by rw [e1]; exact hb, sb, kb⟩) a ((line_mem hi).2 ⟨by rw [e2]; exact ha, sa, ka⟩)

theorem calm_lines {m : Bool} {s : Core} (hi : Inv s) : Calm m s ↔ (m = true → (∀ b ∈ s.line .bid, ∀ a ∈ s.line .ask, b.price < a.price) ∧
    ∀ k, k.isLimit = false → s.line k = []) := by
  unfold Calm
  rw [uncrossed_lines hi, stopCount_lines hi]

/-! ### Matching the incoming order -/

theorem opp_limits (t : Order) : oppKind t = t.side.other.limits := by
  unfold oppKind Order.isBuy
  cases t.side <;> rfl

/-- What matching of an incoming order does to the lines. -/
structure Hit (m : Bool) (s : Core) (t : Order) (s' : Core) (t' : Order) : Prop where
  cinv : CInv s' (some t')
  ev : ∃ evs, Ev s s' evs ∧ execsOf evs = if m then (t.capped (s.line (oppKind t))).fills (s.line (oppKind t)) else []
  left : t' = if m then (t.capped (s.line (oppKind t))).left (s.line (oppKind t)) else t
  opp : s'.line (oppKind t) = if m then (t.capped (s.line (oppKind t))).leaveLine (s.line (oppKind t)) else s.line (oppKind t)
  other : ∀ k, k ≠ oppKind t → s'.line k = s.line k
  none : ∀ i, s.orders i = none → s'.orders i = none
  keep : ∀ i o, s.orders i = some o → o.kind ≠ some (oppKind t) → s'.orders i = some o

theorem MatchFrame.line {t0 : Order} {s s' : Core} (h : MatchFrame t0 s s') (hi : Inv s) {k} (hk : k ≠ oppKind t0) : s'.line k = s.line k := by
  unfold Core.line
  rw [queue_congr' (h.same.lv k hk)]
  refine restOf_congr ?_
  intro i hq
  obtain ⟨o, h1, h2, h3⟩ := hi.book.queue_mem hq
  rw [h.keep i o h1 (.inr (by rw [h3]; exact fun e => hk (Option.some.inj e))), h1]

theorem capped_limit {t : Order} (h : t.type ≠ .market) (R) : t.capped R = t := by
  unfold Order.capped
  cases ht : t.type <;> simp_all

theorem matchIf_hit {m : Bool} {s : Core} {t s' t'} (hc : CInv s (some t)) (hl : 0 < t.leaves) (hnm : t.type ≠ .market)
    (hm : s.matchIf m t = .ok (s', t')) : Hit m s t s' t' := by
  unfold matchIf at hm
  have hi := hc.inv
  cases m with
  | false =>
    cases hm
    exact ⟨hc, ⟨[], .refl _, rfl⟩, rfl, rfl, fun _ _ => rfl, fun _ h => h, fun _ _ h _ => h⟩
  | true =>
    simp only [if_true] at hm
    obtain ⟨s1, t1, e1, e2, e3⟩ := matchOrder_ok hi (hc.fly _ rfl) hl
    rw [hm] at e1; cases e1
    obtain ⟨evs, a1, a2, a3, a4⟩ := matchOrder_fills hi (hc.fly _ rfl) hl hm
    obtain ⟨hfr, _⟩ := e2.match_frame hc
    have hcap := capped_limit hnm (s.line (oppKind t))
    refine ⟨e2.inv hc, ⟨evs, a1, ?_⟩, ?_, ?_, fun k hk => hfr.line hi hk, hfr.none, fun i o h1 h2 => hfr.keep i o h1 (.inr h2)⟩
    · rw [hcap]; exact a2
    · rw [hcap]; exact a3
    · rw [hcap]; exact a4

theorem matchMarket_hit {s : Core} {t s' t'} (hc : CInv s (some t)) (hl : 0 < t.leaves) (ht : t.type = .market)
    (hm : s.matchMarket t = .ok (s', t')) : Hit true s t s' t' := by
  have hi := hc.inv
  obtain ⟨s1, t1, e1, e2, e3, e4, _⟩ := matchMarket_ok hi (hc.fly _ rfl) hl ht
  rw [hm] at e1; cases e1
  obtain ⟨evs, R, rfl, a1, a2, a3, a4⟩ := matchMarket_fills hi (hc.fly _ rfl) hl ht hm
  exact ⟨e2.inv hc, ⟨evs, a1, a2⟩, a3, a4, fun k hk => e4.line hi hk, e4.none, fun i o h1 h2 => e4.keep i o h1 (.inr h2)⟩

end CppTrader
