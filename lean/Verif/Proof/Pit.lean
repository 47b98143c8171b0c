import Verif.Venue
import Verif.Proof.LandOps
import Verif.Proof.Depth
/-
The trading place a book stands for, its prices, and incoming orders.
-/

namespace CppTrader
open Core

/-- The trading place of a book. -/
def Core.pit (s : Core) : Pit :=
  ⟨s.line, ⟨s.book.lastBid, s.book.lastAsk⟩, ⟨s.book.matchBid, s.book.matchAsk⟩, ⟨s.book.trailBid, s.book.trailAsk⟩⟩

/-- The book went where the reference goes, with the same executions. -/
structure Plays (s : Core) (r : List Execution × Pit) (s' : Core) : Prop where
  inv : Inv s'
  pit : s'.pit = r.2
  iso : Iso s.book.symbol.id s.orders s'.orders
  ev : ∃ evs, Ev s s' evs ∧ execsOf evs = r.1

theorem Plays.refl {s : Core} (hi : Inv s) : Plays s ([], s.pit) s := ⟨hi, rfl, .refl _ _, [], .refl _, rfl⟩

theorem Plays.trans {s s1 s2 xs ys p q} (h : Plays s (xs, p) s1) (h' : Plays s1 (ys, q) s2) : Plays s (xs ++ ys, q) s2 := by
  obtain ⟨e1, a1, a2⟩ := h.ev
  obtain ⟨e2, b1, b2⟩ := h'.ev
  exact ⟨h'.inv, h'.pit, h.iso.trans (a1.bsym ▸ h'.iso), _, a1.trans b1, by rw [execsOf_append, a2, b2]⟩

/-! ### Prices -/

theorem best_line {s : Core} (hi : Inv s) (k : Kind) : s.book.best k = (s.line k).head?.map Order.key := by
  cases hb : s.book.best k with
  | none =>
    cases hl : s.line k with
    | nil => rfl
    | cons r rs =>
      obtain ⟨h1, h2, h3⟩ := (line_mem hi).1 (show r ∈ s.line k by rw [hl]; simp)
      obtain ⟨p, h4, _⟩ := hi.order_best h1 h2 h3
      rw [hb] at h4; cases h4
  | some p =>
    obtain ⟨l, ls, h3, h4⟩ := hi.best_level hb
    have hl := (hi.book.kinds k).levels l (by rw [h3]; simp)
    cases hids : l.ids with
    | nil => exact absurd hids hl.nonempty
    | cons i is =>
      obtain ⟨o, g1, _, _, g4⟩ := hl.mem i (by simp [hids])
      have : s.line k = o :: restOf s (is ++ flatOf ls) := by
        unfold Core.line queue
        rw [h3, flatOf_cons, hids]
        unfold restOf
        rw [List.cons_append, List.filterMap_cons, g1]
      rw [this]
      simp [g4, h4]

theorem best_limit {s : Core} (hi : Inv s) {k : Kind} (hk : k.isLimit = true) : s.book.best k = (s.line k).head?.map (·.price) := by
  rw [best_line hi]
  cases hl : s.line k with
  | nil => rfl
  | cons r rs =>
    obtain ⟨_, _, h3⟩ := (line_mem hi).1 (show r ∈ s.line k by rw [hl]; simp)
    simp [key_price_of_limit h3 hk]

theorem key_stop {o : Order} {k} (h : o.kind = some k) (hk : k.isLimit = false) : o.key = o.stopPrice := by
  unfold Order.key; split
  · rename_i e; have := (kind_type h).2 e; rw [hk] at this; cases this
  · rename_i e; simp [Order.kind, e] at h
  · rfl

theorem best_stop {s : Core} (hi : Inv s) {k : Kind} (hk : k.isLimit = false) : s.book.best k = (s.line k).head?.map (·.stopPrice) := by
  rw [best_line hi]
  cases hl : s.line k with
  | nil => rfl
  | cons r rs =>
    obtain ⟨_, _, h3⟩ := (line_mem hi).1 (show r ∈ s.line k by rw [hl]; simp)
    simp [key_stop h3 hk]

theorem best_empty {s : Core} (hi : Inv s) (k : Kind) : s.book.best k = none ↔ s.line k = [] := by
  rw [best_line hi]; simp

theorem pit_bid {s : Core} (hi : Inv s) : s.pit.bid = s.book.marketBid := by
  unfold Pit.bid Book.marketBid Board.bestBid; rw [best_limit hi rfl]; rfl
theorem pit_ask {s : Core} (hi : Inv s) : s.pit.ask = s.book.marketAsk := by
  unfold Pit.ask Book.marketAsk Board.bestAsk; rw [best_limit hi rfl]; rfl
theorem pit_trailBid {s : Core} (hi : Inv s) : s.pit.trailBid = s.book.marketTrailBid := by
  unfold Pit.trailBid Book.marketTrailBid Board.bestBid; rw [best_limit hi rfl]; rfl
theorem pit_trailAsk {s : Core} (hi : Inv s) : s.pit.trailAsk = s.book.marketTrailAsk := by
  unfold Pit.trailAsk Book.marketTrailAsk Board.bestAsk; rw [best_limit hi rfl]; rfl

theorem kindCount_line {s : Core} (hi : Inv s) (k : Kind) : kindCount s.book k = (s.line k).length := by
  rw [kindCount_eq, ← line_ids hi k, List.length_map]

theorem pit_stops {s : Core} (hi : Inv s) : s.pit.board.stops = stopCount s.book := by
  unfold Board.stops stopCount
  simp only [kindCount_line hi]
  rfl

theorem sumOver_rest (s : Core) (f : Order → Nat) (ids : List Nat) : sumOver s.orders f ids = ((restOf s ids).map f).sum := by
  induction ids with
  | nil => rfl
  | cons i is ih =>
    unfold sumOver restOf at *
    rw [List.map_cons, List.sum_cons, List.filterMap_cons, ih]
    unfold qtyAt
    cases h : s.orders i with
    | none => simp
    | some o => simp

theorem volOf_rest {s : Core} {ls : List Level} (h : ∀ l ∈ ls, l.total = sumOver s.orders (·.leaves) l.ids) :
    volOf ls = ((restOf s (flatOf ls)).map (·.leaves)).sum := by
  induction ls with
  | nil => rfl
  | cons l ls ih =>
    rw [volOf_cons, flatOf_cons, restOf_append, List.map_append, List.sum_append, ih fun l' hl => h l' (by simp [hl]), h l (by simp), sumOver_rest]

theorem kindVolume_line {s : Core} (hi : Inv s) (k : Kind) : kindVolume s.book k = ((s.line k).map (·.leaves)).sum := by
  rw [kindVolume_eq]
  exact volOf_rest fun l hl => ((hi.book.kinds k).levels l hl).total

theorem pit_size {s : Core} (hi : Inv s) : s.pit.board.size = volume s.book := by
  unfold Board.size volume
  simp only [kindVolume_line hi, Kind.all, List.map_cons, List.map_nil, List.sum_cons, List.sum_nil]
  show _ = _
  simp only [Core.pit]
  omega

/-! ### Incoming orders -/

/-- The incoming order did what the reference says. -/
structure Strikes (m : Bool) (s : Core) (t : Order) (s' : Core) (t' : Order) : Prop where
  hit : Hit m s t s' t'
  steps : ∃ A, Steps A s (some t) s' (some t')
  left : t' = (s.pit.strike m t).2.1
  plays : Plays s ((s.pit.strike m t).1, (s.pit.strike m t).2.2) s'

theorem quotes_after (q : Quotes) (xs : List Execution) : q.after xs = ⟨lastPx .buy q.bid xs, lastPx .sell q.ask xs⟩ := by
  unfold Quotes.after lastPx
  induction xs generalizing q with
  | nil => rfl
  | cons x xs ih =>
    simp only [List.foldl_cons]
    rw [ih]
    unfold Quotes.set
    cases x.1.side <;> simp

theorem execTaker_heard (s : Core) (t : Order) (p q : Nat) (h1 : s.book.matchBid = 0) (h2 : s.book.matchAsk = MAX64) :
    (⟨(s.execTaker t p q).1.book.matchBid, (s.execTaker t p q).1.book.matchAsk⟩ : Quotes) = Quotes.blank.set t.side p := by
  unfold Core.execTaker setPrices Book.updatePrices emit Quotes.set Quotes.blank
  cases t.side <;> simp [h1, h2]

theorem Fills.matchPrices {p s xs s'} (f : Fills p s xs s') (hi : Inv s) : (xs = [] ∧ s' = s) ∨ (s'.book.matchBid = 0 ∧ s'.book.matchAsk = MAX64) := by
  induction f with
  | nil => exact .inl ⟨rfl, rfl⟩
  | cons f _ ih =>
    right
    rcases ih (f.eff hi).inv with ⟨_, rfl⟩ | h
    · exact f.matchPrices hi
    · exact h

/-- The matching prices after the executions of an incoming order. -/
theorem Steps.heard {t0 s t s' t'} (h : Steps (InL t0) s t s' t') (hc : CInv s t) {evs} (hev : s'.ev = s.ev ++ evs) :
    (⟨s'.book.matchBid, s'.book.matchAsk⟩ : Quotes) = match (execsOf evs).getLast? with
      | none => ⟨s.book.matchBid, s.book.matchAsk⟩
      | some x => Quotes.blank.set x.1.side x.2.1 := by
  induction h generalizing evs with
  | refl =>
    have : evs = [] := by simpa using hev
    subst this; rfl
  | head a st tl ih =>
    obtain ⟨e1, h1⟩ := st.events hc
    obtain ⟨e2, _, h2⟩ := tl.stepsEv (st.inv hc)
    have e : evs = e1 ++ e2 := by
      have h3 := h2.ev.ev
      rw [h1.ev.ev, hev, List.append_assoc] at h3
      exact List.append_cancel_left h3
    subst e
    rw [ih (st.inv hc) h2.ev.ev, execsOf_append, h1.execs, List.getLast?_append]
    cases hl : (execsOf e2).getLast? with
    | some x => rfl
    | none =>
      simp only [Option.none_or]
      clear ih tl h2
      cases st with
      | trade fill head side reach qty nf na =>
        obtain ⟨m1, m2⟩ := fill.matchPrices hc.inv
        rw [execTaker_heard _ _ _ _ m1 m2]
        rfl
      | sweep fills sum pos sides tif =>
        rcases fills.matchPrices hc.inv with ⟨rfl, _⟩ | ⟨m1, m2⟩
        · simp [sumQ] at sum; omega
        · rw [execTaker_heard _ _ _ _ m1 m2]
          simp [Lbl.execs]
      | bound ty lim => rfl
      | _ => exact absurd a (by simp [InL])

theorem Hit.board {m s t s' t'} (h : Hit m s t s' t') : s'.line = (Board.strike m s.line t).2.2 := by
  unfold Board.strike
  rw [← opp_limits]
  funext k
  by_cases e : k = oppKind t
  · subst e; rw [h.opp]; cases m <;> simp [Board.put]
  · rw [h.other k e]; cases m <;> simp [Board.put, e]

theorem Hit.strikes {m s t s' t'} (h : Hit m s t s' t') (hc : CInv s (some t)) (hs : Steps (InL t) s (some t) s' (some t'))
    (hf : MatchFrame t s s') : Strikes m s t s' t' := by
  obtain ⟨evs, h1, h2⟩ := h.ev
  have hx : execsOf evs = (s.pit.strike m t).1 := by
    rw [h2]
    unfold Pit.strike Board.strike
    rw [← opp_limits]
    cases m <;> rfl
  refine ⟨h, ⟨_, hs⟩, ?_, h.cinv.inv, ?_, (hs.iso hc).1, evs, h1, hx⟩
  · rw [h.left]
    unfold Pit.strike Board.strike
    rw [← opp_limits]
    cases m <;> rfl
  · have hp := hs.px hc h1.ev
    have hh := hs.heard hc h1.ev
    rw [hx] at hp hh
    have hpit : s'.pit = ⟨s'.line, ⟨s'.book.lastBid, s'.book.lastAsk⟩, ⟨s'.book.matchBid, s'.book.matchAsk⟩, ⟨s'.book.trailBid, s'.book.trailAsk⟩⟩ := rfl
    rw [hpit, hh, hp.lastBid, hp.lastAsk, hf.same.trailBid, hf.same.trailAsk, h.board]
    show _ = Pit.mk _ _ _ _
    rw [show (s.pit.last.after (Board.strike m s.pit.board t).1) = _ from quotes_after _ _]
    rfl

theorem matchIf_strikes {m : Bool} {s : Core} {t s' t'} (hc : CInv s (some t)) (hl : 0 < t.leaves) (hnm : t.type ≠ .market)
    (hm : s.matchIf m t = .ok (s', t')) : Strikes m s t s' t' := by
  have h := matchIf_hit hc hl hnm hm
  unfold matchIf at hm
  cases m with
  | false => cases hm; exact h.strikes hc (.refl _ _) (.refl _ _)
  | true =>
    simp only [if_true] at hm
    obtain ⟨s1, t1, e1, e2, e3⟩ := matchOrder_ok hc.inv (hc.fly _ rfl) hl
    rw [hm] at e1; cases e1
    exact h.strikes hc (e2.mono fun _ h => h.toIn) (e2.match_frame hc).1

theorem matchMarket_strikes {s : Core} {t s' t'} (hc : CInv s (some t)) (hl : 0 < t.leaves) (ht : t.type = .market)
    (hm : s.matchMarket t = .ok (s', t')) : Strikes true s t s' t' := by
  have h := matchMarket_hit hc hl ht hm
  obtain ⟨s1, t1, e1, e2, e3, e4, _⟩ := matchMarket_ok hc.inv (hc.fly _ rfl) hl ht
  rw [hm] at e1; cases e1
  exact h.strikes hc e2 e4

theorem Strikes.idle {s : Core} {t} (hc : CInv s (some t)) : Strikes false s t s t :=
  (Hit.idle hc).strikes hc (.refl _ _) (.refl _ _)

end CppTrader
