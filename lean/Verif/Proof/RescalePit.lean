import Verif.Proof.Rescale
/-
The reference exchange works alike on another price scale and in another lot size: stop orders and crossed books.
-/

namespace CppTrader
open Core Budget

namespace Rescale
variable (c : Rescale)

/-! ### Stop orders -/

theorem released_map (o : Order) : (c.ofOrder o).released = c.ofOrder o.released := by
  have h0 := c.bottom.2
  obtain ⟨i, sy, ty, sd, p, st, q, ex, le, ti, mv, sl, td, ts⟩ := o
  cases ty <;> simp [Order.released, ofOrder, h0] <;> rfl

theorem Good.released {c : Rescale} {o : Order} (h : c.Good o) : c.Good o.released := by
  rcases h with h | ⟨h1, h2, h3, h4, h5⟩
  · exact .inl h
  · refine .inr ?_
    unfold Order.released
    cases ht : o.type
    case market => exact ⟨h1, h2, h3, h4, h5⟩
    case limit => exact ⟨h1, h2, h3, h4, h5⟩
    case stop => exact ⟨c.bottom.1, c.bottom.1, nofun, nofun, h5⟩
    case stopLimit => exact ⟨h1, c.bottom.1, nofun, nofun, h5⟩
    case trailingStop => exact absurd ht h3
    case trailingStopLimit => exact absurd ht h4

theorem same_order (h : c.SamePrices) (o : Order) : c.ofOrder o = { o with quantity := c.lot * o.quantity, executed := c.counter o.executed, leaves := c.lot * o.leaves } := by
  unfold ofOrder; rw [h, h]

theorem retrailed_map {m : Nat} {o : Order} (ho : c.Good o) :
    (c.ofOrder o).retrailed (c.price m) = c.ofOrder (o.retrailed m) ∧ c.Good (o.retrailed m) := by
  rcases ho with h | ⟨h1, h2, h3, h4, h5⟩
  · refine ⟨?_, .inl h⟩
    rw [h m, c.same_order h, c.same_order h]
    unfold Order.retrailed
    by_cases ht : o.trails ∧ o.trailMoves m
    · rw [if_pos ht, if_pos (show (({ o with quantity := c.lot * o.quantity, executed := c.counter o.executed, leaves := c.lot * o.leaves } : Order).trails ∧
        ({ o with quantity := c.lot * o.quantity, executed := c.counter o.executed, leaves := c.lot * o.leaves } : Order).trailMoves m) from ht)]; rfl
    · rw [if_neg ht, if_neg (show ¬ (({ o with quantity := c.lot * o.quantity, executed := c.counter o.executed, leaves := c.lot * o.leaves } : Order).trails ∧
        ({ o with quantity := c.lot * o.quantity, executed := c.counter o.executed, leaves := c.lot * o.leaves } : Order).trailMoves m) from ht)]
  · have e : ∀ (t : Order) m, t.type = o.type → t.retrailed m = t := by
      intro t m e
      unfold Order.retrailed
      rw [if_neg (fun x => by rcases x.1 with y | y <;> rw [e] at y; exact h3 y; exact h4 y)]
    rw [e o m rfl, e (c.ofOrder o) _ rfl]
    exact ⟨rfl, .inr ⟨h1, h2, h3, h4, h5⟩⟩

theorem retrail_map (h : c.SamePrices) (m : Nat) (os : List Order) : ∀ {l : Board}, c.AllGood l →
    Board.retrail m (os.map c.ofOrder) (c.board l) = c.board (Board.retrail m os l) ∧ c.AllGood (Board.retrail m os l) := by
  induction os with
  | nil => intro l hl; exact ⟨rfl, hl⟩
  | cons o os ih =>
    intro l hl
    have e : ∀ o os l, Board.retrail m (o :: os) l = if o.trailMoves m then Board.retrail m os ((l.change o.id none).insert (o.retrailed m)) else Board.retrail m os l := fun _ _ _ => rfl
    have hm : (c.ofOrder o).trailMoves m ↔ o.trailMoves m := by rw [c.same_order h]; exact Iff.rfl
    rw [List.map_cons, e, e]
    by_cases hh : o.trailMoves m
    · rw [if_pos hh, if_pos (hm.2 hh)]
      have r := (c.retrailed_map (m := m) (o := o) (.inl h)).1
      rw [h m] at r
      rw [r]
      have hc := c.change_map l o.id none
      have hg : c.AllGood (l.change o.id none) := c.change_good hl (fun _ h => (nomatch h))
      rw [show (c.ofOrder o).id = o.id from rfl, show (none : Option Order) = (none : Option Order).map c.ofOrder from rfl, hc,
        c.insert_map hg (.inl h)]
      exact ih (c.insert_good hg (.inl h))
    · rw [if_neg hh, if_neg (fun x => hh (hm.1 x))]; exact ih hl

theorem bestBid_map {l : Board} (hl : c.AllGood l) : (c.board l).bestBid = c.price l.bestBid ∧ c.used l.bestBid := by
  unfold Board.bestBid
  rw [show (c.board l) .bid = (l .bid).map c.ofOrder from rfl, List.head?_map]
  cases h : (l .bid).head? with
  | none => exact ⟨c.bottom.2.symm, c.used_zero.1⟩
  | some r => exact ⟨rfl, (hl.good _ r (List.mem_of_mem_head? h)).price⟩

theorem bestAsk_map {l : Board} (hl : c.AllGood l) : (c.board l).bestAsk = c.price l.bestAsk ∧ c.used l.bestAsk := by
  unfold Board.bestAsk
  rw [show (c.board l) .ask = (l .ask).map c.ofOrder from rfl, List.head?_map]
  cases h : (l .ask).head? with
  | none => exact ⟨c.top.2.symm, c.used_top.1⟩
  | some r => exact ⟨rfl, (hl.good _ r (List.mem_of_mem_head? h)).price⟩

theorem bid_map {p : Pit} (hp : c.Tidy p) : (c.pit p).bid = c.price p.bid ∧ c.used p.bid := by
  obtain ⟨h1, h2⟩ := c.bestBid_map hp.board
  show max (c.price _) (c.board p.board).bestBid = _ ∧ _
  rw [h1]; exact c.max_map hp.heard.1 h2
theorem ask_map {p : Pit} (hp : c.Tidy p) : (c.pit p).ask = c.price p.ask ∧ c.used p.ask := by
  obtain ⟨h1, h2⟩ := c.bestAsk_map hp.board
  show min (c.price _) (c.board p.board).bestAsk = _ ∧ _
  rw [h1]; exact c.min_map hp.heard.2 h2
theorem trailBid_map {p : Pit} (hp : c.Tidy p) : (c.pit p).trailBid = c.price p.trailBid ∧ c.used p.trailBid := by
  obtain ⟨h1, h2⟩ := c.bestBid_map hp.board
  show min (c.price _) (c.board p.board).bestBid = _ ∧ _
  rw [h1]; exact c.min_map hp.last.1 h2
theorem trailAsk_map {p : Pit} (hp : c.Tidy p) : (c.pit p).trailAsk = c.price p.trailAsk ∧ c.used p.trailAsk := by
  obtain ⟨h1, h2⟩ := c.bestAsk_map hp.board
  show max (c.price _) (c.board p.board).bestAsk = _ ∧ _
  rw [h1]; exact c.max_map hp.last.2 h2

theorem reached_map {p : Pit} (hp : c.Tidy p) {o : Order} (ho : c.Good o) : (c.pit p).reached (c.ofOrder o) ↔ p.reached o := by
  obtain ⟨a1, a2⟩ := c.ask_map hp
  obtain ⟨b1, b2⟩ := c.bid_map hp
  unfold Pit.reached
  rw [a1, b1, show (c.ofOrder o).side = o.side from rfl]
  cases o.side
  · exact c.le_map ho.stop a2
  · exact c.le_map b2 ho.stop

theorem takeWhile_map {o : Order} (ho : c.Good o) {os : List Order} (hs : ∀ r ∈ os, c.Good r) :
    (os.map c.ofOrder).takeWhile (fun r => r.stopPrice = (c.ofOrder o).stopPrice) = (os.takeWhile (fun r => r.stopPrice = o.stopPrice)).map c.ofOrder := by
  induction os with
  | nil => rfl
  | cons r os ih =>
    have hr := hs r List.mem_cons_self
    have ih := ih (fun x hx => hs x (List.mem_cons_of_mem _ hx))
    have he : (c.ofOrder r).stopPrice = (c.ofOrder o).stopPrice ↔ r.stopPrice = o.stopPrice := c.eq_map hr.stop ho.stop
    rw [List.map_cons, List.takeWhile_cons, List.takeWhile_cons]
    by_cases h : r.stopPrice = o.stopPrice
    · simp only [h, he.2 h, decide_true, if_true, List.map_cons]
      rw [← ih]
    · simp only [h, mt he.1 h, decide_false, Bool.false_eq_true, if_false, List.map_nil]

theorem due_map {p : Pit} (hp : c.Tidy p) (k : Kind) : (c.pit p).due k = (p.due k).map c.ofOrder := by
  have hg := hp.board.good k
  unfold Pit.due
  rw [show (c.pit p).board k = (p.board k).map c.ofOrder from rfl]
  cases hb : p.board k with
  | nil => rfl
  | cons o os =>
    rw [hb] at hg
    have ho := hg o List.mem_cons_self
    simp only [List.map_cons]
    by_cases h : p.reached o
    · rw [if_pos h, if_pos ((c.reached_map hp ho).2 h), List.map_cons, ← c.takeWhile_map ho (fun x hx => hg x (List.mem_cons_of_mem _ hx))]
    · rw [if_neg h, if_neg (fun h' => h ((c.reached_map hp ho).1 h'))]; rfl

theorem due_good {p : Pit} (hp : c.Tidy p) (k : Kind) : ∀ o ∈ p.due k, c.Good o := fun o ho => hp.board.good k o ((due_sub p k).subset ho)

theorem next_map {p : Pit} (hp : c.Tidy p) (k k' : Kind) : (c.pit p).next k k' = (p.next k k').map c.ofOrder ∧ ∀ o ∈ p.next k k', c.Good o := by
  unfold Pit.next
  rw [c.due_map hp, c.due_map hp]
  by_cases h : p.due k = []
  · rw [if_pos h, if_pos (by rw [h]; rfl)]; exact ⟨rfl, c.due_good hp k'⟩
  · rw [if_neg h, if_neg (by simpa using h)]; exact ⟨rfl, c.due_good hp k⟩

/-- What happened is the same on the other scale. -/
def step (r : List Execution × Pit) : List Execution × Pit := (r.1.map c.ofExec, c.pit r.2)
def turn (r : Bool × List Execution × Pit) : Bool × List Execution × Pit := (r.1, r.2.1.map c.ofExec, c.pit r.2.2)

theorem release_map {p : Pit} (hp : c.Tidy p) {o : Order} (ho : c.Good o) : (c.pit p).release (c.ofOrder o) = c.step (p.release o) ∧ c.Tidy (p.release o).2 := by
  obtain ⟨d1, d2⟩ := c.pit_drop hp o.id
  obtain ⟨s1, _, s3, s4⟩ := c.pit_strike true d2 ho.released
  obtain ⟨l1, l2⟩ := c.land_map s4 s3
  unfold Pit.release
  simp only
  rw [show (c.ofOrder o).id = o.id from rfl, d1, released_map, s1]
  simp only
  rw [l1]
  exact ⟨rfl, l2⟩

theorem releaseAll_map {os : List Order} (ho : ∀ o ∈ os, c.Good o) : ∀ {p : Pit}, c.Tidy p →
    Pit.releaseAll (os.map c.ofOrder) (c.pit p) = c.step (Pit.releaseAll os p) ∧ c.Tidy (Pit.releaseAll os p).2 := by
  induction os with
  | nil => intro p hp; exact ⟨rfl, hp⟩
  | cons o os ih =>
    intro p hp
    have e : ∀ o os p, Pit.releaseAll (o :: os) p = ((p.release o).1 ++ (Pit.releaseAll os (p.release o).2).1, (Pit.releaseAll os (p.release o).2).2) := fun _ _ _ => rfl
    obtain ⟨r1, r2⟩ := c.release_map hp (ho o List.mem_cons_self)
    obtain ⟨i1, i2⟩ := ih (fun x hx => ho x (List.mem_cons_of_mem _ hx)) r2
    rw [List.map_cons, e, e, r1]
    rw [show (c.step (p.release o)).2 = c.pit (p.release o).2 from rfl, i1]
    refine ⟨?_, i2⟩
    unfold step
    simp only [List.map_append]

theorem followAsk_map {p : Pit} (hp : c.Tidy p) : (c.pit p).followAsk = c.pit p.followAsk ∧ c.Tidy p.followAsk := by
  obtain ⟨t1, t2⟩ := c.trailAsk_map hp
  unfold Pit.followAsk
  rw [show (c.pit p).board .ask = (p.board .ask).map c.ofOrder from rfl, t1]
  by_cases h : p.board .ask = []
  · rw [if_pos h, if_pos (by rw [h]; rfl)]; exact ⟨rfl, hp⟩
  · rw [if_neg h, if_neg (by simpa using h)]
    have hc : c.price p.trailAsk < (c.pit p).seen.ask ↔ p.trailAsk < p.seen.ask := c.lt_map t2 hp.seen.2
    have key : Board.retrail (c.price p.trailAsk) ((p.board .tBuyStop).map c.ofOrder) (c.board p.board) = c.board (Board.retrail p.trailAsk (p.board .tBuyStop) p.board) ∧
        c.AllGood (Board.retrail p.trailAsk (p.board .tBuyStop) p.board) := by
      rcases hp.board.none with hs | hs
      · rw [hs]; exact c.retrail_map hs _ _ hp.board
      · rw [hs.1]; exact ⟨rfl, hp.board⟩
    have hb : (if c.price p.trailAsk < (c.pit p).seen.ask then Board.retrail (c.price p.trailAsk) ((c.pit p).board .tBuyStop) (c.pit p).board else (c.pit p).board) =
        c.board (if p.trailAsk < p.seen.ask then p.board.retrail p.trailAsk (p.board .tBuyStop) else p.board) := by
      by_cases h2 : p.trailAsk < p.seen.ask
      · rw [if_pos h2, if_pos (hc.2 h2)]; exact key.1
      · rw [if_neg h2, if_neg (fun x => h2 (hc.1 x))]; rfl
    refine ⟨(Pit.mk.injEq ..).mpr ⟨hb, rfl, rfl, rfl⟩, ⟨?_, hp.last, hp.heard, ⟨hp.seen.1, t2⟩⟩⟩
    simp only
    split
    · exact key.2
    · exact hp.board

theorem followBid_map {p : Pit} (hp : c.Tidy p) : (c.pit p).followBid = c.pit p.followBid ∧ c.Tidy p.followBid := by
  obtain ⟨t1, t2⟩ := c.trailBid_map hp
  unfold Pit.followBid
  rw [show (c.pit p).board .bid = (p.board .bid).map c.ofOrder from rfl, t1]
  by_cases h : p.board .bid = []
  · rw [if_pos h, if_pos (by rw [h]; rfl)]; exact ⟨rfl, hp⟩
  · rw [if_neg h, if_neg (by simpa using h)]
    have hc : (c.pit p).seen.bid < c.price p.trailBid ↔ p.seen.bid < p.trailBid := c.lt_map hp.seen.1 t2
    have key : Board.retrail (c.price p.trailBid) ((p.board .tSellStop).map c.ofOrder) (c.board p.board) = c.board (Board.retrail p.trailBid (p.board .tSellStop) p.board) ∧
        c.AllGood (Board.retrail p.trailBid (p.board .tSellStop) p.board) := by
      rcases hp.board.none with hs | hs
      · rw [hs]; exact c.retrail_map hs _ _ hp.board
      · rw [hs.2]; exact ⟨rfl, hp.board⟩
    have hb : (if (c.pit p).seen.bid < c.price p.trailBid then Board.retrail (c.price p.trailBid) ((c.pit p).board .tSellStop) (c.pit p).board else (c.pit p).board) =
        c.board (if p.seen.bid < p.trailBid then p.board.retrail p.trailBid (p.board .tSellStop) else p.board) := by
      by_cases h2 : p.seen.bid < p.trailBid
      · rw [if_pos h2, if_pos (hc.2 h2)]; exact key.1
      · rw [if_neg h2, if_neg (fun x => h2 (hc.1 x))]; rfl
    refine ⟨(Pit.mk.injEq ..).mpr ⟨hb, rfl, rfl, rfl⟩, ⟨?_, hp.last, hp.heard, ⟨t2, hp.seen.2⟩⟩⟩
    simp only
    split
    · exact key.2
    · exact hp.board

theorem round_map {p : Pit} (hp : c.Tidy p) : (c.pit p).round = c.turn p.round ∧ c.Tidy p.round.2.2 := by
  obtain ⟨n1, n2⟩ := c.next_map hp .buyStop .tBuyStop
  obtain ⟨r1, r2⟩ := c.releaseAll_map n2 hp
  obtain ⟨f1, f2⟩ := c.followAsk_map r2
  obtain ⟨m1, m2⟩ := c.next_map f2 .sellStop .tSellStop
  obtain ⟨q1, q2⟩ := c.releaseAll_map m2 f2
  obtain ⟨g1, g2⟩ := c.followBid_map q2
  unfold Pit.round
  simp only
  rw [n1, r1]
  simp only [step]
  rw [f1, m1, q1]
  simp only [step]
  rw [g1]
  refine ⟨?_, g2⟩
  unfold turn
  simp only [List.map_append, List.isEmpty_map]

theorem rounds_map (n : Nat) : ∀ {p : Pit}, c.Tidy p → Pit.rounds n (c.pit p) = c.turn (Pit.rounds n p) ∧ c.Tidy (Pit.rounds n p).2.2 := by
  induction n with
  | zero => intro p hp; exact ⟨rfl, hp⟩
  | succ n ih =>
    intro p hp
    have e : ∀ p, Pit.rounds (n + 1) p = if p.round.1 then (true, p.round.2.1 ++ (Pit.rounds n p.round.2.2).2.1, (Pit.rounds n p.round.2.2).2.2) else p.round := fun _ => rfl
    obtain ⟨r1, r2⟩ := c.round_map hp
    obtain ⟨i1, i2⟩ := ih r2
    rw [e, e, r1]
    by_cases h : p.round.1 = true
    · rw [if_pos h, if_pos (show (c.turn p.round).1 = true from h), show (c.turn p.round).2.2 = c.pit p.round.2.2 from rfl, i1]
      refine ⟨?_, i2⟩
      unfold turn
      simp only [List.map_append]
    · rw [if_neg h, if_neg (show ¬ (c.turn p.round).1 = true from h)]; exact ⟨rfl, r2⟩

/-! ### A crossed book -/

theorem groups_map {os : List Order} (ho : ∀ o ∈ os, c.Good o) : priceGroups (os.map c.ofOrder) = c.groups (priceGroups os) := by
  induction os with
  | nil => rfl
  | cons o os ih =>
    have hx := ho o List.mem_cons_self
    have hs : ∀ o ∈ os, c.Good o := fun x hx => ho x (List.mem_cons_of_mem _ hx)
    have hf := groups_flat os
    rw [List.map_cons]
    unfold priceGroups
    rw [ih hs]
    cases hg : priceGroups os with
    | nil => rfl
    | cons g gs =>
      cases g with
      | nil => rfl
      | cons r rs =>
        have hr : c.Good r := hs r (by rw [← hf, hg]; simp)
        have he : (c.ofOrder r).price = (c.ofOrder o).price ↔ r.price = o.price := c.eq_map hr.price hx.price
        simp only [groups, List.map_cons]
        by_cases h : r.price = o.price
        · rw [if_pos h, if_pos (he.2 h)]; rfl
        · rw [if_neg h, if_neg (fun x => h (he.1 x))]; rfl

theorem headD_map (l : List (List Order)) : (c.groups l).headD [] = (l.headD []).map c.ofOrder := by cases l <;> rfl

theorem vol_map (rs : List Order) : vol (rs.map c.ofOrder) = c.lot * vol rs := by
  induction rs with
  | nil => exact (Nat.mul_zero _).symm
  | cons r rs ih => rw [List.map_cons, vol_cons, vol_cons, ih, Nat.mul_add]; rfl

/-- Fewer shares fit as well. -/
theorem fit {a b : Nat} (h : c.lot * b < W64) (hab : a ≤ b) : c.lot * a < W64 := Nat.lt_of_le_of_lt (Nat.mul_le_mul_left _ hab) h
theorem fit_one {a : Nat} (h : c.lot * a < W64) : a < W64 := by
  have : 1 * a ≤ c.lot * a := Nat.mul_le_mul_right _ c.positive
  omega

theorem add_map {a b : Nat} (h : c.lot * (a + b) < W64) : add64 (c.lot * a) (c.lot * b) = c.lot * add64 a b := by
  rw [add64_fits (c.fit_one h), add64_fits (by rw [← Nat.mul_add]; exact h), Nat.mul_add]

theorem sub_map {a b : Nat} (hb : b ≤ a) (h : c.lot * a < W64) : sub64 (c.lot * a) (c.lot * b) = c.lot * sub64 a b := by
  rw [sub64_le hb (c.fit_one h), sub64_le ((c.lot_le _ _).2 hb) h, Nat.mul_sub]

theorem tally_map (n : Nat) : ∀ (L S : List (List Order)) (lo so : List Order) (need got : Nat), got ≤ need →
    c.lot * (need + got + vol lo.tail + vol so + vol L.tail.flatten + vol S.tail.flatten) < W64 →
    tally n (c.groups L) (c.groups S) (lo.map c.ofOrder) (so.map c.ofOrder) (c.lot * need) (c.lot * got) = c.lot * tally n L S lo so need got ∧
    tally n L S lo so need got ≤ need + got + vol lo.tail + vol so + vol L.tail.flatten + vol S.tail.flatten := by
  induction n with
  | zero => intro L S lo so need got _ _; exact ⟨(Nat.mul_zero _).symm, Nat.zero_le _⟩
  | succ n ih =>
    intro L S lo so need got hle hv
    cases L with
    | nil => exact ⟨(Nat.mul_zero _).symm, Nat.zero_le _⟩
    | cons G L =>
      cases S with
      | nil => exact ⟨(Nat.mul_zero _).symm, Nat.zero_le _⟩
      | cons H S =>
        have vL := vol_headD L
        have vS := vol_headD S
        have v0 : vol ([] : List Order) = 0 := rfl
        simp only [List.tail_cons] at hv ⊢
        cases lo with
        | nil =>
          have t1 := vol_tail (L.headD [])
          cases so with
          | nil =>
            have i := ih L S (L.headD []) (S.headD []) need got hle (c.fit hv (by simp only [List.tail_nil]; omega))
            rw [← headD_map, ← headD_map] at i
            refine ⟨i.1, Nat.le_trans i.2 (by simp only [List.tail_nil]; omega)⟩
          | cons y so =>
            have i := ih L (H :: S) (L.headD []) (y :: so) need got hle (c.fit hv (by simp only [List.tail_nil, List.tail_cons]; omega))
            rw [← headD_map] at i
            refine ⟨i.1, Nat.le_trans i.2 (by simp only [List.tail_nil, List.tail_cons]; omega)⟩
        | cons x lo =>
          simp only [List.tail_cons] at hv ⊢
          cases so with
          | nil =>
            have i := ih (G :: L) S (x :: lo) (S.headD []) need got hle (c.fit hv (by simp only [List.tail_cons]; omega))
            rw [← headD_map] at i
            refine ⟨i.1, Nat.le_trans i.2 (by simp only [List.tail_cons]; omega)⟩
          | cons y so =>
            have e : ∀ L LS S SS x lo (y : Order) so need got, tally (n + 1) (L :: LS) (S :: SS) (x :: lo) (y :: so) need got =
              (if need = add64 got (if y.isAON then y.leaves else min y.leaves (sub64 need got)) then need
               else if need < add64 got (if y.isAON then y.leaves else min y.leaves (sub64 need got)) then
                 tally n (L :: LS) (S :: SS) (y :: so) lo (add64 got (if y.isAON then y.leaves else min y.leaves (sub64 need got))) need
               else tally n (L :: LS) (S :: SS) (x :: lo) so need (add64 got (if y.isAON then y.leaves else min y.leaves (sub64 need got)))) := fun _ _ _ _ _ _ _ _ _ _ => rfl
            rw [vol_cons] at hv ⊢
            rw [e]
            show tally (n + 1) (G.map c.ofOrder :: c.groups L) (H.map c.ofOrder :: c.groups S) (c.ofOrder x :: lo.map c.ofOrder) (c.ofOrder y :: so.map c.ofOrder) (c.lot * need) (c.lot * got) = _ ∧ _
            rw [e, c.sub_map hle (c.fit hv (by omega)), isAON_map, show (c.ofOrder y).leaves = c.lot * y.leaves from rfl, c.lot_min]
            have hs := sub64_le hle (c.fit_one (c.fit hv (show need ≤ _ by omega)))
            have hq : (if y.isAON = true then c.lot * y.leaves else c.lot * min y.leaves (sub64 need got)) = c.lot * (if y.isAON = true then y.leaves else min y.leaves (sub64 need got)) := by
              split <;> rfl
            rw [hq]
            have hqy : (if y.isAON = true then y.leaves else min y.leaves (sub64 need got)) ≤ y.leaves := by split <;> omega
            generalize (if y.isAON = true then y.leaves else min y.leaves (sub64 need got)) = q at hqy ⊢
            have hf : c.lot * (got + q) < W64 := c.fit hv (by omega)
            rw [c.add_map hf, add64_fits (c.fit_one hf)]
            by_cases c1 : need = got + q
            · rw [if_pos c1, if_pos ((c.lot_inj _ _).2 c1)]; exact ⟨rfl, by omega⟩
            · rw [if_neg c1, if_neg (fun x => c1 ((c.lot_inj _ _).1 x))]
              by_cases d : need < got + q
              · rw [if_pos d, if_pos ((c.lot_lt _ _).2 d)]
                have i := ih (G :: L) (H :: S) (y :: so) lo (got + q) need (by omega) (c.fit hv (by simp only [List.tail_cons]; omega))
                exact ⟨i.1, Nat.le_trans i.2 (by simp only [List.tail_cons]; omega)⟩
              · rw [if_neg d, if_neg (fun x => d ((c.lot_lt _ _).1 x))]
                have i := ih (G :: L) (H :: S) (x :: lo) so need (got + q) (by omega) (c.fit hv (by simp only [List.tail_cons]; omega))
                exact ⟨i.1, Nat.le_trans i.2 (by simp only [List.tail_cons]; omega)⟩

theorem groups_length (l : List (List Order)) : (c.groups l).length = l.length := by simp [groups]

theorem crossing_map {bs as : List Order} (hb : ∀ r ∈ bs, c.Good r) (ha : ∀ r ∈ as, c.Good r) (hv : c.lot * (vol bs + vol as) < W64) :
    crossing (bs.map c.ofOrder) (as.map c.ofOrder) = c.lot * crossing bs as ∧ crossing bs as ≤ vol bs + vol as := by
  cases bs with
  | nil => exact ⟨(Nat.mul_zero _).symm, Nat.zero_le _⟩
  | cons b bs =>
    cases as with
    | nil => exact ⟨(Nat.mul_zero _).symm, Nat.zero_le _⟩
    | cons a as =>
      have e : ∀ b bs a as, crossing (b :: bs) (a :: as) =
        (if a.isAON ∧ (b.isAON → b.leaves < a.leaves) then
          tally ((b :: bs).length + (priceGroups (b :: bs)).length + ((a :: as).length + (priceGroups (a :: as)).length) + 1) (priceGroups (a :: as)) (priceGroups (b :: bs)) ((priceGroups (a :: as)).headD []) ((priceGroups (b :: bs)).headD []) a.leaves 0
         else tally ((b :: bs).length + (priceGroups (b :: bs)).length + ((a :: as).length + (priceGroups (a :: as)).length) + 1) (priceGroups (b :: bs)) (priceGroups (a :: as)) ((priceGroups (b :: bs)).headD []) ((priceGroups (a :: as)).headD []) b.leaves 0) := fun _ _ _ _ => rfl
      have g1 : priceGroups (c.ofOrder b :: bs.map c.ofOrder) = c.groups (priceGroups (b :: bs)) := c.groups_map hb
      have g2 : priceGroups (c.ofOrder a :: as.map c.ofOrder) = c.groups (priceGroups (a :: as)) := c.groups_map ha
      have hc : ((c.ofOrder a).isAON = true ∧ ((c.ofOrder b).isAON = true → c.lot * b.leaves < c.lot * a.leaves)) ↔ (a.isAON = true ∧ (b.isAON = true → b.leaves < a.leaves)) := by
        rw [isAON_map, isAON_map, c.lot_lt]
      have bound : ∀ x xs, x.leaves + vol ((priceGroups (x :: xs)).headD []).tail + vol (priceGroups (x :: xs)).tail.flatten = vol (x :: xs) := by
        intro x xs
        obtain ⟨g, gs, eg⟩ := priceGroups_head x xs
        have hf := groups_flat (x :: xs)
        rw [eg] at hf ⊢
        rw [← hf, List.flatten_cons, List.cons_append, vol_cons, vol_append]
        simp only [List.headD_cons, List.tail_cons]
        omega
      have whole : ∀ x xs, vol ((priceGroups (x :: xs)).headD []) + vol (priceGroups (x :: xs)).tail.flatten = vol (x :: xs) := by
        intro x xs
        rw [vol_headD, groups_flat]
      have ba := bound a as; have bb := bound b bs; have wa := whole a as; have wb := whole b bs
      rw [List.map_cons, List.map_cons, e, e, g1, g2, headD_map, headD_map, groups_length, groups_length]
      simp only [List.length_cons, List.length_map]
      rw [show (c.ofOrder b).leaves = c.lot * b.leaves from rfl, show (c.ofOrder a).leaves = c.lot * a.leaves from rfl]
      by_cases h : a.isAON = true ∧ (b.isAON = true → b.leaves < a.leaves)
      · rw [if_pos h, if_pos (hc.2 h)]
        have i := c.tally_map (bs.length + 1 + (priceGroups (b :: bs)).length + (as.length + 1 + (priceGroups (a :: as)).length) + 1)
          (priceGroups (a :: as)) (priceGroups (b :: bs)) ((priceGroups (a :: as)).headD []) ((priceGroups (b :: bs)).headD []) a.leaves 0 (Nat.zero_le _)
          (c.fit hv (by omega))
        rw [Nat.mul_zero] at i
        exact ⟨i.1, by omega⟩
      · rw [if_neg h, if_neg (fun x => h (hc.1 x))]
        have i := c.tally_map (bs.length + 1 + (priceGroups (b :: bs)).length + (as.length + 1 + (priceGroups (a :: as)).length) + 1)
          (priceGroups (b :: bs)) (priceGroups (a :: as)) ((priceGroups (b :: bs)).headD []) ((priceGroups (a :: as)).headD []) b.leaves 0 (Nat.zero_le _)
          (c.fit hv (by omega))
        rw [Nat.mul_zero] at i
        exact ⟨i.1, by omega⟩

/-- More than there is: everything is drawn. -/
theorem drawn_all (rs : List Order) : ∀ {n : Nat}, vol rs < n → n < W64 → drawn n rs = rs.map (fun r => (r, r.leaves)) := by
  induction rs with
  | nil => intro n _ _; rfl
  | cons r rs ih =>
    intro n h1 h2
    rw [vol_cons] at h1
    have e : drawn n (r :: rs) = if n = 0 then [] else (r, if r.isAON then r.leaves else min r.leaves n) :: drawn (sub64 n (if r.isAON then r.leaves else min r.leaves n)) rs := rfl
    have hq : (if r.isAON then r.leaves else min r.leaves n) = r.leaves := by split <;> omega
    rw [e, hq, if_neg (by omega), sub64_le (by omega) h2, ih (by omega) (by omega)]
    rfl

theorem drawn_map {rs : List Order} : ∀ {n : Nat}, c.lot * n < W64 → c.lot * vol rs < W64 →
    drawn (c.lot * n) (rs.map c.ofOrder) = c.draws (drawn n rs) := by
  induction rs with
  | nil => intro n _ _; rfl
  | cons r rs ih =>
    intro n hn hv
    rw [vol_cons] at hv
    have e : ∀ (r : Order) rs n, drawn n (r :: rs) = if n = 0 then [] else (r, if r.isAON then r.leaves else min r.leaves n) :: drawn (sub64 n (if r.isAON then r.leaves else min r.leaves n)) rs := fun _ _ _ => rfl
    rw [List.map_cons, e, e, isAON_map, show (c.ofOrder r).leaves = c.lot * r.leaves from rfl, c.lot_min]
    have hq : (if r.isAON = true then c.lot * r.leaves else c.lot * min r.leaves n) = c.lot * (if r.isAON = true then r.leaves else min r.leaves n) := by
      split <;> rfl
    rw [hq]
    have hqy : (if r.isAON = true then r.leaves else min r.leaves n) ≤ r.leaves := by split <;> omega
    generalize (if r.isAON = true then r.leaves else min r.leaves n) = q at hqy ⊢
    by_cases h : n = 0
    · rw [if_pos h, if_pos ((c.lot_zero n).2 h)]; rfl
    · rw [if_neg h, if_neg (fun x => h ((c.lot_zero n).1 x))]
      show _ = (c.ofOrder r, c.lot * q) :: c.draws (drawn (sub64 n q) rs)
      congr 1
      by_cases hle : q ≤ n
      · rw [c.sub_map hle hn]
        exact ih (by rw [sub64_le hle (c.fit_one hn)]; exact c.fit hn (by omega)) (c.fit hv (by omega))
      · have hk : c.lot * n < c.lot * q := (c.lot_lt _ _).2 (by omega)
        have hf : c.lot * q + c.lot * vol rs < W64 := by rw [← Nat.mul_add]; exact c.fit hv (by omega)
        have h1 : q + vol rs < W64 := c.fit_one (c.fit hv (by omega))
        rw [drawn_all rs (n := sub64 n q) (by unfold sub64; omega) (by unfold sub64; omega),
          drawn_all (rs.map c.ofOrder) (n := sub64 (c.lot * n) (c.lot * q)) (by rw [vol_map]; unfold sub64; omega) (by unfold sub64; omega)]
        unfold draws
        rw [List.map_map, List.map_map]; rfl

theorem meet_map {p : Pit} (hp : c.Tidy p) {b a : Order} (hb : c.Good b) (ha : c.Good a) :
    (c.pit p).meet (c.ofOrder b) (c.ofOrder a) = c.step (p.meet b a) ∧ c.Tidy (p.meet b a).2 := by
  have key : ∀ e r : Order, c.Good e → c.Good r →
      (([(c.ofOrder e, (c.ofOrder e).price, (c.ofOrder e).leaves), (c.ofOrder r, (c.ofOrder e).price, (c.ofOrder e).leaves)],
        { c.pit p with
          board := ((c.pit p).board.change (c.ofOrder e).id none).change (c.ofOrder r).id (if (c.ofOrder e).leaves < (c.ofOrder r).leaves then some ((c.ofOrder r).afterExec (c.ofOrder e).leaves) else none)
          last := (c.pit p).last.after [(c.ofOrder e, (c.ofOrder e).price, (c.ofOrder e).leaves), (c.ofOrder r, (c.ofOrder e).price, (c.ofOrder e).leaves)]
          heard := .blank }) : List Execution × Pit) =
      c.step ([(e, e.price, e.leaves), (r, e.price, e.leaves)],
        { p with
          board := (p.board.change e.id none).change r.id (if e.leaves < r.leaves then some (r.afterExec e.leaves) else none)
          last := p.last.after [(e, e.price, e.leaves), (r, e.price, e.leaves)]
          heard := .blank }) ∧
      c.Tidy { p with
          board := (p.board.change e.id none).change r.id (if e.leaves < r.leaves then some (r.afterExec e.leaves) else none)
          last := p.last.after [(e, e.price, e.leaves), (r, e.price, e.leaves)]
          heard := .blank } := by
    intro e r he hr
    have hl := c.lot_lt e.leaves r.leaves
    have h1 := c.change_map p.board e.id none
    have h2 := c.change_map (p.board.change e.id none) r.id (if e.leaves < r.leaves then some (r.afterExec e.leaves) else none)
    rw [← h1] at h2
    have h3 : (if e.leaves < r.leaves then some (r.afterExec e.leaves) else none).map c.ofOrder =
        (if (c.ofOrder e).leaves < (c.ofOrder r).leaves then some ((c.ofOrder r).afterExec (c.ofOrder e).leaves) else none) := by
      by_cases h : e.leaves < r.leaves
      · rw [if_pos h, if_pos (show (c.ofOrder e).leaves < (c.ofOrder r).leaves from hl.2 h)]
        show some _ = some ((c.ofOrder r).afterExec (c.lot * e.leaves))
        rw [afterExec_map]
      · rw [if_neg h, if_neg (show ¬ (c.ofOrder e).leaves < (c.ofOrder r).leaves from fun x => h (hl.1 x))]; rfl
    rw [h3] at h2
    have h4 := c.after_map [(e, e.price, e.leaves), (r, e.price, e.leaves)] p.last
    refine ⟨?_, ⟨?_, ?_, c.blank_map.2, hp.seen⟩⟩
    · unfold step
      refine Prod.ext rfl ?_
      exact (Pit.mk.injEq ..).mpr ⟨h2, h4, c.blank_map.1.symm, rfl⟩
    · refine c.change_good (c.change_good (v := none) hp.board (by intro _ h; cases h)) (fun o ho => ?_)
      split at ho
      · cases ho; exact hr.after _
      · cases ho
    · refine c.after_good hp.last (fun x hx => ?_)
      simp only [List.mem_cons, List.not_mem_nil, or_false] at hx
      rcases hx with rfl | rfl
      · exact he.price
      · exact he.price
  have e1 : (if (c.ofOrder a).leaves < (c.ofOrder b).leaves then c.ofOrder a else c.ofOrder b) = c.ofOrder (if a.leaves < b.leaves then a else b) := by
    by_cases h : a.leaves < b.leaves
    · rw [if_pos h, if_pos (show (c.ofOrder a).leaves < (c.ofOrder b).leaves from (c.lot_lt _ _).2 h)]
    · rw [if_neg h, if_neg (show ¬ (c.ofOrder a).leaves < (c.ofOrder b).leaves from fun x => h ((c.lot_lt _ _).1 x))]
  have e2 : (if (c.ofOrder a).leaves < (c.ofOrder b).leaves then c.ofOrder b else c.ofOrder a) = c.ofOrder (if a.leaves < b.leaves then b else a) := by
    by_cases h : a.leaves < b.leaves
    · rw [if_pos h, if_pos (show (c.ofOrder a).leaves < (c.ofOrder b).leaves from (c.lot_lt _ _).2 h)]
    · rw [if_neg h, if_neg (show ¬ (c.ofOrder a).leaves < (c.ofOrder b).leaves from fun x => h ((c.lot_lt _ _).1 x))]
  unfold Pit.meet
  simp only
  rw [e1, e2]
  refine key _ _ ?_ ?_
  · split <;> assumption
  · split <;> assumption

theorem draw_map {p : Pit} (hp : c.Tidy p) {k : Kind} (hk : k.isLimit = true) {price n : Nat} (hpr : c.used price) (hn : c.lot * n < W64) (hv : c.lot * vol (p.board k) < W64) :
    (c.pit p).draw k (c.price price) (c.lot * n) = c.step (p.draw k price n) ∧ c.Tidy (p.draw k price n).2 := by
  unfold Pit.draw step
  simp only
  rw [show (c.pit p).board k = (p.board k).map c.ofOrder from rfl, c.drawn_map hn hv, afterChain_map]
  have h1 : (c.draws (drawn n (p.board k))).map (fun y => ((y.1, c.price price, y.2) : Execution)) = ((drawn n (p.board k)).map (fun y => ((y.1, price, y.2) : Execution))).map c.ofExec := by
    simp only [draws, List.map_map]; rfl
  have hx : c.GoodX ((drawn n (p.board k)).map (fun y => ((y.1, price, y.2) : Execution))) := by
    intro x hx
    obtain ⟨y, _, rfl⟩ := List.mem_map.1 hx
    exact hpr
  rw [h1, show (c.pit p).board = c.board p.board from rfl, put_map]
  have hg := c.put_good hp.board hk (c.afterChain_good (drawn n (p.board k)) (hp.board.good k))
  generalize (drawn n (p.board k)).map (fun y => ((y.1, price, y.2) : Execution)) = xs at hx ⊢
  refine ⟨Prod.ext rfl ((Pit.mk.injEq ..).mpr ⟨rfl, c.after_map _ _, ?_, rfl⟩), ⟨hg, c.after_good hp.last hx, ?_, hp.seen⟩⟩
  · cases xs with
    | nil => rfl
    | cons x xs => exact c.blank_map.1.symm
  · simp only
    split
    · exact hp.heard
    · exact c.blank_map.2

theorem size_map (l : Board) : (c.board l).size = c.lot * l.size := by
  rw [size_eq, size_eq]
  simp only [board, vol_map, Nat.mul_add]

theorem stops_map (l : Board) : (c.board l).stops = l.stops := by
  show ((l .buyStop).map c.ofOrder).length + ((l .sellStop).map c.ofOrder).length + ((l .tBuyStop).map c.ofOrder).length + ((l .tSellStop).map c.ofOrder).length = _
  simp [Board.stops]

theorem crossWhole_map {p : Pit} (hp : c.Tidy p) (hv : c.lot * p.board.size < W64) {b a : Order} (hb : c.Good b) (ha : c.Good a) :
    (c.pit p).crossWhole (c.ofOrder b) (c.ofOrder a) = c.turn (p.crossWhole b a) ∧ c.Tidy (p.crossWhole b a).2.2 := by
  have hsz := size_eq p.board
  have hv1 : c.lot * (vol (p.board .bid) + vol (p.board .ask)) < W64 := c.fit hv (by omega)
  obtain ⟨x1, x2⟩ := c.crossing_map (hp.board.good .bid) (hp.board.good .ask) hv1
  have hn : c.lot * crossing (p.board .bid) (p.board .ask) < W64 := c.fit hv1 x2
  unfold Pit.crossWhole
  simp only
  rw [show (c.pit p).board .bid = (p.board .bid).map c.ofOrder from rfl, show (c.pit p).board .ask = (p.board .ask).map c.ofOrder from rfl, x1]
  generalize crossing (p.board .bid) (p.board .ask) = n at hn ⊢
  by_cases h : n = 0
  · rw [if_pos h, if_pos ((c.lot_zero n).2 h)]; exact ⟨rfl, hp⟩
  · rw [if_neg h, if_neg (fun x => h ((c.lot_zero n).1 x))]
    have other : ∀ k k' price, k' ≠ k → (p.draw k price n).2.board k' = p.board k' := by
      intro k k' price hk
      rw [(draw_board p k price n).1]; unfold Board.put; rw [if_neg hk]
    by_cases hba : b.isAON = true
    · simp only [if_pos hba, if_pos (show (c.ofOrder b).isAON = true from hba)]
      obtain ⟨d1, d2⟩ := c.draw_map hp (k := .bid) rfl hb.price hn (c.fit hv (by omega))
      obtain ⟨d3, d4⟩ := c.draw_map d2 (k := .ask) rfl hb.price hn (by rw [other .bid .ask _ (by decide)]; exact c.fit hv (by omega))
      rw [show (c.ofOrder b).price = c.price b.price from rfl, d1]
      rw [show (c.step (p.draw .bid b.price n)).2 = c.pit (p.draw .bid b.price n).2 from rfl, d3]
      refine ⟨?_, d4⟩
      unfold step turn
      simp only [List.map_append]
    · simp only [if_neg hba, if_neg (show ¬ (c.ofOrder b).isAON = true from hba)]
      obtain ⟨d1, d2⟩ := c.draw_map hp (k := .ask) rfl ha.price hn (c.fit hv (by omega))
      obtain ⟨d3, d4⟩ := c.draw_map d2 (k := .bid) rfl ha.price hn (by rw [other .ask .bid _ (by decide)]; exact c.fit hv (by omega))
      rw [show (c.ofOrder a).price = c.price a.price from rfl, d1]
      rw [show (c.step (p.draw .ask a.price n)).2 = c.pit (p.draw .ask a.price n).2 from rfl, d3]
      refine ⟨?_, d4⟩
      unfold step turn
      simp only [List.map_append]

theorem pairs_map (bs : List Order) : ∀ (as : List Order) {p : Pit}, c.Tidy p → Fine p → c.lot * p.board.size < W64 → (∀ b ∈ bs, b ∈ p.board .bid) → (∀ a ∈ as, a ∈ p.board .ask) →
    (bs.map (·.id)).Nodup → (as.map (·.id)).Nodup →
    Pit.pairs (bs.map c.ofOrder) (as.map c.ofOrder) (c.pit p) = c.turn (Pit.pairs bs as p) ∧ c.Tidy (Pit.pairs bs as p).2.2 := by
  induction bs with
  | nil => intro as p hp _ _ _ _ _ _; cases as <;> exact ⟨rfl, hp⟩
  | cons b bs ih =>
    intro as p hp hf hv h1 h2 h3 h4
    cases as with
    | nil => exact ⟨rfl, hp⟩
    | cons a as =>
      have e : ∀ b bs a as p, Pit.pairs (b :: bs) (a :: as) p = if b.isAON ∨ a.isAON then p.crossWhole b a else
        ((Pit.pairs bs as (p.meet b a).2).1, (p.meet b a).1 ++ (Pit.pairs bs as (p.meet b a).2).2.1, (Pit.pairs bs as (p.meet b a).2).2.2) := fun _ _ _ _ _ => rfl
      have hb := h1 b List.mem_cons_self
      have ha := h2 a List.mem_cons_self
      have gb := hp.board.good _ b hb
      have ga := hp.board.good _ a ha
      rw [List.map_cons, List.map_cons, e, e]
      by_cases h : b.isAON ∨ a.isAON
      · rw [if_pos h, if_pos (show (c.ofOrder b).isAON ∨ (c.ofOrder a).isAON from h)]; exact c.crossWhole_map hp hv gb ga
      · rw [List.map_cons, List.nodup_cons] at h3 h4
        obtain ⟨m1, m2⟩ := c.meet_map hp gb ga
        have hm : Paid p (p.meet b a) := .meet hf hb ha
        obtain ⟨i1, i2⟩ := ih as m2 hm.fine (c.fit hv hm.size) (fun x hx => by
            have hxb := h1 x (List.mem_cons_of_mem _ hx)
            refine meet_keep p hxb (fun e => h3.1 (List.mem_map.2 ⟨x, hx, e⟩)) (fun e => ?_)
            cases hf.neat.cross _ _ _ _ hxb ha e) (fun x hx => by
            have hxa := h2 x (List.mem_cons_of_mem _ hx)
            refine meet_keep p hxa (fun e => ?_) (fun e => h4.1 (List.mem_map.2 ⟨x, hx, e⟩))
            cases hf.neat.cross _ _ _ _ hxa hb e) h3.2 h4.2
        rw [if_neg h, if_neg (show ¬ ((c.ofOrder b).isAON ∨ (c.ofOrder a).isAON) from h), m1,
          show (c.step (p.meet b a)).2 = c.pit (p.meet b a).2 from rfl, i1]
        refine ⟨?_, i2⟩
        unfold turn step
        simp only [List.map_append]

theorem crossed_map {p : Pit} (hp : c.Tidy p) : (c.pit p).crossed ↔ p.crossed := by
  obtain ⟨a1, a2⟩ := c.bestAsk_map hp.board
  obtain ⟨b1, b2⟩ := c.bestBid_map hp.board
  unfold Pit.crossed
  rw [show (c.pit p).board = c.board p.board from rfl, a1, b1, c.le_map a2 b2]
  show _ ∧ (p.board .bid).map c.ofOrder ≠ [] ∧ (p.board .ask).map c.ofOrder ≠ [] ↔ _
  simp

theorem settle_map (n : Nat) : ∀ {p : Pit}, c.Tidy p → Fine p → c.lot * p.board.size < W64 →
    Pit.settle n (c.pit p) = c.step (Pit.settle n p) ∧ c.Tidy (Pit.settle n p).2 := by
  induction n with
  | zero => intro p hp _ _; exact ⟨rfl, hp⟩
  | succ n ih =>
    intro p hp hf hv
    have e1 : ∀ p : Pit, p.crossed → Pit.settle (n + 1) p =
      (let q := Pit.pairs ((priceGroups (p.board .bid)).headD []) ((priceGroups (p.board .ask)).headD []) p
       if q.1 then (q.2.1, q.2.2)
       else
        let r := Pit.releaseAll (q.2.2.due .buyStop) q.2.2
        let r' := Pit.releaseAll (r.2.due .sellStop) r.2
        let z := Pit.settle n r'.2
        (q.2.1 ++ r.1 ++ r'.1 ++ z.1, z.2)) := fun p h => if_pos h
    have e2 : ∀ p : Pit, ¬ p.crossed → Pit.settle (n + 1) p =
      (let q := p.rounds (p.board.stops + 1)
       if q.1 then
        let z := Pit.settle n q.2.2
        (q.2.1 ++ z.1, z.2)
       else (q.2.1, q.2.2)) := fun p h => if_neg h
    by_cases h : p.crossed
    · rw [e1 p h, e1 _ ((c.crossed_map hp).2 h)]
      simp only
      rw [show (c.pit p).board .bid = (p.board .bid).map c.ofOrder from rfl, show (c.pit p).board .ask = (p.board .ask).map c.ofOrder from rfl,
        c.groups_map (hp.board.good .bid), c.groups_map (hp.board.good .ask), headD_map, headD_map]
      have hb : ∀ b ∈ (priceGroups (p.board .bid)).headD [], b ∈ p.board .bid := fun b hb => (groups_first _).subset hb
      have ha : ∀ a ∈ (priceGroups (p.board .ask)).headD [], a ∈ p.board .ask := fun a ha => (groups_first _).subset ha
      have nb := ((groups_first (p.board .bid)).map (·.id)).nodup (hf.neat.line .bid)
      have na := ((groups_first (p.board .ask)).map (·.id)).nodup (hf.neat.line .ask)
      obtain ⟨q1, q2⟩ := c.pairs_map _ _ hp hf hv hb ha nb na
      have q3 := Paid.pairs _ _ hf hb ha nb na
      rw [q1]
      generalize Pit.pairs ((priceGroups (p.board .bid)).headD []) ((priceGroups (p.board .ask)).headD []) p = q at q2 q3 ⊢
      by_cases hq : q.1 = true
      · rw [if_pos hq, if_pos (show (c.turn q).1 = true from hq)]; exact ⟨rfl, q2⟩
      · obtain ⟨r1, r2⟩ := c.releaseAll_map (c.due_good q2 .buyStop) q2
        have p1 := Paid.due q3.fine (k := .buyStop) rfl
        obtain ⟨s1, s2⟩ := c.releaseAll_map (c.due_good r2 .sellStop) r2
        have p2 := Paid.due p1.fine (k := .sellStop) rfl
        obtain ⟨i1, i2⟩ := ih s2 p2.fine (c.fit hv (Nat.le_trans p2.size (Nat.le_trans p1.size q3.size)))
        rw [if_neg hq, if_neg (show ¬ (c.turn q).1 = true from hq), show (c.turn q).2.2 = c.pit q.2.2 from rfl, c.due_map q2, r1]
        rw [show (c.step (Pit.releaseAll (q.2.2.due .buyStop) q.2.2)).2 = c.pit (Pit.releaseAll (q.2.2.due .buyStop) q.2.2).2 from rfl, c.due_map r2, s1]
        simp only [step] at i1 ⊢
        rw [i1]
        refine ⟨?_, i2⟩
        unfold turn
        simp only [List.map_append]
    · rw [e2 p h, e2 _ (fun h' => h ((c.crossed_map hp).1 h'))]
      simp only
      obtain ⟨q1, q2⟩ := c.rounds_map (p.board.stops + 1) hp
      have q3 := Paid.rounds (p.board.stops + 1) hf
      rw [show (c.pit p).board = c.board p.board from rfl, stops_map, q1]
      generalize p.rounds (p.board.stops + 1) = q at q2 q3 ⊢
      by_cases hq : q.1 = true
      · obtain ⟨i1, i2⟩ := ih q2 q3.fine (c.fit hv q3.size)
        rw [if_pos hq, if_pos (show (c.turn q).1 = true from hq), show (c.turn q).2.2 = c.pit q.2.2 from rfl, i1]
        refine ⟨?_, i2⟩
        unfold turn step
        simp only [List.map_append]
      · rw [if_neg hq, if_neg (show ¬ (c.turn q).1 = true from hq)]; exact ⟨rfl, q2⟩

/-- Every order has something left. -/
def Live (l : Board) : Prop := ∀ k, ∀ r ∈ l k, 0 < r.leaves

theorem len_vol {rs : List Order} (h : ∀ r ∈ rs, 0 < r.leaves) : rs.length ≤ vol rs := by
  induction rs with
  | nil => exact Nat.zero_le _
  | cons r rs ih =>
    have := h r List.mem_cons_self
    have := ih (fun x hx => h x (List.mem_cons_of_mem _ hx))
    rw [vol_cons, List.length_cons]; omega

theorem cnt_size {l : Board} (h : Live l) : cnt l ≤ l.size := by
  rw [size_eq]
  exact six_le (f := fun k => (l k).length) (g := fun k => vol (l k)) (fun k => len_vol (h k))

/-- What a call may start from: prices in use, quantities that fit. -/
structure Ready (p : Pit) : Prop where
  tidy : c.Tidy p
  fine : Fine p
  fits : c.lot * p.board.size < W64
  live : Live p.board

theorem rest_map {p : Pit} (h : c.Ready p) : (c.pit p).rest = c.step p.rest ∧ c.Tidy p.rest.2 := by
  unfold Pit.rest
  have hc := cnt_size h.live
  have hs : p.board.size ≤ c.lot * p.board.size := by
    have : 1 * p.board.size ≤ c.lot * p.board.size := Nat.mul_le_mul_right _ c.positive
    omega
  rw [show (c.pit p).board = c.board p.board from rfl, size_map, stops_map,
    settle_more (p.board.size + p.board.stops + 1) (c.lot * p.board.size + p.board.stops + 1) h.fine (by unfold turns; omega) (by unfold turns; omega)]
  exact c.settle_map _ h.tidy h.fine h.fits

theorem close_map (m : Bool) {p : Pit} (h : c.Ready p) : (c.pit p).close m = c.step (p.close m) ∧ c.Tidy (p.close m).2 := by
  obtain ⟨r1, r2⟩ := c.rest_map h
  unfold Pit.close step
  cases m with
  | false =>
    refine ⟨Prod.ext rfl ((Pit.mk.injEq ..).mpr ⟨rfl, rfl, c.blank_map.1.symm, rfl⟩), ⟨h.tidy.board, h.tidy.last, c.blank_map.2, h.tidy.seen⟩⟩
  | true =>
    simp only [if_true]
    rw [r1]
    exact ⟨Prod.ext rfl ((Pit.mk.injEq ..).mpr ⟨rfl, rfl, c.blank_map.1.symm, rfl⟩), ⟨r2.board, r2.last, c.blank_map.2, r2.seen⟩⟩

theorem waits_map (o : Order) : (c.ofOrder o).waits ↔ o.waits := Iff.rfl

theorem enter_map (m : Bool) {p : Pit} (hp : c.Tidy p) {o : Order} (ho : c.Good o) :
    (c.pit p).enter m (c.ofOrder o) = ((p.enter m o).1.map c.ofExec, c.ofOrder (p.enter m o).2.1, c.pit (p.enter m o).2.2) ∧
    c.Good (p.enter m o).2.1 ∧ c.Tidy (p.enter m o).2.2 := by
  have key : ∀ t : Order, c.Good t → ((if (c.ofOrder t).waits ∧ ¬ (m = true ∧ (c.pit p).reached (c.ofOrder t)) then (([] : List Execution), c.ofOrder t, c.pit p)
        else (c.pit p).strike m (c.ofOrder t).released) =
      (((if t.waits ∧ ¬ (m = true ∧ p.reached t) then (([] : List Execution), t, p) else p.strike m t.released).1.map c.ofExec),
        c.ofOrder (if t.waits ∧ ¬ (m = true ∧ p.reached t) then (([] : List Execution), t, p) else p.strike m t.released).2.1,
        c.pit (if t.waits ∧ ¬ (m = true ∧ p.reached t) then (([] : List Execution), t, p) else p.strike m t.released).2.2)) ∧
      c.Good (if t.waits ∧ ¬ (m = true ∧ p.reached t) then (([] : List Execution), t, p) else p.strike m t.released).2.1 ∧
      c.Tidy (if t.waits ∧ ¬ (m = true ∧ p.reached t) then (([] : List Execution), t, p) else p.strike m t.released).2.2 := by
    intro t ht
    by_cases h : t.waits ∧ ¬ (m = true ∧ p.reached t)
    · have h' : (c.ofOrder t).waits ∧ ¬ (m = true ∧ (c.pit p).reached (c.ofOrder t)) := ⟨h.1, fun x => h.2 ⟨x.1, (c.reached_map hp ht).1 x.2⟩⟩
      rw [if_pos h, if_pos h']; exact ⟨rfl, ht, hp⟩
    · have h' : ¬ ((c.ofOrder t).waits ∧ ¬ (m = true ∧ (c.pit p).reached (c.ofOrder t))) :=
        fun x => h ⟨x.1, fun y => x.2 ⟨y.1, (c.reached_map hp ht).2 y.2⟩⟩
      obtain ⟨s1, _, s3, s4⟩ := c.pit_strike m hp ht.released
      rw [if_neg h, if_neg h', released_map, s1]
      exact ⟨rfl, s3, s4⟩
  have ta := c.trailAsk_map hp
  have tb := c.trailBid_map hp
  unfold Pit.enter
  rw [show (c.ofOrder o).side = o.side from rfl]
  cases o.side
  · simp only
    obtain ⟨r1, r2⟩ := c.retrailed_map (m := p.trailAsk) ho
    rw [ta.1, r1]; exact key _ r2
  · simp only
    obtain ⟨r1, r2⟩ := c.retrailed_map (m := p.trailBid) ho
    rw [tb.1, r1]; exact key _ r2

end Rescale
end CppTrader
