import Verif.Props.Feeds
/-
C15: the stop price of trailing orders.
-/

namespace CppTrader
open Core

/-- C15, the calculation itself (`CalculateTrailingStopPrice`): for an order that passed validation, at market price
`m` the new stop price is the target if the order moves, and the old stop price otherwise. -/
theorem C15_formula {o : Order} (hv : o.validate = .ok) (hr : o.Repr64) (ht : o.type = .trailingStop ∨ o.type = .trailingStopLimit) (m : Nat) :
    (o.trailMoves m → trailPrice o m = o.trailTarget m) ∧ (¬ o.trailMoves m → trailPrice o m = o.stopPrice) :=
  trailPrice_spec hr ((validate_facts hv).2.2 ((isTrailing_iff o).2 ht)) m

/-- C15, the trailing distance and step of a validated order, when no percentage calculation exceeds 64 bits (market
prices below 2^64/1000): the given value, or the given hundredths of a percent of the market price. -/
theorem C15_units {o : Order} (hv : o.validate = .ok) (ht : o.type = .trailingStop ∨ o.type = .trailingStopLimit) {m : Nat}
    (hm : 1000 * m < W64) :
    (0 < o.trailDist → o.trailUnits o.trailDist m = o.trailDist.toNat ∧ o.trailUnits o.trailStep m = o.trailStep.toNat) ∧
    (o.trailDist < 0 → o.trailUnits o.trailDist m = (-o.trailDist).toNat * m / 10000 ∧
      o.trailUnits o.trailStep m = (-o.trailStep).toNat * m / 10000) ∧ o.trailDist ≠ 0 := by
  have hok := (validate_facts hv).2.2 ((isTrailing_iff o).2 ht)
  unfold Order.TrailOK at hok
  unfold Order.trailUnits
  refine ⟨fun h => by simp [Int.not_lt.2 (Int.le_of_lt h)], fun h => ?_, by omega⟩
  simp only [h, if_true]
  have key : ∀ v : Int, -1000 ≤ v → (-v).toNat * m % W64 = (-v).toNat * m := by
    intro v hv
    apply Nat.mod_eq_of_lt
    have : (-v).toNat * m ≤ 1000 * m := Nat.mul_le_mul_right m (by omega)
    omega
  rw [key _ (by omega), key _ (by omega)]
  exact ⟨rfl, rfl⟩

/-- C15: recalculating at the same market price changes nothing. -/
theorem C15_idempotent {o : Order} (hv : o.validate = .ok) (hr : o.Repr64) (ht : o.type = .trailingStop ∨ o.type = .trailingStopLimit) (m : Nat) :
    ¬ ({ o with stopPrice := trailPrice o m } : Order).trailMoves m ∧
    trailPrice { o with stopPrice := trailPrice o m } m = trailPrice o m := by
  refine ⟨?_, trailPrice_idem o m o.price⟩
  have h := C15_formula hv hr ht m
  by_cases hm : o.trailMoves m
  · rw [h.1 hm]
    unfold Order.trailMoves
    have e : ({ o with stopPrice := o.trailTarget m } : Order).trailTarget m = o.trailTarget m := rfl
    rw [e]
    cases o.side <;> simp only <;> omega
  · rw [h.2 hm]; exact hm

/-- C15, submission: when `AddOrder` accepts a trailing order, `onAddOrder` reports it with the stop price calculated at
the market price the symbol then has, and a limit price at the same distance (modulo 2^64) as submitted. -/
theorem C15_add {g : Mgr} (hr : g.Reachable) {o : Order} {g' e evs} (ha : g.Admissible (.addOrder o)) (hf : g.FreshId (.addOrder o))
    (hs : g.step (.addOrder o) = .ok (g', e)) (hev : g'.ev = g.ev ++ evs) (he : e = .ok)
    (ht : o.type = .trailingStop ∨ o.type = .trailingStopLimit) :
    ∃ o', addsOf evs = [o'] ∧
      (o.trailMoves (g.trailMarket o.symbolId o.side) → o'.stopPrice = o.trailTarget (g.trailMarket o.symbolId o.side)) ∧
      (¬ o.trailMoves (g.trailMarket o.symbolId o.side) → o'.stopPrice = o.stopPrice) ∧
      o' = { o with stopPrice := o'.stopPrice, price := o'.price } ∧
      (o.type = .trailingStop → o'.price = o.price) ∧
      (o.type = .trailingStopLimit → (o'.price + o.stopPrice) % W64 = (o.price + o'.stopPrice) % W64) := by
  rcases (C45_order_feed hr ha hf hs hev).2 with h | ⟨o', h1, h2⟩
  · exact absurd he (h.2 rfl).1
  · refine ⟨o', h1, ?_⟩
    replace h2 : o.Submitted (g.trailMarket o.symbolId o.side) o' := h2
    generalize g.trailMarket o.symbolId o.side = m at h2 ⊢
    rcases h2 with ⟨rfl, h2⟩ | ⟨h2, ⟨h3, h4⟩ | ⟨h3, h4⟩⟩
    · refine ⟨fun h => absurd ⟨ht, h⟩ h2, fun _ => rfl, rfl, fun _ => rfl, fun _ => rfl⟩
    · rw [h4]
      refine ⟨fun _ => rfl, fun h => absurd h2 h, rfl, fun _ => rfl, fun h => by rw [h3] at h; cases h⟩
    · rw [h4]
      refine ⟨fun _ => rfl, fun h => absurd h2 h, rfl, (fun h => by rw [h3] at h; cases h), fun _ => ?_⟩
      simp only [add64, sub64]
      have := ha.1.2.2.1
      have := ha.1.2.2.2.1
      omega

/-- C15, later moves: if over any call a trailing order (not resubmitted by it) changes its stop price, the new one is the
target at some market price, better than the old one by at least the trailing step at that market price. -/
theorem C15_moves {g : Mgr} (hr : g.Reachable) {op g' e} (ha : g.Admissible op)
    (hs : g.step op = .ok (g', e)) {i : Nat} {o o' : Order} (ho : g.getOrder i = some o)
    (ho' : g'.getOrder i = some o') (hn : ∀ t, g.submits op t → t.id ≠ i)
    (ht : o'.type = .trailingStop ∨ o'.type = .trailingStopLimit) :
    o'.stopPrice = o.stopPrice ∨ ∃ m, m < W64 ∧ o.trailMoves m ∧ o'.stopPrice = o.trailTarget m := by
  have h := (C46_identity hr ha hs ho ho' hn).1
  rcases h.stop (C14_trailing_direction hr ha hs ho ho' hn ht).1 with h | ⟨_, h⟩
  · exact .inl h
  · exact .inr h

/-- A buy order 10 behind the market, step 5, submitted with stop price 140 while the ask is 120 and the last sale was at
100, is added with stop price 130. -/
example : ∃ (g g' : Mgr) (e : ErrorCode), g.Reachable ∧ g.Admissible (.addOrder (.mkTrailingStop 3 1 .buy 140 3 10 5)) ∧
    g.step (.addOrder (.mkTrailingStop 3 1 .buy 140 3 10 5)) = .ok (g', e) ∧
    (freshB g (.addOrder (.mkTrailingStop 3 1 .buy 140 3 10 5)) && decide (e = .ok) && decide (g.trailMarket 1 .buy = 120) &&
      decide ((g'.getOrder 3).map (·.stopPrice) = some 130)) = true :=
  demoStep (p := fun g g' e => freshB g (.addOrder (.mkTrailingStop 3 1 .buy 140 3 10 5)) && decide (e = .ok) && decide (g.trailMarket 1 .buy = 120) &&
      decide ((g'.getOrder 3).map (·.stopPrice) = some 130))
    (trading ++ [.addOrder (.mkLimit 1 1 .sell 100 10), .addOrder (.mkLimit 2 1 .sell 120 10), .addOrder (.mkLimit 4 1 .buy 90 10),
      .addOrder (.mkMarket 9 1 .buy 10)]) (.addOrder (.mkTrailingStop 3 1 .buy 140 3 10 5)) (by decide +kernel)

/-- A sell order 3% behind the market moves from 950 to 970 at market price 1000; it would not move for a step of 3%. -/
example :
    (Order.mkTrailingStop 1 1 .sell 950 3 (-300) (-100)).validate = .ok ∧ (Order.mkTrailingStop 1 1 .sell 950 3 (-300) (-100)).Repr64 ∧
    (Order.mkTrailingStop 1 1 .sell 950 3 (-300) (-100)).trailMoves 1000 ∧
    (Order.mkTrailingStop 1 1 .sell 950 3 (-300) (-100)).trailTarget 1000 = 970 ∧
    (Order.mkTrailingStop 1 1 .sell 950 3 (-300) (-299)).validate = .ok ∧
    ¬ (Order.mkTrailingStop 1 1 .sell 950 3 (-300) (-299)).trailMoves 1000 := by
  refine ⟨by decide, by decide, ⟨by decide, by decide⟩, by decide, by decide, ?_⟩
  rintro ⟨_, h⟩
  revert h
  decide

/-- The bound of `C15_units` is needed: at a market price of about 2^64/1000 the 10% distance of a validated order is
calculated as 0, because the product exceeds 64 bits. -/
theorem C15_wrap_witness :
    (Order.mkTrailingStop 1 1 .sell 5 3 (-1000) 0).validate = .ok ∧ (Order.mkTrailingStop 1 1 .sell 5 3 (-1000) 0).Repr64 ∧
    trailPrice (.mkTrailingStop 1 1 .sell 5 3 (-1000) 0) 18446744073709552 = 18446744073709552 := by
  decide

end CppTrader
