import Verif.Feed
import Verif.Proof.Step
/-
`CalculateTrailingStopPrice` and its specification.
-/

namespace CppTrader
open Core

theorem trailAbs_units {o : Order} (hr : o.Repr64) (hok : o.TrailOK) (m : Nat) :
    trailAbs o m = (o.trailUnits o.trailDist m, o.trailUnits o.trailStep m) := by
  obtain ⟨_, _, _, _, _, _, _, _, _, r1, r2, r3, r4⟩ := hr
  unfold trailAbs Order.trailUnits
  unfold Order.TrailOK at hok
  by_cases hd : o.trailDist < 0
  · simp only [hd, if_true]
    have : (-o.trailStep % (W64 : Int)).toNat = (-o.trailStep).toNat := by omega
    rw [this]
  · simp only [hd, if_false]
    have : (o.trailStep % (W64 : Int)).toNat = o.trailStep.toNat := by omega
    rw [this]

theorem trailUnits_lt {o : Order} (hr : o.Repr64) (hok : o.TrailOK) (m : Nat) : o.trailUnits o.trailDist m < 9223372036854775808 := by
  obtain ⟨_, _, _, _, _, _, _, _, _, r1, r2, r3, r4⟩ := hr
  unfold Order.trailUnits
  split
  · have := Nat.mod_lt ((-o.trailDist).toNat * m) (show 0 < W64 by decide)
    omega
  · omega

/-- `CalculateTrailingStopPrice` computes the specified price. -/
theorem trailPrice_spec {o : Order} (hr : o.Repr64) (hok : o.TrailOK) (m : Nat) :
    (o.trailMoves m → trailPrice o m = o.trailTarget m) ∧ (¬ o.trailMoves m → trailPrice o m = o.stopPrice) := by
  have hu := trailUnits_lt hr hok m
  have r1 := hr.2.2.2.1
  unfold trailPrice
  rw [trailAbs_units hr hok]
  unfold Order.trailMoves Order.trailTarget
  simp only
  generalize o.trailUnits o.trailDist m = d at *
  generalize o.trailUnits o.trailStep m = st at *
  cases hs : o.side with
  | buy =>
    have hb : o.isBuy = true := by simp [Order.isBuy, hs]
    simp only [hb, if_true]
    have : (if m < sub64 MAX64 d then add64 m d else MAX64) = min (m + d) MAX64 := by
      unfold sub64 add64
      split <;> omega
    rw [this]
    generalize min (m + d) MAX64 = n
    refine ⟨fun h => if_pos (by omega), fun h => if_neg (by omega)⟩
  | sell =>
    have hb : o.isBuy = false := by simp [Order.isBuy, hs]
    simp only [hb, Bool.false_eq_true, if_false]
    have : (if m > d then m - d else 0) = m - d := by split <;> omega
    rw [this]
    generalize m - d = n
    refine ⟨fun h => if_pos (by omega), fun h => if_neg (by omega)⟩

theorem calcTrailing_trails {b : Book} {o : Order} (hm : b.marketTrailBid < W64) (hr : o.Repr64) (hok : o.TrailOK)
    (h : b.calcTrailing o ≠ o.stopPrice) : o.Trails (b.calcTrailing o) := by
  unfold Book.calcTrailing at h ⊢
  have hs := trailPrice_spec hr hok (if o.isBuy then b.marketTrailAsk else b.marketTrailBid)
  have hmv : o.trailMoves (if o.isBuy then b.marketTrailAsk else b.marketTrailBid) := Classical.byContradiction fun hn => h (hs.2 hn)
  refine ⟨_, ?_, hmv, hs.1 hmv⟩
  cases ho : o.side with
  | buy =>
    have hb : o.isBuy = true := by simp [Order.isBuy, ho]
    rw [hb] at hmv ⊢
    simp only [if_true] at hmv ⊢
    unfold Order.trailMoves Order.trailTarget at hmv
    rw [ho] at hmv
    have := hr.2.2.2.1
    simp only at hmv
    omega
  | sell =>
    have hb : o.isBuy = false := by simp [Order.isBuy, ho]
    rw [hb]; exact hm

end CppTrader
