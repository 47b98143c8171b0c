import Verif.Model.Factory
import Verif.Props.Validate
/-
C41, continued: the Buy and Sell forms of the factories, and the arguments that may be left out.
-/

namespace CppTrader

/-- C41: the Buy and Sell forms are the general forms with that side. -/
theorem C41_sides (id sym stop price qty mv sl : Nat) (tif : TIF) (d s : Int) :
    (Order.buyMarket id sym qty sl = Order.mkMarket id sym .buy qty sl ∧ Order.sellMarket id sym qty sl = Order.mkMarket id sym .sell qty sl) ∧
    (Order.buyLimit id sym price qty tif mv = Order.mkLimit id sym .buy price qty tif mv ∧
      Order.sellLimit id sym price qty tif mv = Order.mkLimit id sym .sell price qty tif mv) ∧
    (Order.buyStop id sym stop qty tif sl = Order.mkStop id sym .buy stop qty tif sl ∧
      Order.sellStop id sym stop qty tif sl = Order.mkStop id sym .sell stop qty tif sl) ∧
    (Order.buyStopLimit id sym stop price qty tif mv = Order.mkStopLimit id sym .buy stop price qty tif mv ∧
      Order.sellStopLimit id sym stop price qty tif mv = Order.mkStopLimit id sym .sell stop price qty tif mv) ∧
    (Order.trailingBuyStop id sym stop qty d s tif sl = Order.mkTrailingStop id sym .buy stop qty d s tif sl ∧
      Order.trailingSellStop id sym stop qty d s tif sl = Order.mkTrailingStop id sym .sell stop qty d s tif sl) ∧
    (Order.trailingBuyStopLimit id sym stop price qty d s tif mv = Order.mkTrailingStopLimit id sym .buy stop price qty d s tif mv ∧
      Order.trailingSellStopLimit id sym stop price qty d s tif mv = Order.mkTrailingStopLimit id sym .sell stop price qty d s tif mv) :=
  ⟨⟨rfl, rfl⟩, ⟨rfl, rfl⟩, ⟨rfl, rfl⟩, ⟨rfl, rfl⟩, ⟨rfl, rfl⟩, ⟨rfl, rfl⟩⟩

/-- An order with nothing special: good till cancelled, wholly visible, any slippage. -/
def Order.Plain (o : Order) : Prop :=
  o.tif = .gtc ∧ o.maxVisible = 18446744073709551615 ∧ o.slippage = 18446744073709551615

/-- C41: what is left out. A market order without a slippage argument may slip to any price; the other orders are good till
cancelled, wholly visible, without a slippage limit, and a trailing stop trails in steps of any size. -/
theorem C41_defaults (id sym stop price qty : Nat) (sd : Side) (d : Int) :
    (∀ o ∈ [Order.mkMarket id sym sd qty, Order.buyMarket id sym qty, Order.sellMarket id sym qty],
      o.slippage = 18446744073709551615 ∧ o.isSlippage = false) ∧
    (∀ o ∈ [Order.mkLimit id sym sd price qty, Order.buyLimit id sym price qty, Order.sellLimit id sym price qty,
      Order.mkStop id sym sd stop qty, Order.buyStop id sym stop qty, Order.sellStop id sym stop qty,
      Order.mkStopLimit id sym sd stop price qty, Order.buyStopLimit id sym stop price qty, Order.sellStopLimit id sym stop price qty,
      Order.mkTrailingStop id sym sd stop qty d, Order.trailingBuyStop id sym stop qty d, Order.trailingSellStop id sym stop qty d,
      Order.mkTrailingStopLimit id sym sd stop price qty d, Order.trailingBuyStopLimit id sym stop price qty d,
      Order.trailingSellStopLimit id sym stop price qty d], o.Plain ∧ o.isIceberg = false ∧ o.isSlippage = false ∧ o.trailStep = 0) := by
  constructor
  · intro o ho
    simp only [List.mem_cons, List.not_mem_nil, or_false] at ho
    rcases ho with rfl | rfl | rfl <;> exact ⟨rfl, rfl⟩
  · intro o ho
    simp only [List.mem_cons, List.not_mem_nil, or_false] at ho
    rcases ho with rfl | rfl | rfl | rfl | rfl | rfl | rfl | rfl | rfl | rfl | rfl | rfl | rfl | rfl | rfl <;>
      exact ⟨⟨rfl, rfl, rfl⟩, rfl, rfl, rfl⟩

/-- Concretely: the two ways to write the same bid, and a trailing stop with everything left out. -/
example : Order.buyLimit 7 1 100 5 = Order.mkLimit 7 1 .buy 100 5 .gtc MAX64 ∧ (Order.buyLimit 7 1 100 5).validate = .ok ∧
    (Order.trailingSellStop 8 1 90 5 10).validate = .ok ∧ (Order.trailingSellStop 8 1 90 5 0).validate ≠ .ok := by decide

/-- C41: the range of values. `Order.Repr64`, the condition under which the other theorems speak about an order, says that the
fields are values of the C++ types, no more and no less. -/
theorem C41_machine (o : Order) : o.Repr64 ↔
    (∃ v : UInt64, v.toNat = o.id) ∧ (∃ v : UInt32, v.toNat = o.symbolId) ∧ (∃ v : UInt64, v.toNat = o.price) ∧
    (∃ v : UInt64, v.toNat = o.stopPrice) ∧ (∃ v : UInt64, v.toNat = o.quantity) ∧ (∃ v : UInt64, v.toNat = o.executed) ∧
    (∃ v : UInt64, v.toNat = o.leaves) ∧ (∃ v : UInt64, v.toNat = o.maxVisible) ∧ (∃ v : UInt64, v.toNat = o.slippage) ∧
    (∃ v : Int64, v.toInt = o.trailDist) ∧ ∃ v : Int64, v.toInt = o.trailStep := by
  have h64 : ∀ n : Nat, (∃ v : UInt64, v.toNat = n) ↔ n < 18446744073709551616 := fun n =>
    ⟨fun ⟨v, h⟩ => h ▸ v.toNat_lt, fun h => ⟨UInt64.ofNat n, UInt64.toNat_ofNat_of_lt' h⟩⟩
  have h32 : ∀ n : Nat, (∃ v : UInt32, v.toNat = n) ↔ n < 4294967296 := fun n =>
    ⟨fun ⟨v, h⟩ => h ▸ v.toNat_lt, fun h => ⟨UInt32.ofNat n, UInt32.toNat_ofNat_of_lt' h⟩⟩
  have hi : ∀ n : Int, (∃ v : Int64, v.toInt = n) ↔ -9223372036854775808 ≤ n ∧ n < 9223372036854775808 := fun n =>
    ⟨fun ⟨v, h⟩ => h ▸ ⟨v.le_toInt, v.toInt_lt⟩, fun h => ⟨Int64.ofInt n, Int64.toInt_ofInt_of_le h.1 h.2⟩⟩
  simp only [h64, h32, hi, Order.Repr64, and_assoc, show W64 = 18446744073709551616 from rfl]

/-- C41: whatever arguments of the C++ types a factory is called with, the order it builds is in that range. -/
theorem C41_representable (id price stop qty mv sl : UInt64) (sym : UInt32) (d s : Int64) (sd : Side) (tif : TIF) :
    ∀ o ∈ [Order.mkMarket id.toNat sym.toNat sd qty.toNat sl.toNat, Order.mkLimit id.toNat sym.toNat sd price.toNat qty.toNat tif mv.toNat,
      Order.mkStop id.toNat sym.toNat sd stop.toNat qty.toNat tif sl.toNat,
      Order.mkStopLimit id.toNat sym.toNat sd stop.toNat price.toNat qty.toNat tif mv.toNat,
      Order.mkTrailingStop id.toNat sym.toNat sd stop.toNat qty.toNat d.toInt s.toInt tif sl.toNat,
      Order.mkTrailingStopLimit id.toNat sym.toNat sd stop.toNat price.toNat qty.toNat d.toInt s.toInt tif mv.toNat], o.Repr64 := by
  intro o ho
  simp only [List.mem_cons, List.not_mem_nil, or_false] at ho
  have z : ∃ v : UInt64, v.toNat = 0 := ⟨0, rfl⟩
  have m : ∃ v : UInt64, v.toNat = MAX64 := ⟨18446744073709551615, rfl⟩
  have zi : ∃ v : Int64, v.toInt = 0 := ⟨0, rfl⟩
  rcases ho with rfl | rfl | rfl | rfl | rfl | rfl <;> rw [C41_machine] <;>
    exact ⟨⟨_, rfl⟩, ⟨_, rfl⟩, by first | exact z | exact ⟨_, rfl⟩, by first | exact z | exact ⟨_, rfl⟩, ⟨_, rfl⟩, by first | exact z | exact ⟨_, rfl⟩,
      ⟨_, rfl⟩, by first | exact m | exact ⟨_, rfl⟩, by first | exact m | exact ⟨_, rfl⟩, by first | exact zi | exact ⟨_, rfl⟩,
      by first | exact zi | exact ⟨_, rfl⟩⟩

end CppTrader
