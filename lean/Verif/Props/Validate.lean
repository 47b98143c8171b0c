import Verif.Model.Order
/- Properties C19 (Order::Validate) and C41 (order factories). -/

namespace CppTrader
namespace ValidateSpec

/-- What order.h and the assertion texts of order.cpp ask of an order, rule by rule.
`-10000` documents "100%"; the code uses `pctMax = 1000`. -/
structure Accepted (pctMax : Int) (o : Order) : Prop where
  id : 0 < o.id
  quantity : 0 < o.leaves ∧ o.leaves ≤ o.quantity
  marketTif : o.type = .market → o.tif = .ioc ∨ o.tif = .fok
  noIceberg : o.type = .market ∨ o.type = .stop ∨ o.type = .trailingStop → MAX64 ≤ o.maxVisible
  noSlippage : o.type = .limit ∨ o.type = .stopLimit ∨ o.type = .trailingStopLimit → MAX64 ≤ o.slippage
  stopNotAon : o.type = .stop ∨ o.type = .trailingStop → o.tif ≠ .aon
  trailing : o.type = .trailingStop ∨ o.type = .trailingStopLimit →
    (0 < o.trailDist ∧ 0 ≤ o.trailStep ∧ o.trailStep < o.trailDist) ∨
    (o.trailDist < 0 ∧ -pctMax ≤ o.trailDist ∧ o.trailStep ≤ 0 ∧ o.trailDist < o.trailStep)

end ValidateSpec

open ValidateSpec

theorem ite_err {c : Prop} [Decidable c] {e r : ErrorCode} (he : e ≠ .ok) :
    (if c then e else r) = .ok ↔ ¬ c ∧ r = .ok := by
  split <;> simp [*]

theorem ite_ind {P : ErrorCode → Prop} {c : Prop} [Decidable c] {a b : ErrorCode} (ha : P a) (hb : P b) :
    P (if c then a else b) := by split <;> assumption

theorem ite_imp {c : Prop} [Decidable c] {a b : ErrorCode} :
    (if c then a else b) = .ok ↔ (c → a = .ok) ∧ (¬ c → b = .ok) := by split <;> simp [*]

/-- C19: `Validate` returns `OK` exactly for the orders obeying every rule, with percentages limited to
1000 (10%). -/
theorem validate_ok_iff (o : Order) : o.validate = .ok ↔ Accepted 1000 o := by
  unfold Order.validate
  simp only [ite_imp]
  obtain ⟨id, sym, type, side, price, stop, qty, ex, leaves, tif, mv, sl, td, ts⟩ := o
  constructor
  · intro h
    cases type <;> cases tif <;>
      simp [Order.isMarket, Order.isLimit, Order.isStop, Order.isStopLimit,
        Order.isTrailingStop, Order.isTrailingStopLimit, Order.isIOC, Order.isFOK, Order.isAON,
        Order.isIceberg, Order.isSlippage] at h <;> constructor <;> simp <;> omega
  · intro h
    have h1 := h.id; have h2 := h.quantity; have h3 := h.marketTif; have h4 := h.noIceberg
    have h5 := h.noSlippage; have h6 := h.stopNotAon; have h7 := h.trailing
    clear h
    cases type <;> cases tif <;>
      simp [Order.isMarket, Order.isLimit, Order.isStop, Order.isStopLimit,
        Order.isTrailingStop, Order.isTrailingStopLimit, Order.isIOC, Order.isFOK, Order.isAON,
        Order.isIceberg, Order.isSlippage] at h1 h2 h3 h4 h5 h6 h7 ⊢ <;> omega

theorem validate_cases (o : Order) : o.validate =
    if o.id = 0 then .orderIdInvalid
    else if o.leaves = 0 ∨ o.quantity < o.leaves then .orderQuantityInvalid
    else if o.validate = .ok then .ok else .orderParameterInvalid := by
  by_cases h1 : o.id = 0
  · simp [Order.validate, h1]
  · by_cases h2 : o.quantity < o.leaves
    · simp [Order.validate, h1, h2]
    · by_cases h3 : o.leaves = 0
      · simp [Order.validate, h1, h3]
      · have : o.validate = .ok ∨ o.validate = .orderParameterInvalid := by
          unfold Order.validate
          simp only [h1, h2, h3, if_false]
          repeat' (first | exact Or.inl rfl | exact Or.inr rfl |
            refine ite_ind (P := fun r => r = ErrorCode.ok ∨ r = ErrorCode.orderParameterInvalid) ?_ ?_)
        rcases this with h | h <;> simp [h, h1, h2, h3]

/-- C19: `ORDER_ID_INVALID` exactly for a zero id. -/
theorem validate_id_iff (o : Order) : o.validate = .orderIdInvalid ↔ o.id = 0 := by
  rw [validate_cases]; (repeat' split) <;> simp_all

/-- C19: `ORDER_QUANTITY_INVALID` exactly for a valid id and a leaves quantity that is zero or larger than the
quantity. -/
theorem validate_quantity_iff (o : Order) :
    o.validate = .orderQuantityInvalid ↔ o.id ≠ 0 ∧ (o.leaves = 0 ∨ o.quantity < o.leaves) := by
  rw [validate_cases]; (repeat' split) <;> simp_all

/-- C19: every other rejection is `ORDER_PARAMETER_INVALID`. -/
theorem validate_parameter_iff (o : Order) :
    o.validate = .orderParameterInvalid ↔
      o.id ≠ 0 ∧ 0 < o.leaves ∧ o.leaves ≤ o.quantity ∧ ¬ Accepted 1000 o := by
  have key : o.validate = .ok ∨ o.validate = .orderIdInvalid ∨ o.validate = .orderQuantityInvalid ∨
      o.validate = .orderParameterInvalid := by
    rw [validate_cases]; (repeat' split) <;> simp
  have h1 := validate_ok_iff o
  have h2 := validate_id_iff o
  have h3 := validate_quantity_iff o
  constructor
  · intro h
    simp [h] at h1 h2 h3
    refine ⟨h2, ?_, ?_, h1⟩ <;> have := h3 h2 <;> omega
  · rintro ⟨a, b, c, d⟩
    rcases key with h | h | h | h
    · exact absurd (h1.1 h) d
    · exact absurd (h2.1 h) a
    · have := h3.1 h; omega
    · exact h

-- the rules are satisfiable by every order type, and each rule rejects something
example : Accepted 1000 (Order.mkMarket 1 0 .buy 10) := by rw [← validate_ok_iff]; decide
example : Accepted 1000 (Order.mkLimit 1 0 .sell 100 10 .aon 5) := by rw [← validate_ok_iff]; decide
example : Accepted 1000 (Order.mkStop 1 0 .buy 100 10 .ioc 3) := by rw [← validate_ok_iff]; decide
example : Accepted 1000 (Order.mkTrailingStop 1 0 .buy 100 10 (-1000) (-999)) := by
  rw [← validate_ok_iff]; decide
example : ¬ Accepted 1000 (Order.mkStop 1 0 .buy 100 10 .aon) := by rw [← validate_ok_iff]; decide

/-- C19, disagreement with the documentation (order.h:182-184 and the assertion text say -10000 = 100%):
a documented 50% trailing distance is rejected. -/
theorem validate_rejects_documented_percentage :
    Accepted 10000 (Order.mkTrailingStop 1 0 .sell 100 10 (-5000)) ∧
    (Order.mkTrailingStop 1 0 .sell 100 10 (-5000)).validate = .orderParameterInvalid := by
  refine ⟨?_, by decide⟩
  constructor <;> simp [Order.mkTrailingStop, Order.mk']

/-! ### Factories (C41): which factory calls build an acceptable order -/

/-- `Order::Market` and side variants: acceptable for every positive id and quantity, any slippage. -/
theorem mkMarket_valid (id sym qty slippage : Nat) (side : Side) :
    (Order.mkMarket id sym side qty slippage).validate = .ok ↔ 0 < id ∧ 0 < qty := by
  rw [validate_ok_iff]
  constructor
  · intro h; exact ⟨h.id, h.quantity.1⟩
  · rintro ⟨h1, h2⟩; constructor <;> simp [Order.mkMarket, Order.mk', h1, h2]

/-- `Order::Limit`: acceptable for every positive id and quantity, any price, time in force and visibility. -/
theorem mkLimit_valid (id sym price qty mv : Nat) (side : Side) (tif : TIF) :
    (Order.mkLimit id sym side price qty tif mv).validate = .ok ↔ 0 < id ∧ 0 < qty := by
  rw [validate_ok_iff]
  constructor
  · intro h; exact ⟨h.id, h.quantity.1⟩
  · rintro ⟨h1, h2⟩; constructor <;> simp [Order.mkLimit, Order.mk', h1, h2]

/-- `Order::Stop`: everything but All-Or-None. -/
theorem mkStop_valid (id sym stop qty sl : Nat) (side : Side) (tif : TIF) :
    (Order.mkStop id sym side stop qty tif sl).validate = .ok ↔ 0 < id ∧ 0 < qty ∧ tif ≠ .aon := by
  rw [validate_ok_iff]
  constructor
  · intro h; exact ⟨h.id, h.quantity.1, h.stopNotAon (.inl rfl)⟩
  · rintro ⟨h1, h2, h3⟩; constructor <;> simp [Order.mkStop, Order.mk', h1, h2, h3]

/-- `Order::StopLimit`. -/
theorem mkStopLimit_valid (id sym stop price qty mv : Nat) (side : Side) (tif : TIF) :
    (Order.mkStopLimit id sym side stop price qty tif mv).validate = .ok ↔ 0 < id ∧ 0 < qty := by
  rw [validate_ok_iff]
  constructor
  · intro h; exact ⟨h.id, h.quantity.1⟩
  · rintro ⟨h1, h2⟩; constructor <;> simp [Order.mkStopLimit, Order.mk', h1, h2]

/-- `Order::TrailingStop`. -/
theorem mkTrailingStop_valid (id sym stop qty sl : Nat) (side : Side) (tif : TIF) (d s : Int) :
    (Order.mkTrailingStop id sym side stop qty d s tif sl).validate = .ok ↔
      0 < id ∧ 0 < qty ∧ tif ≠ .aon ∧
      ((0 < d ∧ 0 ≤ s ∧ s < d) ∨ (d < 0 ∧ -1000 ≤ d ∧ s ≤ 0 ∧ d < s)) := by
  rw [validate_ok_iff]
  constructor
  · intro h; exact ⟨h.id, h.quantity.1, h.stopNotAon (.inr rfl), h.trailing (.inl rfl)⟩
  · rintro ⟨h1, h2, h3, h4⟩; constructor <;> simp [Order.mkTrailingStop, Order.mk', h1, h2, h3]; exact h4

/-- `Order::TrailingStopLimit`. -/
theorem mkTrailingStopLimit_valid (id sym stop price qty mv : Nat) (side : Side) (tif : TIF) (d s : Int) :
    (Order.mkTrailingStopLimit id sym side stop price qty d s tif mv).validate = .ok ↔
      0 < id ∧ 0 < qty ∧
      ((0 < d ∧ 0 ≤ s ∧ s < d) ∨ (d < 0 ∧ -1000 ≤ d ∧ s ≤ 0 ∧ d < s)) := by
  rw [validate_ok_iff]
  constructor
  · intro h; exact ⟨h.id, h.quantity.1, h.trailing (.inr rfl)⟩
  · rintro ⟨h1, h2, h4⟩; constructor <;> simp [Order.mkTrailingStopLimit, Order.mk', h1, h2]; exact h4

/-! ### Fields -/

/-- C41: the factories for market and limit orders fill in what they are given; nothing is executed, everything is left;
a market order is `IOC`, not bounded in visibility; a limit order has no slippage limit; neither has a stop price or
trailing parameters. -/
theorem C41_fields (id sym price qty mv sl : Nat) (side : Side) (tif : TIF) :
    (∀ o, o = Order.mkMarket id sym side qty sl → o.id = id ∧ o.symbolId = sym ∧ o.type = .market ∧ o.side = side ∧ o.price = 0 ∧ o.stopPrice = 0 ∧
      o.quantity = qty ∧ o.executed = 0 ∧ o.leaves = qty ∧ o.tif = .ioc ∧ o.maxVisible = MAX64 ∧ o.slippage = sl ∧ o.trailDist = 0 ∧ o.trailStep = 0) ∧
    (∀ o, o = Order.mkLimit id sym side price qty tif mv → o.id = id ∧ o.symbolId = sym ∧ o.type = .limit ∧ o.side = side ∧ o.price = price ∧ o.stopPrice = 0 ∧
      o.quantity = qty ∧ o.executed = 0 ∧ o.leaves = qty ∧ o.tif = tif ∧ o.maxVisible = mv ∧ o.slippage = MAX64 ∧ o.trailDist = 0 ∧ o.trailStep = 0) := by
  constructor <;> (rintro o rfl; refine ⟨rfl, rfl, rfl, rfl, rfl, rfl, rfl, rfl, rfl, rfl, rfl, rfl, rfl, rfl⟩)

/-- C41 for stop and trailing stop orders: the stop price, and for the limit forms the price, is what is given under that name. -/
theorem C41_fields_stop (id sym stop price qty mv sl : Nat) (side : Side) (tif : TIF) (d s : Int) :
    (∀ o, o = Order.mkStop id sym side stop qty tif sl → o.id = id ∧ o.symbolId = sym ∧ o.type = .stop ∧ o.side = side ∧ o.price = 0 ∧ o.stopPrice = stop ∧
      o.quantity = qty ∧ o.executed = 0 ∧ o.leaves = qty ∧ o.tif = tif ∧ o.maxVisible = MAX64 ∧ o.slippage = sl ∧ o.trailDist = 0 ∧ o.trailStep = 0) ∧
    (∀ o, o = Order.mkStopLimit id sym side stop price qty tif mv → o.id = id ∧ o.symbolId = sym ∧ o.type = .stopLimit ∧ o.side = side ∧ o.price = price ∧
      o.stopPrice = stop ∧ o.quantity = qty ∧ o.executed = 0 ∧ o.leaves = qty ∧ o.tif = tif ∧ o.maxVisible = mv ∧ o.slippage = MAX64 ∧ o.trailDist = 0 ∧ o.trailStep = 0) ∧
    (∀ o, o = Order.mkTrailingStop id sym side stop qty d s tif sl → o.id = id ∧ o.symbolId = sym ∧ o.type = .trailingStop ∧ o.side = side ∧ o.price = 0 ∧
      o.stopPrice = stop ∧ o.quantity = qty ∧ o.executed = 0 ∧ o.leaves = qty ∧ o.tif = tif ∧ o.maxVisible = MAX64 ∧ o.slippage = sl ∧ o.trailDist = d ∧ o.trailStep = s) ∧
    (∀ o, o = Order.mkTrailingStopLimit id sym side stop price qty d s tif mv → o.id = id ∧ o.symbolId = sym ∧ o.type = .trailingStopLimit ∧ o.side = side ∧
      o.price = price ∧ o.stopPrice = stop ∧ o.quantity = qty ∧ o.executed = 0 ∧ o.leaves = qty ∧ o.tif = tif ∧ o.maxVisible = mv ∧ o.slippage = MAX64 ∧
      o.trailDist = d ∧ o.trailStep = s) := by
  refine ⟨?_, ?_, ?_, ?_⟩ <;> (rintro o rfl; refine ⟨rfl, rfl, rfl, rfl, rfl, rfl, rfl, rfl, rfl, rfl, rfl, rfl, rfl, rfl⟩)

end CppTrader
