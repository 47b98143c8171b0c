/-
Model of include/trader/matching/order.h, order.inl, source/trader/matching/order.cpp,
include/trader/matching/errors.h.
-/

namespace CppTrader

/-- 2^64: modulus of `uint64_t`. -/
notation "W64" => (18446744073709551616 : Nat)
/-- `std::numeric_limits<uint64_t>::max()`. -/
notation "MAX64" => (18446744073709551615 : Nat)

/-- C++ `uint64_t` addition (wraps). -/
def add64 (a b : Nat) : Nat := (a + b) % W64
/-- C++ `uint64_t` subtraction (wraps). -/
def sub64 (a b : Nat) : Nat := (a + (W64 - b % W64)) % W64

/-- include/trader/matching/errors.h:19-32 `ErrorCode`. -/
inductive ErrorCode where
  | ok | symbolDuplicate | symbolNotFound | orderBookDuplicate | orderBookNotFound
  | orderDuplicate | orderNotFound | orderIdInvalid | orderTypeInvalid
  | orderParameterInvalid | orderQuantityInvalid
  deriving DecidableEq, Repr

/-- include/trader/matching/order.h:33-37 `OrderSide`. -/
inductive Side where | buy | sell
  deriving DecidableEq, Repr

/-- include/trader/matching/order.h:81-89 `OrderType`. -/
inductive OrderType where
  | market | limit | stop | stopLimit | trailingStop | trailingStopLimit
  deriving DecidableEq, Repr

/-- include/trader/matching/order.h:109-115 `OrderTimeInForce`. -/
inductive TIF where | gtc | ioc | fok | aon
  deriving DecidableEq, Repr

/-- include/trader/matching/order.h:127-202 `Order`. All `Nat` fields are `uint64_t` (`symbolId` is
`uint32_t`), the two `Int` fields are `int64_t`; representability is the separate predicate
`Order.Repr64`. -/
structure Order where
  id : Nat
  symbolId : Nat
  type : OrderType
  side : Side
  price : Nat
  stopPrice : Nat
  quantity : Nat
  executed : Nat
  leaves : Nat
  tif : TIF
  maxVisible : Nat
  slippage : Nat
  trailDist : Int
  trailStep : Int
  deriving DecidableEq, Repr

namespace Order

/-- The values fit the C++ field types (order.h:129-202). -/
def Repr64 (o : Order) : Prop :=
  o.id < W64 ∧ o.symbolId < 4294967296 ∧ o.price < W64 ∧ o.stopPrice < W64 ∧ o.quantity < W64 ∧
  o.executed < W64 ∧ o.leaves < W64 ∧ o.maxVisible < W64 ∧ o.slippage < W64 ∧
  -9223372036854775808 ≤ o.trailDist ∧ o.trailDist < 9223372036854775808 ∧
  -9223372036854775808 ≤ o.trailStep ∧ o.trailStep < 9223372036854775808

instance (o : Order) : Decidable o.Repr64 := by unfold Repr64; infer_instance

/-- order.h:218-228 `IsMarket` … `IsTrailingStopLimit`. -/
def isMarket (o : Order) : Bool := o.type = .market
def isLimit (o : Order) : Bool := o.type = .limit
def isStop (o : Order) : Bool := o.type = .stop
def isStopLimit (o : Order) : Bool := o.type = .stopLimit
def isTrailingStop (o : Order) : Bool := o.type = .trailingStop
def isTrailingStopLimit (o : Order) : Bool := o.type = .trailingStopLimit
/-- `IsTrailingStop() || IsTrailingStopLimit()`, the test used at market_manager.cpp:252,344,1386,1418. -/
def isTrailing (o : Order) : Bool := o.isTrailingStop || o.isTrailingStopLimit
/-- order.h:231 `IsBuy`. -/
def isBuy (o : Order) : Bool := o.side = .buy
/-- order.h:238-242 `IsIOC`, `IsFOK`, `IsAON`. -/
def isIOC (o : Order) : Bool := o.tif = .ioc
def isFOK (o : Order) : Bool := o.tif = .fok
def isAON (o : Order) : Bool := o.tif = .aon
/-- order.h:245,247 `IsHidden`, `IsIceberg`. -/
def isHidden (o : Order) : Bool := o.maxVisible = 0
def isIceberg (o : Order) : Bool := decide (o.maxVisible < MAX64)
/-- order.h:250 `IsSlippage`. -/
def isSlippage (o : Order) : Bool := decide (o.slippage < MAX64)

/-- order.h:164 `HiddenQuantity`. -/
def hiddenQty (o : Order) : Nat := if o.leaves > o.maxVisible then o.leaves - o.maxVisible else 0
/-- order.h:166 `VisibleQuantity`. -/
def visibleQty (o : Order) : Nat := min o.leaves o.maxVisible

/-- source/trader/matching/order.cpp:14-92 `Order::Validate`, test by test in source order
(release build: `assert` is a no-op). -/
def validate (o : Order) : ErrorCode :=
  if o.id = 0 then .orderIdInvalid
  else if o.quantity < o.leaves then .orderQuantityInvalid
  else if o.leaves = 0 then .orderQuantityInvalid
  else if o.isMarket && (!o.isIOC && !o.isFOK) then .orderParameterInvalid
  else if o.isMarket && o.isIceberg then .orderParameterInvalid
  else if o.isLimit && o.isSlippage then .orderParameterInvalid
  else if (o.isStop || o.isTrailingStop) && o.isAON then .orderParameterInvalid
  else if (o.isStop || o.isTrailingStop) && o.isIceberg then .orderParameterInvalid
  else if (o.isStopLimit || o.isTrailingStopLimit) && o.isSlippage then .orderParameterInvalid
  else if o.isTrailingStop || o.isTrailingStopLimit then
    if o.trailDist = 0 then .orderParameterInvalid
    else if o.trailDist > 0 then
      if o.trailStep < 0 ∨ o.trailStep ≥ o.trailDist then .orderParameterInvalid else .ok
    else
      if o.trailDist > -1 ∨ o.trailDist < -1000 then .orderParameterInvalid
      else if o.trailStep > 0 ∨ o.trailStep ≤ o.trailDist then .orderParameterInvalid
      else .ok
  else .ok

/-- order.inl:84-101, the constructor: executed 0, leaves = quantity. -/
def mk' (id symbolId : Nat) (type : OrderType) (side : Side) (price stopPrice quantity : Nat)
    (tif : TIF := .gtc) (maxVisible : Nat := MAX64) (slippage : Nat := MAX64)
    (trailDist : Int := 0) (trailStep : Int := 0) : Order :=
  { id, symbolId, type, side, price, stopPrice, quantity, executed := 0, leaves := quantity, tif,
    maxVisible, slippage, trailDist, trailStep }

/-- order.inl:128-141 `Order::Market`, `BuyMarket`, `SellMarket`. -/
def mkMarket (id sym : Nat) (side : Side) (qty : Nat) (slippage : Nat := MAX64) : Order :=
  mk' id sym .market side 0 0 qty .ioc MAX64 slippage
/-- order.inl:143-156 `Order::Limit`, `BuyLimit`, `SellLimit`. -/
def mkLimit (id sym : Nat) (side : Side) (price qty : Nat) (tif : TIF := .gtc)
    (maxVisible : Nat := MAX64) : Order :=
  mk' id sym .limit side price 0 qty tif maxVisible MAX64
/-- order.inl:158-171 `Order::Stop`, `BuyStop`, `SellStop`. -/
def mkStop (id sym : Nat) (side : Side) (stopPrice qty : Nat) (tif : TIF := .gtc)
    (slippage : Nat := MAX64) : Order :=
  mk' id sym .stop side 0 stopPrice qty tif MAX64 slippage
/-- order.inl:173-186 `Order::StopLimit` and side variants. -/
def mkStopLimit (id sym : Nat) (side : Side) (stopPrice price qty : Nat) (tif : TIF := .gtc)
    (maxVisible : Nat := MAX64) : Order :=
  mk' id sym .stopLimit side price stopPrice qty tif maxVisible MAX64
/-- order.inl:188-201 `Order::TrailingStop` and side variants. -/
def mkTrailingStop (id sym : Nat) (side : Side) (stopPrice qty : Nat) (dist : Int) (step : Int := 0)
    (tif : TIF := .gtc) (slippage : Nat := MAX64) : Order :=
  mk' id sym .trailingStop side 0 stopPrice qty tif MAX64 slippage dist step
/-- order.inl:203-216 `Order::TrailingStopLimit` and side variants. -/
def mkTrailingStopLimit (id sym : Nat) (side : Side) (stopPrice price qty : Nat) (dist : Int)
    (step : Int := 0) (tif : TIF := .gtc) (maxVisible : Nat := MAX64) : Order :=
  mk' id sym .trailingStopLimit side price stopPrice qty tif maxVisible MAX64 dist step

end Order
end CppTrader
