import Verif.Model.Order
/-
The Buy and Sell forms of the order factories (order.inl:131-214, defaults order.h:256-295): each one is written out in the
C++ code, with the same constructor call as the form that takes the side.
-/

namespace CppTrader
namespace Order

/-- order.inl:133-136 `Order::BuyMarket`. -/
def buyMarket (id sym qty : Nat) (slippage : Nat := MAX64) : Order :=
  mk' id sym .market .buy 0 0 qty .ioc MAX64 slippage 0 0

/-- order.inl:148-151 `Order::BuyLimit`. -/
def buyLimit (id sym price qty : Nat) (tif : TIF := .gtc) (maxVisible : Nat := MAX64) : Order :=
  mk' id sym .limit .buy price 0 qty tif maxVisible MAX64 0 0

/-- order.inl:163-166 `Order::BuyStop`. -/
def buyStop (id sym stopPrice qty : Nat) (tif : TIF := .gtc) (slippage : Nat := MAX64) : Order :=
  mk' id sym .stop .buy 0 stopPrice qty tif MAX64 slippage 0 0

/-- order.inl:178-181 `Order::BuyStopLimit`. -/
def buyStopLimit (id sym stopPrice price qty : Nat) (tif : TIF := .gtc) (maxVisible : Nat := MAX64) : Order :=
  mk' id sym .stopLimit .buy price stopPrice qty tif maxVisible MAX64 0 0

/-- order.inl:193-196 `Order::TrailingBuyStop`. -/
def trailingBuyStop (id sym stopPrice qty : Nat) (dist : Int) (step : Int := 0) (tif : TIF := .gtc) (slippage : Nat := MAX64) : Order :=
  mk' id sym .trailingStop .buy 0 stopPrice qty tif MAX64 slippage dist step

/-- order.inl:208-211 `Order::TrailingBuyStopLimit`. -/
def trailingBuyStopLimit (id sym stopPrice price qty : Nat) (dist : Int) (step : Int := 0) (tif : TIF := .gtc) (maxVisible : Nat := MAX64) : Order :=
  mk' id sym .trailingStopLimit .buy price stopPrice qty tif maxVisible MAX64 dist step

/-- order.inl:138-141 `Order::SellMarket`. -/
def sellMarket (id sym qty : Nat) (slippage : Nat := MAX64) : Order :=
  mk' id sym .market .sell 0 0 qty .ioc MAX64 slippage 0 0

/-- order.inl:153-156 `Order::SellLimit`. -/
def sellLimit (id sym price qty : Nat) (tif : TIF := .gtc) (maxVisible : Nat := MAX64) : Order :=
  mk' id sym .limit .sell price 0 qty tif maxVisible MAX64 0 0

/-- order.inl:168-171 `Order::SellStop`. -/
def sellStop (id sym stopPrice qty : Nat) (tif : TIF := .gtc) (slippage : Nat := MAX64) : Order :=
  mk' id sym .stop .sell 0 stopPrice qty tif MAX64 slippage 0 0

/-- order.inl:183-186 `Order::SellStopLimit`. -/
def sellStopLimit (id sym stopPrice price qty : Nat) (tif : TIF := .gtc) (maxVisible : Nat := MAX64) : Order :=
  mk' id sym .stopLimit .sell price stopPrice qty tif maxVisible MAX64 0 0

/-- order.inl:198-201 `Order::TrailingSellStop`. -/
def trailingSellStop (id sym stopPrice qty : Nat) (dist : Int) (step : Int := 0) (tif : TIF := .gtc) (slippage : Nat := MAX64) : Order :=
  mk' id sym .trailingStop .sell 0 stopPrice qty tif MAX64 slippage dist step

/-- order.inl:213-216 `Order::TrailingSellStopLimit`. -/
def trailingSellStopLimit (id sym stopPrice price qty : Nat) (dist : Int) (step : Int := 0) (tif : TIF := .gtc) (maxVisible : Nat := MAX64) : Order :=
  mk' id sym .trailingStopLimit .sell price stopPrice qty tif maxVisible MAX64 dist step

end Order
end CppTrader
