import Verif.Model.Manager
/-
Specification vocabulary: what a consistent order book is. Used in the statements of the property
theorems; independent of the functions of the engine.
-/

namespace CppTrader

/-- Sum of `f` over the orders with the given ids. -/
def qtyAt (m : Nat → Option Order) (f : Order → Nat) (i : Nat) : Nat :=
  match m i with
  | some o => f o
  | none => 0
def sumOver (m : Nat → Option Order) (f : Order → Nat) (ids : List Nat) : Nat :=
  (ids.map (qtyAt m f)).sum

/-- A level of collection `k` in the book of symbol `sym` is consistent with the order map `m`. -/
structure LevelOK (m : Nat → Option Order) (sym : Nat) (k : Kind) (l : Level) : Prop where
  nonempty : l.ids ≠ []
  nodup : l.ids.Nodup
  mem : ∀ i ∈ l.ids, ∃ o, m i = some o ∧ o.symbolId = sym ∧ o.kind = some k ∧ o.key = l.price
  total : l.total = sumOver m Order.leaves l.ids
  hidden : l.hidden = sumOver m Order.hiddenQty l.ids
  visible : l.visible = sumOver m Order.visibleQty l.ids
  count : l.count = l.ids.length

/-- A level collection is consistent: strictly sorted (hence unique prices), every level consistent, and
the cached best level is the first one. -/
structure KindOK (m : Nat → Option Order) (sym : Nat) (k : Kind) (ls : List Level) (best : Option Nat) :
    Prop where
  sorted : ls.Pairwise (fun a b => k.better a.price b.price = true)
  levels : ∀ l ∈ ls, LevelOK m sym k l
  best : best = ls.head?.map (·.price)

/-- A book is consistent with the order map. -/
structure BookOK (m : Nat → Option Order) (b : Book) : Prop where
  kinds : ∀ k, KindOK m b.symbol.id k (b.lv k) (b.best k)
  complete : ∀ i o, m i = some o → o.symbolId = b.symbol.id →
    ∃ k l, o.kind = some k ∧ l ∈ b.lv k ∧ i ∈ l.ids

/-- Trailing parameters in the range accepted by `Validate`. -/
def Order.TrailOK (o : Order) : Prop :=
  (0 < o.trailDist ∧ 0 ≤ o.trailStep ∧ o.trailStep < o.trailDist) ∨
  (o.trailDist < 0 ∧ -1000 ≤ o.trailDist ∧ o.trailStep ≤ 0 ∧ o.trailDist < o.trailStep)

/-- What holds of every order stored by the manager: it is representable, not a market order, has
something left, and if it is a (resting) limit order it is neither IOC nor FOK. -/
structure OrderOK (o : Order) : Prop where
  repr : o.Repr64
  idPos : 0 < o.id
  leaves : 0 < o.leaves
  notMarket : o.type ≠ .market
  tif : o.type = .limit → o.tif = .gtc ∨ o.tif = .aon
  trail : o.isTrailing = true → o.TrailOK

/-- Every stored order is well formed and stored under its id. -/
def OrdersOK (m : Nat → Option Order) : Prop := ∀ i o, m i = some o → o.id = i ∧ OrderOK o

/-- Where a resting order belongs, by type and side: collection and level price. -/
def Order.home (o : Order) : Option (Kind × Nat) :=
  match o.type, o.side with
  | .market, _ => none
  | .limit, .buy => some (.bid, o.price)
  | .limit, .sell => some (.ask, o.price)
  | .stop, .buy | .stopLimit, .buy => some (.buyStop, o.stopPrice)
  | .stop, .sell | .stopLimit, .sell => some (.sellStop, o.stopPrice)
  | .trailingStop, .buy | .trailingStopLimit, .buy => some (.tBuyStop, o.stopPrice)
  | .trailingStop, .sell | .trailingStopLimit, .sell => some (.tSellStop, o.stopPrice)

/-- Collections whose best level is the one with the highest price. -/
def Kind.highestFirst : Kind → Bool
  | .bid | .sellStop | .tSellStop => true
  | .ask | .buyStop | .tBuyStop => false

namespace Mgr

/-- The resting volume of the symbol's book (if there is one) plus `q` fits in 64 bits. -/
def Fits (g : Mgr) (sym q : Nat) : Prop := ∀ b, g.getBook sym = some b → Core.volume b + q < W64

/-- The preconditions of the public calls (C01). Everything not mentioned is unrestricted: unknown ids,
zero quantities, duplicate ids, invalid orders, any order of calls. -/
def Admissible (g : Mgr) : Op → Prop
  | .addSymbol s => s.id < 4294967295
  | .addOrderBook s => g.getBook s.id = none → ∀ i o, g.getOrder i = some o → o.symbolId ≠ s.id
  | .addOrder o => o.Repr64 ∧ g.Fits o.symbolId o.leaves
  | .modifyOrder id p q | .mitigateOrder id p q =>
    p < W64 ∧ q < W64 ∧ ∀ o, g.getOrder id = some o → g.Fits o.symbolId q
  | .replaceOrder id n p q =>
    n < W64 ∧ p < W64 ∧ q < W64 ∧ ∀ o, g.getOrder id = some o → g.Fits o.symbolId q
  | .replaceWith _ o => o.Repr64 ∧ g.Fits o.symbolId o.leaves
  | _ => True

/-- States reached from the empty manager by admissible public calls. -/
inductive Reachable : Mgr → Prop
  | init : Reachable Mgr.init
  | step {g g' op e} : Reachable g → g.Admissible op → g.step op = .ok (g', e) → Reachable g'

/-- Histories: the admissible public calls made so far with their result codes, and the state reached. -/
inductive History : List (Op × ErrorCode) → Mgr → Prop
  | nil : History [] Mgr.init
  | snoc {h g g' op e} : History h g → g.Admissible op → g.step op = .ok (g', e) → History (h ++ [(op, e)]) g'

/-- The symbols whose book or orders a call is about. -/
def Addresses (g : Mgr) (op : Op) (sym : Nat) : Prop :=
  match op with
  | .addSymbol s => s.id = sym
  | .deleteSymbol id => id = sym
  | .addOrderBook s => s.id = sym
  | .deleteOrderBook id => id = sym
  | .addOrder o => o.symbolId = sym
  | .reduceOrder id _ | .modifyOrder id _ _ | .mitigateOrder id _ _ | .replaceOrder id _ _ _ | .deleteOrder id
  | .executeOrder id _ | .executeOrderAt id _ _ => ∃ o, g.getOrder id = some o ∧ o.symbolId = sym
  | .replaceWith id o => o.symbolId = sym ∨ ∃ old, g.getOrder id = some old ∧ old.symbolId = sym
  | .enableMatching | .matchAll => True
  | .disableMatching => False

/-- Why a call on an order is refused: unknown order, or its book was deleted. -/
def orderRefusal (g : Mgr) (id : Nat) : Option ErrorCode :=
  match g.getOrder id with
  | none => some .orderNotFound
  | some o => if g.getBook o.symbolId = none then some .orderBookNotFound else none

/-- Why a call is refused (`none`: it is carried out). -/
def refusal (g : Mgr) : Op → Option ErrorCode
  | .addSymbol s => if g.getSymbol s.id = none then none else some .symbolDuplicate
  | .deleteSymbol id => if g.getSymbol id = none then some .symbolNotFound else none
  | .addOrderBook s =>
    if g.getSymbol s.id = none then some .symbolNotFound
    else if g.getBook s.id = none then none else some .orderBookDuplicate
  | .deleteOrderBook id => if g.getBook id = none then some .orderBookNotFound else none
  | .addOrder o =>
    if o.validate ≠ .ok then some o.validate
    else if g.getBook o.symbolId = none then some .orderBookNotFound else none
  | .reduceOrder id q | .modifyOrder id _ q | .mitigateOrder id _ q | .executeOrder id q | .executeOrderAt id _ q =>
    if id = 0 then some .orderIdInvalid else if q = 0 then some .orderQuantityInvalid else g.orderRefusal id
  | .replaceOrder id n _ q =>
    if id = 0 ∨ n = 0 then some .orderIdInvalid else if q = 0 then some .orderQuantityInvalid
    else match g.getOrder id with
      | none => some .orderNotFound
      | some o => if o.type ≠ .limit then some .orderTypeInvalid
        else if g.getBook o.symbolId = none then some .orderBookNotFound else none
  | .deleteOrder id | .replaceWith id _ => if id = 0 then some .orderIdInvalid else g.orderRefusal id
  | .enableMatching | .disableMatching | .matchAll => none

/-- The id of the order a call adds is not in use (apart from the order being replaced). -/
def FreshId (g : Mgr) : Op → Prop
  | .addOrder o => g.getOrder o.id = none
  | .replaceOrder id n _ _ => n = id ∨ g.getOrder n = none
  | .replaceWith id o => o.id = id ∨ g.getOrder o.id = none
  | _ => True

/-- Histories in which every order is submitted under an id not in use. -/
inductive FreshHistory : List (Op × ErrorCode) → Mgr → Prop
  | nil : FreshHistory [] Mgr.init
  | snoc {h g g' op e} : FreshHistory h g → g.Admissible op → g.FreshId op → g.step op = .ok (g', e) →
      FreshHistory (h ++ [(op, e)]) g'

end Mgr
end CppTrader
