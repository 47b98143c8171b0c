import Verif.Model.Manager
import Verif.Model.Factory
import Verif.Model.HeapManager
/-
The project's own unit tests, tests/test_matching_engine.cpp, line by line, run on the model. These are tests of the model,
not proofs about it: they show that the model does what the project expects of the code in these cases. Each is evaluated
by the kernel, on the manager of `Verif/Model/Manager.lean` and on the one on pointers of `Verif/Model/HeapManager.lean`.
-/

namespace CppTrader
namespace Tests

/-- What the tests look at. -/
structure Seen where
  orders : Nat × Nat
  volume : Nat × Nat
  visible : Nat × Nat
  stopOrders : Nat × Nat
  stopVolume : Nat × Nat
  order : Nat → Option Order

/-- A line of a test: a call, or what is required at that point. -/
inductive Line
  | call (op : Op)
  | orders (bids asks : Nat)
  | volume (bids asks : Nat)
  | visible (bids asks : Nat)
  | stopOrders (buy sell : Nat)
  | stopVolume (buy sell : Nat)
  | stopPrice (id price : Nat)
  | price (id price : Nat)

/-- `BookOrders`, `BookVolume`, … (test_matching_engine.cpp:14-100) of symbol 0, from the level fields of the six collections. -/
def seen (lv : Kind → List LevelInfo) (order : Nat → Option Order) : Seen :=
  let n (k : Kind) := ((lv k).map (·.count)).sum
  let t (k : Kind) := ((lv k).map (·.total)).sum
  let v (k : Kind) := ((lv k).map (·.visible)).sum
  ⟨(n .bid, n .ask), (t .bid, t .ask), (v .bid, v .ask), (n .buyStop + n .tBuyStop, n .sellStop + n .tSellStop),
    (t .buyStop + t .tBuyStop, t .sellStop + t .tSellStop), order⟩

def Seen.meets (x : Seen) : Line → Bool
  | .call _ => true
  | .orders a b => x.orders == (a, b)
  | .volume a b => x.volume == (a, b)
  | .visible a b => x.visible == (a, b)
  | .stopOrders a b => x.stopOrders == (a, b)
  | .stopVolume a b => x.stopVolume == (a, b)
  | .stopPrice i p => (x.order i).map (·.stopPrice) == some p
  | .price i p => (x.order i).map (·.price) == some p

def seenMgr (g : Mgr) : Seen :=
  seen (fun k => match g.getBook 0 with | some b => (b.lv k).map (·.info k) | none => []) g.getOrder

def seenHeap (s : HMgr) : Seen :=
  seen (fun k => (s.heap.tree (0, k)).filterMap (fun a => (s.heap.lnode a).map (·.info)))
    (fun i => ((s.heap.orders i).bind s.heap.onode).map (·.order))

/-- The number of lines met; the test passes if it is all of them. -/
def goMgr : List Line → Mgr → Nat
  | [], _ => 0
  | .call op :: ls, g => match g.step op with | .ok (g, _) => goMgr ls g + 1 | .error _ => 0
  | l :: ls, g => if (seenMgr g).meets l then goMgr ls g + 1 else 0

def goHeap : List Line → HMgr → Nat
  | [], _ => 0
  | .call op :: ls, s => match s.step op with | .ok (s, _) => goHeap ls s + 1 | .error _ => 0
  | l :: ls, s => if (seenHeap s).meets l then goHeap ls s + 1 else 0

/-- A pool that never uses an address twice. -/
def pool : Pool where
  pick _ n _ := n
  sound _ n live h := by
    cases e : live n with
    | false => rfl
    | true => exact absurd (h n e) (Nat.lt_irrefl n)

def passes (t : List Line) : Bool :=
  goMgr t Mgr.init == t.length && goHeap t (HMgr.init (.mkLimit 0 0 .buy 0 0) pool pool) == t.length

/-- "test" packed into a number; "Prepare symbol & order book". -/
def prepare : List Line := [.call (.addSymbol ⟨0, 0x74657374⟩), .call (.addOrderBook ⟨0, 0x74657374⟩)]

/-- tests/test_matching_engine.cpp:104-163 "Automatic matching - market order". -/
def test01 : List Line := prepare ++ [
  .call .enableMatching,
  .call (.addOrder (.buyLimit 1 0 10 10)),
  .call (.addOrder (.buyLimit 2 0 10 20)),
  .call (.addOrder (.buyLimit 3 0 10 30)),
  .call (.addOrder (.buyLimit 4 0 20 10)),
  .call (.addOrder (.buyLimit 5 0 20 20)),
  .call (.addOrder (.buyLimit 6 0 20 30)),
  .call (.addOrder (.buyLimit 7 0 30 10)),
  .call (.addOrder (.buyLimit 8 0 30 20)),
  .call (.addOrder (.buyLimit 9 0 30 30)),
  .orders 9 0,
  .volume 180 0,
  .call (.addOrder (.sellLimit 10 0 40 30)),
  .call (.addOrder (.sellLimit 11 0 40 20)),
  .call (.addOrder (.sellLimit 12 0 40 10)),
  .call (.addOrder (.sellLimit 13 0 50 30)),
  .call (.addOrder (.sellLimit 14 0 50 20)),
  .call (.addOrder (.sellLimit 15 0 50 10)),
  .call (.addOrder (.sellLimit 16 0 60 30)),
  .call (.addOrder (.sellLimit 17 0 60 20)),
  .call (.addOrder (.sellLimit 18 0 60 10)),
  .orders 9 9,
  .volume 180 180,
  .call (.addOrder (.sellMarket 19 0 15)),
  .orders 8 9,
  .volume 165 180,
  .call (.addOrder (.sellMarket 20 0 100 0)),
  .orders 6 9,
  .volume 120 180,
  .call (.addOrder (.buyMarket 21 0 160 20)),
  .orders 6 2,
  .volume 120 20,
  .call (.addOrder (.sellMarket 22 0 1000)),
  .orders 0 2,
  .volume 0 20,
  .call (.addOrder (.buyMarket 23 0 1000)),
  .orders 0 0,
  .volume 0 0]

example : passes test01 = true := by decide +kernel

/-- tests/test_matching_engine.cpp:165-229 "Automatic matching - limit order". -/
def test02 : List Line := prepare ++ [
  .call .enableMatching,
  .call (.addOrder (.buyLimit 1 0 10 10)),
  .call (.addOrder (.buyLimit 2 0 10 20)),
  .call (.addOrder (.buyLimit 3 0 10 30)),
  .call (.addOrder (.buyLimit 4 0 20 10)),
  .call (.addOrder (.buyLimit 5 0 20 20)),
  .call (.addOrder (.buyLimit 6 0 20 30)),
  .call (.addOrder (.buyLimit 7 0 30 10)),
  .call (.addOrder (.buyLimit 8 0 30 20)),
  .call (.addOrder (.buyLimit 9 0 30 30)),
  .orders 9 0,
  .volume 180 0,
  .call (.addOrder (.sellLimit 10 0 40 30)),
  .call (.addOrder (.sellLimit 11 0 40 20)),
  .call (.addOrder (.sellLimit 12 0 40 10)),
  .call (.addOrder (.sellLimit 13 0 50 30)),
  .call (.addOrder (.sellLimit 14 0 50 20)),
  .call (.addOrder (.sellLimit 15 0 50 10)),
  .call (.addOrder (.sellLimit 16 0 60 30)),
  .call (.addOrder (.sellLimit 17 0 60 20)),
  .call (.addOrder (.sellLimit 18 0 60 10)),
  .orders 9 9,
  .volume 180 180,
  .call (.addOrder (.sellLimit 19 0 30 5)),
  .call (.addOrder (.sellLimit 20 0 30 25)),
  .call (.addOrder (.sellLimit 21 0 30 15)),
  .call (.addOrder (.sellLimit 22 0 30 20)),
  .orders 6 10,
  .volume 120 185,
  .call (.addOrder (.buyLimit 23 0 60 105)),
  .orders 6 5,
  .volume 120 80,
  .call (.modifyOrder 15 20 20),
  .orders 5 4,
  .volume 100 70,
  .call (.replaceOrder 2 24 70 100),
  .orders 5 0,
  .volume 110 0,
  .call (.replaceWith 1 (.sellLimit 25 0 0 100)),
  .orders 0 0,
  .volume 0 0]

example : passes test02 = true := by decide +kernel

/-- tests/test_matching_engine.cpp:231-255 "Automatic matching - 'Immediate-Or-Cancel' limit order". -/
def test03 : List Line := prepare ++ [
  .call .enableMatching,
  .call (.addOrder (.buyLimit 1 0 10 10)),
  .call (.addOrder (.buyLimit 2 0 20 20)),
  .call (.addOrder (.buyLimit 3 0 30 30)),
  .orders 3 0,
  .volume 60 0,
  .call (.addOrder (.sellLimit 4 0 10 100 .ioc)),
  .orders 0 0,
  .volume 0 0]

example : passes test03 = true := by decide +kernel

/-- tests/test_matching_engine.cpp:257-281 "Automatic matching - 'Fill-Or-Kill' limit order (filled)". -/
def test04 : List Line := prepare ++ [
  .call .enableMatching,
  .call (.addOrder (.buyLimit 1 0 10 10)),
  .call (.addOrder (.buyLimit 2 0 20 20)),
  .call (.addOrder (.buyLimit 3 0 30 30)),
  .orders 3 0,
  .volume 60 0,
  .call (.addOrder (.sellLimit 4 0 10 40 .fok)),
  .orders 2 0,
  .volume 20 0]

example : passes test04 = true := by decide +kernel

/-- tests/test_matching_engine.cpp:283-307 "Automatic matching - 'Fill-Or-Kill' limit order (killed)". -/
def test05 : List Line := prepare ++ [
  .call .enableMatching,
  .call (.addOrder (.buyLimit 1 0 10 10)),
  .call (.addOrder (.buyLimit 2 0 20 20)),
  .call (.addOrder (.buyLimit 3 0 30 30)),
  .orders 3 0,
  .volume 60 0,
  .call (.addOrder (.sellLimit 4 0 10 100 .fok)),
  .orders 3 0,
  .volume 60 0]

example : passes test05 = true := by decide +kernel

/-- tests/test_matching_engine.cpp:309-334 "Automatic matching - 'All-Or-None' limit order several levels full matching". -/
def test06 : List Line := prepare ++ [
  .call .enableMatching,
  .call (.addOrder (.buyLimit 1 0 20 30 .aon)),
  .call (.addOrder (.buyLimit 2 0 20 10)),
  .call (.addOrder (.buyLimit 3 0 30 30 .aon)),
  .call (.addOrder (.buyLimit 4 0 30 10)),
  .orders 4 0,
  .volume 80 0,
  .call (.addOrder (.sellLimit 5 0 20 80 .aon)),
  .orders 0 0,
  .volume 0 0]

example : passes test06 = true := by decide +kernel

/-- tests/test_matching_engine.cpp:336-366 "Automatic matching - 'All-Or-None' limit order several levels partial matching". -/
def test07 : List Line := prepare ++ [
  .call .enableMatching,
  .call (.addOrder (.buyLimit 1 0 20 30 .aon)),
  .call (.addOrder (.buyLimit 2 0 20 10)),
  .call (.addOrder (.buyLimit 3 0 30 30 .aon)),
  .call (.addOrder (.buyLimit 4 0 30 10)),
  .orders 4 0,
  .volume 80 0,
  .call (.addOrder (.sellLimit 5 0 20 100 .aon)),
  .orders 4 1,
  .volume 80 100,
  .call (.addOrder (.buyLimit 6 0 20 20 .aon)),
  .orders 0 0,
  .volume 0 0]

example : passes test07 = true := by decide +kernel

/-- tests/test_matching_engine.cpp:368-395 "Automatic matching - 'All-Or-None' limit order complex matching". -/
def test08 : List Line := prepare ++ [
  .call .enableMatching,
  .call (.addOrder (.buyLimit 1 0 10 20 .aon)),
  .call (.addOrder (.sellLimit 2 0 10 10 .aon)),
  .call (.addOrder (.sellLimit 3 0 10 5)),
  .call (.addOrder (.sellLimit 4 0 10 15 .aon)),
  .call (.addOrder (.buyLimit 5 0 10 5)),
  .call (.addOrder (.buyLimit 6 0 10 20 .aon)),
  .orders 3 3,
  .volume 45 30,
  .call (.addOrder (.sellLimit 7 0 10 15)),
  .orders 0 0,
  .volume 0 0]

example : passes test08 = true := by decide +kernel

/-- tests/test_matching_engine.cpp:397-423 "Automatic matching - 'Hidden' limit order". -/
def test09 : List Line := prepare ++ [
  .call .enableMatching,
  .call (.addOrder (.buyLimit 1 0 10 10 .gtc 5)),
  .call (.addOrder (.buyLimit 2 0 20 20 .gtc 10)),
  .call (.addOrder (.buyLimit 3 0 30 30 .gtc 15)),
  .orders 3 0,
  .volume 60 0,
  .visible 30 0,
  .call (.addOrder (.sellMarket 4 0 55)),
  .orders 1 0,
  .volume 5 0,
  .visible 5 0]

example : passes test09 = true := by decide +kernel

/-- tests/test_matching_engine.cpp:425-469 "Automatic matching - stop order". -/
def test10 : List Line := prepare ++ [
  .call .enableMatching,
  .call (.addOrder (.buyLimit 1 0 10 10)),
  .call (.addOrder (.buyLimit 2 0 20 20)),
  .call (.addOrder (.buyLimit 3 0 30 30)),
  .orders 3 0,
  .volume 60 0,
  .stopOrders 0 0,
  .stopVolume 0 0,
  .call (.addOrder (.sellStop 4 0 40 60)),
  .orders 0 0,
  .volume 0 0,
  .stopOrders 0 0,
  .stopVolume 0 0,
  .call (.addOrder (.sellLimit 5 0 30 30)),
  .call (.addOrder (.buyStop 6 0 40 40)),
  .call (.addOrder (.sellLimit 7 0 60 60)),
  .orders 0 2,
  .volume 0 90,
  .stopOrders 1 0,
  .stopVolume 40 0,
  .call (.addOrder (.buyLimit 8 0 40 40)),
  .orders 1 1,
  .volume 10 20,
  .stopOrders 0 0,
  .stopVolume 0 0]

example : passes test10 = true := by decide +kernel

/-- tests/test_matching_engine.cpp:471-495 "Automatic matching - stop order with an empty market". -/
def test11 : List Line := prepare ++ [
  .call .enableMatching,
  .call (.addOrder (.sellStop 1 0 10 10)),
  .orders 0 0,
  .volume 0 0,
  .stopOrders 0 0,
  .stopVolume 0 0,
  .call (.addOrder (.buyStop 2 0 20 20)),
  .orders 0 0,
  .volume 0 0,
  .stopOrders 0 0,
  .stopVolume 0 0]

example : passes test11 = true := by decide +kernel

/-- tests/test_matching_engine.cpp:497-545 "Automatic matching - stop-limit order". -/
def test12 : List Line := prepare ++ [
  .call .enableMatching,
  .call (.addOrder (.buyLimit 1 0 10 10)),
  .call (.addOrder (.buyLimit 2 0 20 20)),
  .call (.addOrder (.buyLimit 3 0 30 30)),
  .orders 3 0,
  .volume 60 0,
  .stopOrders 0 0,
  .stopVolume 0 0,
  .call (.addOrder (.sellStopLimit 4 0 40 20 40)),
  .orders 2 0,
  .volume 20 0,
  .stopOrders 0 0,
  .stopVolume 0 0,
  .call (.addOrder (.sellStopLimit 5 0 30 10 30)),
  .orders 0 1,
  .volume 0 10,
  .stopOrders 0 0,
  .stopVolume 0 0,
  .call (.addOrder (.buyStopLimit 6 0 20 10 10)),
  .call (.addOrder (.sellLimit 7 0 20 20)),
  .orders 0 2,
  .volume 0 30,
  .stopOrders 1 0,
  .stopVolume 10 0,
  .call (.addOrder (.buyLimit 7 0 20 30)),
  .orders 1 0,
  .volume 10 0,
  .stopOrders 0 0,
  .stopVolume 0 0]

example : passes test12 = true := by decide +kernel

/-- tests/test_matching_engine.cpp:547-573 "Automatic matching - stop-limit order with an empty market". -/
def test13 : List Line := prepare ++ [
  .call .enableMatching,
  .call (.addOrder (.sellStopLimit 1 0 10 30 30)),
  .orders 0 1,
  .volume 0 30,
  .stopOrders 0 0,
  .stopVolume 0 0,
  .call (.deleteOrder 1),
  .call (.addOrder (.buyStopLimit 2 0 30 10 10)),
  .orders 1 0,
  .volume 10 0,
  .stopOrders 0 0,
  .stopVolume 0 0,
  .call (.deleteOrder 2)]

example : passes test13 = true := by decide +kernel

/-- tests/test_matching_engine.cpp:575-631 "Automatic matching - trailing stop order". -/
def test14 : List Line := prepare ++ [
  .call .enableMatching,
  .call (.addOrder (.buyLimit 1 0 100 20)),
  .call (.addOrder (.sellLimit 2 0 200 20)),
  .call (.addOrder (.sellMarket 3 0 10)),
  .call (.addOrder (.buyMarket 4 0 10)),
  .orders 1 1,
  .volume 10 10,
  .stopOrders 0 0,
  .stopVolume 0 0,
  .call (.addOrder (.trailingBuyStop 5 0 1000 10 10 5)),
  .call (.addOrder (.trailingSellStopLimit 6 0 0 10 10 (-1000) (-500))),
  .stopPrice 5 210,
  .stopPrice 6 90,
  .price 6 100,
  .orders 1 1,
  .volume 10 10,
  .stopOrders 1 1,
  .stopVolume 10 10,
  .call (.modifyOrder 1 103 20),
  .stopPrice 6 90,
  .price 6 100,
  .call (.modifyOrder 1 120 20),
  .stopPrice 6 108,
  .price 6 118,
  .call (.modifyOrder 2 197 20),
  .stopPrice 5 210,
  .call (.modifyOrder 2 180 20),
  .stopPrice 5 210,
  .call (.modifyOrder 2 197 20),
  .call (.addOrder (.buyMarket 7 0 10)),
  .stopPrice 5 210,
  .call (.modifyOrder 2 180 20),
  .call (.addOrder (.buyMarket 7 0 10)),
  .stopPrice 5 190]

example : passes test14 = true := by decide +kernel

/-- tests/test_matching_engine.cpp:633-673 "In-Flight Mitigation". -/
def test15 : List Line := prepare ++ [
  .call .enableMatching,
  .call (.addOrder (.buyLimit 1 0 10 100)),
  .orders 1 0,
  .volume 100 0,
  .call (.addOrder (.sellLimit 2 0 20 100)),
  .orders 1 1,
  .volume 100 100,
  .call (.addOrder (.sellLimit 3 0 10 20)),
  .call (.addOrder (.buyLimit 4 0 20 20)),
  .orders 1 1,
  .volume 80 80,
  .call (.mitigateOrder 1 10 150),
  .call (.mitigateOrder 2 20 50),
  .orders 1 1,
  .volume 130 30,
  .call (.mitigateOrder 1 10 20),
  .call (.mitigateOrder 2 20 10),
  .orders 0 0,
  .volume 0 0]

example : passes test15 = true := by decide +kernel

/-- tests/test_matching_engine.cpp:675-715 "Manual matching". -/
def test16 : List Line := prepare ++ [
  .call (.addOrder (.buyLimit 1 0 10 10)),
  .call (.addOrder (.buyLimit 2 0 10 20)),
  .call (.addOrder (.buyLimit 3 0 10 30)),
  .call (.addOrder (.buyLimit 4 0 20 10)),
  .call (.addOrder (.buyLimit 5 0 20 20)),
  .call (.addOrder (.buyLimit 6 0 20 30)),
  .call (.addOrder (.buyLimit 7 0 30 10)),
  .call (.addOrder (.buyLimit 8 0 30 20)),
  .call (.addOrder (.buyLimit 9 0 30 30)),
  .orders 9 0,
  .volume 180 0,
  .call (.addOrder (.sellLimit 10 0 10 30)),
  .call (.addOrder (.sellLimit 11 0 10 20)),
  .call (.addOrder (.sellLimit 12 0 10 10)),
  .call (.addOrder (.sellLimit 13 0 20 30)),
  .call (.addOrder (.sellLimit 14 0 20 25)),
  .call (.addOrder (.sellLimit 15 0 20 10)),
  .call (.addOrder (.sellLimit 16 0 30 30)),
  .call (.addOrder (.sellLimit 17 0 30 20)),
  .call (.addOrder (.sellLimit 18 0 30 10)),
  .orders 9 9,
  .volume 180 185,
  .call .matchAll,
  .orders 3 4,
  .volume 60 65]

example : passes test16 = true := by decide +kernel

end Tests
end CppTrader
