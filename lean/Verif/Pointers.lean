import Verif.Model.HeapManager
/-
What the pointers of a market manager have to look like (C83-C85): specification, in terms of the nodes and pointers of
`Verif/Model/Heap.lean` only and of what the public getters return.
-/

namespace CppTrader

/-- Starting at the pointer `p` and following the member `dir` one meets the order nodes `as`, all of them allocated, and
then the null pointer. -/
inductive Heap.Chain (h : Heap) (dir : ONode → Option Nat) : Option Nat → List Nat → Prop
  | nil : Heap.Chain h dir none []
  | cons {a n as} : h.onode a = some n → Heap.Chain h dir (dir n) as → Heap.Chain h dir (some a) (a :: as)

/-- The level node at `a` is the level `l`: its fields; its order list, walked forwards from `front` and backwards from
`back`, is the queue of the level, and every order of it points back to the level. -/
def Heap.ShowsLevel (h : Heap) (k : Kind) (a : Nat) (l : Level) : Prop :=
  ∃ n as, h.lnode a = some n ∧ n.info = l.info k ∧ h.Chain (·.next) n.front as ∧ h.Chain (·.prev) n.back as.reverse ∧
    as.map h.onode = l.ids.map (fun i => (h.orders i).bind h.onode) ∧ as.length = l.ids.length ∧
    ∀ b ∈ as, ∃ m, h.onode b = some m ∧ m.level = some a

/-- `GetOrder(id)` on the pointers: `_orders.find(id)` and the node found. -/
def HMgr.getOrder (s : HMgr) (id : Nat) : Option Order := ((s.heap.orders id).bind s.heap.onode).map (·.order)

/-- The members of a book that are not collections. -/
def Book.members (b : Book) : HBook := ⟨b.symbol, b.lastBid, b.lastAsk, b.matchBid, b.matchAsk, b.trailBid, b.trailAsk⟩

/-- The manager on pointers and the manager say the same: settings, symbols, callbacks so far, orders and books, whose
trees consist, best price first, of nodes that are the levels, and whose best pointer is the first level or null. -/
structure HMgr.Shows (s : HMgr) (g : Mgr) : Prop where
  symbols : s.symbols = g.symbols
  matching : s.matching = g.matching
  ev : s.ev = g.ev
  orders : ∀ id, s.getOrder id = g.getOrder id
  books : ∀ i, slot s.books i = (g.getBook i).map Book.members
  trees : ∀ (i : Nat) (b : Book) (k : Kind), g.getBook i = some b → (s.heap.tree (i, k)).length = (b.lv k).length ∧
    ∀ (j a : Nat) (l : Level), (s.heap.tree (i, k))[j]? = some a → (b.lv k)[j]? = some l → s.heap.ShowsLevel k a l
  best : ∀ i k, s.heap.best (i, k) = (s.heap.tree (i, k)).head?

/-- The accounts of the two pools. Every allocated order node is in the order map under its id, every entry of the map is
an allocated node that carries that id; every allocated level node is in exactly one tree, of an existing book, once, and
every entry of a tree is an allocated node. -/
structure HMgr.Accounts (s : HMgr) : Prop where
  orderNodes : ∀ a n, s.heap.onode a = some n → s.heap.orders n.order.id = some a
  orderMap : ∀ id a, s.heap.orders id = some a → ∃ n, s.heap.onode a = some n ∧ n.order.id = id
  levelNodes : ∀ a n, s.heap.lnode a = some n → ∃ i k, (slot s.books i).isSome ∧ a ∈ s.heap.tree (i, k)
  levelTrees : ∀ i k, ∀ a ∈ s.heap.tree (i, k), ∃ n, s.heap.lnode a = some n
  once : ∀ i k, (s.heap.tree (i, k)).Nodup
  alone : ∀ i k i' k' a, a ∈ s.heap.tree (i, k) → a ∈ s.heap.tree (i', k') → i = i' ∧ k = k'

/-- The keys of the order map, each once, in some order. -/
def HMgr.Keys (s : HMgr) (ids : List Nat) : Prop := ids.Nodup ∧ ∀ i, i ∈ ids ↔ s.heap.orders i ≠ none

end CppTrader
