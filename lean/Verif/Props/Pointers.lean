import Verif.Proof.HeapShow
import Verif.Proof.Demo
/-
C83-C85: the market manager on its pointers.
-/

namespace CppTrader
namespace Ptr

theorem run_det {s : HMgr} {ops : List Op} {a b : HMgr × List ErrorCode} (h1 : s.run ops = .ok a) (h2 : s.run ops = .ok b) : a = b :=
  Except.ok.inj (h1.symm.trans h2)

theorem reached {h : List (Op × ErrorCode)} {g : Mgr} (hh : g.History h) {x : Order} {po pl : Pool} {s : HMgr} {es : List ErrorCode}
    (hs : (HMgr.init x po pl).run (h.map (·.1)) = .ok (s, es)) : G g s ∧ es = h.map (·.2) := by
  obtain ⟨s', q, G0⟩ := history_sim hh x po pl
  cases run_det hs q
  exact ⟨G0, rfl⟩

theorem G.keys {g : Mgr} {s : HMgr} (G0 : G g s) : ∃ ids, s.Keys ids := by
  have ac := G0.accounts
  refine ⟨(List.range s.heap.freshO).filterMap (fun a => (s.heap.onode a).map (·.order.id)), ?_, ?_⟩
  · have : ∀ (L : List Nat), L.Nodup → (L.filterMap (fun a => (s.heap.onode a).map (·.order.id))).Nodup := by
      intro L
      induction L with
      | nil => intro _; exact List.nodup_nil
      | cons a L ih =>
        intro hn
        have hn := List.nodup_cons.mp hn
        rw [List.filterMap_cons]
        cases ha : s.heap.onode a with
        | none => exact ih hn.2
        | some n =>
          refine List.nodup_cons.mpr ⟨?_, ih hn.2⟩
          intro hm
          obtain ⟨b, hb, e⟩ := List.mem_filterMap.mp hm
          cases hc : s.heap.onode b with
          | none => rw [hc] at e; cases e
          | some m =>
            rw [hc] at e
            have e : m.order.id = n.order.id := Option.some.inj e
            have h1 := ac.orderNodes a n ha
            have h2 := ac.orderNodes b m hc
            rw [e, h1] at h2
            cases h2
            exact hn.1 hb
    exact this _ List.nodup_range
  · intro i
    constructor
    · intro hm
      obtain ⟨b, _, e⟩ := List.mem_filterMap.mp hm
      cases hc : s.heap.onode b with
      | none => rw [hc] at e; cases e
      | some m =>
        rw [hc] at e
        have e : m.order.id = i := Option.some.inj e
        rw [← e, ac.orderNodes b m hc]
        simp
    · intro hi
      cases ha : s.heap.orders i with
      | none => exact absurd ha hi
      | some a =>
        obtain ⟨n, hn, e⟩ := ac.orderMap i a ha
        refine List.mem_filterMap.mpr ⟨a, List.mem_range.mpr (G0.rep.full a n hn).1, ?_⟩
        rw [hn]; exact congrArg some e

end Ptr

/-- C83: after every history the manager on pointers, whatever the contents of its memory before and whichever free
addresses the pools give out, has made the same calls
with the same result codes without following a null or stale pointer and without releasing a node twice, has reported the
same callbacks and shows the same symbols, books and orders. -/
theorem C83_same {h : List (Op × ErrorCode)} {g : Mgr} (hh : g.History h) (x : Order) (po pl : Pool) :
    ∃ s, (HMgr.init x po pl).run (h.map (·.1)) = .ok (s, h.map (·.2)) ∧ s.ev = g.ev ∧ s.symbols = g.symbols ∧
      s.matching = g.matching ∧ (∀ id, s.getOrder id = g.getOrder id) ∧ ∀ i, slot s.books i = (g.getBook i).map Book.members := by
  obtain ⟨s, q, G0⟩ := Ptr.history_sim hh x po pl
  exact ⟨s, q, G0.shows.ev, G0.shows.symbols, G0.shows.matching, G0.shows.orders, G0.shows.books⟩

/-- C83: in every state every admissible call goes through on the pointers, with the result code of the manager on lists
and the same callbacks. -/
theorem C83_no_ub {h : List (Op × ErrorCode)} {g : Mgr} (hh : g.History h) {x : Order} {po pl : Pool} {s : HMgr} {es : List ErrorCode}
    (hs : (HMgr.init x po pl).run (h.map (·.1)) = .ok (s, es)) {op : Op} (ha : g.Admissible op) :
    ∃ s' g' e, s.step op = .ok (s', e) ∧ g.step op = .ok (g', e) ∧ s'.Shows g' ∧ s'.Accounts := by
  obtain ⟨G0, _⟩ := Ptr.reached hh hs
  obtain ⟨g', e, q, _⟩ := step_ok G0.inv op ha
  obtain ⟨s', q', G1⟩ := Ptr.step_sim G0 ha q
  exact ⟨s', g', e, q', q, G1.shows, G1.accounts⟩

/-- C84: the accounts of the two pools. After every history the allocated order nodes are exactly those in the order map
and the allocated level nodes exactly those in the trees of the books, each in one place: nothing leaks. -/
theorem C84_accounts {h : List (Op × ErrorCode)} {g : Mgr} (hh : g.History h) {x : Order} {po pl : Pool} {s : HMgr} {es : List ErrorCode}
    (hs : (HMgr.init x po pl).run (h.map (·.1)) = .ok (s, es)) : s.Accounts := (Ptr.reached hh hs).1.accounts

/-- C84: the destructor of the manager, in whatever order it walks the order map, releases every node exactly once and
leaves both pools empty. -/
theorem C84_destroy {h : List (Op × ErrorCode)} {g : Mgr} (hh : g.History h) {x : Order} {po pl : Pool} {s : HMgr} {es : List ErrorCode}
    (hs : (HMgr.init x po pl).run (h.map (·.1)) = .ok (s, es)) :
    (∃ ids, s.Keys ids) ∧ ∀ ids, s.Keys ids → ∃ p, s.destroy ids = .ok p ∧ (∀ a, p.onode a = none) ∧ ∀ a, p.lnode a = none :=
  ⟨(Ptr.reached hh hs).1.keys, fun _ hk => (Ptr.reached hh hs).1.destroy hk⟩

/-- C85: after every history the trees of a book hold its levels, best price first, the best pointer is the first level or
null, the order list of every level can be walked in both directions and is the queue of the level, and every queued order
points to its level. -/
theorem C85_pointers {h : List (Op × ErrorCode)} {g : Mgr} (hh : g.History h) {x : Order} {po pl : Pool} {s : HMgr} {es : List ErrorCode}
    (hs : (HMgr.init x po pl).run (h.map (·.1)) = .ok (s, es)) :
    (∀ (i : Nat) (b : Book) (k : Kind), g.getBook i = some b → (s.heap.tree (i, k)).length = (b.lv k).length ∧
      ∀ (j a : Nat) (l : Level), (s.heap.tree (i, k))[j]? = some a → (b.lv k)[j]? = some l → s.heap.ShowsLevel k a l) ∧
    ∀ i k, s.heap.best (i, k) = (s.heap.tree (i, k)).head? :=
  ⟨(Ptr.reached hh hs).1.shows.trees, (Ptr.reached hh hs).1.shows.best⟩

/-- A pool that never gives out an address twice: every use of a stale pointer is noticed. -/
def Pool.onward : Pool where
  pick _ n _ := n
  sound _ n live h := by
    cases e : live n with
    | false => rfl
    | true => exact absurd (h n e) (Nat.lt_irrefl n)

/-- A pool that uses released memory as soon as it can: the lowest free address. -/
def Pool.lowest : Pool where
  pick _ n live := ((List.range n).find? (fun a => !live a)).getD n
  sound _ n live h := by
    cases e : (List.range n).find? (fun a => !live a) with
    | some a =>
      have := List.find?_some e
      simpa using this
    | none =>
      show live n = false
      cases e2 : live n with
      | false => rfl
      | true => exact absurd (h n e2) (Nat.lt_irrefl n)

/-- An order that outlives its book: the book is deleted and added again. -/
def staleSession : List Op := opening ++ [.addOrder (.mkLimit 1 1 .buy 100 5), .deleteOrderBook 1, .addOrderBook ⟨1, 7⟩]

/-- Why the histories of C83 may not add a book again while old orders of its symbol are stored: the cached level pointer
of such an order is stale, and cancelling it follows that pointer. If the pool uses memory again, the pointer may lead to
another level: cancelling the old order takes 5 from the ask of 8 of order 2 and leaves the level without orders. -/
theorem C83_stale_witness (x : Order) :
    (HMgr.init x .onward .onward).run (staleSession ++ [.deleteOrder 1]) = .error .ub ∧
    ((HMgr.init (.mkLimit 0 0 .buy 0 0) .lowest .lowest).run (staleSession ++ [.addOrder (.mkLimit 2 1 .sell 200 8), .deleteOrder 1])).toOption.map
      (fun r => ((r.1.heap.tree (1, .ask)).map (fun a => (r.1.heap.lnode a).map (fun l => (l.total, l.count))), (r.1.getOrder 2).map (·.leaves))) =
      some ([some (3, 0)], some 8) := by
  exact ⟨rfl, by decide +kernel⟩

/-- Concrete histories have such runs. -/
theorem checkRun_history {ops : List Op} : ∀ {fresh g g' h}, g.History h → (fresh = true → ∀ i, g.orders i = none) →
    checkRun fresh g ops = some g' → ∃ h', g'.History h' ∧ h'.map (·.1) = h.map (·.1) ++ ops := by
  induction ops with
  | nil => intro fresh g g' h hr _ e; cases e; exact ⟨h, hr, by simp⟩
  | cons op ops ih =>
    intro fresh g g' h hr hf e
    unfold checkRun at e
    by_cases ha : admB fresh g op = true
    · simp only [ha, if_true] at e
      cases hs : g.step op with
      | error x => rw [hs] at e; cases e
      | ok p =>
        obtain ⟨g1, c⟩ := p
        rw [hs] at e
        obtain ⟨h', q1, q2⟩ := ih (.snoc hr (admB_sound hf ha) hs) (by
          intro hfr i
          simp only [Bool.and_eq_true] at hfr
          rw [isReg_orders hfr.2 hs]; exact hf hfr.1 i) e
        exact ⟨h', q1, by rw [q2]; simp⟩
    · simp [ha] at e

/-- Three bids in one queue, the middle one cancelled, a stop order, a trade against the first. -/
def linkedSession : List Op :=
  trading ++ [.addOrder (.mkLimit 1 1 .buy 100 5), .addOrder (.mkLimit 2 1 .buy 100 6), .addOrder (.mkLimit 3 1 .buy 100 7),
    .addOrder (.mkLimit 4 1 .buy 90 2), .addOrder (.mkStop 5 1 .sell 50 1), .deleteOrder 2, .addOrder (.mkLimit 6 1 .sell 100 1)]

/-- The memory after it: two of the four resting orders are linked to each other in the best bid level. -/
def linkedOk (s : HMgr) : Bool :=
  (s.heap.tree (1, .bid) == [0, 1]) && (s.heap.tree (1, .sellStop) == [2]) && (s.heap.best (1, .bid) == some 0) &&
    ((s.heap.lnode 0).map (fun l => (l.front, l.back, l.count, l.total)) == some (some 0, some 2, 2, 11)) &&
    ((s.heap.onode 0).map (fun n => (n.level, n.next, n.prev)) == some (some 0, some 2, none)) &&
    ((s.heap.onode 2).map (fun n => (n.level, n.next, n.prev)) == some (some 0, none, some 0)) && (s.heap.onode 1).isNone &&
    (match s.destroy [5, 4, 3, 1] with | .ok p => (List.range 10).all (fun a => (p.onode a).isNone && (p.lnode a).isNone) | .error _ => false)

/-- The premises of C83-C85 are met by that session. -/
example (x : Order) (po pl : Pool) : ∃ (h : List (Op × ErrorCode)) (g : Mgr) (s : HMgr), g.History h ∧ h.map (·.1) = linkedSession ∧
    (HMgr.init x po pl).run (h.map (·.1)) = .ok (s, h.map (·.2)) ∧ s.Accounts ∧ s.Shows g ∧ (s.getOrder 1).map (·.leaves) = some 4 := by
  have hc : (checkRun true Mgr.init linkedSession).map (fun g => (g.getOrder 1).map (·.leaves)) = some (some 4) := by decide +kernel
  cases hd : checkRun true Mgr.init linkedSession with
  | none => rw [hd] at hc; cases hc
  | some g =>
    rw [hd] at hc
    obtain ⟨h, hh, e⟩ := checkRun_history .nil (fun _ _ => rfl) hd
    obtain ⟨s, q, G0⟩ := Ptr.history_sim hh x po pl
    refine ⟨h, g, s, hh, e, q, G0.accounts, G0.shows, ?_⟩
    rw [G0.shows.orders]
    exact Option.some.inj hc

example : (match (HMgr.init (.mkLimit 0 0 .buy 0 0) .onward .onward).run linkedSession with | .ok (s, _) => linkedOk s | .error _ => false) = true := by
  decide +kernel

/-- With memory used again, the next order takes the place of the one cancelled. -/
example : ((HMgr.init (.mkLimit 0 0 .buy 0 0) .lowest .lowest).run (linkedSession ++ [.addOrder (.mkLimit 7 1 .buy 100 3)])).toOption.map
    (fun r => (r.1.heap.orders 7, (r.1.heap.onode 1).map (fun n => (n.level, n.next, n.prev)))) = some (some 1, some (some 0, none, some 2)) := by
  decide +kernel

end CppTrader
