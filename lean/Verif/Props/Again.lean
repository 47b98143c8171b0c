import Verif.Proof.Rest
import Verif.Proof.Demo
/-
C87: `Match()` has nothing left to do after `Match()`.
-/

namespace CppTrader
open Core

/-- C87, one symbol. After `Match` or `EnableMatching`, if no order of the symbol is All-Or-None and its waiting trailing
stop orders follow the market at absolute distances, then calling `Match` or `EnableMatching` again changes neither the
book of the symbol (its levels, queues and prices) nor any of its orders, and raises no callback about it, whatever the
other symbols do. -/
theorem C87_symbol {g : Mgr} (hr : g.Reachable) {op1 op2 : Op} {g1 g2 : Mgr} {e1 e2 : ErrorCode} {evs : List Event}
    (hm1 : op1.isMatch = true) (hm2 : op2.isMatch = true) (hs1 : g.step op1 = .ok (g1, e1)) (hs2 : g1.step op2 = .ok (g2, e2))
    (hev : g2.ev = g1.ev ++ evs) {sym : Nat} (hn : g1.NoAON sym)
    (ht : ∀ i o, g1.getOrder i = some o → o.symbolId = sym → o.isTrailing = true → 0 < o.trailDist) :
    g2.getBook sym = g1.getBook sym ∧
    (∀ i o, o.symbolId = sym → (g2.getOrder i = some o ↔ g1.getOrder i = some o)) ∧
    ∀ ev ∈ evs, ev.symbol ≠ sym := by
  have ha1 : g.Admissible op1 := by cases op1 <;> first | trivial | (simp [Op.isMatch] at hm1)
  have ha2 : g1.Admissible op2 := by cases op2 <;> first | trivial | (simp [Op.isMatch] at hm2)
  have hi1 := (hr.step ha1 hs1).minv
  have hi2 := ((hr.step ha1 hs1).step ha2 hs2).minv
  have hrest : RestAt g1 sym := by
    cases op1 <;> simp [Op.isMatch] at hm1
    · obtain ⟨g', h1, h2⟩ := bind_inv (show ({ g with matching := true } : Mgr).matchAll >>= (fun s => Except.ok (s, ErrorCode.ok)) = _ from hs1)
      cases h2
      exact matchAll_restAt (g := { g with matching := true }) ⟨hr.minv.orders, hr.minv.books, hr.minv.symbols⟩ h1 ⟨hn, ht⟩
    · obtain ⟨g', h1, h2⟩ := bind_inv (show g.matchAll >>= (fun s => Except.ok (s, ErrorCode.ok)) = _ from hs1)
      cases h2
      exact matchAll_restAt hr.minv h1 ⟨hn, ht⟩
  have fin : ∀ {g0 : Mgr}, MInv g0 → RestAt g0 sym → g0.books = g1.books → g0.orders = g1.orders → g0.ev = g1.ev →
      g0.matchAll = .ok g2 → g2.getBook sym = g1.getBook sym ∧
        (∀ i o, o.symbolId = sym → (g2.getOrder i = some o ↔ g1.getOrder i = some o)) ∧ ∀ ev ∈ evs, ev.symbol ≠ sym := by
    intro g0 hi0 h0 e1 e2 e3 run
    obtain ⟨a1, a2, evs', a3, a4⟩ := matchFrom_keeps _ hi0 h0 run
    rw [e3] at a3
    have : evs = evs' := List.append_cancel_left (hev.symm.trans a3)
    subst this
    refine ⟨?_, ?_, a4⟩
    · show slot g2.books sym = slot g1.books sym
      rw [a1, e1]
    · intro i o ho
      rw [hi2.getOrder, hi1.getOrder, a2 i o ho, e2]
  cases op2 <;> simp [Op.isMatch] at hm2
  · obtain ⟨g', h1, h2⟩ := bind_inv (show ({ g1 with matching := true } : Mgr).matchAll >>= (fun s => Except.ok (s, ErrorCode.ok)) = _ from hs2)
    cases h2
    exact fin (g0 := { g1 with matching := true }) ⟨hi1.orders, hi1.books, hi1.symbols⟩ (fun b hb => (hrest b hb).keep) rfl rfl rfl h1
  · obtain ⟨g', h1, h2⟩ := bind_inv (show g1.matchAll >>= (fun s => Except.ok (s, ErrorCode.ok)) = _ from hs2)
    cases h2
    exact fin hi1 hrest rfl rfl rfl h1

/-- C87, all symbols. After `Match` or `EnableMatching`, if no waiting order is All-Or-None and the waiting trailing stop
orders follow the market at absolute distances, then `Match` changes nothing at all and raises no callback;
`EnableMatching` only switches matching on; `DisableMatching` followed by `EnableMatching` likewise. -/
theorem C87_again {g : Mgr} (hr : g.Reachable) {op : Op} {g1 : Mgr} {e : ErrorCode} (hm : op.isMatch = true)
    (hs : g.step op = .ok (g1, e)) (hn : ∀ sym, g1.NoAON sym)
    (ht : ∀ i o, g1.getOrder i = some o → o.isTrailing = true → 0 < o.trailDist) :
    g1.step .matchAll = .ok (g1, .ok) ∧
    g1.step .enableMatching = .ok ({ g1 with matching := true }, .ok) ∧
    g1.run [.disableMatching, .enableMatching] = .ok ({ g1 with matching := true }, [.ok, .ok]) := by
  have hrest : ∀ sym, RestAt g1 sym := by
    intro sym
    cases op <;> simp [Op.isMatch] at hm
    · obtain ⟨g', h1, h2⟩ := bind_inv (show ({ g with matching := true } : Mgr).matchAll >>= (fun s => Except.ok (s, ErrorCode.ok)) = _ from hs)
      cases h2
      exact matchAll_restAt (g := { g with matching := true }) ⟨hr.minv.orders, hr.minv.books, hr.minv.symbols⟩ h1
        ⟨hn sym, fun i o h _ => ht i o h⟩
    · obtain ⟨g', h1, h2⟩ := bind_inv (show g.matchAll >>= (fun s => Except.ok (s, ErrorCode.ok)) = _ from hs)
      cases h2
      exact matchAll_restAt hr.minv h1 ⟨hn sym, fun i o h _ => ht i o h⟩
  have hall : ∀ m : Bool, ({ g1 with matching := m } : Mgr).matchAll = .ok { g1 with matching := m } :=
    fun m => matchFrom_rest _ fun sym b hb => (hrest sym b hb).keep
  have hen : ∀ m : Bool, ({ g1 with matching := m } : Mgr).step .enableMatching = .ok ({ g1 with matching := true }, .ok) := by
    intro m
    show ({ g1 with matching := true } : Mgr).matchAll >>= (fun s => Except.ok (s, ErrorCode.ok)) = _
    rw [hall true]; rfl
  refine ⟨?_, hen g1.matching, ?_⟩
  · show g1.matchAll >>= (fun s => Except.ok (s, ErrorCode.ok)) = _
    rw [show g1.matchAll = .ok g1 from hall g1.matching]; rfl
  · unfold Mgr.run
    show (({ g1 with matching := false } : Mgr).run [.enableMatching] >>= fun x => Except.ok (x.1, ErrorCode.ok :: x.2)) = _
    unfold Mgr.run
    rw [show ({ g1 with matching := false } : Mgr).step .enableMatching = _ from hen false]
    rfl

/-! ### The hypotheses are met, and needed -/

/-- What `Match` called twice does: the callbacks of the first and of the second call. -/
def twiceMatched (g : Mgr) : Option (Mgr × Nat × Nat) :=
  match g.step .matchAll with
  | .ok (g1, _) =>
    match g1.step .matchAll with
    | .ok (g2, _) => some (g1, g1.ev.length - g.ev.length, g2.ev.length - g1.ev.length)
    | .error _ => none
  | .error _ => none

/-- `Match` meets a crossed book with stop orders: it executes, releases a stop, moves a trailing stop and leaves orders
waiting; none of those is All-Or-None or follows at a percentage. The second call does nothing. -/
theorem C87_demo : ∃ g : Mgr, g.Reachable ∧ (match twiceMatched g with
    | some (g1, n, m) => decide (10 < n ∧ m = 0) && (g1.getOrder 1).isSome && (g1.getOrder 5).any (fun o => decide (o.isTrailing = true ∧ 0 < o.trailDist))
        && [1, 2, 3, 4, 5, 6].all (fun i => (g1.getOrder i).all (fun o => o.tif != .aon))
    | none => false) = true :=
  demo (p := fun g => match twiceMatched g with
    | some (g1, n, m) => decide (10 < n ∧ m = 0) && (g1.getOrder 1).isSome && (g1.getOrder 5).any (fun o => decide (o.isTrailing = true ∧ 0 < o.trailDist))
        && [1, 2, 3, 4, 5, 6].all (fun i => (g1.getOrder i).all (fun o => o.tif != .aon))
    | none => false)
    (opening ++ [.addOrder (.mkLimit 1 1 .sell 103 50), .addOrder (.mkLimit 2 1 .sell 100 5), .addOrder (.mkLimit 3 1 .buy 101 9),
      .addOrder (.mkStop 4 1 .buy 102 4), .addOrder (.mkTrailingStop 5 1 .buy 300 7 10 2), .addOrder (.mkLimit 6 1 .sell 104 5)])
    (by decide +kernel)

/-- With All-Or-None orders a second `Match` may find what the first left: here the first call executes one pair and gives
up at an All-Or-None pair that does not match, the second starts from the front of the queues again. -/
theorem C87_aon_witness : ∃ g : Mgr, g.Reachable ∧ (match twiceMatched g with
    | some (_, _, m) => decide (0 < m)
    | none => false) = true :=
  demo (p := fun g => match twiceMatched g with
    | some (_, _, m) => decide (0 < m)
    | none => false)
    (opening ++ [.addOrder (.mkLimit 1 1 .buy 100 10), .addOrder (.mkLimit 2 1 .buy 100 50 .aon), .addOrder (.mkLimit 3 1 .sell 100 5),
      .addOrder (.mkLimit 4 1 .sell 100 3), .addOrder (.mkLimit 5 1 .sell 100 7 .aon)]) (by decide +kernel)

/-- A percentage of a small price is no distance: the first `Match` moves the trailing stop to the market price, the second
releases it. -/
theorem C87_percent_witness : ∃ g : Mgr, g.Reachable ∧ (match twiceMatched g with
    | some (_, n, m) => decide (n = 1 ∧ 0 < m)
    | none => false) = true :=
  demo (p := fun g => match twiceMatched g with
    | some (_, n, m) => decide (n = 1 ∧ 0 < m)
    | none => false)
    (trading ++ [.addOrder (.mkLimit 1 1 .sell 5 10), .addOrder (.mkLimit 2 1 .buy 5 10), .disableMatching,
      .addOrder (.mkTrailingStop 3 1 .buy 20 4 (-100) (-10)), .addOrder (.mkLimit 4 1 .sell 5 10)]) (by decide +kernel)

/-- After another call than `Match` there may be something to do even while matching is on: the book forgets the price of
the last execution when the call returns, and a stop order that was held by that price is released by the next `Match`. -/
theorem C87_forgotten_witness : ∃ g : Mgr, g.Reachable ∧ (match twiceMatched g with
    | some (_, n, m) => g.matching && decide (0 < n ∧ m = 0)
    | none => false) = true :=
  demo (p := fun g => match twiceMatched g with
    | some (_, n, m) => g.matching && decide (0 < n ∧ m = 0)
    | none => false)
    (trading ++ [.addOrder (.mkLimit 1 1 .sell 100 5), .addOrder (.mkLimit 2 1 .sell 200 5), .addOrder (.mkStop 3 1 .buy 150 4),
      .addOrder (.mkLimit 4 1 .buy 90 5), .modifyOrder 1 90 5]) (by decide +kernel)

end CppTrader
