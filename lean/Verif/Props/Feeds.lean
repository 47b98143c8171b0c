import Verif.Proof.FeedAt
import Verif.Proof.Demo
/-
The order feed (C45), fill accounting (C08), trailing direction (C14), Fill-Or-Kill (C07), what may change
of an order (C46).
-/

namespace CppTrader
open Core

/-! ### C45: the order feed -/

/-- C45. The callbacks of a call are consistent with, and complete for, a client that tracks the live orders by them:
its view before the call is `GetOrder`, every callback is acceptable, and its view afterwards is `GetOrder` again. A
submission that is not refused reports exactly one order added, the one submitted; other calls report none. -/
theorem C45_order_feed {g : Mgr} (hr : g.Reachable) {op g' e evs} (ha : g.Admissible op) (hf : g.FreshId op)
    (hs : g.step op = .ok (g', e)) (hev : g'.ev = g.ev ++ evs) :
    Replays (OrderView.ok (g.scope op)) OrderView.next g.getOrder evs g'.getOrder ∧
      (addsOf evs = [] ∧ (op.isSubmission = true → e ≠ .ok ∧ e ≠ .orderDuplicate) ∨ ∃ o, addsOf evs = [o] ∧ g.submits op o) := by
  obtain ⟨evs', h1, h2⟩ := (hr.eff ha hs).feed hr.minv ha hs hf
  have := h1.ev
  rw [hev] at this
  cases List.append_cancel_left this
  have hr' : g'.Reachable := .step hr ha hs
  have e1 : g.getOrder = g.orders := funext hr.minv.getOrder
  have e2 : g'.getOrder = g'.orders := funext hr'.minv.getOrder
  exact ⟨by rw [e1, e2]; exact h1.orders, h2⟩

theorem Mgr.FreshHistory.reachable {h g} (hh : FreshHistory h g) : g.Reachable := by
  induction hh with
  | nil => exact .init
  | snoc _ ha _ hs ih => exact .step ih ha hs

theorem Mgr.FreshHistory.history {h g} (hh : FreshHistory h g) : History h g := by
  induction hh with
  | nil => exact .nil
  | snoc _ ha _ hs ih => exact .snoc ih ha hs

/-- C45 over a whole history: replaying all callbacks from the empty view gives exactly the live orders. -/
theorem C45_order_feed_history {h : List (Op × ErrorCode)} {g : Mgr} (hh : g.FreshHistory h) :
    Replays (OrderView.ok ⟨true, true, true⟩) OrderView.next (fun _ => none) g.ev g.getOrder := by
  induction hh with
  | nil => exact funext fun i => by simp [Mgr.getOrder, Mgr.init]
  | @snoc h g g' op e hh ha hf hs ih =>
    obtain ⟨evs, h1, _⟩ := (hh.reachable.eff ha hs).feed hh.reachable.minv ha hs hf
    rw [h1.ev]
    exact ih.append (OrdEv.mono (C45_order_feed hh.reachable ha hf hs h1.ev).1)

/-- A history that meets the hypothesis: resting, iceberg, trailing and stop orders, trades, an activation, a
modification, a mitigation, a replacement and a deletion. -/
example : ∃ (g : Mgr) (h : List (Op × ErrorCode)), g.FreshHistory h ∧
    (decide (g.ev.length = 62) && (g.getOrder 1).isSome && decide ((execsOf g.ev).length = 7)) = true :=
  demoFresh (p := fun g => decide (g.ev.length = 62) && (g.getOrder 1).isSome && decide ((execsOf g.ev).length = 7))
    (trading ++ [.addOrder (.mkLimit 1 1 .sell 100 10), .addOrder (.mkLimit 2 1 .sell 110 10), .addOrder (.mkLimit 20 1 .buy 90 10),
      .addOrder (.mkStop 3 1 .buy 105 3),
      .addOrder (.mkMarket 5 1 .buy 10), .addOrder (.mkLimit 1 1 .sell 120 4), .modifyOrder 2 111 6, .mitigateOrder 20 91 8,
      .replaceOrder 2 2 112 5, .deleteOrder 20, .addOrder (.mkLimit 6 1 .buy 112 2), .reduceOrder 1 1, .executeOrder 1 1])
    (by decide +kernel)

/-- The hypothesis is needed: a market order is accepted under the id of a live order; the client then sees that id
deleted although the order is still there. -/
theorem C45_duplicate_witness : ∃ (g g' : Mgr) (e : ErrorCode) (evs : List Event), g.Reachable ∧
    g.Admissible (.addOrder (.mkMarket 1 1 .buy 5)) ∧ g.step (.addOrder (.mkMarket 1 1 .buy 5)) = .ok (g', e) ∧ e = .ok ∧ g'.ev = g.ev ++ evs ∧
    ¬ ∃ sc : Scope, Replays (OrderView.ok sc) OrderView.next g.getOrder evs g'.getOrder := by
  obtain ⟨g, g', e, h1, h2, h3, h4⟩ := demoStep
    (p := fun g g' e => decide (e = .ok) && decide (g'.ev = g.ev ++ [.addOrder (.mkMarket 1 1 .buy 5), .deleteOrder (.mkMarket 1 1 .buy 5)]) &&
      (g.getOrder 1).isSome)
    (opening ++ [.addOrder (.mkLimit 1 1 .sell 100 10)]) (.addOrder (.mkMarket 1 1 .buy 5)) (by decide +kernel)
  simp only [Bool.and_eq_true, decide_eq_true_eq] at h4
  refine ⟨g, g', e, _, h1, h2, h3, h4.1.1, h4.1.2, ?_⟩
  rintro ⟨sc, h, _⟩
  rw [show g.getOrder 1 = none from h] at h4
  exact absurd h4.2 (by simp)

/-- C45 without the hypothesis, for every order but the one the call submits: the callbacks about that order, by themselves,
are acceptable and lead from what `GetOrder` said of it before the call to what it says afterwards; whatever ids, used or
unused, orders are submitted under. -/
theorem C45_other_orders {g : Mgr} (hr : g.Reachable) {op g' e evs} (ha : g.Admissible op)
    (hs : g.step op = .ok (g', e)) (hev : g'.ev = g.ev ++ evs) {i : Nat} (hn : ∀ t, g.submits op t → t.id ≠ i) :
    ∃ v, Replays (OrderView.ok (g.scope op)) OrderView.next g.getOrder (evs.filter (·.concerns i)) v ∧ v i = g'.getOrder i ∧
      addsOf (evs.filter (·.concerns i)) = [] := by
  obtain ⟨evs', h1, h2, h3⟩ := (hr.eff ha hs).at hr.minv ha hs hn
  rw [hev] at h1
  cases List.append_cancel_left h1
  have hr' : g'.Reachable := .step hr ha hs
  have e1 : g.getOrder = g.orders := funext hr.minv.getOrder
  obtain ⟨v, a, b⟩ := h2 g.orders rfl
  refine ⟨v, by rw [e1]; exact a, by rw [hr'.minv.getOrder]; exact b, ?_⟩
  cases hl : addsOf (evs.filter (·.concerns i)) with
  | nil => rfl
  | cons o os =>
    have ho : o ∈ addsOf (evs.filter (·.concerns i)) := by rw [hl]; simp
    exact absurd (addsOf_about ho) (h3 o (addsOf_sub ho))

/-- The life of an order over a call that does not submit it. -/
theorem lived {g : Mgr} (hr : g.Reachable) {op g' e evs} (ha : g.Admissible op) (hs : g.step op = .ok (g', e)) (hev : g'.ev = g.ev ++ evs)
    {i : Nat} {o : Order} (ho : g.getOrder i = some o) (hn : ∀ t, g.submits op t → t.id ≠ i) :
    (∃ x, g'.getOrder i = some x ∧ Evo (g.scope op) o (execsOfId i evs) x) ∨
      (g'.getOrder i = none ∧ ∃ x, Evo (g.scope op) o (execsOfId i evs) x) := by
  obtain ⟨v, h1, h2, h3⟩ := C45_other_orders hr ha hs hev hn
  have := OrdEv.life (i := i) h1 ho (by rw [h3]; simp) .nil
  rw [execsOfId_about, h2] at this
  exact this

/-- A call that submits an order under an id in use (7) and executes another order (1). -/
example : ∃ (g g' : Mgr) (e : ErrorCode), g.Reachable ∧ g.Admissible (.addOrder (.mkMarket 7 1 .buy 4)) ∧
    g.step (.addOrder (.mkMarket 7 1 .buy 4)) = .ok (g', e) ∧
    (!freshB g (.addOrder (.mkMarket 7 1 .buy 4)) && decide ((execsOf (g'.ev.drop g.ev.length)).map (fun x => (x.1.id, x.2)) = [(1, 100, 4), (7, 100, 4)]) &&
      decide ((g'.getOrder 1).map (fun o => (o.executed, o.leaves)) = some (4, 6)) && (g.getOrder 7 == g'.getOrder 7)) = true :=
  demoStep (p := fun g g' _ => !freshB g (.addOrder (.mkMarket 7 1 .buy 4)) && decide ((execsOf (g'.ev.drop g.ev.length)).map (fun x => (x.1.id, x.2)) = [(1, 100, 4), (7, 100, 4)]) &&
      decide ((g'.getOrder 1).map (fun o => (o.executed, o.leaves)) = some (4, 6)) && (g.getOrder 7 == g'.getOrder 7))
    (trading ++ [.addOrder (.mkLimit 1 1 .sell 100 10), .addOrder (.mkLimit 7 1 .sell 101 10)]) (.addOrder (.mkMarket 7 1 .buy 4)) (by decide +kernel)

/-! ### C08: fill accounting -/

/-- C08. Over a call, the executed quantity of a surviving order grows (modulo 2^64) by exactly the quantities
reported in its executions, and the leaves quantity shrinks by exactly these, unless the call modifies or reduces orders. -/
theorem C08_accounting {g : Mgr} (hr : g.Reachable) {op g' e evs} (ha : g.Admissible op)
    (hs : g.step op = .ok (g', e)) (hev : g'.ev = g.ev ++ evs) {i : Nat} {o o' : Order} (ho : g.getOrder i = some o)
    (ho' : g'.getOrder i = some o') (hn : ∀ t, g.submits op t → t.id ≠ i) :
    o'.executed = (o.executed + execTotal (execsOfId i evs)) % W64 ∧
      (op.isModify = false → op.isReduce = false → o'.leaves + execTotal (execsOfId i evs) = o.leaves) ∧
      (op.isModify = false → o'.leaves + execTotal (execsOfId i evs) ≤ o.leaves) := by
  rcases lived hr ha hs hev ho hn with ⟨x, h3, h4⟩ | ⟨h3, _⟩
  · rw [ho'] at h3; cases h3
    have hx : o.executed < W64 := by
      rw [hr.minv.getOrder] at ho
      exact (hr.minv.orders i o ho).2.repr.2.2.2.2.2.1
    refine ⟨h4.executed hx, fun e1 e2 => ?_, fun e1 => ?_⟩
    · rw [show g.scope op = ⟨false, false, g.matching || op.isMatch⟩ by simp [Mgr.scope, e1, e2]] at h4
      exact h4.leaves
    · rw [show g.scope op = ⟨false, op.isReduce, g.matching || op.isMatch⟩ by simp [Mgr.scope, e1]] at h4
      exact h4.leaves_le
  · rw [ho'] at h3; cases h3

theorem execsOfId_append (i : Nat) (xs ys : List Event) : execsOfId i (xs ++ ys) = execsOfId i xs ++ execsOfId i ys := by
  unfold execsOfId; rw [execsOf_append, List.filter_append]

/-- The life of an order submitted in a call under an unknown id. -/
theorem born {g : Mgr} (hr : g.Reachable) {op g' e evs} (ha : g.Admissible op) (hf : g.FreshId op)
    (hs : g.step op = .ok (g', e)) (hev : g'.ev = g.ev ++ evs) {t : Order} (ht : t ∈ addsOf evs) (hn : g.getOrder t.id = none) :
    g.submits op t ∧ ((∃ x, g'.getOrder t.id = some x ∧ Evo (g.scope op) t (execsOfId t.id evs) x) ∨
      g'.getOrder t.id = none ∧ ∃ x, Evo (g.scope op) t (execsOfId t.id evs) x) := by
  obtain ⟨h1, h2⟩ := C45_order_feed hr ha hf hs hev
  rcases h2 with h2 | ⟨t', h2, h3⟩
  · rw [h2.1] at ht; cases ht
  · rw [h2] at ht; simp at ht; subst ht
    refine ⟨h3, ?_⟩
    obtain ⟨e1, e2, rfl, a1, a2⟩ := addsOf_split h2
    obtain ⟨v1, b1, b2⟩ := OrdEv.split h1
    have c := b1.absent hn (by rw [a1]; simp)
    have c1 : execsOfId t.id e1 = [] := by
      unfold execsOfId; rw [List.filter_eq_nil_iff]; intro z hz; simpa using c.2 z hz
    rw [execsOfId_append, c1, List.nil_append, show execsOfId t.id (.addOrder t :: e2) = execsOfId t.id e2 from rfl]
    have := OrdEv.life (i := t.id) (x := t) b2.2 (by simp [OrderView.next]) (by rw [a2]; simp) .nil
    simpa using this

/-- C08 for an order submitted in the call under an unknown id. -/
theorem C08_accounting_new {g : Mgr} (hr : g.Reachable) {op g' e evs} (ha : g.Admissible op) (hf : g.FreshId op)
    (hs : g.step op = .ok (g', e)) (hev : g'.ev = g.ev ++ evs) {t o' : Order} (ht : t ∈ addsOf evs) (hn : g.getOrder t.id = none)
    (ho' : g'.getOrder t.id = some o') :
    o'.leaves + execTotal (execsOfId t.id evs) = t.leaves ∧
      (t.executed < W64 → o'.executed = (t.executed + execTotal (execsOfId t.id evs)) % W64) := by
  obtain ⟨h0, h⟩ := born hr ha hf hs hev ht hn
  rcases h with ⟨x, h1, h2⟩ | ⟨h1, _⟩
  · rw [ho'] at h1; cases h1
    refine ⟨?_, h2.executed⟩
    have : g.scope op = ⟨false, false, g.matching || op.isMatch⟩ := by cases op <;> first | rfl | cases h0
    rw [this] at h2
    exact h2.leaves
  · rw [ho'] at h1; cases h1

/-- A partial fill of a resting order by an incoming one that rests afterwards: both kinds of order. -/
example : ∃ (g g' : Mgr) (e : ErrorCode), g.Reachable ∧ g.Admissible (.addOrder (.mkLimit 2 1 .buy 100 14)) ∧
    g.step (.addOrder (.mkLimit 2 1 .buy 100 14)) = .ok (g', e) ∧
    (freshB g (.addOrder (.mkLimit 2 1 .buy 100 14)) && decide ((execsOf (g'.ev.drop g.ev.length)).map (fun x => (x.1.id, x.2)) = [(1, 100, 10), (2, 100, 10)]) &&
      decide ((g'.getOrder 2).map (fun o => (o.executed, o.leaves)) = some (10, 4)) && (g.getOrder 7 == g'.getOrder 7)) = true :=
  demoStep (p := fun g g' _ => freshB g (.addOrder (.mkLimit 2 1 .buy 100 14)) && decide ((execsOf (g'.ev.drop g.ev.length)).map (fun x => (x.1.id, x.2)) = [(1, 100, 10), (2, 100, 10)]) &&
      decide ((g'.getOrder 2).map (fun o => (o.executed, o.leaves)) = some (10, 4)) && (g.getOrder 7 == g'.getOrder 7))
    (trading ++ [.addOrder (.mkLimit 1 1 .sell 100 10), .addOrder (.mkLimit 7 1 .sell 101 10)]) (.addOrder (.mkLimit 2 1 .buy 100 14)) (by decide +kernel)

/-! ### C46: what may change of an order -/

/-- C46. Id, symbol, side, maximum visible quantity, slippage and trailing parameters of an order never change; its
type changes only by activation; its time-in-force and stop price only as described by `Order.Identity`; its quantity
only by modification, its price only by modification or (trailing stop-limit) with its stop price. -/
theorem C46_identity {g : Mgr} (hr : g.Reachable) {op g' e} (ha : g.Admissible op)
    (hs : g.step op = .ok (g', e)) {i : Nat} {o o' : Order} (ho : g.getOrder i = some o)
    (ho' : g'.getOrder i = some o') (hn : ∀ t, g.submits op t → t.id ≠ i) :
    o.Identity o' ∧ (op.isModify = false → o'.quantity = o.quantity ∧ (o.type ≠ .trailingStopLimit → o'.price = o.price)) := by
  obtain ⟨evs, hev⟩ := events_appended hr ha hs
  rcases lived hr ha hs hev ho hn with ⟨x, h3, h4⟩ | ⟨h3, _⟩
  · rw [ho'] at h3; cases h3
    refine ⟨h4.identity, fun e1 => ?_⟩
    rw [show g.scope op = ⟨false, op.isReduce, g.matching || op.isMatch⟩ by simp [Mgr.scope, e1]] at h4
    have hm : o'.type ≠ .market := by
      have hr' : g'.Reachable := .step hr ha hs
      rw [hr'.minv.getOrder] at ho'
      exact (hr'.minv.orders i o' ho').2.notMarket
    exact ⟨h4.terms.1, h4.terms.2 hm⟩
  · rw [ho'] at h3; cases h3

/-! ### C14: trailing stops -/

/-- C14. As long as a trailing order rests, its stop price never moves away from the market: down for buy orders, up for
sell orders, whatever call is made (except submitting another order under its id by `ReplaceOrder`). -/
theorem C14_trailing_direction {g : Mgr} (hr : g.Reachable) {op g' e} (ha : g.Admissible op)
    (hs : g.step op = .ok (g', e)) {i : Nat} {o o' : Order} (ho : g.getOrder i = some o)
    (ho' : g'.getOrder i = some o') (hn : ∀ t, g.submits op t → t.id ≠ i)
    (ht : o'.type = .trailingStop ∨ o'.type = .trailingStopLimit) :
    o'.type = o.type ∧ o'.side = o.side ∧ (o.side = .buy → o'.stopPrice ≤ o.stopPrice) ∧ (o.side = .sell → o.stopPrice ≤ o'.stopPrice) := by
  have h := (C46_identity hr ha hs ho ho' hn).1
  have hty : o'.type = o.type := by
    rcases h.type with h | ⟨_, h⟩ | ⟨_, h⟩
    · exact h
    all_goals (rw [h] at ht; rcases ht with ht | ht <;> cases ht)
  refine ⟨hty, h.side, ?_, ?_⟩ <;> intro hb <;> rcases h.stop hty with h | ⟨_, m, _, h1, h2⟩
  · omega
  · unfold Order.trailMoves at h1; rw [hb] at h1; simp only at h1; omega
  · omega
  · unfold Order.trailMoves at h1; rw [hb] at h1; simp only at h1; omega

/-- A trailing buy stop (id 3) follows the falling ask from 130 to 120. -/
example : ∃ (g g' : Mgr) (e : ErrorCode), g.Reachable ∧ g.Admissible (.addOrder (.mkLimit 5 1 .sell 110 5)) ∧
    g.step (.addOrder (.mkLimit 5 1 .sell 110 5)) = .ok (g', e) ∧
    (freshB g (.addOrder (.mkLimit 5 1 .sell 110 5)) && decide ((g.getOrder 3).map (fun o => (o.type, o.side, o.stopPrice)) = some (.trailingStop, .buy, 130)) &&
      decide ((g'.getOrder 3).map (fun o => (o.type, o.side, o.stopPrice)) = some (.trailingStop, .buy, 120))) = true :=
  demoStep (p := fun g g' _ => freshB g (.addOrder (.mkLimit 5 1 .sell 110 5)) && decide ((g.getOrder 3).map (fun o => (o.type, o.side, o.stopPrice)) = some (.trailingStop, .buy, 130)) &&
      decide ((g'.getOrder 3).map (fun o => (o.type, o.side, o.stopPrice)) = some (.trailingStop, .buy, 120)))
    (trading ++ [.addOrder (.mkLimit 1 1 .sell 100 10), .addOrder (.mkLimit 2 1 .sell 120 10), .addOrder (.mkLimit 4 1 .buy 90 10),
      .addOrder (.mkTrailingStop 3 1 .buy 140 3 10 5), .addOrder (.mkMarket 9 1 .buy 10)]) (.addOrder (.mkLimit 5 1 .sell 110 5)) (by decide +kernel)

/-! ### C07: Fill-Or-Kill -/

theorem Evo.whole {a x qs x'} (h : Evo ⟨false, false, a⟩ x qs x') (hw : ∀ y ∈ qs, y.2.2 = y.1.leaves) :
    qs = [] ∨ ∃ t p, qs = [(t, p, x.leaves)] ∧ t.leaves = x.leaves := by
  induction h with
  | nil => exact .inl rfl
  | upd _ _ ih => exact ih hw
  | @exec qs y o p q he h h1 h2 ih =>
    right
    have hl := he.leaves
    have hoy := h.facts.2.2.2.2.2.2.2.1
    have hq : q = o.leaves := hw (o, p, q) (by simp)
    rcases ih (fun y hy => hw y (by simp [hy])) with rfl | ⟨t, p', rfl, ht⟩
    · simp only [execTotal, List.map_nil, List.sum_nil, Nat.add_zero] at hl
      refine ⟨o, p, ?_, by omega⟩
      rw [List.nil_append, hq, hoy, hl]
    · simp [execTotal] at hl
      omega

theorem mem_group {x : Order × Nat × Nat} {groups : List (List (Order × Nat × Nat))} (h : x ∈ groups.flatten) :
    ∃ A G B, groups.flatten = A ++ G ++ B ∧ G ∈ groups ∧ x ∈ G := by
  obtain ⟨G, hG, hx⟩ := List.mem_flatten.1 h
  obtain ⟨l1, l2, rfl⟩ := List.append_of_mem hG
  exact ⟨l1.flatten, G, l2.flatten, by simp, hG, hx⟩

theorem fok_of_evo {g : Mgr} (hr : g.Reachable) {op g' e evs} (ha : g.Admissible op)
    (hs : g.step op = .ok (g', e)) (hev : g'.ev = g.ev ++ evs) (hop : op.isExecute = false) {a : Bool} {x y : Order}
    (hE : Evo ⟨false, false, a⟩ x (execsOfId x.id evs) y) (hfok : x.tif = .fok) : FillOrKill x.id x.leaves evs := by
  obtain ⟨groups, h1, h2⟩ := C44_groups hr ha hs hev
  -- all executions of the order are reported with FOK
  have htif : ∀ {z qs w}, Evo ⟨false, false, a⟩ z qs w → z.tif = .fok → w.tif = .fok ∧ ∀ u ∈ qs, u.1.tif = .fok := by
    intro z qs w h hz
    induction h with
    | nil => exact ⟨hz, by simp⟩
    | upd _ hu ih =>
      refine ⟨?_, ih.2⟩
      have := hu.identity.tif
      rcases this with t | ⟨_, _, t, _⟩
      · rw [t]; exact ih.1
      · exact absurd ih.1 t
    | exec _ hu _ _ ih =>
      have f := hu.facts.2.2.2.2.2.2.2.2.1
      refine ⟨f.trans ih.1, ?_⟩
      intro u hu'
      rcases List.mem_append.1 hu' with hu' | hu'
      · exact ih.2 u hu'
      · simp at hu'; rw [hu']; exact f.trans ih.1
  have hmem : ∀ u ∈ execsOfId x.id evs, u ∈ groups.flatten ∧ u.1.tif = .fok := by
    intro u hu
    refine ⟨?_, (htif hE hfok).2 u hu⟩
    rw [← h1]; exact (List.mem_filter.1 hu).1
  have hgrp : ∀ u ∈ execsOfId x.id evs, ∃ (t : Order) (xs : List (Order × Nat)) (A B : List (Order × Nat × Nat)),
      u = (t, t.price, t.leaves) ∧ groups.flatten = A ++ (xs.map (fun x => (x.1, t.price, x.2)) ++ [(t, t.price, t.leaves)]) ++ B ∧
      (∀ x ∈ xs, x.1.side ≠ t.side ∧ 0 < x.2 ∧ x.2 ≤ x.1.leaves) ∧ (xs.map (·.2)).sum = t.leaves := by
    intro u hu
    obtain ⟨hu1, hu2⟩ := hmem u hu
    obtain ⟨A, G, B, e1, e2, e3⟩ := mem_group hu1
    have nores : ∀ {o : Order} {q : Nat}, RestingFill o q → o.tif = .fok → False := by
      intro o q hf ht
      rcases hf.tif with h | h <;> rw [ht] at h <;> cases h
    rcases (h2 G e2).2 with h | h | ⟨_, h⟩
    · cases h with
      | hit o t q side fill qty acc plain =>
        simp only [List.mem_cons, List.not_mem_nil, or_false] at e3
        rcases e3 with rfl | rfl
        · exact (nores fill hu2).elim
        · have := plain.1; simp [Order.isFOK, show t.tif = .fok from hu2] at this
      | whole t xs fills sum pos tif =>
        rcases List.mem_append.1 e3 with e3 | e3
        · obtain ⟨y, hy, rfl⟩ := List.mem_map.1 e3
          exact (nores (fills y hy).2.1 hu2).elim
        · simp at e3
          exact ⟨t, xs, A, B, e3, e1, fun x hx => ⟨(fills x hx).1, (fills x hx).2.1.pos, (fills x hx).2.1.le⟩, sum⟩
      | pair a r side fe fr plain acc =>
        simp only [List.mem_cons, List.not_mem_nil, or_false] at e3
        rcases e3 with rfl | rfl
        · exact (nores fe hu2).elim
        · exact (nores fr hu2).elim
    · cases h with
      | mk p xs ys ne sd f1 f2 =>
        rcases List.mem_append.1 e3 with e3 | e3 <;> obtain ⟨y, hy, rfl⟩ := List.mem_map.1 e3
        · exact (nores (f1 y hy).2 hu2).elim
        · exact (nores (f2 y hy).2 hu2).elim
    · rw [hop] at h; cases h
  rcases hE.whole (fun u hu => by obtain ⟨t, _, _, _, rfl, _⟩ := hgrp u hu; rfl) with h | ⟨t, p, h, hl⟩
  · exact .inl h
  · right
    obtain ⟨t', xs, A, B, e1, e2, e3, e4⟩ := hgrp (t, p, x.leaves) (by rw [h]; simp)
    obtain ⟨rfl, e5⟩ := Prod.mk.inj e1
    obtain ⟨rfl, _⟩ := Prod.mk.inj e5
    rw [← h1, hl] at e2
    exact ⟨t, _, xs, A, B, h, hl, e2, e3, by rw [e4, hl]⟩

/-- C07 for a Fill-Or-Kill order (of any type) submitted by `AddOrder`. -/
theorem C07_submitted {g : Mgr} (hr : g.Reachable) {o : Order} {g' e evs} (ha : g.Admissible (.addOrder o)) (hf : g.FreshId (.addOrder o))
    (hs : g.step (.addOrder o) = .ok (g', e)) (hev : g'.ev = g.ev ++ evs) (ht : o.tif = .fok) : FillOrKill o.id o.leaves evs := by
  obtain ⟨h1, h2⟩ := C45_order_feed hr ha hf hs hev
  rcases h2 with h2 | ⟨t, h2, h3⟩
  · left
    have := OrdEv.absent (i := o.id) h1 hf (by rw [h2.1]; simp)
    unfold execsOfId; rw [List.filter_eq_nil_iff]; intro z hz; simpa using this.2 z hz
  · have hft := Order.Submitted.facts h3
    obtain ⟨_, h4⟩ := born hr ha hf hs hev (t := t) (by rw [h2]; simp) (by rw [hft.2.1]; exact hf)
    have : ∃ x, Evo ⟨false, false, g.matching || false⟩ t (execsOfId t.id evs) x := by
      rcases h4 with ⟨x, _, h4⟩ | ⟨_, x, h4⟩ <;> exact ⟨x, h4⟩
    obtain ⟨x, h5⟩ := this
    have := fok_of_evo hr ha hs hev rfl h5 (hft.1.trans ht)
    rw [hft.2.1, hft.2.2.1] at this
    exact this

/-- C07 for a resting Fill-Or-Kill order (a stop order waiting to be triggered) during any call that does not itself
modify, reduce or execute orders or submit an order under the same id. -/
theorem C07_resting {g : Mgr} (hr : g.Reachable) {op g' e evs} (ha : g.Admissible op)
    (hs : g.step op = .ok (g', e)) (hev : g'.ev = g.ev ++ evs) (hop : op.isExecute = false) (hop1 : op.isModify = false) (hop2 : op.isReduce = false)
    {i : Nat} {o : Order} (ho : g.getOrder i = some o) (ht : o.tif = .fok) (hn : ∀ t, g.submits op t → t.id ≠ i) : FillOrKill i o.leaves evs := by
  have hid : o.id = i := by
    rw [hr.minv.getOrder] at ho; exact (hr.minv.orders i o ho).1
  have : ∃ x, Evo ⟨false, false, g.matching || op.isMatch⟩ o (execsOfId o.id evs) x := by
    rw [show (⟨false, false, g.matching || op.isMatch⟩ : Scope) = g.scope op by simp [Mgr.scope, hop1, hop2], hid]
    rcases lived hr ha hs hev ho hn with ⟨x, _, h⟩ | ⟨_, x, h⟩ <;> exact ⟨x, h⟩
  obtain ⟨x, h5⟩ := this
  have := fok_of_evo hr ha hs hev hop h5 ht
  rw [hid] at this
  exact this

/-- A Fill-Or-Kill order that is filled by two orders. -/
example : ∃ (g g' : Mgr) (e : ErrorCode), g.Reachable ∧ g.Admissible (.addOrder (.mkLimit 3 1 .buy 101 14 .fok)) ∧
    g.step (.addOrder (.mkLimit 3 1 .buy 101 14 .fok)) = .ok (g', e) ∧
    (freshB g (.addOrder (.mkLimit 3 1 .buy 101 14 .fok)) &&
    decide ((execsOf (g'.ev.drop g.ev.length)).map (fun x => (x.1.id, x.2)) = [(1, 101, 10), (2, 101, 4), (3, 101, 14)])) = true :=
  demoStep (p := fun g g' _ => freshB g (.addOrder (.mkLimit 3 1 .buy 101 14 .fok)) &&
    decide ((execsOf (g'.ev.drop g.ev.length)).map (fun x => (x.1.id, x.2)) = [(1, 101, 10), (2, 101, 4), (3, 101, 14)]))
    (trading ++ [.addOrder (.mkLimit 1 1 .sell 100 10), .addOrder (.mkLimit 2 1 .sell 101 10)]) (.addOrder (.mkLimit 3 1 .buy 101 14 .fok)) (by decide +kernel)

/-- A Fill-Or-Kill order that cannot be filled; and a Fill-Or-Kill stop order triggered by another call. -/
example : ∃ (g g' : Mgr) (e : ErrorCode), g.Reachable ∧ g.Admissible (.addOrder (.mkMarket 9 1 .buy 10)) ∧
    g.step (.addOrder (.mkMarket 9 1 .buy 10)) = .ok (g', e) ∧
    (decide ((g.getOrder 3).map (fun o => (o.type, o.tif)) = some (.stop, .fok)) && (g'.getOrder 3).isNone &&
    decide ((execsOf (g'.ev.drop g.ev.length)).map (fun x => (x.1.id, x.2.2)) = [(1, 10), (9, 10), (2, 4), (3, 4)])) = true :=
  demoStep (p := fun g g' _ => decide ((g.getOrder 3).map (fun o => (o.type, o.tif)) = some (.stop, .fok)) && (g'.getOrder 3).isNone &&
    decide ((execsOf (g'.ev.drop g.ev.length)).map (fun x => (x.1.id, x.2.2)) = [(1, 10), (9, 10), (2, 4), (3, 4)]))
    (trading ++ [.addOrder (.mkLimit 1 1 .sell 100 10), .addOrder (.mkLimit 2 1 .sell 120 10),
      .addOrder { Order.mkStop 3 1 .buy 110 4 with tif := .fok }]) (.addOrder (.mkMarket 9 1 .buy 10)) (by decide +kernel)

/-! ### C24 and C36: the level feed -/

/-- C24 for one call: the level callbacks lead from the levels before the call to the levels after it. -/
theorem C24_level_feed {g : Mgr} (hr : g.Reachable) {op g' e evs} (ha : g.Admissible op) (hs : g.step op = .ok (g', e))
    (hev : g'.ev = g.ev ++ evs) : Replays LevelView.ok LevelView.next g.levels evs g'.levels := by
  obtain ⟨ls, h⟩ := call_execs hr ha hs hev
  exact h.levels

/-- C24. Replaying all callbacks of any history from the empty view gives exactly the bid and ask levels of every
book: price, total, hidden and visible volume and number of orders; and every callback is acceptable (`LevelView.ok`). -/
theorem C24_level_feed_history {h : List (Op × ErrorCode)} {g : Mgr} (hh : g.History h) :
    Replays LevelView.ok LevelView.next (fun _ _ _ => none) g.ev g.levels := by
  induction hh with
  | nil => exact funext fun i => by simp [Mgr.levels, Mgr.getBook, Mgr.init, slot]
  | @snoc h g g' op e hh ha hs ih =>
    obtain ⟨evs, h1⟩ := events_appended hh.reachable ha hs
    rw [h1]
    exact ih.append (C24_level_feed hh.reachable ha hs h1)

theorem Replays.at {σ : Type} {ok : σ → Event → Prop} {next v v' pre e post} (h : Replays ok next v (pre ++ e :: post) v') :
    ∃ w, Replays ok next v pre w ∧ ok w e ∧ Replays ok next (next w e) post v' := by
  induction pre generalizing v with
  | nil => exact ⟨v, rfl, h.1, h.2⟩
  | cons x xs ih =>
    obtain ⟨w, a, b, c⟩ := ih h.2
    exact ⟨w, ⟨h.1, a⟩, b, c⟩

/-- C36. The flag of a level addition or update tells whether the level is the best of its side after the change, in the
view a client obtains from the callbacks so far. -/
theorem C36_top_flag {h : List (Op × ErrorCode)} {g : Mgr} (hh : g.History h) {pre post : List Event} {ev : Event} {sym : Nat} {l : LevelInfo} {top : Bool}
    (hev : g.ev = pre ++ ev :: post) (he : ev = .addLevel sym l top ∨ ev = .updateLevel sym l top) :
    ∃ v : LevelView, Replays LevelView.ok LevelView.next (fun _ _ _ => none) pre v ∧
      (top = true ↔ (v.next ev sym).isTop l.isBid l.price) := by
  have := C24_level_feed_history hh
  rw [hev] at this
  obtain ⟨v, a, b, _⟩ := this.at
  refine ⟨v, a, ?_⟩
  rcases he with rfl | rfl <;> exact b.2

/-- On deletion the flag is set even for a level that was not the best: here the level 101 behind the best ask 100. -/
theorem C36_delete_witness : ∃ (g g' : Mgr) (e : ErrorCode), g.Reachable ∧ g.Admissible (.deleteOrder 2) ∧
    g.step (.deleteOrder 2) = .ok (g', e) ∧
    (decide (g'.ev = g.ev ++ [.deleteLevel 1 ⟨false, 101, 0, 0, 0, 0⟩ true, .updateBook 1 true, .deleteOrder (.mkLimit 2 1 .sell 101 10)]) &&
      (g.levels 1 false 100).isSome) = true :=
  demoStep (p := fun g g' _ => decide (g'.ev = g.ev ++ [.deleteLevel 1 ⟨false, 101, 0, 0, 0, 0⟩ true, .updateBook 1 true, .deleteOrder (.mkLimit 2 1 .sell 101 10)]) &&
      (g.levels 1 false 100).isSome)
    (opening ++ [.addOrder (.mkLimit 1 1 .sell 100 10), .addOrder (.mkLimit 2 1 .sell 101 10)]) (.deleteOrder 2) (by decide +kernel)

/-- A non-trivial feed: levels are added, updated and deleted on both sides. -/
example : ∃ (g : Mgr) (h : List (Op × ErrorCode)), g.FreshHistory h ∧
    (decide ((g.ev.filter (fun e => match e with | .deleteLevel _ _ _ => true | _ => false)).length ≥ 2) &&
     decide ((g.ev.filter (fun e => match e with | .updateLevel _ _ _ => true | _ => false)).length ≥ 2) &&
     decide ((g.levels 1 false 112).isSome)) = true :=
  demoFresh (p := fun g => decide ((g.ev.filter (fun e => match e with | .deleteLevel _ _ _ => true | _ => false)).length ≥ 2) &&
     decide ((g.ev.filter (fun e => match e with | .updateLevel _ _ _ => true | _ => false)).length ≥ 2) &&
     decide ((g.levels 1 false 112).isSome))
    (trading ++ [.addOrder (.mkLimit 1 1 .sell 100 10), .addOrder (.mkLimit 2 1 .sell 110 10), .addOrder (.mkLimit 20 1 .buy 90 10),
      .addOrder (.mkStop 3 1 .buy 105 3),
      .addOrder (.mkMarket 5 1 .buy 10), .addOrder (.mkLimit 1 1 .sell 120 4), .modifyOrder 2 111 6, .mitigateOrder 20 91 8,
      .replaceOrder 2 2 112 5, .deleteOrder 20, .addOrder (.mkLimit 6 1 .buy 112 2), .reduceOrder 1 1, .executeOrder 1 1])
    (by decide +kernel)

end CppTrader
