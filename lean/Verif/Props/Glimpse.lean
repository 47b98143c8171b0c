import Verif.Proof.WatchMgr
import Verif.Props.Feeds
/-
What a handler sees from inside a callback (C80).
-/

namespace CppTrader

/-- C80: the call makes its callbacks one after another, and at each of them the handler can read a manager which is in
order: see `Glimpse`. (Registry calls: `C80_registry`.) -/
theorem C80_callbacks {g : Mgr} (hr : g.Reachable) {op : Op} (hn : ¬ op.isRegistry) {g' : Mgr} {e : ErrorCode}
    (hs : g.step op = .ok (g', e)) :
    ∃ news seen, g.watch op = .ok (g', e, seen) ∧ g'.ev = g.ev ++ news ∧ seen.length = news.length ∧
      ∀ i x, seen[i]? = some x → x.ev = g.ev ++ news.take (i + 1) ∧
        x.matching = (decide (op = .enableMatching) || g.matching) ∧ Glimpse op.adds g (news.take (i + 1)) x := by
  obtain ⟨news, seen, h1, h2⟩ := Watch.watch_run hr.minv hn hs
  refine ⟨news, seen, h1, h2.ev, h2.count, ?_⟩
  intro i x hx
  obtain ⟨a, b, c⟩ := h2.each i x hx
  exact ⟨a, b, c.levels, c.bestBid, c.bestAsk, c.order, c.fresh, c.others, c.absent, c.sorted, c.queue, c.first, c.symbols, c.books⟩

/-- C80: a registry call makes one callback if it succeeds, and none otherwise. A new symbol or book is announced when the
manager is already in its final state, a removal while the symbol or book is still there. -/
theorem C80_registry {g : Mgr} {op : Op} (hn : op.isRegistry) {g' : Mgr} {e : ErrorCode} (hs : g.step op = .ok (g', e)) :
    ∃ seen, g.watch op = .ok (g', e, seen) ∧ (e ≠ .ok → seen = []) ∧
      (e = .ok → ∃ x, seen = [x] ∧ x.ev = g'.ev ∧ x.orders = g.orders ∧ x.matching = g.matching ∧
        (((∃ s, op = .addSymbol s) ∨ (∃ s, op = .addOrderBook s)) → x = g') ∧
        (((∃ s, op = .deleteSymbol s) ∨ (∃ s, op = .deleteOrderBook s)) → x.symbols = g.symbols ∧ x.books = g.books)) :=
  Watch.registry_run hn hs

theorem replays_fold {σ : Type} {ok : σ → Event → Prop} {next : σ → Event → σ} : ∀ (evs : List Event) {v v' : σ},
    Replays ok next v evs v' → v' = evs.foldl next v := by
  intro evs
  induction evs with
  | nil => intro v v' h; exact h.symm
  | cons e es ih => intro v v' h; exact ih h.2

/-- C80: a client which has kept only the level callbacks since the start knows the published levels at every moment at
which it is called, also in the middle of a call: whatever happens to the manager afterwards, it has lost nothing. -/
theorem C80_nothing_lost {h : List (Op × ErrorCode)} {g : Mgr} (hh : g.History h) {op : Op} (hn : ¬ op.isRegistry) {g' : Mgr} {e : ErrorCode}
    {seen : List Mgr} (hs : g.step op = .ok (g', e)) (hw : g.watch op = .ok (g', e, seen)) {x : Mgr} (hx : x ∈ seen) :
    x.levels = x.ev.foldl LevelView.next (fun _ _ _ => none) := by
  obtain ⟨news, seen', h1, _, _, h4⟩ := C80_callbacks hh.reachable hn hs
  rw [hw] at h1
  cases h1
  obtain ⟨i, hi⟩ := List.getElem?_of_mem hx
  obtain ⟨a, _, c⟩ := h4 i x hi
  rw [a, List.foldl_append, ← replays_fold _ (C24_level_feed_history hh)]
  exact c.levels

/-- C80: a client which has kept only the order callbacks of the call knows which orders there are: an order is held at a
callback only if it was held before the call or is being added. -/
theorem C80_no_strangers {g : Mgr} (hr : g.Reachable) {op : Op} (hn : ¬ op.isRegistry) {g' : Mgr} {e : ErrorCode} {seen : List Mgr}
    (hs : g.step op = .ok (g', e)) (hw : g.watch op = .ok (g', e, seen)) {x : Mgr} (hx : x ∈ seen) {id : Nat} {o : Order}
    (ho : x.getOrder id = some o) : (∃ o', g.getOrder id = some o') ∨ some id = op.adds := by
  obtain ⟨news, seen', h1, _, _, h4⟩ := C80_callbacks hr hn hs
  rw [hw] at h1
  cases h1
  obtain ⟨i, hi⟩ := List.getElem?_of_mem hx
  obtain ⟨_, _, c⟩ := h4 i x hi
  by_cases hne : some id = op.adds
  · exact .inr hne
  · cases hg : g.getOrder id with
    | some o' => exact .inl ⟨o', rfl⟩
    | none => rw [c.absent id hne hg] at ho; cases ho

/-- Orders resting on both sides, a stop order, an iceberg order. -/
def glimpseSession : List Op := trading ++ [
  .addOrder (.mkLimit 1 1 .buy 90 10), .addOrder (.mkLimit 2 1 .sell 100 10), .addOrder (.mkLimit 3 1 .sell 101 20 .gtc 5),
  .addOrder (.mkStop 4 1 .buy 101 7)]

/-- A call which meets the hypotheses of `C80_callbacks` and makes many callbacks: an incoming order empties a level,
takes part of the next one and triggers a stop order; the sequence of callbacks is not constant, and the incoming order
is not yet held at the first and not any more at the last. -/
theorem C80_nonvacuous : ∃ (g : Mgr), g.Reachable ∧ (∃ g' e seen, g.step (.addOrder (.mkLimit 5 1 .buy 101 13)) = .ok (g', e) ∧
    g.watch (.addOrder (.mkLimit 5 1 .buy 101 13)) = .ok (g', e, seen) ∧ 15 ≤ seen.length ∧
    (∃ x ∈ seen, x.getOrder 4 ≠ g.getOrder 4)) := by
  obtain ⟨g, hg, hp⟩ := demo (p := fun g => match g.step (.addOrder (.mkLimit 5 1 .buy 101 13)), g.watch (.addOrder (.mkLimit 5 1 .buy 101 13)) with
    | .ok _, .ok (_, _, seen) => decide (15 ≤ seen.length) && seen.any (fun x => decide (x.getOrder 4 ≠ g.getOrder 4))
    | _, _ => false) glimpseSession (by decide +kernel)
  refine ⟨g, hg, ?_⟩
  cases hs : g.step (.addOrder (.mkLimit 5 1 .buy 101 13)) with
  | error _ => rw [hs] at hp; cases hp
  | ok r =>
    obtain ⟨g', e⟩ := r
    obtain ⟨news, seen, h1, _⟩ := C80_callbacks hg (op := .addOrder (.mkLimit 5 1 .buy 101 13)) (fun h => h) hs
    rw [hs, h1] at hp
    simp only [Bool.and_eq_true, decide_eq_true_eq, List.any_eq_true] at hp
    exact ⟨g', e, seen, rfl, h1, hp.1, hp.2⟩

/-- What a handler must not rely on: inside a callback the level of an order need not match the order. `ReduceOrder` reports
the reduced order while its level still has the old volume. -/
theorem C80_witness : ∃ (g : Mgr), g.Reachable ∧ (∃ g' e x seen, g.watch (.reduceOrder 1 4) = .ok (g', e, x :: seen) ∧
    (x.getOrder 1).map (·.leaves) = some 6 ∧ (x.levels 1 true 90).map (·.total) = some 10) := by
  obtain ⟨g, hg, hp⟩ := demo (p := fun g => match g.watch (.reduceOrder 1 4) with
    | .ok (_, _, x :: _) => decide ((x.getOrder 1).map (·.leaves) = some 6) && decide ((x.levels 1 true 90).map (·.total) = some 10)
    | _ => false) glimpseSession (by decide +kernel)
  refine ⟨g, hg, ?_⟩
  cases hs : g.watch (.reduceOrder 1 4) with
  | error _ => rw [hs] at hp; cases hp
  | ok r =>
    obtain ⟨g', e, seen⟩ := r
    rw [hs] at hp
    cases seen with
    | nil => cases hp
    | cons x seen =>
      simp only [Bool.and_eq_true, decide_eq_true_eq] at hp
      exact ⟨g', e, x, seen, rfl, hp.1, hp.2⟩

end CppTrader
