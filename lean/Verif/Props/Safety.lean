import Verif.Proof.Demo
/-
C01: no undefined behaviour, termination.
-/

namespace CppTrader

/-- C01. On every reachable state, every admissible public call returns a result code: no dangling
pointer, no index out of range, no unsupported order type, every loop ends within its bound; and the new
state is reachable again. -/
theorem C01_no_ub {g : Mgr} (hr : g.Reachable) (op : Op) (ha : g.Admissible op) :
    ∃ g' e, g.step op = .ok (g', e) ∧ g'.Reachable := by
  obtain ⟨g', e, h, _⟩ := step_ok hr.minv op ha
  exact ⟨g', e, h, .step hr ha h⟩

/-- C01, for whole histories: a history all of whose calls are admissible when they are made. -/
inductive AdmissibleHistory : Mgr → List Op → Prop
  | nil (g) : AdmissibleHistory g []
  | cons {g op ops} : g.Admissible op → (∀ g' e, g.step op = .ok (g', e) → AdmissibleHistory g' ops) →
      AdmissibleHistory g (op :: ops)

theorem C01_history {ops : List Op} : ∀ {g : Mgr}, g.Reachable → AdmissibleHistory g ops →
    ∃ g' es, g.run ops = .ok (g', es) ∧ es.length = ops.length ∧ g'.Reachable := by
  induction ops with
  | nil => intro g hr _; exact ⟨g, [], rfl, rfl, hr⟩
  | cons op ops ih =>
    intro g hr ha
    cases ha with
    | cons h1 h2 =>
      obtain ⟨g1, e, a1, a2⟩ := C01_no_ub hr op h1
      obtain ⟨g2, es, b1, b2, b3⟩ := ih a2 (h2 g1 e a1)
      refine ⟨g2, e :: es, ?_, by simp [b2], b3⟩
      simp only [Mgr.run, a1, Except.bind_ok, b1]

/-- A state with resting limit, stop, stop-limit and trailing orders on two symbols, and a call that
trades, activates stops and recalculates trailing stops meet the hypotheses. -/
example : ∃ (g g' : Mgr) (e : ErrorCode), g.Reachable ∧ g.Admissible (.addOrder (.mkLimit 50 1 .sell 90 35)) ∧
    g.step (.addOrder (.mkLimit 50 1 .sell 90 35)) = .ok (g', e) ∧
    (decide (g'.ev.length > g.ev.length + 10) && decide (e = .ok)) = true :=
  demoStep (p := fun g g' e => decide (g'.ev.length > g.ev.length + 10) && decide (e = .ok))
    [.addSymbol ⟨1, 7⟩, .addSymbol ⟨2, 8⟩, .addOrderBook ⟨1, 7⟩, .addOrderBook ⟨2, 8⟩, .enableMatching,
     .addOrder (.mkLimit 1 1 .buy 100 10), .addOrder (.mkLimit 2 1 .buy 100 20 .gtc 5),
     .addOrder (.mkLimit 3 1 .sell 110 10), .addOrder (.mkLimit 4 1 .buy 95 10),
     .addOrder (.mkStop 5 1 .sell 98 3), .addOrder (.mkStopLimit 6 1 .sell 97 96 4),
     .addOrder (.mkTrailingStop 7 1 .sell 80 2 5 1), .addOrder (.mkLimit 8 2 .buy 55 5)] _ (by decide +kernel)

/-- Each precondition is needed: symbol id 2^32-1 indexes an empty vector. -/
theorem C01_needs_symbol_bound : errOf (Mgr.init.run [.addSymbol ⟨4294967295, 0⟩]) = some .ub := by decide +kernel

/-- Three resting orders of total volume 2^64+1 on one level: cancelling one drops the level under the
others. -/
theorem C01_needs_volume_bound :
    errOf (Mgr.init.run (opening ++ [.addOrder (.mkLimit 1 1 .buy 100 9223372036854775808),
      .addOrder (.mkLimit 2 1 .buy 100 9223372036854775808), .addOrder (.mkLimit 3 1 .buy 100 1), .deleteOrder 3,
      .deleteOrder 1])) = some .ub := by decide +kernel

/-- Deleting a book with a live order, creating the book again and cancelling the order. -/
theorem C01_needs_no_orphans :
    errOf (Mgr.init.run (opening ++ [.addOrder (.mkLimit 1 1 .buy 100 5), .deleteOrderBook 1,
      .addOrderBook ⟨1, 7⟩, .deleteOrder 1])) = some .ub := by decide +kernel

end CppTrader
