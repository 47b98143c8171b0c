import Verif.Proof.Volume
import Verif.Props.Safety
import Verif.Props.Trades
import Verif.Textbook
/-
C01 for sequences of calls, by their arguments alone.
-/

namespace CppTrader

theorem admissible_of {g : Mgr} (hr : g.Reachable) {op : Op} {n : Nat} {D : List Nat} (hm : g.AtMost n) (hd : g.Housed D)
    (h1 : op.representable) (h2 : n + op.quantity < W64) (h3 : ∀ s, op = .addOrderBook s → s.id ∉ D) : g.Admissible op := by
  have hf : ∀ sym, g.Fits sym op.quantity := fun sym b hb => Nat.lt_of_le_of_lt (Nat.add_le_add_right (hm sym b hb) _) h2
  cases op
  case addSymbol s => exact h1
  case addOrderBook s =>
    intro hb i o ho hs
    rcases hd i o (by rw [← hr.minv.getOrder]; exact ho) with h | h
    · rw [hs] at h; exact h hb
    · rw [hs] at h; exact h3 s rfl h
  case addOrder o => exact ⟨h1, hf _⟩
  case modifyOrder => exact ⟨h1.1, h1.2, fun o _ => hf _⟩
  case mitigateOrder => exact ⟨h1.1, h1.2, fun o _ => hf _⟩
  case replaceOrder => exact ⟨h1.1, h1.2.1, h1.2.2, fun o _ => hf _⟩
  case replaceWith => exact ⟨h1, hf _⟩
  all_goals trivial

theorem run_safe (ops : List Op) : ∀ {g : Mgr} {n : Nat} {D : List Nat}, g.Reachable → g.AtMost n → g.Housed D →
    (∀ op ∈ ops, op.representable) → n + (ops.map Op.quantity).sum < W64 → noRevival ops →
    (∀ s, .addOrderBook s ∈ ops → s.id ∉ D) →
    ∃ g' es, g.run ops = .ok (g', es) ∧ es.length = ops.length ∧ g'.Reachable ∧
      ∃ l, Mgr.Records g l g' ∧ l.map (·.1) = ops ∧ l.map (·.2.1) = es := by
  induction ops with
  | nil => intro g n D hr _ _ _ _ _ _; exact ⟨g, [], rfl, rfl, hr, [], .nil, rfl, rfl⟩
  | cons op ops ih =>
    intro g n D hr hm hd h1 h2 h3 h4
    rw [List.map_cons, List.sum_cons] at h2
    have h3' := List.pairwise_cons.1 h3
    have ha : g.Admissible op := admissible_of hr hm hd (h1 op (by simp)) (by omega) (by
      rintro s rfl; exact h4 s (by simp))
    obtain ⟨g1, e, a1, a2⟩ := C01_no_ub hr op ha
    obtain ⟨g2, es, b1, b2, b3, l, b4, b5, b6⟩ := ih a2 (step_atMost hr ha a1 hm) (step_housed hr ha a1 hd) (fun o ho => h1 o (by simp [ho]))
      (by omega) h3'.2 (by
        intro s hs hD
        rcases List.mem_append.1 hD with h | h
        · cases op <;> simp [Op.removes] at h
          exact h3'.1 _ hs s rfl (by rw [h])
        · exact h4 s (by simp [hs]) h)
    obtain ⟨evs, hev⟩ := events_appended hr ha a1
    refine ⟨g2, e :: es, ?_, by simp [b2], b3, (op, e, execsOf evs) :: l, .cons ha a1 hev b4, by simp [b5], by simp [b6]⟩
    simp only [Mgr.run, a1, Except.bind_ok, b1]

theorem run_init (ops : List Op) (h1 : ∀ op ∈ ops, op.representable) (h2 : (ops.map Op.quantity).sum < 2 ^ 64)
    (h3 : noRevival ops) : ∃ g es, Mgr.init.run ops = .ok (g, es) ∧ es.length = ops.length ∧ g.Reachable ∧
      ∃ l, Mgr.Records Mgr.init l g ∧ l.map (·.1) = ops ∧ l.map (·.2.1) = es := by
  refine run_safe ops (n := 0) (D := []) .init ?_ ?_ h1 (by simpa using h2) h3 (fun _ _ => by simp)
  · intro sym b hb; cases sym <;> cases hb
  · intro i o ho; cases ho

/-- C01 for sequences of calls, by their arguments alone: if the arguments are representable, the quantities brought in add
up to less than 2^64, and no book is created again after it was deleted, then every call of the sequence returns a result
code; whatever ids, prices, quantities, order of calls, invalid or refused calls, matching on or off. -/
theorem C01_sequence (ops : List Op) (h1 : ∀ op ∈ ops, op.representable) (h2 : (ops.map Op.quantity).sum < 2 ^ 64)
    (h3 : noRevival ops) : ∃ g es, Mgr.init.run ops = .ok (g, es) ∧ es.length = ops.length ∧ g.Reachable := by
  obtain ⟨g, es, a, b, c, _⟩ := run_init ops h1 h2 h3
  exact ⟨g, es, a, b, c⟩

/-- C01 applies: trading on two symbols with refused calls, a deleted book and duplicate ids. -/
example : ∃ ops : List Op, 12 ≤ ops.length ∧ (∀ op ∈ ops, op.representable) ∧ (ops.map Op.quantity).sum < 2 ^ 64 ∧ noRevival ops := by
  refine ⟨[.addSymbol ⟨1, 7⟩, .addOrderBook ⟨1, 7⟩, .addSymbol ⟨2, 7⟩, .addOrderBook ⟨2, 7⟩, .enableMatching,
    .addOrder (.mkLimit 1 1 .buy 100 10), .addOrder (.mkLimit 1 1 .sell 100 18446744073709551000), .modifyOrder 1 50 7,
    .modifyOrder 99 1 1, .replaceOrder 1 1 60 8, .deleteOrder 5, .addOrder (.mkLimit 3 2 .sell 5 5), .deleteOrderBook 2, .deleteOrder 3],
    by decide, ?_, by decide, ?_⟩
  · simp [Op.representable, Order.Repr64, Order.mkLimit, Order.mk']
  · simp [noRevival]

end CppTrader
