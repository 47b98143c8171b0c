import Verif.Proof.TextbookStep
/-
C51: for plain limit and market orders the engine is the textbook exchange.
-/

namespace CppTrader
open Core

theorem agree_init : Agree Exchange.init Mgr.init := by
  have h1 : ∀ i, Mgr.init.getBook i = none := fun _ => rfl
  have h2 : ∀ i, Mgr.init.getSymbol i = none := fun _ => rfl
  refine ⟨rfl, ?_, ?_, ?_, ?_, ?_, ?_⟩
  · intro i; simp [Exchange.init, h2]
  · intro i; simp [Exchange.init, h1]
  · funext s k; exact (lines_none (h1 s) k).symm
  · intro i o h; rw [Mgr.Reachable.init.minv.getOrder] at h; cases h
  · intro i o h; rw [Mgr.Reachable.init.minv.getOrder] at h; cases h
  · intro h; cases h

theorem Agree.records {x : Exchange} {g g' : Mgr} (h : Agree x g) (hr : g.Reachable) {l} (hl : Mgr.Records g l g')
    (hc : x.CoversAll (l.map (·.1))) :
    l.map (·.2) = x.results (l.map (·.1)) ∧ g'.Reachable ∧ Agree (x.after (l.map (·.1))) g' := by
  induction hl generalizing x with
  | nil => exact ⟨rfl, hr, h⟩
  | cons ha hs hev _ ih =>
    obtain ⟨h1, h2, h3⟩ := h.step hr hc.1 ha hs hev
    obtain ⟨i1, i2, i3⟩ := ih h3 (hr.step ha hs) hc.2
    refine ⟨?_, i2, i3⟩
    show _ :: _ = _ :: _
    rw [i1, h1, h2]

/-- C51. Take any sequence of calls from the empty manager in which orders are plain (limit or market, not All-Or-None) and come with ids not in use, no book is deleted, and `EnableMatching` and `Match` are called only when no bid
meets an ask. The result code and the executions of every single call are those of the textbook exchange, and so are the lines
and the orders found by id afterwards. -/
theorem C51_textbook {g : Mgr} {l : List (Op × ErrorCode × List Execution)} (hl : Mgr.Records Mgr.init l g)
    (hc : Exchange.init.CoversAll (l.map (·.1))) :
    l.map (·.2) = Exchange.init.results (l.map (·.1)) ∧
    g.lines = (Exchange.init.after (l.map (·.1))).lines ∧
    g.getOrder = (Exchange.init.after (l.map (·.1))).find := by
  obtain ⟨h1, h2, h3⟩ := agree_init.records .init hl hc
  exact ⟨h1, h3.lines.symm, funext fun id => (h3.find h2 id).symm⟩

/-- C51, as a simulation: from any reachable state that agrees with the textbook exchange. -/
theorem C51_simulation {x : Exchange} {g g' : Mgr} {op : Op} {e : ErrorCode} {evs : List Event} (h : Agree x g) (hr : g.Reachable)
    (hc : x.Covers op) (ha : g.Admissible op) (hs : g.step op = .ok (g', e)) (hev : g'.ev = g.ev ++ evs) :
    e = (x.call op).1 ∧ execsOf evs = (x.call op).2.1 ∧ Agree (x.call op).2.2 g' := by
  obtain ⟨a, b, c⟩ := h.step hr hc ha hs hev
  exact ⟨a.symm, b.symm, c⟩

/-- While matching, the textbook exchange never leaves a bid that meets an ask: this follows from C51 and C12. -/
theorem C51_uncrossed {g : Mgr} {l : List (Op × ErrorCode × List Execution)} (hl : Mgr.Records Mgr.init l g)
    (hc : Exchange.init.CoversAll (l.map (·.1))) (hm : g.matching = true) (s : Nat) :
    ∀ b ∈ g.lines s .bid, ∀ a ∈ g.lines s .ask, b.price < a.price := by
  obtain ⟨h1, h2, h3⟩ := agree_init.records .init hl hc
  exact (uncrossed_at h2.minv).1 (h3.uncrossed hm s)

theorem checkRun_records {ops : List Op} : ∀ {fresh g g'}, g.Reachable → (fresh = true → ∀ i, g.orders i = none) →
    checkRun fresh g ops = some g' → ∃ l, Mgr.Records g l g' ∧ l.map (·.1) = ops := by
  induction ops with
  | nil => intro fresh g g' hr _ h; cases h; exact ⟨[], .nil, rfl⟩
  | cons op ops ih =>
    intro fresh g g' hr hf h
    unfold checkRun at h
    by_cases ha : admB fresh g op = true
    · simp only [ha, if_true] at h
      cases hs : g.step op with
      | error x => rw [hs] at h; cases h
      | ok p =>
        obtain ⟨g1, e⟩ := p
        rw [hs] at h
        have had := admB_sound hf ha
        obtain ⟨evs, hev⟩ := events_appended hr had hs
        obtain ⟨l, h1, h2⟩ := ih (.step hr had hs) (by
          intro hfr i
          simp only [Bool.and_eq_true] at hfr
          rw [isReg_orders hfr.2 hs]; exact hf hfr.1 i) h
        exact ⟨_, .cons had hs hev h1, by simp [h2]⟩
    · simp [ha] at h

/-- A trading session: partial fills over two levels, an order executed by hand, a modification that trades, a
replacement, a market order, a refused call, two Fill-Or-Kill orders, one filled, one killed. -/
def session : List Op := opening ++ [.addSymbol ⟨2, 8⟩, .addOrderBook ⟨2, 8⟩, .enableMatching, .addOrder (.mkLimit 1 1 .sell 101 10), .addOrder (.mkLimit 2 1 .sell 100 5), .addOrder (.mkLimit 3 1 .sell 100 4),
  .addOrder (.mkLimit 4 1 .buy 101 12), .reduceOrder 1 2, .executeOrder 1 1, .addOrder (.mkLimit 5 1 .buy 99 7),
  .modifyOrder 5 101 3, .replaceOrder 1 6 102 9, .addOrder (.mkMarket 7 1 .buy 4), .deleteOrder 42, .addOrder (.mkLimit 8 1 .buy 102 20 .ioc),
  .addOrder (.mkLimit 9 2 .buy 5 5), .addOrder (.mkLimit 10 2 .buy 4 3), .addOrder (.mkLimit 11 2 .sell 4 7 .fok), .addOrder (.mkLimit 12 2 .sell 4 2 .fok)]

/-- C51 applies to the session; its executions are not trivial. -/
example : ∃ (g : Mgr) (l : List (Op × ErrorCode × List Execution)), Mgr.Records Mgr.init l g ∧ l.map (·.1) = session ∧
    Exchange.init.CoversAll (l.map (·.1)) ∧
    (l.map (fun r => (r.2.1, r.2.2.map (fun (x : Execution) => (x.1.id, x.2))))).drop 5 =
      [(.ok, []), (.ok, []), (.ok, []), (.ok, [(2, 100, 5), (4, 100, 5), (3, 100, 4), (4, 100, 4), (1, 101, 3), (4, 101, 3)]),
       (.ok, []), (.ok, [(1, 101, 1)]), (.ok, []), (.ok, [(1, 101, 3), (5, 101, 3)]), (.ok, []), (.ok, [(6, 102, 4), (7, 102, 4)]),
       (.orderNotFound, []), (.ok, [(6, 102, 5), (8, 102, 5)]), (.ok, []),
       (.ok, []), (.ok, [(9, 4, 5), (10, 4, 2), (11, 4, 7)]), (.ok, [])] := by
  cases hc : checkRun true Mgr.init session with
  | none =>
    have : (checkRun true Mgr.init session).isSome = true := by decide +kernel
    rw [hc] at this; cases this
  | some g =>
    obtain ⟨l, h1, h2⟩ := checkRun_records .init (fun _ _ => rfl) hc
    have h3 : Exchange.init.CoversAll (l.map (·.1)) := by
      rw [h2]; decide +kernel
    refine ⟨g, l, h1, h2, h3, ?_⟩
    have h4 := (C51_textbook h1 h3).1
    rw [h2] at h4
    have : l.map (fun r => (r.2.1, r.2.2.map (fun (x : Execution) => (x.1.id, x.2)))) =
        (l.map (·.2)).map (fun r => (r.1, r.2.map (fun (x : Execution) => (x.1.id, x.2)))) := by
      rw [List.map_map]; rfl
    rw [this, h4]
    decide +kernel

end CppTrader
