import Verif.Proof.PitMgr
import Verif.Props.Textbook
/-
C60: the whole engine behaves like the reference exchange.
-/

namespace CppTrader
open Core

/-- C60. For every admissible history, the result code and the executions of every call are those of the reference
exchange, and so are the state observed afterwards: matching flag, symbols, books, stored orders, the line of orders of
every collection of every book, and the prices that stop and trailing orders react to. -/
theorem C60_venue {g : Mgr} {l : List (Op × ErrorCode × List Execution)} (hl : Mgr.Records Mgr.init l g) :
    l.map (·.2) = Venue.init.results (l.map (·.1)) ∧
    g.matching = (Venue.init.after (l.map (·.1))).matching ∧
    g.getOrder = (Venue.init.after (l.map (·.1))).find ∧
    ∀ s, (g.getSymbol s ≠ none ↔ s ∈ (Venue.init.after (l.map (·.1))).symbols) ∧
      (g.getBook s ≠ none ↔ s ∈ (Venue.init.after (l.map (·.1))).books) ∧
      ∀ b, g.getBook s = some b →
        g.lines s = ((Venue.init.after (l.map (·.1))).pits s).board ∧
        b.marketBid = ((Venue.init.after (l.map (·.1))).pits s).bid ∧
        b.marketAsk = ((Venue.init.after (l.map (·.1))).pits s).ask ∧
        b.marketTrailBid = ((Venue.init.after (l.map (·.1))).pits s).trailBid ∧
        b.marketTrailAsk = ((Venue.init.after (l.map (·.1))).pits s).trailAsk := by
  obtain ⟨h1, hi, h2⟩ := seats_init.records MInv.init hl
  refine ⟨h1, h2.matching.symm, funext fun id => by rw [hi.getOrder, h2.find hi], ?_⟩
  intro s
  refine ⟨(h2.symbols s).symm, (h2.books s).symm, ?_⟩
  intro b hb
  have hI := (hi.inv hb).1
  rw [h2.pits s b hb]
  exact ⟨lines_board hi hb, (pit_bid hI).symm, (pit_ask hI).symm, (pit_trailBid hI).symm, (pit_trailAsk hI).symm⟩

/-- The engine's answers are a function of the calls alone: two managers that were given the same calls gave the same
answers and store the same orders. -/
theorem C60_function {g g' : Mgr} {l l' : List (Op × ErrorCode × List Execution)} (hl : Mgr.Records Mgr.init l g)
    (hl' : Mgr.Records Mgr.init l' g') (h : l.map (·.1) = l'.map (·.1)) :
    l.map (·.2) = l'.map (·.2) ∧ g.getOrder = g'.getOrder := by
  obtain ⟨a1, _, a2, _⟩ := C60_venue hl
  obtain ⟨b1, _, b2, _⟩ := C60_venue hl'
  exact ⟨by rw [a1, b1, h], by rw [a2, b2, h]⟩

/-- The reference is not vacuous: every sequence of calls the engine admits has a record. -/
theorem C60_total {g : Mgr} (hr : g.Reachable) {op : Op} (ha : g.Admissible op) :
    ∃ (g' : Mgr) (e : ErrorCode) (evs : List Event), g.step op = .ok (g', e) ∧ g'.ev = g.ev ++ evs ∧
      ∀ x, Seats x g → (x.call op).1 = e ∧ (x.call op).2.1 = execsOf evs ∧ Seats (x.call op).2.2 g' := by
  obtain ⟨g', e, h1, _⟩ := step_ok hr.minv op ha
  obtain ⟨evs, hev⟩ := events_appended hr ha h1
  refine ⟨g', e, evs, h1, hev, fun x hx => ?_⟩
  have hE := hx.step hr.minv ha h1
  obtain ⟨evs', a1, a2⟩ := hE.ev
  rw [hev] at a1
  cases List.append_cancel_left a1
  exact ⟨hE.code, a2.symm, hE.seats⟩

/-- A session with every order type: orders entered while matching is off and crossed when it is enabled, stop orders
released one after the other, a trailing stop that follows the market and is released, an All-Or-None order, an id in use,
a deleted book. -/
def fullSession : List Op := opening ++ [.addSymbol ⟨2, 8⟩, .addOrderBook ⟨2, 8⟩,
  .addOrder (.mkLimit 1 1 .buy 101 10), .addOrder (.mkLimit 2 1 .sell 100 4), .addOrder (.mkLimit 3 1 .sell 102 6),
  .addOrder (.mkStop 4 1 .sell 99 3), .enableMatching,
  .addOrder (.mkTrailingStop 5 1 .sell 90 2 5 1), .addOrder (.mkStopLimit 6 1 .buy 103 103 2),
  .addOrder (.mkLimit 7 1 .sell 104 5 .aon), .addOrder (.mkMarket 8 1 .buy 7), .addOrder (.mkLimit 2 1 .buy 104 5),
  .addOrder (.mkLimit 2 1 .buy 80 5), .addOrder (.mkLimit 10 1 .buy 94 5), .mitigateOrder 2 98 5, .addOrder (.mkLimit 10 1 .sell 103 5), .executeOrderAt 1 97 2, .deleteOrder 1,
  .replaceWith 10 (.mkLimit 9 2 .buy 5 5),
  .deleteOrderBook 2, .deleteOrder 9, .matchAll]

/-- C60 applies to the session; its executions are not trivial. -/
example : ∃ (g : Mgr) (l : List (Op × ErrorCode × List Execution)), Mgr.Records Mgr.init l g ∧ l.map (·.1) = fullSession ∧
    (l.map (fun r => (r.2.1, r.2.2.map (fun (x : Execution) => (x.1.id, x.2))))).drop 8 =
      [(.ok, [(2, 100, 4), (1, 100, 4)]), (.ok, []), (.ok, []), (.ok, []), (.ok, [(3, 102, 6), (8, 102, 6)]),
       (.ok, [(7, 104, 5), (2, 104, 5)]), (.ok, []), (.ok, []), (.ok, []), (.orderDuplicate, [(6, 103, 2), (10, 103, 2)]),
       (.ok, [(1, 97, 2)]), (.ok, [(2, 98, 3), (4, 98, 3), (2, 98, 2), (5, 98, 2)]), (.ok, []), (.ok, []),
       (.orderBookNotFound, []), (.ok, [])] := by
  cases hc : checkRun true Mgr.init fullSession with
  | none =>
    have : (checkRun true Mgr.init fullSession).isSome = true := by decide +kernel
    rw [hc] at this; cases this
  | some g =>
    obtain ⟨l, h1, h2⟩ := checkRun_records .init (fun _ _ => rfl) hc
    refine ⟨g, l, h1, h2, ?_⟩
    have h4 := (C60_venue h1).1
    rw [h2] at h4
    have : l.map (fun r => (r.2.1, r.2.2.map (fun (x : Execution) => (x.1.id, x.2)))) =
        (l.map (·.2)).map (fun r => (r.1, r.2.map (fun (x : Execution) => (x.1.id, x.2)))) := by
      rw [List.map_map]; rfl
    rw [this, h4]
    decide +kernel

end CppTrader
