import Verif.Proof.Client
import Verif.Props.Feeds
/-
C49: stop orders are triggered, and trailing stops moved, only when the market as reported so far calls for it.
-/

namespace CppTrader

/-- C49. Every update reported in a call passes the check of `Client.ok` against what the client knows at that very
moment from the callbacks so far: an order changes its type only when its stop price has been reached, and its stop price
only as a trailing order following the market. -/
theorem C49_stop_feed {g : Mgr} (hr : g.Reachable) {op g' e evs} (ha : g.Admissible op) (hf : g.FreshId op)
    (hs : g.step op = .ok (g', e)) (hev : g'.ev = g.ev ++ evs) : Replays Client.ok Client.next g.client evs g'.client := by
  obtain ⟨evs', h⟩ := (hr.eff ha hs).client hr.minv ha hs hf
  have := h.ev
  rw [hev] at this
  cases List.append_cancel_left this
  have hr' : g'.Reachable := .step hr ha hs
  have e1 : g.getOrder = g.orders := funext hr.minv.getOrder
  have e2 : g'.getOrder = g'.orders := funext hr'.minv.getOrder
  unfold Mgr.client
  rw [e1, e2]; exact h.run

/-- C49 over a whole history: from knowing nothing, by the callbacks alone. -/
theorem C49_stop_feed_history {h : List (Op × ErrorCode)} {g : Mgr} (hh : g.FreshHistory h) :
    Replays Client.ok Client.next ⟨fun _ => none, fun _ _ _ => none, fun _ => noTrade⟩ g.ev g.client := by
  induction hh with
  | nil =>
    show (_ : Client) = _
    unfold Mgr.client
    congr 1
    · exact funext fun i => by simp [Mgr.getOrder, Mgr.init]
  | @snoc h g g' op e hh ha hf hs ih =>
    obtain ⟨evs, hev⟩ := events_appended hh.reachable ha hs
    rw [hev]
    exact Replays.append ih (C49_stop_feed hh.reachable ha hf hs hev)

theorem Replays.okAt {σ : Type} {ok : σ → Event → Prop} {next : σ → Event → σ} {v v' : σ} {A : List Event} {e : Event} {B : List Event}
    (h : Replays ok next v (A ++ e :: B) v') : ok (A.foldl next v) e := by
  induction A generalizing v with
  | nil => exact h.1
  | cons a A ih => exact ih h.2

/-- C49 spelled out for an activation: an update that turns an order into a market or limit order is reported only when
no ask is below the stop price (buy order), no bid above it (sell order), in the levels reported so far. -/
theorem C49_triggered {h : List (Op × ErrorCode)} {g : Mgr} (hh : g.FreshHistory h) {A B : List Event} {t : Order}
    (hev : g.ev = A ++ .updateOrder t :: B) :
    ∃ x, A.foldl OrderView.next (fun _ => none) t.id = some x ∧ (t.type ≠ x.type →
      ∀ p, A.foldl LevelView.next (fun _ _ _ => none) x.symbolId (decide (x.side = .sell)) p ≠ none →
        if x.side = .buy then x.stopPrice ≤ p else p ≤ x.stopPrice) := by
  have h1 := C49_stop_feed_history hh
  rw [hev] at h1
  have h2 := h1.okAt
  have fold : ∀ (A : List Event) (c : Client), (A.foldl Client.next c).orders = A.foldl OrderView.next c.orders ∧
      (A.foldl Client.next c).levels = A.foldl LevelView.next c.levels := by
    intro A
    induction A with
    | nil => intro c; exact ⟨rfl, rfl⟩
    | cons a A ih => intro c; exact ih (c.next a)
  obtain ⟨f1, f2⟩ := fold A ⟨fun _ => none, fun _ _ _ => none, fun _ => noTrade⟩
  obtain ⟨x, a, b, _⟩ := h2
  rw [f1] at a
  refine ⟨x, a, fun ht => ?_⟩
  have := b ht
  unfold Client.triggers at this
  rw [f2] at this
  cases hs : x.side <;> simp only [hs] at this ⊢ <;> simpa using this

/-- C49: while matching is disabled, no call except `EnableMatching` and `Match` triggers a stop order or moves a stop
price. -/
theorem C49_frozen {g : Mgr} (hr : g.Reachable) {op g' e} (ha : g.Admissible op)
    (hs : g.step op = .ok (g', e)) (hm : g.matching = false) (hop : op.isMatch = false) {i : Nat} {o o' : Order} (ho : g.getOrder i = some o)
    (ho' : g'.getOrder i = some o') (hn : ∀ t, g.submits op t → t.id ≠ i) : o'.type = o.type ∧ o'.stopPrice = o.stopPrice := by
  obtain ⟨evs, hev⟩ := events_appended hr ha hs
  rcases lived hr ha hs hev ho hn with ⟨x, h3, h4⟩ | ⟨h3, _⟩
  · rw [ho'] at h3; cases h3
    rw [show g.scope op = ⟨op.isModify, op.isReduce, false⟩ by simp [Mgr.scope, hm, hop]] at h4
    have : ∀ {qs y}, Evo ⟨op.isModify, op.isReduce, false⟩ o qs y → y.type = o.type ∧ y.stopPrice = o.stopPrice := by
      intro qs y h
      induction h with
      | nil => exact ⟨rfl, rfl⟩
      | upd _ h ih => have := h.calm; exact ⟨this.1.trans ih.1, this.2.trans ih.2⟩
      | exec _ h _ _ ih =>
        have f := h.facts
        exact ⟨f.2.2.2.1.trans ih.1, f.2.2.2.2.1.trans ih.2⟩
    exact this h4
  · rw [ho'] at h3; cases h3

/-- The check is not empty: with an ask at 90, it rejects the activation of a buy stop order at 100. -/
example : ¬ Client.ok ⟨fun i => if i = 1 then some (.mkStop 1 1 .buy 100 5) else none,
    fun _ b p => if b = false ∧ p = 90 then some ⟨false, 90, 5, 0, 5, 1⟩ else none, fun _ => noTrade⟩
    (.updateOrder (Core.toMarket (.mkStop 1 1 .buy 100 5))) := by
  rintro ⟨x, h1, h2, _⟩
  cases h1
  have := h2 (by decide) 90 (by decide)
  exact absurd this (by decide)

/-- A stop order triggered by a call: the sell order at 98 is taken from the book, so the best ask rises from 98 to 105, above the
stop price 100 of the buy stop order, which buys at 105. -/
example : ∃ (g g' : Mgr) (e : ErrorCode), g.Reachable ∧ g.Admissible (.addOrder (.mkMarket 4 1 .buy 10)) ∧
    g.step (.addOrder (.mkMarket 4 1 .buy 10)) = .ok (g', e) ∧
    (freshB g (.addOrder (.mkMarket 4 1 .buy 10)) && decide ((g.getOrder 3).map (fun o => (o.type, o.stopPrice)) = some (.stop, 100)) &&
      decide (Event.updateOrder (Core.toMarket (.mkStop 3 1 .buy 100 4)) ∈ g'.ev) &&
      decide ((execsOf (g'.ev.drop g.ev.length)).map (fun x => (x.1.id, x.2)) = [(1, 98, 10), (4, 98, 10), (2, 105, 4), (3, 105, 4)])) = true :=
  demoStep (p := fun g g' _ => freshB g (.addOrder (.mkMarket 4 1 .buy 10)) && decide ((g.getOrder 3).map (fun o => (o.type, o.stopPrice)) = some (.stop, 100)) &&
      decide (Event.updateOrder (Core.toMarket (.mkStop 3 1 .buy 100 4)) ∈ g'.ev) &&
      decide ((execsOf (g'.ev.drop g.ev.length)).map (fun x => (x.1.id, x.2)) = [(1, 98, 10), (4, 98, 10), (2, 105, 4), (3, 105, 4)]))
    (trading ++ [.addOrder (.mkLimit 1 1 .sell 98 10), .addOrder (.mkLimit 2 1 .sell 105 10), .addOrder (.mkStop 3 1 .buy 100 4)])
    (.addOrder (.mkMarket 4 1 .buy 10)) (by decide +kernel)

/-! ### C50: the matching mode -/

/-- C50. Matching is off initially, is switched on by `EnableMatching`, off by `DisableMatching`, and left alone by every
other call. -/
theorem C50_mode {g : Mgr} (hr : g.Reachable) {op g' e} (ha : g.Admissible op) (hs : g.step op = .ok (g', e)) :
    Mgr.init.matching = false ∧ (op = .enableMatching → g'.matching = true) ∧ (op = .disableMatching → g'.matching = false) ∧
      (op ≠ .enableMatching → op ≠ .disableMatching → g'.matching = g.matching) := by
  refine ⟨rfl, ?_⟩
  cases hr.eff ha hs with
  | refused h =>
    rw [h.1]
    refine ⟨?_, ?_, fun _ _ => rfl⟩ <;> (rintro rfl; have := h.2.2.2; cases this)
  | addSymbol hn hv => exact ⟨by rintro ⟨⟩, by rintro ⟨⟩, fun _ _ => rfl⟩
  | deleteSymbol hn hv => exact ⟨by rintro ⟨⟩, by rintro ⟨⟩, fun _ _ => rfl⟩
  | addBook hr hn hv => exact ⟨by rintro ⟨⟩, by rintro ⟨⟩, fun _ _ => rfl⟩
  | deleteBook hn hv => exact ⟨by rintro ⟨⟩, by rintro ⟨⟩, fun _ _ => rfl⟩
  | book on h =>
    refine ⟨?_, ?_, fun _ _ => h.matching⟩ <;> (rintro rfl; cases on)
  | replaceWith ho h1 h2 =>
    refine ⟨by rintro ⟨⟩, by rintro ⟨⟩, fun _ _ => ?_⟩
    rcases h2 with h2 | h2
    · rw [h2.1]; exact h1.matching
    · rw [h2.matching, h1.matching]
  | enable acts all hm => exact ⟨fun _ => hm, by rintro ⟨⟩, fun h => absurd rfl h⟩
  | disable => exact ⟨by rintro ⟨⟩, fun _ => rfl, fun _ h => absurd rfl h⟩
  | all acts all hm => exact ⟨by rintro ⟨⟩, by rintro ⟨⟩, fun _ _ => hm⟩

/-- C50: `DisableMatching` does nothing else. -/
theorem C50_disable {g g' : Mgr} {e} (hs : g.step .disableMatching = .ok (g', e)) :
    e = .ok ∧ g'.ev = g.ev ∧ g'.getOrder = g.getOrder ∧ g'.getBook = g.getBook ∧ g'.getSymbol = g.getSymbol := by
  cases hs
  exact ⟨rfl, rfl, rfl, rfl, rfl⟩

example : ∃ (g g' : Mgr) (e : ErrorCode), g.Reachable ∧ g.Admissible .enableMatching ∧ g.step .enableMatching = .ok (g', e) ∧
    (!g.matching && g'.matching && decide (execsOf (g'.ev.drop g.ev.length) ≠ [])) = true :=
  demoStep (p := fun g g' _ => !g.matching && g'.matching && decide (execsOf (g'.ev.drop g.ev.length) ≠ []))
    (opening ++ [.addOrder (.mkLimit 1 1 .sell 98 10), .addOrder (.mkLimit 2 1 .buy 105 10)]) .enableMatching (by decide +kernel)

end CppTrader
