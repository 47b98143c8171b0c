import Verif.Proof.Revive
import Verif.Proof.FeedAt
import Verif.Props.Venue
import Verif.Props.State
import Verif.Props.Sequence
/-
C86: a book deleted with orders in it and added again is a new book.
-/

namespace CppTrader
open Mgr

/-- C86: in sessions that delete books with orders in them and add them again, as long as no call names an order left behind by
a deleted book, the manager gives the result codes and makes the executions of the reference exchange that forgets the orders
of a book with the book; and `GetOrder` (of all other ids), the symbols, the books, the orders in every line, and the market
prices are those of that exchange. The exchange does not know the orders left behind. -/
theorem C86_revival {l : List (Op × ErrorCode × List Execution)} {L : Nat → Prop} {g : Mgr} (hr : Mgr.Revives l L g) :
    l.map (·.2) = Venue.init.resultsAnew (l.map (·.1)) ∧
    g.matching = (Venue.init.afterAnew (l.map (·.1))).matching ∧
    (∀ id, ¬ L id → g.getOrder id = (Venue.init.afterAnew (l.map (·.1))).find id) ∧
    (∀ id, L id → (Venue.init.afterAnew (l.map (·.1))).find id = none) ∧
    ∀ s, (g.getSymbol s ≠ none ↔ s ∈ (Venue.init.afterAnew (l.map (·.1))).symbols) ∧
      (g.getBook s ≠ none ↔ s ∈ (Venue.init.afterAnew (l.map (·.1))).books) ∧
      ∀ b, g.getBook s = some b →
        g.lines s = ((Venue.init.afterAnew (l.map (·.1))).pits s).board ∧
        b.marketBid = ((Venue.init.afterAnew (l.map (·.1))).pits s).bid ∧
        b.marketAsk = ((Venue.init.afterAnew (l.map (·.1))).pits s).ask ∧
        b.marketTrailBid = ((Venue.init.afterAnew (l.map (·.1))).pits s).trailBid ∧
        b.marketTrailAsk = ((Venue.init.afterAnew (l.map (·.1))).pits s).trailAsk := by
  obtain ⟨h, r⟩ := hr.revived
  have hi := r.inv
  have hx := r.seats
  refine ⟨hr.results, r.haunts.matching.trans hx.matching.symm, ?_, ?_, ?_⟩
  · intro id hl
    rw [r.getOrder hl, hi.getOrder, hx.find hi]
  · intro id hl
    rw [hx.find hi]; exact r.haunts.gone id hl
  · intro s
    refine ⟨?_, ?_, ?_⟩
    · rw [hx.symbols s, ← r.haunts.symbols]; exact Iff.rfl
    · rw [hx.books s, ← r.haunts.books]; exact Iff.rfl
    · intro b hb
      have hb' : h.getBook s = some b := by rw [← r.getBook]; exact hb
      have hI := (hi.inv hb').1
      rw [hx.pits s b hb']
      refine ⟨?_, (pit_bid hI).symm, (pit_ask hI).symm, (pit_trailBid hI).symm, (pit_trailAsk hI).symm⟩
      rw [show g.lines s = h.lines s from ?_]
      · exact lines_board hi hb'
      · funext k
        unfold Mgr.lines
        rw [hb, hb']
        refine filterMap_eq_of ?_
        intro j hj
        obtain ⟨_, h2, _⟩ := hi.books s b hb'
        obtain ⟨o, a1, _⟩ := h2.queue_mem (k := k) hj
        refine r.getOrder fun hl => ?_
        rw [r.haunts.gone j hl] at a1
        cases a1

/-- C86: no such call has undefined behaviour, and the session goes on. -/
theorem C86_safe {l : List (Op × ErrorCode × List Execution)} {L : Nat → Prop} {g : Mgr} (hr : Mgr.Revives l L g) {op : Op}
    (hn : ∀ id ∈ op.names, ¬ L id) (ha : g.Admissible op ∨ ∃ s, op = .addOrderBook s) :
    ∃ (g' : Mgr) (e : ErrorCode) (evs : List Event), g.step op = .ok (g', e) ∧ g'.ev = g.ev ++ evs ∧
      Mgr.Revives (l ++ [(op, e, execsOf evs)]) (g.leftBy L op) g' := by
  obtain ⟨h, r⟩ := hr.revived
  obtain ⟨_, g', e, evs, _, _, a2, _, a4, _⟩ := r.runs hn ha
  exact ⟨g', e, evs, a2, a4, .snoc hr hn ha a2 a4⟩

theorem addsOf_mem {o : Order} : ∀ {l : List Event}, Event.addOrder o ∈ l → o ∈ addsOf l
  | e :: es, h => by
    rcases List.mem_cons.1 h with rfl | h
    · exact List.mem_cons_self
    · have := addsOf_mem h
      cases e <;> first | exact this | exact List.mem_cons_of_mem _ this

theorem submits_names {g : Mgr} {op : Op} {t : Order} (h : g.submits op t) : t.id ∈ op.names := by
  cases op with
  | addOrder o =>
    have := (Order.Submitted.facts h).2.1
    simp [Op.names, this]
  | replaceOrder id n p q => obtain ⟨o, _, rfl⟩ := h; simp [Op.names]
  | replaceWith id o =>
    obtain ⟨m, h⟩ := h
    have := (Order.Submitted.facts h).2.1
    simp [Op.names, this]
  | _ => exact h.elim

/-- C86: an order left behind takes part in nothing: no callback of a later call is about it. -/
theorem C86_silent {l : List (Op × ErrorCode × List Execution)} {L : Nat → Prop} {g : Mgr} (hr : Mgr.Revives l L g) {op : Op}
    {g' : Mgr} {e : ErrorCode} {evs : List Event} (hn : ∀ id ∈ op.names, ¬ L id) (ha : g.Admissible op ∨ ∃ s, op = .addOrderBook s)
    (hs : g.step op = .ok (g', e)) (hev : g'.ev = g.ev ++ evs) {id : Nat} (hl : L id) : ∀ x ∈ evs, x.concerns id = false := by
  obtain ⟨h, r⟩ := hr.revived
  obtain ⟨h1, hA, a1, a2, _⟩ := r.step hn ha hs hev
  obtain ⟨evs', c1, c2, c3⟩ := (step_eff r.inv hA a1).at r.inv hA a1 (i := id) (fun t ht e => hn _ (submits_names ht) (by rw [e]; exact hl))
  rw [a2] at c1
  cases List.append_cancel_left c1
  obtain ⟨v, b1, _⟩ := c2 h.orders rfl
  have hh := r.haunts.gone id hl
  intro x hx
  cases hc : x.concerns id with
  | false => rfl
  | true =>
    exfalso
    cases hf : evs.filter (·.concerns id) with
    | nil =>
      have : x ∈ evs.filter (·.concerns id) := List.mem_filter.2 ⟨hx, hc⟩
      rw [hf] at this; cases this
    | cons y ys =>
      rw [hf] at b1
      have hy : y ∈ evs.filter (·.concerns id) := by rw [hf]; exact List.mem_cons_self
      obtain ⟨hy1, hy2⟩ := List.mem_filter.1 hy
      have hok : OrderView.ok (h.scope op) h.orders y := b1.1
      cases y <;> simp [Event.concerns] at hy2
      case addOrder o =>
        exact c3 o (addsOf_mem hy1) hy2
      case updateOrder o => obtain ⟨z, hz, _⟩ := hok; rw [hy2, hh] at hz; cases hz
      case deleteOrder o => obtain ⟨z, hz, _⟩ := hok; rw [hy2, hh] at hz; cases hz
      case exec o p q => obtain ⟨⟨z, hz, _⟩, _⟩ := hok; rw [hy2, hh] at hz; cases hz

/-- C86: the books are consistent: every level of every book is that of its orders, none of which was left behind. -/
theorem C86_levels {l : List (Op × ErrorCode × List Execution)} {L : Nat → Prop} {g : Mgr} (hr : Mgr.Revives l L g) {sym : Nat} {b : Book}
    (hb : g.getBook sym = some b) (k : Kind) (lv : Level) (hl : lv ∈ b.lv k) :
    lv.ids ≠ [] ∧ lv.count = lv.ids.length ∧ lv.ids.Nodup ∧
    (∀ i ∈ lv.ids, ¬ L i ∧ ∃ o, g.getOrder i = some o ∧ o.symbolId = sym) ∧
    lv.total = sumOver g.getOrder Order.leaves lv.ids ∧
    lv.hidden = sumOver g.getOrder Order.hiddenQty lv.ids ∧
    lv.visible = sumOver g.getOrder Order.visibleQty lv.ids := by
  obtain ⟨h, r⟩ := hr.revived
  have hb' : h.getBook sym = some b := by rw [← r.getBook]; exact hb
  obtain ⟨h0, h2, _⟩ := r.inv.books sym b hb'
  have hk := (h2.kinds k).levels lv hl
  have hm : ∀ i ∈ lv.ids, ¬ L i ∧ ∃ o, h.orders i = some o ∧ o.symbolId = sym := by
    intro i hi
    obtain ⟨o, ho, hs, _⟩ := hk.mem i hi
    exact ⟨fun hl => (by rw [r.haunts.gone i hl] at ho; cases ho), o, ho, hs.trans h0⟩
  have he : ∀ i ∈ lv.ids, h.orders i = g.getOrder i := fun i hi => by rw [r.getOrder (hm i hi).1, r.inv.getOrder]
  refine ⟨hk.nonempty, hk.count, hk.nodup, ?_, ?_, ?_, ?_⟩
  · intro i hi
    obtain ⟨a, o, c, d⟩ := hm i hi
    exact ⟨a, o, by rw [← he i hi]; exact c, d⟩
  · rw [hk.total]; exact sumOver_congr he
  · rw [hk.hidden]; exact sumOver_congr he
  · rw [hk.visible]; exact sumOver_congr he

/-! ### Sequences of calls, by their arguments alone -/

theorem run_snoc {op : Op} {g' : Mgr} {e : ErrorCode} : ∀ {ops : List Op} {g g1 : Mgr} {es : List ErrorCode}, g.run ops = .ok (g1, es) →
    g1.step op = .ok (g', e) → g.run (ops ++ [op]) = .ok (g', es ++ [e])
  | [], g, g1, es, h, hs => by
    cases h
    simp only [List.nil_append, Mgr.run, hs, Except.bind_ok]
  | o :: ops, g, g1, es, h, hs => by
    simp only [Mgr.run] at h
    obtain ⟨⟨g2, e2⟩, h1, h2⟩ := bind_inv h
    obtain ⟨⟨g3, es3⟩, h3, h4⟩ := bind_inv h2
    cases h4
    simp only [List.cons_append, Mgr.run, h1, Except.bind_ok, run_snoc h3 hs]

theorem revives_run (ops : List Op) : ∀ (p q : List Op), ops = p ++ q → (∀ op ∈ ops, op.representable) →
    (ops.map Op.quantity).sum < W64 → idsRetire ops →
    ∃ (g : Mgr) (es : List ErrorCode) (l : List (Op × ErrorCode × List Execution)) (L : Nat → Prop),
      Mgr.init.run p = .ok (g, es) ∧ Mgr.Revives l L g ∧ l.map (·.1) = p ∧ l.map (·.2.1) = es ∧ g.AtMost (p.map Op.quantity).sum ∧
      (∀ id, L id → ∃ pre s post, p = pre ++ .deleteOrderBook s :: post ∧ ∃ a ∈ pre, id ∈ a.names) ∧
      (∀ id, g.orders id ≠ none → ¬ L id → ∃ a ∈ p, id ∈ a.names) := by
  intro p
  induction hk : p.length generalizing p with
  | zero =>
    intro q _ _ _ _
    cases List.length_eq_zero_iff.1 hk
    refine ⟨_, [], [], _, rfl, .nil, rfl, rfl, ?_, fun _ h => h.elim, fun id h => absurd rfl h⟩
    intro sym b hb; cases sym <;> cases hb
  | succ n ih =>
    intro q hq h1 h2 h3
    have hne : p ≠ [] := by intro e; rw [e] at hk; cases hk
    obtain ⟨p', op, rfl⟩ : ∃ p' op, p = p' ++ [op] := ⟨p.dropLast, p.getLast hne, (List.dropLast_concat_getLast hne).symm⟩
    obtain ⟨g, es, l, L, a1, a2, a3, a4, a5, a6, a7⟩ := ih p' (by simp at hk; exact hk) (op :: q) (by rw [hq]; simp) h1 h2 h3
    obtain ⟨h, r⟩ := a2.revived
    have hop : op ∈ ops := by rw [hq]; simp
    have hn : ∀ id ∈ op.names, ¬ L id := by
      intro id hid hl
      obtain ⟨pre, s, post, e, a, ha, hia⟩ := a6 id hl
      exact h3 pre (post ++ op :: q) s (by rw [hq, e]; simp) a ha op (by simp) id hia hid
    have hsum : (p'.map Op.quantity).sum + op.quantity < W64 := by
      rw [hq] at h2; simp only [List.map_append, List.map_cons, List.map_nil, List.sum_append, List.sum_cons, List.sum_nil] at h2; omega
    have hf : ∀ sym, g.Fits sym op.quantity := fun sym b hb => Nat.lt_of_le_of_lt (Nat.add_le_add_right (a5 sym b hb) _) hsum
    have ha : g.Admissible op ∨ ∃ s, op = .addOrderBook s := by
      have h1 := h1 op hop
      cases op
      case addOrderBook s => exact .inr ⟨s, rfl⟩
      case addSymbol s => exact .inl h1
      case addOrder o => exact .inl ⟨h1, hf _⟩
      case modifyOrder => exact .inl ⟨h1.1, h1.2, fun o _ => hf _⟩
      case mitigateOrder => exact .inl ⟨h1.1, h1.2, fun o _ => hf _⟩
      case replaceOrder => exact .inl ⟨h1.1, h1.2.1, h1.2.2, fun o _ => hf _⟩
      case replaceWith => exact .inl ⟨h1, hf _⟩
      all_goals exact .inl trivial
    obtain ⟨h1', g', e, evs, hA, b1, b2, b3, b4, b5⟩ := r.runs hn ha
    have hat : h.AtMost (p'.map Op.quantity).sum := by
      unfold Mgr.AtMost; rw [← r.haunts.books]; exact a5
    have hat' := step_atMost_inv r.inv hA b1 hat
    refine ⟨g', es ++ [e], _, _, run_snoc a1 b2, .snoc a2 hn ha b2 b4, by simp [a3], by simp [a4], ?_, ?_, ?_⟩
    · unfold Mgr.AtMost; rw [b5.books]
      simpa [Mgr.AtMost] using hat'
    · rintro id (hl | ⟨s, o, rfl, _, ho, _⟩)
      · obtain ⟨pre, s, post, e, a, ha, hia⟩ := a6 id hl
        exact ⟨pre, s, post ++ [op], by rw [e]; simp, a, ha, hia⟩
      · by_cases hl : L id
        · obtain ⟨pre, s', post, e, a, ha, hia⟩ := a6 id hl
          exact ⟨pre, s', post ++ [.deleteOrderBook s], by rw [e]; simp, a, ha, hia⟩
        · obtain ⟨a, ha, hia⟩ := a7 id (fun h0 => by unfold Mgr.getOrder at ho; rw [h0] at ho; simp at ho) hl
          exact ⟨p', s, [], by simp, a, ha, hia⟩
    · intro id hid hl
      have hl0 : ¬ L id := fun h => hl (.inl h)
      rw [b5.same id hl0] at hid
      by_cases hc : ∃ a ∈ p' ++ [op], id ∈ a.names
      · exact hc
      · exfalso
        refine hid (Haunts.stays_gone (L := fun i => i = id) r.inv hA b1 ?_ ?_ id rfl)
        · rintro i hi rfl
          exact hc ⟨op, by simp, hi⟩
        · rintro i rfl
          cases ho : h.orders i with
          | none => rfl
          | some o =>
            exfalso
            obtain ⟨a, ha, hia⟩ := a7 i (by rw [r.haunts.same i hl0, ho]; simp) hl0
            exact hc ⟨a, by simp [ha], hia⟩

/-- C86 for sequences of calls, by their arguments alone: if the arguments are representable, the quantities brought in add up
to less than 2^64, and no call made after a book was deleted names an order id used before, then books may be deleted with
orders in them and added again at will: every call returns, with the result codes of the exchange that forgets the orders of a
deleted book. (C01 forbids adding a book again.) -/
theorem C86_sequence (ops : List Op) (h1 : ∀ op ∈ ops, op.representable) (h2 : (ops.map Op.quantity).sum < 2 ^ 64) (h3 : idsRetire ops) :
    ∃ (g : Mgr) (es : List ErrorCode) (l : List (Op × ErrorCode × List Execution)) (L : Nat → Prop),
      Mgr.init.run ops = .ok (g, es) ∧ es = (Venue.init.resultsAnew ops).map (·.1) ∧
      Mgr.Revives l L g ∧ l.map (·.1) = ops ∧ l.map (·.2.1) = es := by
  obtain ⟨g, es, l, L, a1, a2, a3, a4, _⟩ := revives_run ops ops [] (by simp) h1 h2 h3
  refine ⟨g, es, l, L, a1, ?_, a2, a3, a4⟩
  have := (C86_revival a2).1
  rw [a3] at this
  rw [← this, ← a4, List.map_map]
  rfl

def retireB (ops : List Op) : Bool :=
  (List.range ops.length).all fun i => match ops[i]? with
    | some (.deleteOrderBook _) => (ops.take i).all fun a => (ops.drop (i + 1)).all fun b => a.names.all fun id => !b.names.contains id
    | _ => true

theorem idsRetire_of {ops : List Op} (h : retireB ops = true) : idsRetire ops := by
  intro pre post s e a ha b hb id hid hc
  have h1 := List.all_eq_true.1 h pre.length (by rw [e]; simp)
  have h2 : ops[pre.length]? = some (.deleteOrderBook s) := by rw [e]; simp
  have h3 : ops.drop (pre.length + 1) = post := by rw [e]; simp
  have h4 : ops.take pre.length = pre := by rw [e]; simp
  rw [h2, h3, h4] at h1
  have h5 := List.all_eq_true.1 (List.all_eq_true.1 (List.all_eq_true.1 h1 a ha) b hb) id hid
  simp [hc] at h5

/-- Orders 1 and 2 are left behind when the book is deleted; the book is added again and traded in. -/
def revivalSession : List Op := opening ++ [.enableMatching, .addOrder (.mkLimit 1 1 .buy 100 5), .addOrder (.mkLimit 2 1 .sell 110 7),
  .deleteOrderBook 1, .addOrderBook ⟨1, 7⟩, .addOrder (.mkLimit 3 1 .sell 100 5), .addOrder (.mkLimit 4 1 .buy 120 2), .modifyOrder 3 90 4,
  .deleteOrderBook 1, .addOrderBook ⟨1, 7⟩, .addOrder (.mkMarket 5 1 .sell 1)]

/-- C86 applies to the session; order 3 does not meet order 1, and order 4 meets order 3 and not order 2. -/
theorem C86_demo : (∀ op ∈ revivalSession, op.representable) ∧ (revivalSession.map Op.quantity).sum < 2 ^ 64 ∧ idsRetire revivalSession ∧
    (Venue.init.resultsAnew revivalSession).map (fun r => (r.1, r.2.map (fun x => (x.1.id, x.2)))) =
      [(.ok, []), (.ok, []), (.ok, []), (.ok, []), (.ok, []), (.ok, []), (.ok, []), (.ok, []), (.ok, [(3, 100, 2), (4, 100, 2)]),
        (.ok, []), (.ok, []), (.ok, []), (.ok, [])] := by
  refine ⟨by simp [revivalSession, opening, Op.representable, Order.Repr64, Order.mkLimit, Order.mkMarket, Order.mk'], by decide +kernel, ?_, by decide +kernel⟩
  exact idsRetire_of (by decide +kernel)

end CppTrader
