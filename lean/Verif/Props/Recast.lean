import Verif.Proof.RecastVenue
import Verif.Props.Textbook
/-
C62: order ids are only names, and the visible quantity does not influence the trading.
-/

namespace CppTrader
open Core

namespace Recast
variable (c : Recast)

theorem repr {o : Order} (h : o.Repr64) : (c.order o).Repr64 := by
  obtain ⟨h1, h2, h3, h4, h5, h6, h7, h8, h9⟩ := h
  exact ⟨(c.fits _ h1).1, h2, h3, h4, h5, h6, h7, (c.fits _ h8).2, h9⟩

theorem fitsIn {x : Venue} {g h : Mgr} (hx : Seats x g) (hg : MInv g) (hy : Seats (c.venue x) h) (hh : MInv h) {sym q : Nat}
    (hf : g.Fits sym q) : h.Fits sym q := by
  intro d hd
  have hm : sym ∈ (c.venue x).books := (hy.books sym).2 (fun e => by rw [show slot h.books sym = some d from hd] at e; cases e)
  obtain ⟨b, hb⟩ := Option.ne_none_iff_exists'.1 ((hx.books sym).1 hm)
  have h1 := pit_size (hg.inv hb).1
  have h2 := pit_size (hh.inv hd).1
  rw [← hx.pits sym b hb] at h1
  rw [← hy.pits sym d hd] at h2
  have h4 : (c.board (x.pits sym).board).size = volume d := h2
  rw [size_map] at h4
  have h3 : volume b = volume d := h1.symm.trans h4
  have := hf b hb
  omega

theorem admissible {x : Venue} {g h : Mgr} (hx : Seats x g) (hg : MInv g) (hy : Seats (c.venue x) h) (hh : MInv h) {op : Op}
    (ha : g.Admissible op) : h.Admissible (c.op op) := by
  have get : ∀ {id q : Nat}, (∀ o, g.getOrder id = some o → g.Fits o.symbolId q) → ∀ o, h.getOrder (c.id id) = some o → h.Fits o.symbolId q := by
    intro id q hf o ho
    rw [hh.getOrder, ← hy.find hh, find_map, hx.find hg, ← hg.getOrder] at ho
    obtain ⟨r, h1, rfl⟩ := Option.map_eq_some_iff.1 ho
    exact c.fitsIn hx hg hy hh (hf r h1)
  cases op with
  | addSymbol s => exact ha
  | addOrderBook s =>
    intro hn i o ho e
    rw [hh.getOrder] at ho
    have hid := (hh.orders i o ho).1
    have hm := (hy.orders hh o).2 (by rw [hid]; exact ho)
    rw [orders_map] at hm
    obtain ⟨r, h1, rfl⟩ := List.mem_map.1 hm
    refine ha ?_ r.id r (by rw [hg.getOrder]; exact (hx.orders hg r).1 h1) e
    cases hb : g.getBook s.id with
    | none => rfl
    | some b =>
      have h1 : s.id ∈ x.books := (hx.books _).2 (fun e => by rw [show slot g.books s.id = some b from hb] at e; cases e)
      exact absurd hn ((hy.books _).1 h1)
  | addOrder o => exact ⟨c.repr ha.1, c.fitsIn hx hg hy hh ha.2⟩
  | modifyOrder id a q => exact ⟨ha.1, ha.2.1, get ha.2.2⟩
  | mitigateOrder id a q => exact ⟨ha.1, ha.2.1, get ha.2.2⟩
  | replaceOrder id n a q => exact ⟨(c.fits _ ha.1).1, ha.2.1, ha.2.2.1, get ha.2.2.2⟩
  | replaceWith id o => exact ⟨c.repr ha.1, c.fitsIn hx hg hy hh ha.2⟩
  | deleteSymbol _ => trivial
  | deleteOrderBook _ => trivial
  | reduceOrder _ _ => trivial
  | deleteOrder _ => trivial
  | executeOrder _ _ => trivial
  | executeOrderAt _ _ _ => trivial
  | enableMatching => trivial
  | disableMatching => trivial
  | matchAll => trivial

theorem records {g g' : Mgr} {l} (hl : Mgr.Records g l g') : ∀ {x : Venue} {h : Mgr}, Seats x g → MInv g → Seats (c.venue x) h → MInv h →
    (∀ r ∈ l, c.SameValidity r.1) →
    ∃ (h' : Mgr) (x' : Venue), Mgr.Records h (l.map c.entry) h' ∧ Seats x' g' ∧ MInv g' ∧ Seats (c.venue x') h' ∧ MInv h' := by
  induction hl with
  | nil => intro x h hx hg hy hh _; exact ⟨h, x, .nil, hx, hg, hy, hh⟩
  | cons ha hs hev _ ih =>
    rename_i g g1 g' op e evs l _
    intro x h hx hg hy hh hv
    have hE := hx.step hg ha hs
    obtain ⟨evs', a1, a2⟩ := hE.ev
    rw [hev] at a1
    cases List.append_cancel_left a1
    have ha' := c.admissible hx hg hy hh ha
    obtain ⟨h1, e1, hs1, _⟩ := step_ok hh _ ha'
    have hF := hy.step hh ha' hs1
    rw [c.call_map x (hv _ (List.mem_cons_self ..))] at hF
    obtain ⟨evs1, b1, b2⟩ := hF.ev
    have : e1 = e := by rw [← hE.code]; exact hF.code.symm
    subst this
    obtain ⟨h', x', c1, r⟩ := ih hE.seats hE.inv hF.seats hF.inv (fun r h => hv r (List.mem_cons_of_mem _ h))
    refine ⟨h', x', ?_, r⟩
    show Mgr.Records h ((c.op op, e1, (execsOf evs).map c.exec) :: l.map c.entry) h'
    have : (execsOf evs).map c.exec = execsOf evs1 := by rw [b2, a2]; rfl
    rw [this]
    exact .cons ha' hs1 b1 c1

end Recast

/-- C62. The same calls with other order ids and other visible quantities, where every order is as valid as before: the
same error codes, the same executions of the orders with their new ids, and afterwards the same lines and prices. -/
theorem C62_recast (c : Recast) {g : Mgr} {l : List (Op × ErrorCode × List Execution)} (hl : Mgr.Records Mgr.init l g)
    (hv : ∀ r ∈ l, c.SameValidity r.1) :
    ∃ h : Mgr, Mgr.Records Mgr.init (l.map c.entry) h ∧
      h.matching = g.matching ∧
      (∀ id, h.getOrder (c.id id) = (g.getOrder id).map c.order) ∧
      ∀ s, (h.getSymbol s = none ↔ g.getSymbol s = none) ∧ (h.getBook s = none ↔ g.getBook s = none) ∧
        (∀ k, h.lines s k = (g.lines s k).map c.order) ∧
        ∀ b d, g.getBook s = some b → h.getBook s = some d →
          d.marketBid = b.marketBid ∧ d.marketAsk = b.marketAsk ∧ d.marketTrailBid = b.marketTrailBid ∧ d.marketTrailAsk = b.marketTrailAsk := by
  have e0 : c.venue Venue.init = Venue.init := rfl
  obtain ⟨h, x, h1, hx, hg, hy, hh⟩ := c.records hl seats_init MInv.init (h := Mgr.init) (by rw [e0]; exact seats_init) MInv.init hv
  have books : ∀ s, h.getBook s = none ↔ g.getBook s = none := by
    intro s
    have a : s ∈ x.books ↔ slot h.books s ≠ none := hy.books s
    have b := hx.books s
    constructor
    · intro e; exact Classical.byContradiction fun n => a.1 (b.2 n) e
    · intro e; exact Classical.byContradiction fun n => b.1 (a.2 n) e
  have pits : ∀ s b d, g.getBook s = some b → h.getBook s = some d → (h.core d).pit = c.pit (g.core b).pit := by
    intro s b d hb hd
    rw [← hx.pits s b hb, ← hy.pits s d hd]
    rfl
  refine ⟨h, h1, ?_, ?_, ?_⟩
  · rw [← hx.matching, ← hy.matching]; rfl
  · intro id; rw [hh.getOrder, hg.getOrder, ← hy.find hh, ← hx.find hg]; exact c.find_map x id
  · intro s
    refine ⟨?_, books s, ?_, ?_⟩
    · have a : s ∈ x.symbols ↔ slot h.symbols s ≠ none := hy.symbols s
      have b := hx.symbols s
      constructor
      · intro e; exact Classical.byContradiction fun n => a.1 (b.2 n) e
      · intro e; exact Classical.byContradiction fun n => b.1 (a.2 n) e
    · intro k
      cases hb : g.getBook s with
      | none => rw [lines_none (g := g) hb, lines_none (g := h) ((books s).2 hb)]; rfl
      | some b =>
        cases hd : h.getBook s with
        | none => rw [(books s).1 hd] at hb; cases hb
        | some d =>
          rw [lines_board hg hb, lines_board hh hd]
          show (h.core d).pit.board k = _
          rw [pits s b d hb hd]
          rfl
    · intro b d hb hd
      have h1 := (hg.inv hb).1
      have h2 := (hh.inv hd).1
      have hp := pits s b d hb hd
      have a1 := pit_bid h2
      have a2 := pit_ask h2
      have a3 := pit_trailBid h2
      have a4 := pit_trailAsk h2
      rw [hp, Recast.bid_map] at a1
      rw [hp, Recast.ask_map] at a2
      rw [hp, Recast.trailBid_map] at a3
      rw [hp, Recast.trailAsk_map] at a4
      exact ⟨a1.symm.trans (pit_bid h1), a2.symm.trans (pit_ask h1), a3.symm.trans (pit_trailBid h1), a4.symm.trans (pit_trailAsk h1)⟩

theorem validate_id {o : Order} {n : Nat} (h : n = 0 ↔ o.id = 0) : ({ o with id := n } : Order).validate = o.validate := by
  by_cases e : o.id = 0
  · have e' := h.2 e
    unfold Order.validate
    rw [if_pos e, if_pos e']
  · have e' : ¬ n = 0 := fun x => e (h.1 x)
    unfold Order.validate
    rw [if_neg e, if_neg e']
    rfl

/-- Ids are only names: any injective renaming that keeps zero, the id that is never valid, and fits 64 bits changes
nothing but the names. -/
theorem C62_ids (f : Nat → Nat) (inj : ∀ a b, f a = f b → a = b) (zero : f 0 = 0) (fits : ∀ a, a < W64 → f a < W64)
    {g : Mgr} {l : List (Op × ErrorCode × List Execution)} (hl : Mgr.Records Mgr.init l g) :
    ∃ h : Mgr, Mgr.Records Mgr.init (l.map (Recast.entry ⟨f, fun v => v, inj, zero, fun a ha => ⟨fits a ha, ha⟩⟩)) h ∧
      (∀ id, h.getOrder (f id) = (g.getOrder id).map (fun o => { o with id := f o.id })) ∧
      ∀ s k, h.lines s k = (g.lines s k).map (fun o => { o with id := f o.id }) := by
  have hv : ∀ r ∈ l, Recast.SameValidity ⟨f, fun v => v, inj, zero, fun a ha => ⟨fits a ha, ha⟩⟩ r.1 := by
    intro r _
    have key : ∀ o : Order, ({ o with id := f o.id } : Order).validate = o.validate := fun o =>
      validate_id ⟨fun e => inj _ _ (by rw [e, zero]), fun e => by rw [e, zero]⟩
    cases r.1 <;> first | exact key _ | exact trivial
  obtain ⟨h, h1, _, h2, h3⟩ := C62_recast _ hl hv
  exact ⟨h, h1, h2, fun s k => (h3 s).2.2.1 k⟩

/-- A type of order that may be an iceberg order. -/
def Order.mayHide (o : Order) : Prop := o.type = .limit ∨ o.type = .stopLimit ∨ o.type = .trailingStopLimit

theorem validate_visible {o : Order} {v : Nat} (h : o.mayHide) : ({ o with maxVisible := v } : Order).validate = o.validate := by
  have h1 : o.isMarket = false := by rcases h with h | h | h <;> simp [Order.isMarket, h]
  have h2 : (o.isStop || o.isTrailingStop) = false := by rcases h with h | h | h <;> simp [Order.isStop, Order.isTrailingStop, h]
  have a : ({ o with maxVisible := v } : Order).isMarket = false := h1
  have b : (({ o with maxVisible := v } : Order).isStop || ({ o with maxVisible := v } : Order).isTrailingStop) = false := h2
  unfold Order.validate
  rw [h1, h2, a, b]
  rfl

/-- The visible quantity is for show: if only orders that may be iceberg orders have one, showing all orders completely
changes no error code, no execution (its quantity, price or order), no line and no price. -/
theorem C62_visible {g : Mgr} {l : List (Op × ErrorCode × List Execution)} (hl : Mgr.Records Mgr.init l g)
    (hv : ∀ r ∈ l, ∀ o, r.1 = .addOrder o ∨ (∃ id, r.1 = .replaceWith id o) → o.mayHide ∨ o.maxVisible = MAX64) :
    ∃ h : Mgr, Mgr.Records Mgr.init (l.map (Recast.entry ⟨fun i => i, fun _ => MAX64, fun _ _ h => h, rfl, fun a ha => ⟨ha, by decide⟩⟩)) h ∧
      (∀ id, h.getOrder id = (g.getOrder id).map (fun o => { o with maxVisible := MAX64 })) ∧
      ∀ s k, h.lines s k = (g.lines s k).map (fun o => { o with maxVisible := MAX64 }) := by
  have hv' : ∀ r ∈ l, Recast.SameValidity ⟨fun i => i, fun _ => MAX64, fun _ _ h => h, rfl, fun a ha => ⟨ha, by decide⟩⟩ r.1 := by
    intro r hr
    have hk := hv r hr
    have key : ∀ o : Order, o.mayHide ∨ o.maxVisible = MAX64 → ({ o with maxVisible := MAX64 } : Order).validate = o.validate := by
      intro o h
      rcases h with h | h
      · exact validate_visible h
      · rw [show ({ o with maxVisible := MAX64 } : Order) = o by rw [← h]]
    generalize r.1 = op at hk
    cases op with
    | addOrder o => exact key o (hk o (.inl rfl))
    | replaceWith id o => exact key o (hk o (.inr ⟨id, rfl⟩))
    | _ => trivial
  obtain ⟨h, h1, _, h2, h3⟩ := C62_recast _ hl hv'
  exact ⟨h, h1, h2, fun s k => (h3 s).2.2.1 k⟩

/-- A session with an iceberg order, a hidden order and a stop-limit order that shows little. -/
def hiddenSession : List Op := trading ++ [.addOrder (.mkLimit 1 1 .buy 100 10 .gtc 2), .addOrder (.mkLimit 2 1 .buy 100 10 .gtc 0),
  .addOrder (.mkStopLimit 3 1 .sell 95 90 5 .gtc 1), .addOrder (.mkLimit 4 1 .sell 99 13), .replaceWith 2 (.mkLimit 5 1 .buy 97 4 .gtc 3), .deleteOrder 5,
  .addOrder (.mkLimit 6 1 .buy 91 9)]

/-- C62 applies to the session, for shifted ids and for completely shown orders; its executions are not trivial. -/
example : ∃ (g : Mgr) (l : List (Op × ErrorCode × List Execution)), Mgr.Records Mgr.init l g ∧ l.map (·.1) = hiddenSession ∧
    (∀ r ∈ l, ∀ o, r.1 = .addOrder o ∨ (∃ id, r.1 = .replaceWith id o) → o.mayHide ∨ o.maxVisible = MAX64) ∧
    (l.map (fun r => (r.2.1, r.2.2.map (fun (x : Execution) => (x.1.id, x.2))))).drop 3 =
      [(.ok, []), (.ok, []), (.ok, []), (.ok, [(1, 100, 10), (4, 100, 10), (2, 100, 3), (4, 100, 3)]),
       (.ok, [(3, 90, 4), (5, 90, 4)]), (.orderNotFound, []), (.ok, [(3, 90, 1), (6, 90, 1)])] := by
  cases hc : checkRun true Mgr.init hiddenSession with
  | none =>
    have : (checkRun true Mgr.init hiddenSession).isSome = true := by decide +kernel
    rw [hc] at this; cases this
  | some g =>
    obtain ⟨l, h1, h2⟩ := checkRun_records .init (fun _ _ => rfl) hc
    refine ⟨g, l, h1, h2, ?_, ?_⟩
    · intro r hr o ho
      have hm : r.1 ∈ hiddenSession := by rw [← h2]; exact List.mem_map_of_mem hr
      have hall : ∀ op ∈ hiddenSession, ∀ o, op = .addOrder o ∨ (∃ id, op = .replaceWith id o) → o.type = .limit ∨ o.type = .stopLimit := by
        intro op hop o ho
        simp [hiddenSession, trading, opening] at hop
        rcases hop with rfl | rfl | rfl | rfl | rfl | rfl | rfl | rfl | rfl | rfl <;>
          (rcases ho with h | ⟨_, h⟩ <;> cases h) <;> simp [Order.mkLimit, Order.mkStopLimit, Order.mk']
      exact .inl ((hall _ hm o ho).imp id .inl)
    · have h4 := (seats_init.records MInv.init h1).1
      rw [h2] at h4
      have : l.map (fun r => (r.2.1, r.2.2.map (fun (x : Execution) => (x.1.id, x.2)))) =
          (l.map (·.2)).map (fun r => (r.1, r.2.map (fun (x : Execution) => (x.1.id, x.2)))) := by
        rw [List.map_map]; rfl
      rw [this, h4]
      decide +kernel

end CppTrader
