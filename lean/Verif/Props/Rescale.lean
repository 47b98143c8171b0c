import Verif.Proof.RescaleVenue
import Verif.Props.Redraw
/-
C79: neither the price scale nor the lot size matters, for all types of orders.
-/

namespace CppTrader
open Core Budget

namespace Rescale
variable (c : Rescale)

theorem ready_set {x : Venue} {g h : Mgr} (hx : Seats x g) (hg : MInv g) (hy : Seats (c.venue x) h) (hh : MInv h) (hc : c.Clean x) : c.Set x where
  clean := hc
  sound := hx.sound hg
  placed := hx.placed hg
  fits s hs := by
    have := ((hy.sound hh).fine s hs).fits
    rw [← size_map]; exact this
  live s hs := by
    intro k r hr
    obtain ⟨b, hb⟩ := Option.ne_none_iff_exists'.1 ((hx.books s).1 hs)
    rw [hx.pits s b hb] at hr
    have := (pit_orders hg hb).1 (board_orders.2 ⟨k, hr⟩)
    exact (hg.orders _ r this.1).2.leaves

theorem room {x : Venue} {g h : Mgr} (hx : Seats x g) (hg : MInv g) (hy : Seats (c.venue x) h) (hh : MInv h) {op : Op}
    (ha' : h.Admissible (c.op op)) (hm : ∀ id p q o, op = .mitigateOrder id p q → g.getOrder id = some o → c.lot = 1 ∨ c.lot * o.executed < W64) :
    c.Room x op := by
  have size : ∀ {s q : Nat}, s ∈ x.books → h.Fits s (c.lot * q) → c.lot * ((x.pits s).board.size + q) < W64 := by
    intro s q hs hf
    have := hy.size hh (s := s) hs hf
    rw [show ((c.venue x).pits s).board = c.board (x.pits s).board from rfl, size_map, ← Nat.mul_add] at this
    exact this
  have found : ∀ {id o}, x.find id = some o → h.getOrder id = some (c.ofOrder o) := by
    intro id o ho
    rw [hh.getOrder, ← hy.find hh, find_map, ho]; rfl
  cases op with
  | addOrder o => exact fun hs => size hs ha'.2
  | replaceWith id o => exact fun hs => size hs ha'.2
  | modifyOrder id p q => exact fun o ho hs => size hs (ha'.2.2 (c.ofOrder o) (found ho))
  | replaceOrder id n p q => exact fun o ho hs => size hs (ha'.2.2.2 (c.ofOrder o) (found ho))
  | mitigateOrder id p q =>
    exact fun o ho => ⟨hm id p q o rfl (by rw [hg.getOrder, ← hx.find hg]; exact ho), fun hs => size hs (ha'.2.2 (c.ofOrder o) (found ho))⟩
  | _ => trivial

/-- The states correspond. -/
structure Pair (x : Venue) (g h : Mgr) : Prop where
  first : Seats x g
  inv : MInv g
  second : Seats (c.venue x) h
  inv' : MInv h
  clean : c.Clean x

theorem Pair.step {c : Rescale} {x : Venue} {g h : Mgr} (hp : c.Pair x g h) {op : Op} (hk : c.SamePrices ∨ c.Keeps op)
    (ha : g.Admissible op) (ha' : h.Admissible (c.op op)) (hm : ∀ id p q o, op = .mitigateOrder id p q → g.getOrder id = some o → c.lot = 1 ∨ c.lot * o.executed < W64)
    {g1 h1 : Mgr} {e e' : ErrorCode} {evs evs' : List Event} (hs : g.step op = .ok (g1, e)) (hs' : h.step (c.op op) = .ok (h1, e'))
    (hev : g1.ev = g.ev ++ evs) (hev' : h1.ev = h.ev ++ evs') :
    e' = e ∧ execsOf evs' = (execsOf evs).map c.ofExec ∧ ∃ x', c.Pair x' g1 h1 := by
  obtain ⟨hx, hg, hy, hh, hc⟩ := hp
  have hset := c.ready_set hx hg hy hh hc
  have hroom := c.room hx hg hy hh ha' hm
  have hd : ∀ id o, op = .replaceWith id o → c.Set (x.delete id).2.2 := by
    intro id o _
    obtain ⟨g2, e2, hs2, _⟩ := step_ok hg (.deleteOrder id) trivial
    obtain ⟨h2, e3, hs3, _⟩ := step_ok hh (.deleteOrder id) trivial
    have hE := hx.step hg (op := .deleteOrder id) trivial hs2
    have hF := hy.step hh (op := .deleteOrder id) trivial hs3
    obtain ⟨d1, d2⟩ := c.delete_map hset id
    have e1 : x.call (.deleteOrder id) = x.delete id := rfl
    have e2 : (c.venue x).call (.deleteOrder id) = (c.venue x).delete id := rfl
    rw [e1] at hE
    rw [e2, d1] at hF
    exact c.ready_set hE.seats hE.inv hF.seats hF.inv d2
  obtain ⟨m1, m2⟩ := c.call_map hset hk hroom hd
  have hE := hx.step hg ha hs
  have hF := hy.step hh ha' hs'
  rw [m1] at hF
  obtain ⟨es, a1, a2⟩ := hE.ev
  rw [hev] at a1
  cases List.append_cancel_left a1
  obtain ⟨es', b1, b2⟩ := hF.ev
  rw [hev'] at b1
  cases List.append_cancel_left b1
  exact ⟨hF.code.symm.trans hE.code, by rw [b2, a2]; rfl, _, hE.seats, hE.inv, hF.seats, hF.inv, m2⟩

theorem pair_init : c.Pair Venue.init Mgr.init Mgr.init := by
  have e : c.venue Venue.init = Venue.init := by
    show (⟨false, [], [], fun _ => c.pit .empty, []⟩ : Venue) = ⟨false, [], [], fun _ => .empty, []⟩
    rw [c.empty_map.1]
  exact ⟨seats_init, MInv.init, by rw [e]; exact seats_init, MInv.init, fun _ => c.empty_map.2, fun o ho => nomatch ho⟩

theorem records {g g' : Mgr} {l} (hl : Mgr.Records g l g') : ∀ {x : Venue} {h h' : Mgr} {l'}, c.Pair x g h → Mgr.Records h l' h' →
    l'.map (·.1) = l.map (fun r => c.op r.1) → (∀ r ∈ l, c.SamePrices ∨ c.Keeps r.1) → (c.lot = 1 ∨ c.Counted g l) →
    l' = l.map c.entry ∧ ∃ x', c.Pair x' g' h' := by
  induction hl with
  | nil =>
    intro x h h' l' hp hl' he _ _
    cases hl' with
    | nil => exact ⟨rfl, x, hp⟩
    | cons _ _ _ _ => cases he
  | cons ha hs hev hl ih =>
    rename_i g g1 g' op e evs l
    intro x h h' l' hp hl' he hk hm
    cases hl' with
    | nil => cases he
    | cons ha' hs' hev' hl' =>
      rename_i h1 op' e' evs' l'
      obtain ⟨he1, he2⟩ := List.cons.inj he
      simp only at he1
      subst he1
      have hm1 : ∀ id p q o, op = .mitigateOrder id p q → g.getOrder id = some o → c.lot = 1 ∨ c.lot * o.executed < W64 := by
        intro id p q o eo ho
        refine hm.imp (fun h => h) (fun hm => ?_)
        subst eo
        exact hm [] l id p q e (execsOf evs) g o rfl .nil ho
      have hm2 : c.lot = 1 ∨ c.Counted g1 l := hm.imp (fun h => h) (fun hm l1 l2 id p q e1 xs g2 o el hr ho =>
        hm ((op, e, execsOf evs) :: l1) l2 id p q e1 xs g2 o (by rw [el]; rfl) (.cons ha hs hev hr) ho)
      obtain ⟨s1, s2, x', hp'⟩ := hp.step (hk _ List.mem_cons_self) ha ha' hm1 hs hs' hev hev'
      obtain ⟨i1, i2⟩ := ih hp' hl' he2 (fun r hr => hk r (List.mem_cons_of_mem _ hr)) hm2
      refine ⟨?_, i2⟩
      rw [i1, s1, s2]; rfl

/-! ### The same quantities: the second session is possible -/

theorem price_fits {p : Nat} (h : p < W64) (hu : c.used p) : c.price p < W64 := by
  have hw : W64 = MAX64 + 1 := rfl
  rcases hu with hu | hu
  · rw [hu p]; exact h
  · have := (c.order p MAX64 hu c.top.1).2 (by omega)
    rw [c.top.2] at this; omega

theorem admissible (h1 : c.lot = 1) {x : Venue} {g h : Mgr} (hp : c.Pair x g h) {op : Op} (hk : c.SamePrices ∨ c.Keeps op) (ha : g.Admissible op) : h.Admissible (c.op op) := by
  obtain ⟨hx, hg, hy, hh, hc⟩ := hp
  have fits : ∀ {s q : Nat}, g.Fits s q → h.Fits s (c.lot * q) := by
    intro s q hf d hd
    have hm : s ∈ (c.venue x).books := (hy.books s).2 (fun e => by rw [show slot h.books s = some d from hd] at e; cases e)
    obtain ⟨b, hb⟩ := Option.ne_none_iff_exists'.1 ((hx.books s).1 hm)
    have v1 := pit_size (hg.inv hb).1
    have v2 := pit_size (hh.inv hd).1
    rw [← hx.pits s b hb] at v1
    rw [← hy.pits s d hd] at v2
    have v4 : (c.board (x.pits s).board).size = volume d := v2
    rw [size_map, h1, Nat.one_mul] at v4
    have v3 : volume b = volume d := v1.symm.trans v4
    have := hf b hb
    rw [h1]; omega
  have get : ∀ {id q : Nat}, (∀ o, g.getOrder id = some o → g.Fits o.symbolId q) → ∀ o, h.getOrder id = some o → h.Fits o.symbolId (c.lot * q) := by
    intro id q hf o ho
    rw [hh.getOrder, ← hy.find hh, find_map, hx.find hg, ← hg.getOrder] at ho
    obtain ⟨r, e1, rfl⟩ := Option.map_eq_some_iff.1 ho
    exact fits (hf r e1)
  have repr : ∀ {o : Order}, o.Repr64 → c.Good o → (c.ofOrder o).Repr64 := by
    intro o ⟨r1, r2, r3, r4, r5, r6, r7, r8, r9, r10⟩ ho
    have e5 : (c.ofOrder o).quantity = o.quantity := by show c.lot * o.quantity = _; rw [h1]; omega
    have e6 : (c.ofOrder o).executed = o.executed := by show c.counter o.executed = _; unfold counter; rw [if_pos h1]
    have e7 : (c.ofOrder o).leaves = o.leaves := by show c.lot * o.leaves = _; rw [h1]; omega
    exact ⟨r1, r2, c.price_fits r3 ho.price, c.price_fits r4 ho.stop, by rw [e5]; exact r5, by rw [e6]; exact r6, by rw [e7]; exact r7, r8, r9, r10⟩
  have qty : ∀ {q : Nat}, q < W64 → c.lot * q < W64 := by intro q hq; rw [h1]; omega
  cases op with
  | addSymbol s => exact ha
  | addOrderBook s =>
    intro hn i o ho e
    rw [hh.getOrder] at ho
    have hid := (hh.orders i o ho).1
    have hm := (hy.orders hh o).2 (by rw [hid]; exact ho)
    rw [orders_map] at hm
    obtain ⟨r, e1, rfl⟩ := List.mem_map.1 hm
    refine ha ?_ r.id r (by rw [hg.getOrder]; exact (hx.orders hg r).1 e1) e
    cases hb : g.getBook s.id with
    | none => rfl
    | some b =>
      have e1 : s.id ∈ x.books := (hx.books _).2 (fun e => by rw [show slot g.books s.id = some b from hb] at e; cases e)
      exact absurd hn ((hy.books _).1 e1)
  | addOrder o => exact ⟨repr ha.1 hk, fits ha.2⟩
  | modifyOrder id a q => exact ⟨c.price_fits ha.1 hk, qty ha.2.1, get ha.2.2⟩
  | mitigateOrder id a q => exact ⟨c.price_fits ha.1 hk, qty ha.2.1, get ha.2.2⟩
  | replaceOrder id n a q => exact ⟨ha.1, c.price_fits ha.2.1 hk, qty ha.2.2.1, get ha.2.2.2⟩
  | replaceWith id o => exact ⟨repr ha.1 hk, fits ha.2⟩
  | deleteSymbol _ => trivial
  | deleteOrderBook _ => trivial
  | reduceOrder _ _ => trivial
  | deleteOrder _ => trivial
  | executeOrder _ _ => trivial
  | executeOrderAt _ _ _ => trivial
  | enableMatching => trivial
  | disableMatching => trivial
  | matchAll => trivial

theorem possible (h1 : c.lot = 1) {g g' : Mgr} {l} (hl : Mgr.Records g l g') : ∀ {x : Venue} {h : Mgr}, c.Pair x g h → (∀ r ∈ l, c.SamePrices ∨ c.Keeps r.1) →
    ∃ (h' : Mgr) (l' : List (Op × ErrorCode × List Execution)), Mgr.Records h l' h' ∧ l'.map (·.1) = l.map (fun r => c.op r.1) := by
  induction hl with
  | nil => intro x h _ _; exact ⟨h, [], .nil, rfl⟩
  | cons ha hs hev hl ih =>
    rename_i g g1 g' op e evs l
    intro x h hp hk
    have ha' := c.admissible h1 hp (hk _ List.mem_cons_self) ha
    obtain ⟨d1, e1, hs', _⟩ := step_ok hp.inv' _ ha'
    obtain ⟨evs', hev', _⟩ := (hp.second.step hp.inv' ha' hs').ev
    obtain ⟨_, _, x', hp'⟩ := hp.step (hk _ List.mem_cons_self) ha ha' (fun _ _ _ _ _ _ => .inl h1) hs hs' hev hev'
    obtain ⟨h', l', r1, r2⟩ := ih hp' (fun r hr => hk r (List.mem_cons_of_mem _ hr))
    exact ⟨h', (c.op op, e1, execsOf evs') :: l', .cons ha' hs' hev' r1, by rw [List.map_cons, List.map_cons, r2]⟩

end Rescale

/-- C79. Two sessions from the empty manager, the second with the calls of the first on another price scale and in another lot size.
The prices stay as they are, or all the prices of the first session are among those in use, and nothing is calculated with them: there are
no trailing orders and no slippage limits. Then every call of the second session has the same result code and the executions of
the first one on the new scale, and afterwards the same holds of the orders found by id, the lines and the market prices. Orders of all
types, All-Or-None orders and crossed books included. -/
theorem C79_rescale (c : Rescale) {g h : Mgr} {l l' : List (Op × ErrorCode × List Execution)}
    (hl : Mgr.Records Mgr.init l g) (hl' : Mgr.Records Mgr.init l' h) (ho : l'.map (·.1) = l.map (fun r => c.op r.1))
    (hk : c.SamePrices ∨ ∀ r ∈ l, c.Keeps r.1) (hm : c.lot = 1 ∨ c.Counted Mgr.init l) :
    l' = l.map c.entry ∧
    h.matching = g.matching ∧
    (∀ id, h.getOrder id = (g.getOrder id).map c.ofOrder) ∧
    ∀ s, (h.getSymbol s = none ↔ g.getSymbol s = none) ∧ (h.getBook s = none ↔ g.getBook s = none) ∧
      (∀ k, h.lines s k = (g.lines s k).map c.ofOrder) ∧
      ∀ b d, g.getBook s = some b → h.getBook s = some d →
        d.marketBid = c.price b.marketBid ∧ d.marketAsk = c.price b.marketAsk ∧
        d.marketTrailBid = c.price b.marketTrailBid ∧ d.marketTrailAsk = c.price b.marketTrailAsk := by
  have hk' : ∀ r ∈ l, c.SamePrices ∨ c.Keeps r.1 := fun r hr => hk.imp (fun h => h) (fun h => h r hr)
  obtain ⟨h1, x, hx, hg, hy, hh, hc⟩ := c.records hl c.pair_init hl' ho hk' hm
  have books : ∀ s, h.getBook s = none ↔ g.getBook s = none := by
    intro s
    have a : s ∈ x.books ↔ slot h.books s ≠ none := hy.books s
    have b := hx.books s
    constructor
    · intro e; exact Classical.byContradiction fun n => a.1 (b.2 n) e
    · intro e; exact Classical.byContradiction fun n => b.1 (a.2 n) e
  have pits : ∀ s b d, g.getBook s = some b → h.getBook s = some d → (h.core d).pit = c.pit (g.core b).pit ∧ c.Tidy (g.core b).pit := by
    intro s b d hb hd
    rw [← hx.pits s b hb, ← hy.pits s d hd]
    exact ⟨rfl, hc.pits s⟩
  refine ⟨h1, ?_, ?_, ?_⟩
  · rw [← hx.matching, ← hy.matching]; rfl
  · intro id; rw [hh.getOrder, hg.getOrder, ← hy.find hh, ← hx.find hg]; exact c.find_map x id
  · intro s
    refine ⟨?_, books s, ?_, ?_⟩
    · have a : s ∈ x.symbols ↔ slot h.symbols s ≠ none := hy.symbols s
      have b := hx.symbols s
      constructor
      · intro e; exact Classical.byContradiction fun n => a.1 (b.2 n) e
      · intro e; exact Classical.byContradiction fun n => b.1 (a.2 n) e
    · intro k
      cases hb : g.getBook s with
      | none => rw [lines_none (g := g) hb, lines_none (g := h) ((books s).2 hb)]; rfl
      | some b =>
        cases hd : h.getBook s with
        | none => rw [(books s).1 hd] at hb; cases hb
        | some d =>
          rw [lines_board hg hb, lines_board hh hd]
          show (h.core d).pit.board k = _
          rw [(pits s b d hb hd).1]
          rfl
    · intro b d hb hd
      have i1 := (hg.inv hb).1
      have i2 := (hh.inv hd).1
      obtain ⟨hp, ht⟩ := pits s b d hb hd
      have a1 := pit_bid i2
      have a2 := pit_ask i2
      have a3 := pit_trailBid i2
      have a4 := pit_trailAsk i2
      rw [hp, (c.bid_map ht).1, pit_bid i1] at a1
      rw [hp, (c.ask_map ht).1, pit_ask i1] at a2
      rw [hp, (c.trailBid_map ht).1, pit_trailBid i1] at a3
      rw [hp, (c.trailAsk_map ht).1, pit_trailAsk i1] at a4
      exact ⟨a1.symm, a2.symm, a3.symm, a4.symm⟩

/-- C79, the lot size: `k` times all quantities give the same result codes, prices and orders, and `k` times the executed quantities,
whatever the types of the orders. -/
theorem C79_lots (k : Nat) (hk : 0 < k) {g h : Mgr} {l l' : List (Op × ErrorCode × List Execution)}
    (hl : Mgr.Records Mgr.init l g) (hl' : Mgr.Records Mgr.init l' h) (ho : l'.map (·.1) = l.map (fun r => (Rescale.lots k hk).op r.1))
    (hm : (Rescale.lots k hk).Counted Mgr.init l) :
    l' = l.map (fun r => ((Rescale.lots k hk).op r.1, r.2.1, r.2.2.map (fun (x : Execution) => ((Rescale.lots k hk).ofOrder x.1, x.2.1, k * x.2.2)))) ∧
    (∀ id, h.getOrder id = (g.getOrder id).map (Rescale.lots k hk).ofOrder) ∧
    (∀ s d, h.lines s d = (g.lines s d).map (Rescale.lots k hk).ofOrder) ∧
    ∀ s b d, g.getBook s = some b → h.getBook s = some d →
      d.marketBid = b.marketBid ∧ d.marketAsk = b.marketAsk ∧ d.marketTrailBid = b.marketTrailBid ∧ d.marketTrailAsk = b.marketTrailAsk := by
  obtain ⟨h1, _, h3, h4⟩ := C79_rescale _ hl hl' ho (.inl fun _ => rfl) (.inr hm)
  exact ⟨h1, h3, fun s => (h4 s).2.2.1, fun s => (h4 s).2.2.2⟩

/-- C79, the price scale: only the order of the prices matters. The calls of a session without trailing orders and slippage limits are possible
on any other scale, where they have the same result codes and the same executions at the new prices. -/
theorem C79_prices (f : Nat → Nat) (P : Nat → Prop) (hf : ∀ a b, P a → P b → (f a ≤ f b ↔ a ≤ b)) (h0 : P 0 ∧ f 0 = 0) (h1 : P MAX64 ∧ f MAX64 = MAX64)
    (hw : ∀ a, P a → a ≤ MAX64) {g : Mgr} {l : List (Op × ErrorCode × List Execution)} (hl : Mgr.Records Mgr.init l g)
    (hk : ∀ r ∈ l, (Rescale.prices f P hf h0 h1 hw).Keeps r.1) :
    ∃ h : Mgr, Mgr.Records Mgr.init (l.map (Rescale.prices f P hf h0 h1 hw).entry) h ∧
      (∀ id, h.getOrder id = (g.getOrder id).map (fun o => { o with price := f o.price, stopPrice := f o.stopPrice })) ∧
      (∀ s k, h.lines s k = (g.lines s k).map (fun o => { o with price := f o.price, stopPrice := f o.stopPrice })) ∧
      ∀ s b d, g.getBook s = some b → h.getBook s = some d →
        d.marketBid = f b.marketBid ∧ d.marketAsk = f b.marketAsk ∧ d.marketTrailBid = f b.marketTrailBid ∧ d.marketTrailAsk = f b.marketTrailAsk := by
  obtain ⟨h, l', r1, r2⟩ := (Rescale.prices f P hf h0 h1 hw).possible rfl hl (Rescale.prices f P hf h0 h1 hw).pair_init (fun r hr => .inr (hk r hr))
  obtain ⟨e1, _, e3, e4⟩ := C79_rescale _ hl r1 r2 (.inr hk) (.inl rfl)
  have eo : (Rescale.prices f P hf h0 h1 hw).ofOrder = fun o => { o with price := f o.price, stopPrice := f o.stopPrice } := by
    funext o
    have e1 : 1 * o.quantity = o.quantity := Nat.one_mul _
    have e2 : 1 * o.leaves = o.leaves := Nat.one_mul _
    exact (Order.mk.injEq ..).mpr ⟨rfl, rfl, rfl, rfl, rfl, rfl, e1, rfl, e2, rfl, rfl, rfl, rfl, rfl⟩
  rw [e1] at r1
  exact ⟨h, r1, by rw [← eo]; exact e3, by rw [← eo]; exact fun s => (e4 s).2.2.1, fun s => (e4 s).2.2.2⟩

instance (o : Order) (c : Rescale) [DecidablePred c.ticks] : Decidable (c.Uses o) := by unfold Rescale.Uses; infer_instance
instance (op : Op) (c : Rescale) [DecidablePred c.ticks] : Decidable (c.Keeps op) := by cases op <;> unfold Rescale.Keeps <;> infer_instance

theorem smallPrice_top (a : Nat) (h : smallPrice a) : a ≤ MAX64 := by unfold smallPrice at h; omega

/-- From dollars to cents. -/
def Rescale.cents : Rescale := Rescale.prices inCents smallPrice inCents_order (by decide) (by decide) smallPrice_top

instance : DecidablePred Rescale.cents.ticks := fun p => inferInstanceAs (Decidable (smallPrice p))

/-- A session with stop, stop-limit, All-Or-None, Fill-Or-Kill and market orders, a crossed book, a mitigation and an execution by hand. -/
def allTypes : List Op := opening ++ [.addOrder (.mkLimit 1 1 .buy 101 10), .addOrder (.mkLimit 2 1 .buy 100 5 .aon), .addOrder (.mkLimit 3 1 .sell 99 4),
  .addOrder (.mkLimit 4 1 .sell 103 8), .addOrder (.mkStop 5 1 .buy 102 3), .addOrder (.mkStopLimit 6 1 .sell 97 95 4), .enableMatching,
  .mitigateOrder 1 101 9, .addOrder (.mkLimit 7 1 .sell 100 6), .addOrder (.mkLimit 8 1 .sell 96 9 .fok), .executeOrderAt 4 102 1, .addOrder (.mkMarket 9 1 .buy 2), .replaceWith 4 (.mkLimit 10 1 .sell 98 12),
  .addOrder (.mkLimit 11 1 .buy 98 6), .deleteOrder 77, .matchAll]

/-- The same with trailing orders and a market order with a slippage limit. -/
def allTypesTrailed : List Op := allTypes ++ [.addOrder (.mkLimit 20 1 .buy 93 4), .addOrder (.mkTrailingStop 21 1 .sell 90 3 2 1), .addOrder (.mkLimit 22 1 .buy 95 4),
  .addOrder (.mkMarket 23 1 .sell 6 1), .addOrder (.mkLimit 24 1 .sell 93 3), .addOrder (.mkLimit 25 1 .sell 93 3), .addOrder (.mkLimit 26 1 .buy 91 9)]

/-- Check a session. -/
def countedB (k : Nat) : Venue → List Op → Bool
  | _, [] => true
  | x, op :: ops => (match op with
      | .mitigateOrder id _ _ => (x.find id).all (fun o => decide (k * o.executed < W64))
      | _ => true) && countedB k (x.call op).2.2 ops

theorem countedB_sound {c : Rescale} {ops : List Op} : ∀ {x : Venue} {g : Mgr} {l : List (Op × ErrorCode × List Execution)}, Seats x g → MInv g → l.map (·.1) = ops →
    countedB c.lot x ops = true → c.Counted g l := by
  induction ops with
  | nil =>
    intro x g l _ _ he _ l1 l2 id p q e xs g1 o el
    rw [List.map_eq_nil_iff.1 he] at el
    cases l1 <;> cases el
  | cons op ops ih =>
    intro x g l hx hg he hc l1 l2 id p q e xs g1 o el hr ho
    subst el
    unfold countedB at hc
    rw [Bool.and_eq_true] at hc
    cases hr with
    | nil =>
      obtain ⟨h1, _⟩ := List.cons.inj he
      simp only at h1
      subst h1
      have h2 : (x.find id).all (fun o => decide (c.lot * o.executed < W64)) = true := hc.1
      rw [hx.find hg, ← hg.getOrder, ho] at h2
      simpa using h2
    | cons ha hs hev hr =>
      obtain ⟨h1, h2⟩ := List.cons.inj he
      simp only at h1
      subst h1
      have hE := hx.step hg ha hs
      exact ih hE.seats hE.inv h2 hc.2 _ l2 id p q e xs g1 o rfl hr ho

/-- C79_lots applies to the session with seven times the quantities: it has executions of all sorts. -/
example : ∃ (g : Mgr) (l : List (Op × ErrorCode × List Execution)) (h : Mgr) (l' : List (Op × ErrorCode × List Execution)),
    Mgr.Records Mgr.init l g ∧ Mgr.Records Mgr.init l' h ∧ l.map (·.1) = allTypesTrailed ∧
    l'.map (·.1) = l.map (fun r => (Rescale.lots 7 (by decide)).op r.1) ∧ (Rescale.lots 7 (by decide)).Counted Mgr.init l ∧
    (l.map (·.2.2.length)).sum = 24 := by
  obtain ⟨g, l, h, l', h1, h2, h3, h4⟩ := session_pair (ops := allTypesTrailed) (ops' := allTypesTrailed.map (Rescale.lots 7 (by decide)).op) (by decide +kernel) (by decide +kernel)
  refine ⟨g, l, h, l', h1, h2, h3, ?_, countedB_sound seats_init MInv.init h3 (by decide +kernel), ?_⟩
  · rw [h4, ← h3, List.map_map]; rfl
  · have a := (seats_init.records MInv.init h1).1
    rw [h3] at a
    have : l.map (·.2.2.length) = (l.map (·.2)).map (·.2.length) := by rw [List.map_map]; rfl
    rw [this, a]
    decide +kernel

/-- C79_prices applies to the session, from dollars to cents. -/
example : ∃ (g : Mgr) (l : List (Op × ErrorCode × List Execution)), Mgr.Records Mgr.init l g ∧ l.map (·.1) = allTypes ∧
    (∀ r ∈ l, Rescale.cents.Keeps r.1) ∧ (l.map (·.2.2.length)).sum = 14 := by
  obtain ⟨g, l, h, l', h1, h2, h3, h4⟩ := session_pair (ops := allTypes) (ops' := allTypes) (by decide +kernel) (by decide +kernel)
  have hall : ∀ op ∈ allTypes, Rescale.cents.Keeps op := by decide +kernel
  refine ⟨g, l, h1, h3, fun r hr => hall _ (by rw [← h3]; exact List.mem_map_of_mem hr), ?_⟩
  have a := (seats_init.records MInv.init h1).1
  rw [h3] at a
  have : l.map (·.2.2.length) = (l.map (·.2)).map (·.2.length) := by rw [List.map_map]; rfl
  rw [this, a]
  decide +kernel

/-- A market order with a slippage limit of one tick meets two sellers one dollar apart. -/
def oneTick : List Op := trading ++ [.addOrder (.mkLimit 1 1 .sell 100 5), .addOrder (.mkLimit 2 1 .sell 101 5), .addOrder (.mkMarket 3 1 .buy 10 1)]

/-- Slippage limits are distances, not prices: when the prices are rewritten in cents and the slippage limit is not, the order
fills less. -/
theorem C79_slippage_witness : ∃ (g : Mgr) (l : List (Op × ErrorCode × List Execution)) (h : Mgr) (l' : List (Op × ErrorCode × List Execution)),
    Mgr.Records Mgr.init l g ∧ Mgr.Records Mgr.init l' h ∧ l.map (·.1) = oneTick ∧ l'.map (·.1) = l.map (fun r => Rescale.cents.op r.1) ∧
    (l.getLast?.map (fun r => r.2.2.map (fun x => (x.1.id, x.2)))) = some [(1, 100, 5), (3, 100, 5), (2, 101, 5), (3, 101, 5)] ∧
    (l'.getLast?.map (fun r => r.2.2.map (fun x => (x.1.id, x.2)))) = some [(1, 10000, 5), (3, 10000, 5)] := by
  obtain ⟨g, l, h, l', h1, h2, h3, h4⟩ := session_pair (ops := oneTick) (ops' := oneTick.map Rescale.cents.op) (by decide +kernel) (by decide +kernel)
  have a := (seats_init.records MInv.init h1).1
  have b := (seats_init.records MInv.init h2).1
  rw [h3] at a
  rw [h4] at b
  have e : ∀ l : List (Op × ErrorCode × List Execution), l.getLast?.map (fun r => r.2.2.map (fun (x : Execution) => (x.1.id, x.2))) =
      (l.map (·.2)).getLast?.map (fun r => r.2.map (fun (x : Execution) => (x.1.id, x.2))) := by
    intro l
    rw [List.getLast?_map, Option.map_map]
    rfl
  refine ⟨g, l, h, l', h1, h2, h3, ?_, ?_, ?_⟩
  · rw [h4, ← h3, List.map_map]; rfl
  · rw [e, a]; decide +kernel
  · rw [e, b]; decide +kernel

/-- An order that comes with half of the 64-bit range executed is mitigated to five, and somebody buys. -/
def halfRange : List Op := trading ++ [.addOrder { Order.mkLimit 1 1 .sell 100 5 with executed := 9223372036854775808 }, .mitigateOrder 1 100 5,
  .addOrder (.mkLimit 2 1 .buy 100 5 .ioc)]

/-- Without the condition on mitigations the lot size matters: with twice the quantities the counter of the executed quantity wraps to
zero, and the order stays. -/
theorem C79_counter_witness : ∃ (g : Mgr) (l : List (Op × ErrorCode × List Execution)) (h : Mgr) (l' : List (Op × ErrorCode × List Execution)),
    Mgr.Records Mgr.init l g ∧ Mgr.Records Mgr.init l' h ∧ l.map (·.1) = halfRange ∧ l'.map (·.1) = l.map (fun r => (Rescale.lots 2 (by decide)).op r.1) ∧
    (l.getLast?.map (fun r => r.2.2.map (fun x => (x.1.id, x.2)))) = some [] ∧
    (l'.getLast?.map (fun r => r.2.2.map (fun x => (x.1.id, x.2)))) = some [(1, 100, 10), (2, 100, 10)] := by
  obtain ⟨g, l, h, l', h1, h2, h3, h4⟩ := session_pair (ops := halfRange) (ops' := halfRange.map (Rescale.lots 2 (by decide)).op) (by decide +kernel) (by decide +kernel)
  have a := (seats_init.records MInv.init h1).1
  have b := (seats_init.records MInv.init h2).1
  rw [h3] at a
  rw [h4] at b
  have e : ∀ l : List (Op × ErrorCode × List Execution), l.getLast?.map (fun r => r.2.2.map (fun (x : Execution) => (x.1.id, x.2))) =
      (l.map (·.2)).getLast?.map (fun r => r.2.map (fun (x : Execution) => (x.1.id, x.2))) := by
    intro l
    rw [List.getLast?_map, Option.map_map]
    rfl
  refine ⟨g, l, h, l', h1, h2, h3, ?_, ?_, ?_⟩
  · rw [h4, ← h3, List.map_map]; rfl
  · rw [e, a]; decide +kernel
  · rw [e, b]; decide +kernel

end CppTrader
