import Verif.Proof.Shards
import Verif.Props.Textbook
/-
C61: symbols can be divided among several managers.
-/

namespace CppTrader
open Core

theorem Part.fits {d j x y} (p : Part d j x y) {g h : Mgr} (hx : Seats x g) (hg : MInv g) (hy : Seats y h) (hh : MInv h) {sym q : Nat}
    (hs : d.symbol sym = j) (hf : g.Fits sym q) : h.Fits sym q := by
  intro c hc
  have hm : sym ∈ y.books := (hy.books sym).2 (fun e => by rw [show slot h.books sym = some c from hc] at e; cases e)
  obtain ⟨b, hb⟩ := Option.ne_none_iff_exists'.1 ((hx.books sym).1 (p.mem.1 hm).1)
  have h1 := pit_size (hg.inv hb).1
  have h2 := pit_size (hh.inv hc).1
  rw [← hx.pits sym b hb] at h1
  rw [← hy.pits sym c hc, p.pits sym hs] at h2
  have h3 : volume b = volume c := h1.symm.trans h2
  have := hf b hb
  omega

/-- A call that may be made to the one manager may be made to the manager it goes to. -/
theorem Part.admissible {d j x y} (p : Part d j x y) {g h : Mgr} (hx : Seats x g) (hg : MInv g) (hy : Seats y h) (hh : MInv h)
    (f : Fair d x) {op : Op} (ho : d.of op = some j ∨ d.of op = none) (hr : d.respects op) (ha : g.Admissible op) : h.Admissible op := by
  have get : ∀ {id : Nat} {q : Nat}, d.order id = j → (∀ o, g.getOrder id = some o → g.Fits o.symbolId q) → ∀ o, h.getOrder id = some o → h.Fits o.symbolId q := by
    intro id q hid hf o hoo
    rw [hh.getOrder, ← hy.find hh, p.find f hid] at hoo
    have hs := (f.found hoo).trans hid
    rw [hx.find hg, ← hg.getOrder] at hoo
    exact p.fits hx hg hy hh hs (hf o hoo)
  cases op with
  | addSymbol s => exact ha
  | addOrderBook s =>
    have hs : d.symbol s.id = j := ho.elim Option.some.inj (fun h => by cases h)
    intro hn i o hoo e
    rw [hh.getOrder] at hoo
    have hid := (hh.orders i o hoo).1
    have hm := (p.orders f).1 ((hy.orders hh o).2 (by rw [hid]; exact hoo))
    refine ha ?_ o.id o (by rw [hg.getOrder]; exact (hx.orders hg o).1 hm.1) e
    cases hb : g.getBook s.id with
    | none => rfl
    | some b =>
      have h1 : s.id ∈ x.books := (hx.books _).2 (fun e => by rw [show slot g.books s.id = some b from hb] at e; cases e)
      exact absurd hn ((hy.books _).1 (p.mem.2 ⟨h1, hs⟩))
  | addOrder o =>
    have hs : d.symbol o.symbolId = j := ho.elim Option.some.inj (fun h => by cases h)
    exact ⟨ha.1, p.fits hx hg hy hh hs ha.2⟩
  | modifyOrder id a q => exact ⟨ha.1, ha.2.1, get (ho.elim Option.some.inj (fun h => by cases h)) ha.2.2⟩
  | mitigateOrder id a q => exact ⟨ha.1, ha.2.1, get (ho.elim Option.some.inj (fun h => by cases h)) ha.2.2⟩
  | replaceOrder id n a q => exact ⟨ha.1, ha.2.1, ha.2.2.1, get (ho.elim Option.some.inj (fun h => by cases h)) ha.2.2.2⟩
  | replaceWith id o =>
    have hid : d.order id = j := ho.elim Option.some.inj (fun h => by cases h)
    exact ⟨ha.1, p.fits hx hg hy hh (hr.2.trans hid) ha.2⟩
  | deleteSymbol _ => trivial
  | deleteOrderBook _ => trivial
  | reduceOrder _ _ => trivial
  | deleteOrder _ => trivial
  | executeOrder _ _ => trivial
  | executeOrderAt _ _ _ => trivial
  | enableMatching => trivial
  | disableMatching => trivial
  | matchAll => trivial

theorem Part.records {d j} {g g' : Mgr} {l} (hl : Mgr.Records g l g') : ∀ {x y : Venue} {h : Mgr}, Part d j x y → Seats x g → MInv g →
    Goes (fun i s => d.order i = d.symbol s) g.orders → Seats y h → MInv h → (∀ r ∈ l, d.respects r.1) →
    ∃ (h' : Mgr) (x' y' : Venue), Mgr.Records h (d.part j l) h' ∧ Part d j x' y' ∧ Seats x' g' ∧ MInv g' ∧ Fair d x' ∧ Seats y' h' ∧ MInv h' := by
  induction hl with
  | nil => intro x y h p hx hg hc hy hh _; exact ⟨h, x, y, .nil, p, hx, hg, hx.fair hg hc, hy, hh⟩
  | cons ha hs hev _ ih =>
    rename_i g g1 g' op e evs l _
    intro x y h p hx hg hc hy hh hr
    have f : Fair d x := hx.fair hg hc
    have hro : d.respects op := hr _ (List.mem_cons_self ..)
    have hr' : ∀ r ∈ l, d.respects r.1 := fun r h => hr r (List.mem_cons_of_mem _ h)
    have hE := hx.step hg ha hs
    obtain ⟨evs', a1, a2⟩ := hE.ev
    rw [hev] at a1
    cases List.append_cancel_left a1
    have hc' := d.keeps hg ha hs hro hc
    -- a call made to the manager
    have go : (d.of op = some j ∨ d.of op = none) → ∀ xs, (y.call op).1 = e → (y.call op).2.1 = xs → Part d j (x.call op).2.2 (y.call op).2.2 →
        ∃ (h' : Mgr) (x' y' : Venue), Mgr.Records h ((op, e, xs) :: d.part j l) h' ∧ Part d j x' y' ∧ Seats x' g' ∧ MInv g' ∧ Fair d x' ∧ Seats y' h' ∧ MInv h' := by
      intro ho xs hcode hx' hp
      have ha' := p.admissible hx hg hy hh f ho hro ha
      obtain ⟨h1, e1, hs1, _⟩ := step_ok hh op ha'
      have hF := hy.step hh ha' hs1
      obtain ⟨evs1, b1, b2⟩ := hF.ev
      have : e1 = e := by rw [← hcode]; exact hF.code.symm
      subst this
      have : xs = execsOf evs1 := by rw [← hx', ← b2]
      subst this
      obtain ⟨h', x', y', c1, c⟩ := ih hp hE.seats hE.inv hc' hF.seats hF.inv hr'
      exact ⟨h', x', y', .cons ha' hs1 b1 c1, c⟩
    unfold Division.part
    cases ho : d.of op with
    | none =>
      simp only
      obtain ⟨b1, b2, b3⟩ := p.callAll f (hx.local hg) ho
      exact go (.inr ho) _ (b1.trans hE.code) (by rw [b2, a2]) b3
    | some i =>
      simp only
      by_cases hij : i = j
      · subst hij
        rw [if_pos rfl]
        have hsame := p.call f ho hro (by
          rintro id o rfl
          have had : g.Admissible (.deleteOrder id) := trivial
          obtain ⟨g2, e2, hs2, _⟩ := step_ok hg (.deleteOrder id) had
          have hD := hx.step hg had hs2
          exact hD.seats.fair hD.inv (d.keeps hg had hs2 trivial hc))
        exact go (.inl ho) _ (hsame.code.trans hE.code) (by rw [hsame.execs, a2]) hsame.part
      · rw [if_neg hij]
        exact ih (p.callOther f ho hij hro) hE.seats hE.inv hc' hy hh hr'

/-- C61. Divide symbols and order ids among managers, and give each its own calls (the calls without a symbol or an order
go to all of them). Then manager `j` gives to each of its calls the answer the one manager gave, with the same executions,
and shows the same orders, books and prices for its symbols and ids. -/
theorem C61_shards {d : Division} {j : Nat} {g : Mgr} {l : List (Op × ErrorCode × List Execution)} (hl : Mgr.Records Mgr.init l g)
    (hr : ∀ r ∈ l, d.respects r.1) :
    ∃ h : Mgr, Mgr.Records Mgr.init (d.part j l) h ∧
      h.matching = g.matching ∧
      (∀ id, d.order id = j → h.getOrder id = g.getOrder id) ∧
      ∀ s, (d.symbol s = j → (h.getSymbol s = none ↔ g.getSymbol s = none) ∧ (h.getBook s = none ↔ g.getBook s = none) ∧ h.lines s = g.lines s) ∧
        (d.symbol s ≠ j → h.getBook s = none) ∧
        ∀ b c, d.symbol s = j → g.getBook s = some b → h.getBook s = some c →
          c.marketBid = b.marketBid ∧ c.marketAsk = b.marketAsk ∧ c.marketTrailBid = b.marketTrailBid ∧ c.marketTrailAsk = b.marketTrailAsk := by
  have p0 : Part d j Venue.init Venue.init :=
    ⟨rfl, fun _ _ => Iff.rfl, rfl, fun _ _ => rfl, fun r => by simp [Venue.init]⟩
  obtain ⟨h, x, y, h1, p, hx, hg, f, hy, hh⟩ := p0.records hl seats_init MInv.init (fun i o h => by cases h) seats_init MInv.init hr
  have books : ∀ s, d.symbol s = j → (h.getBook s = none ↔ g.getBook s = none) := by
    intro s hs
    have a := hy.books s
    have b := hx.books s
    have c := p.mem (s := s)
    constructor
    · intro e
      cases hb : g.getBook s with
      | none => rfl
      | some _ => exact absurd e (a.1 (c.2 ⟨b.2 (fun e => by rw [show slot g.books s = _ from hb] at e; cases e), hs⟩))
    · intro e
      cases hb : h.getBook s with
      | none => rfl
      | some _ => exact absurd e (b.1 (c.1 (a.2 (fun e => by rw [show slot h.books s = _ from hb] at e; cases e))).1)
  refine ⟨h, h1, ?_, ?_, ?_⟩
  · rw [← hx.matching, ← hy.matching]; exact p.matching
  · intro id hid
    rw [hh.getOrder, hg.getOrder, ← hy.find hh, ← hx.find hg]
    exact p.find f hid
  · intro s
    refine ⟨fun hs => ⟨?_, books s hs, ?_⟩, ?_, ?_⟩
    · have a := hy.symbols s
      have b := hx.symbols s
      have c := p.symbols s hs
      show slot h.symbols s = none ↔ slot g.symbols s = none
      constructor
      · intro e
        exact Classical.byContradiction fun n => a.1 (c.2 (b.2 n)) e
      · intro e
        exact Classical.byContradiction fun n => b.1 (c.1 (a.2 n)) e
    · cases hb : g.getBook s with
      | none =>
        funext k
        rw [lines_none (g := g) hb, lines_none (g := h) ((books s hs).2 hb)]
      | some b =>
        cases hc : h.getBook s with
        | none => rw [(books s hs).1 hc] at hb; cases hb
        | some c =>
          rw [lines_board hg hb, lines_board hh hc]
          show (h.core c).pit.board = (g.core b).pit.board
          rw [← hx.pits s b hb, ← hy.pits s c hc, p.pits s hs]
    · intro hs
      cases hc : h.getBook s with
      | none => rfl
      | some c => exact absurd (p.mem.1 ((hy.books s).2 (fun e => by rw [show slot h.books s = _ from hc] at e; cases e))).2 hs
    · intro b c hs hb hc
      have h1 := (hg.inv hb).1
      have h2 := (hh.inv hc).1
      have hp : (h.core c).pit = (g.core b).pit := by rw [← hx.pits s b hb, ← hy.pits s c hc, p.pits s hs]
      have a1 := pit_bid h1
      have a2 := pit_ask h1
      have a3 := pit_trailBid h1
      have a4 := pit_trailAsk h1
      rw [← hp] at a1 a2 a3 a4
      exact ⟨(pit_bid h2).symm.trans a1, (pit_ask h2).symm.trans a2, (pit_trailBid h2).symm.trans a3, (pit_trailAsk h2).symm.trans a4⟩

/-- Odd symbols and order ids go to manager 1, even ones to manager 0. -/
def oddEven : Division := ⟨(· % 2), (· % 2)⟩

/-- Both symbols trade when matching is enabled and later, an id in use, a replacement by a new order. -/
def twoSymbols : List Op := opening ++ [.addSymbol ⟨2, 8⟩, .addOrderBook ⟨2, 8⟩,
  .addOrder (.mkLimit 1 1 .buy 101 10), .addOrder (.mkLimit 2 2 .buy 55 7), .addOrder (.mkLimit 3 1 .sell 100 4),
  .addOrder (.mkLimit 4 2 .sell 55 2), .addOrder (.mkStop 6 2 .sell 50 3), .enableMatching, .addOrder (.mkLimit 6 2 .sell 55 1),
  .addOrder (.mkLimit 2 2 .sell 60 1), .addOrder (.mkMarket 5 1 .sell 3), .replaceWith 2 (.mkLimit 8 2 .buy 49 9), .matchAll]

theorem zip_self {α β : Type} : ∀ l : List (α × β), l = (l.map (·.1)).zip (l.map (·.2)) := by
  intro l
  induction l with
  | nil => rfl
  | cons a l ih => exact congrArg (a :: ·) ih

/-- C61 applies to the session; the answers of manager 0 are not trivial. -/
example : ∃ (g : Mgr) (l : List (Op × ErrorCode × List Execution)), Mgr.Records Mgr.init l g ∧ l.map (·.1) = twoSymbols ∧
    (∀ r ∈ l, oddEven.respects r.1) ∧
    (oddEven.part 0 l).map (fun r => (r.2.1, r.2.2.map (fun (x : Execution) => (x.1.id, x.2)))) =
      [(.ok, []), (.ok, []), (.ok, []), (.ok, []), (.ok, []), (.ok, [(4, 55, 2), (2, 55, 2)]), (.ok, [(2, 55, 1), (6, 55, 1)]),
       (.orderDuplicate, []), (.ok, []), (.ok, [])] := by
  cases hc : checkRun true Mgr.init twoSymbols with
  | none =>
    have : (checkRun true Mgr.init twoSymbols).isSome = true := by decide +kernel
    rw [hc] at this; cases this
  | some g =>
    obtain ⟨l, h1, h2⟩ := checkRun_records .init (fun _ _ => rfl) hc
    refine ⟨g, l, h1, h2, ?_, ?_⟩
    · intro r hr
      have hm : r.1 ∈ twoSymbols := by rw [← h2]; exact List.mem_map_of_mem hr
      have hall : ∀ op ∈ twoSymbols, oddEven.respects op := by
        intro op ho
        simp [twoSymbols, opening] at ho
        rcases ho with rfl | rfl | rfl | rfl | rfl | rfl | rfl | rfl | rfl | rfl | rfl | rfl | rfl | rfl | rfl <;>
          simp [Division.respects, oddEven, Order.mkLimit, Order.mkMarket, Order.mkStop, Order.mk']
      exact hall _ hm
    · have h4 := (seats_init.records MInv.init h1).1
      have h5 := zip_self l
      rw [h4, h2] at h5
      rw [h5]
      decide +kernel

end CppTrader
