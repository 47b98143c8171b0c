import Verif.Proof.BudgetVenue
import Verif.Proof.Equiv
import Verif.Props.Venue
import Verif.Props.News
/-
C75: the number of executions.
-/

namespace CppTrader

open Core Budget

theorem pit_fine {s : Core} (hi : Inv s) : Fine s.pit where
  neat := {
    line := fun k => line_nodup hi k
    cross := fun k k' r r' hr hr' e => by
      have h1 := (line_mem hi).1 (show r ∈ s.line k from hr)
      have h2 := (line_mem hi).1 (show r' ∈ s.line k' from hr')
      rw [e, h2.1] at h1
      have e1 : r' = r := Option.some.inj h1.1
      rw [e1, h1.2.2] at h2
      exact Option.some.inj h2.2.2 }
  fits := by rw [pit_size hi]; exact hi.vol

theorem Seats.sound {x : Venue} {g : Mgr} (h : Seats x g) (hi : MInv g) : Sound x where
  books := h.sorted.imp (fun h e => by omega)
  fine s hs := by
    obtain ⟨b, hb⟩ := Option.ne_none_iff_exists'.1 ((h.books s).1 hs)
    rw [h.pits s b hb]
    exact pit_fine (hi.inv hb).1

theorem Seats.placed {x : Venue} {g : Mgr} (h : Seats x g) (hi : MInv g) : Placed x := by
  intro id o ho
  rw [h.find hi] at ho
  have hid := (hi.orders id o ho).1
  refine ⟨hid, fun hb => ?_⟩
  obtain ⟨b, hb⟩ := Option.ne_none_iff_exists'.1 ((h.books _).1 hb)
  have := (pit_orders hi hb).2 ⟨by rw [hid]; exact ho, rfl⟩
  rw [h.pits _ b hb]
  exact board_orders.1 this

theorem Seats.size {x : Venue} {g : Mgr} (h : Seats x g) (hi : MInv g) {s q : Nat} (hs : s ∈ x.books) (hf : g.Fits s q) : (x.pits s).board.size + q < W64 := by
  obtain ⟨b, hb⟩ := Option.ne_none_iff_exists'.1 ((h.books s).1 hs)
  have := hf b hb
  rw [h.pits s b hb, pit_size (hi.inv hb).1]
  exact this

theorem Seats.costs {x : Venue} {g : Mgr} (h : Seats x g) (hi : MInv g) {op : Op} (ha : g.Admissible op) : Costs x op.credit (x.call op) := by
  refine call_costs (h.sound hi) (h.placed hi) (fun o ho hs => ?_) (fun id p q hop o ho hs => ?_)
  · rcases ho with rfl | ⟨id, rfl⟩
    · exact h.size hi hs ha.2
    · exact h.size hi hs ha.2
  · rw [h.find hi, ← hi.getOrder] at ho
    rcases hop with rfl | rfl | ⟨n, rfl⟩
    · exact h.size hi hs (ha.2.2 o ho)
    · exact h.size hi hs (ha.2.2 o ho)
    · exact h.size hi hs (ha.2.2.2 o ho)

theorem nodup_flat {α : Type} {f : α → List Order} {as : List α} (hn : as.Nodup) (h1 : ∀ a ∈ as, ((f a).map (·.id)).Nodup)
    (h2 : ∀ a ∈ as, ∀ b ∈ as, ∀ r ∈ f a, ∀ r' ∈ f b, r.id = r'.id → a = b) : ((as.flatMap f).map (·.id)).Nodup := by
  induction as with
  | nil => exact List.nodup_nil
  | cons a as ih =>
    rw [List.nodup_cons] at hn
    rw [List.flatMap_cons, List.map_append]
    refine List.nodup_append.2 ⟨h1 a List.mem_cons_self, ih hn.2 (fun b hb => h1 b (List.mem_cons_of_mem _ hb))
      (fun b hb c hc => h2 b (List.mem_cons_of_mem _ hb) c (List.mem_cons_of_mem _ hc)), ?_⟩
    intro i hi j hj e
    obtain ⟨r, hr, er⟩ := List.mem_map.1 hi
    obtain ⟨r', hr', er'⟩ := List.mem_map.1 hj
    obtain ⟨b, hb, hrb⟩ := List.mem_flatMap.1 hr'
    have := h2 a List.mem_cons_self b (List.mem_cons_of_mem _ hb) r hr r' hrb (by rw [er, er', e])
    exact hn.1 (by rw [this]; exact hb)

/-- The ids of the orders in the books. -/
def liveIds (x : Venue) : List Nat := (x.books.flatMap (fun s => (x.pits s).board.orders)).map (·.id)

theorem liveIds_length (x : Venue) : (liveIds x).length = live x := by
  unfold liveIds live
  rw [List.length_map, List.length_flatMap]
  congr 2
  funext s
  exact cnt_eq _

theorem Seats.liveIds {x : Venue} {g : Mgr} (h : Seats x g) (hi : MInv g) :
    (liveIds x).Nodup ∧ ∀ id, id ∈ CppTrader.liveIds x ↔ ∃ o, g.getOrder id = some o ∧ g.getBook o.symbolId ≠ none := by
  have hm : ∀ s ∈ x.books, ∀ r ∈ (x.pits s).board.orders, g.orders r.id = some r ∧ r.symbolId = s := by
    intro s hs r hr
    obtain ⟨b, hb⟩ := Option.ne_none_iff_exists'.1 ((h.books s).1 hs)
    rw [h.pits s b hb] at hr
    exact (pit_orders hi hb).1 hr
  refine ⟨nodup_flat (h.sound hi).books (fun s hs => ?_) (fun s hs s' hs' r hr r' hr' e => ?_), fun id => ⟨fun hid => ?_, ?_⟩⟩
  · have hf := ((h.sound hi).fine s hs).neat
    exact nodup_flat (by decide) (fun k _ => hf.line k) (fun k _ k' _ r hr r' hr' e => hf.cross k k' r r' hr hr' e)
  · have h1 := hm s hs r hr
    have h2 := hm s' hs' r' hr'
    rw [e, h2.1] at h1
    rw [← h1.2, ← h2.2, Option.some.inj h1.1]
  · obtain ⟨r, hr, e⟩ := List.mem_map.1 hid
    obtain ⟨s, hs, hr⟩ := List.mem_flatMap.1 hr
    have h1 := hm s hs r hr
    refine ⟨r, by rw [hi.getOrder, ← e]; exact h1.1, ?_⟩
    rw [h1.2]
    exact (h.books s).1 hs
  · rintro ⟨o, h1, h2⟩
    rw [hi.getOrder] at h1
    have hid := (hi.orders id o h1).1
    obtain ⟨b, hb⟩ := Option.ne_none_iff_exists'.1 h2
    refine List.mem_map.2 ⟨o, List.mem_flatMap.2 ⟨o.symbolId, (h.books _).2 h2, ?_⟩, hid⟩
    rw [h.pits _ b hb]
    exact (pit_orders hi hb).2 ⟨by rw [hid]; exact h1, rfl⟩

/-- C75, one call: every two executions of a call are paid for by an order that is in a book before the call (`before` lists at least these)
and in none afterwards (`after` lists only orders that still are), or by what the call brings in itself. -/
theorem C75_call {g g' : Mgr} (hr : g.Reachable) {op : Op} (ha : g.Admissible op) {e : ErrorCode} (hs : g.step op = .ok (g', e)) {evs : List Event}
    (hev : g'.ev = g.ev ++ evs) {before after : List Nat}
    (hb : ∀ id o, g.getOrder id = some o → g.getBook o.symbolId ≠ none → id ∈ before)
    (hn : after.Nodup) (hl : ∀ id ∈ after, ∃ o, g'.getOrder id = some o ∧ g'.getBook o.symbolId ≠ none) :
    (execsOf evs).length + 2 * after.length ≤ 2 * before.length + op.credit := by
  obtain ⟨x, hx⟩ := hr.seats
  have hi := hr.minv
  have hE := hx.step hi ha hs
  obtain ⟨evs', a1, a2⟩ := hE.ev
  rw [hev] at a1
  cases List.append_cancel_left a1
  have hc := (hx.costs hi ha).live
  obtain ⟨n1, m1⟩ := hx.liveIds hi
  obtain ⟨n2, m2⟩ := hE.seats.liveIds hE.inv
  have l1 := Opt.length_le_of_nodup n1 (fun id hid => by
    obtain ⟨o, h1, h2⟩ := (m1 id).1 hid
    exact hb id o h1 h2)
  have l2 := Opt.length_le_of_nodup hn (fun id hid => (m2 id).2 (hl id hid))
  rw [liveIds_length] at l1 l2
  rw [a2]
  omega

/-- C75, whole histories: the executions made so far and twice the number of stored orders never exceed twice the number of orders submitted
plus the number of executions by hand. -/
theorem C75_history {g : Mgr} {l : List (Op × ErrorCode × List Execution)} (hl : Mgr.Records Mgr.init l g) {ids : List Nat} (hn : ids.Nodup)
    (hs : ∀ id ∈ ids, g.getOrder id ≠ none) :
    (l.map (fun x => x.2.2.length)).sum + 2 * ids.length ≤ (l.map (fun x => x.1.credit)).sum := by
  have key : ∀ {g g' : Mgr} {l : List (Op × ErrorCode × List Execution)}, Mgr.Records g l g' → ∀ x, Seats x g → MInv g →
      ∃ x', Seats x' g' ∧ MInv g' ∧ (l.map (fun x => x.2.2.length)).sum + 2 * stored x' ≤ 2 * stored x + (l.map (fun x => x.1.credit)).sum := by
    intro g g' l h
    induction h with
    | nil => intro x hx hi; exact ⟨x, hx, hi, by simp⟩
    | cons ha hs hev _ ih =>
      intro x hx hi
      have hE := hx.step hi ha hs
      obtain ⟨evs', a1, a2⟩ := hE.ev
      rw [hev] at a1
      cases List.append_cancel_left a1
      obtain ⟨x', h1, h2, h3⟩ := ih _ hE.seats hE.inv
      have := (hx.costs hi ha).all
      refine ⟨x', h1, h2, ?_⟩
      simp only [List.map_cons, List.sum_cons]
      rw [a2]
      omega
  obtain ⟨x, hx, hi, hc⟩ := key hl _ seats_init MInv.init
  have h0 : stored Venue.init = 0 := rfl
  have hlen := Opt.length_le_of_nodup (l' := x.orders.map (·.id)) hn (fun id hid => by
    obtain ⟨o, ho⟩ := Option.ne_none_iff_exists'.1 (hs id hid)
    rw [hi.getOrder] at ho
    have := (hi.orders id o ho).1
    exact List.mem_map.2 ⟨o, (hx.orders hi o).2 (by rw [this]; exact ho), this⟩)
  rw [List.length_map, orders_length] at hlen
  omega

/-- Three orders, four executions, one order left: the bound is attained. -/
def tightSession : List Op :=
  [.addSymbol ⟨1, 0⟩, .addOrderBook ⟨1, 0⟩, .enableMatching, .addOrder (.mkLimit 1 1 .sell 100 1), .addOrder (.mkLimit 2 1 .sell 101 1),
    .addOrder (.mkLimit 3 1 .buy 105 3)]

/-- The hypotheses of C75 are met, and the bound cannot be improved. -/
theorem C75_tight : ∃ (g : Mgr) (l : List (Op × ErrorCode × List Execution)) (ids : List Nat), Mgr.Records Mgr.init l g ∧ ids.Nodup ∧
    (∀ id ∈ ids, g.getOrder id ≠ none) ∧ ids.length = 1 ∧ (l.map (fun x => x.2.2.length)).sum = 4 ∧
    (l.map (fun x => x.2.2.length)).sum + 2 * ids.length = (l.map (fun x => x.1.credit)).sum := by
  have hd : (checkRun true Mgr.init tightSession).any (fun g => (g.getOrder 3).isSome) = true := by decide +kernel
  cases hc : checkRun true Mgr.init tightSession with
  | none => rw [hc] at hd; cases hd
  | some g =>
    rw [hc] at hd
    obtain ⟨l, h1, h2⟩ := checkRun_records .init (fun _ _ => rfl) hc
    have hv := (C60_venue h1).1
    rw [h2] at hv
    have e1 : (l.map (fun x => x.2.2.length)).sum = ((l.map (·.2)).map (fun x => x.2.length)).sum := by rw [List.map_map]; rfl
    have e2 : (l.map (fun x => x.1.credit)).sum = ((l.map (·.1)).map Op.credit).sum := by rw [List.map_map]; rfl
    refine ⟨g, l, [3], h1, by decide, by simpa [Option.isSome_iff_ne_none] using hd, rfl, ?_, ?_⟩
    · rw [e1, hv]; decide +kernel
    · rw [e1, e2, hv, h2]; decide +kernel

end CppTrader
