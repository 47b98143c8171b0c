import Verif.Proof.Future
import Verif.Props.Laws
/-
C72: the whole callback stream divides by symbol, and does not depend on the order ids.
-/

namespace CppTrader
open Core

/-- Calls about one symbol or one order do not switch matching on or off. -/
theorem matching_kept {d : Division} {i : Nat} {g g' : Mgr} (hi : MInv g) {op : Op} {e : ErrorCode} (ha : g.Admissible op) (hs : g.step op = .ok (g', e)) (ho : d.of op = some i) :
    g'.matching = g.matching := by
  cases step_eff hi ha hs with
  | refused h => rw [h.1]
  | addSymbol => rfl
  | deleteSymbol => rfl
  | addBook => rfl
  | deleteBook => rfl
  | book on h => exact h.matching
  | replaceWith _ h1 h2 =>
    rcases h2 with h2 | h2
    · rw [h2.1]; exact h1.matching
    · exact h2.matching.trans h1.matching
  | enable => cases ho
  | disable => cases ho
  | all => cases ho

theorem Twins.admissible {d : Division} {j : Nat} {h g : Mgr} (t : Twins (fun i => i) d j h g) (hh : MInv h) (hg : MInv g)
    (hm : ∀ i o, h.orders i = some o → d.symbol o.symbolId = j) {op : Op} (ho : d.of op = some j ∨ d.of op = none) (hr : d.respects op) (ha : g.Admissible op) :
    h.Admissible op := by
  have get : ∀ {id q : Nat}, (∀ o, g.getOrder id = some o → g.Fits o.symbolId q) → ∀ o, h.getOrder id = some o → h.Fits o.symbolId q := by
    intro id q hf o hoo
    rw [hh.getOrder] at hoo
    exact (t.fits (hm id o hoo)).2 (hf o (by rw [hg.getOrder]; exact t.sub id o hoo))
  cases op with
  | addSymbol s => exact ha
  | addOrderBook s =>
    have hs : d.symbol s.id = j := ho.elim Option.some.inj (fun h => by cases h)
    intro hn i o hoo e
    rw [hh.getOrder] at hoo
    refine ha ?_ i o (by rw [hg.getOrder]; exact t.sub i o hoo) e
    show slot g.books s.id = none
    rw [t.books _ hs, show slot h.books s.id = none from hn]; rfl
  | addOrder o =>
    have hs : d.symbol o.symbolId = j := ho.elim Option.some.inj (fun h => by cases h)
    exact ⟨ha.1, (t.fits hs).2 ha.2⟩
  | modifyOrder id a q => exact ⟨ha.1, ha.2.1, get ha.2.2⟩
  | mitigateOrder id a q => exact ⟨ha.1, ha.2.1, get ha.2.2⟩
  | replaceOrder id n a q => exact ⟨ha.1, ha.2.1, ha.2.2.1, get ha.2.2.2⟩
  | replaceWith id o =>
    have hid : d.order id = j := ho.elim Option.some.inj (fun h => by cases h)
    exact ⟨ha.1, (t.fits (hr.2.trans hid)).2 ha.2⟩
  | deleteSymbol _ => trivial
  | deleteOrderBook _ => trivial
  | reduceOrder _ _ => trivial
  | deleteOrder _ => trivial
  | executeOrder _ _ => trivial
  | executeOrderAt _ _ _ => trivial
  | enableMatching => trivial
  | disableMatching => trivial
  | matchAll => trivial

/-- The orders of a manager that only gets its own calls are its own. -/
theorem mine_kept {d : Division} {j : Nat} {h h' : Mgr} (hh : MInv h) {op : Op} {e : ErrorCode} (ha : h.Admissible op) (hs : h.step op = .ok (h', e))
    (ho : d.of op = some j ∨ d.of op = none) (hr : d.respects op) (hm : ∀ i o, h.orders i = some o → d.symbol o.symbolId = j) :
    ∀ i o, h'.orders i = some o → d.symbol o.symbolId = j := by
  have := Division.keeps ⟨d.symbol, fun _ => j⟩ hh ha hs (by
    cases op with
    | addOrder o => exact (ho.elim Option.some.inj (fun h => by cases h) : d.symbol o.symbolId = j).symm
    | replaceOrder id n p q => rfl
    | replaceWith id o => exact ⟨rfl, hr.2.trans (ho.elim Option.some.inj (fun h => by cases h))⟩
    | _ => trivial) (fun i o h1 => (hm i o h1).symm)
  exact fun i o h1 => (this i o h1).symm

theorem Twins.logs {d : Division} {j : Nat} {g g' : Mgr} {l} (hl : Mgr.Logs g l g') : ∀ {h : Mgr}, Twins (fun i => i) d j h g → MInv h → g.Reachable →
    (∀ i o, h.orders i = some o → d.symbol o.symbolId = j) → Goes (fun i s => d.order i = d.symbol s) g.orders → h.ev = d.events j g.ev → (∀ r ∈ l, d.respects r.1) →
    ∃ h' : Mgr, Mgr.Logs h (d.log j l) h' ∧ Twins (fun i => i) d j h' g' ∧ h'.ev = d.events j g'.ev := by
  induction hl with
  | nil => intro h t _ _ _ _ he _; exact ⟨h, .nil, t, he⟩
  | cons ha hs hev _ ih =>
    rename_i g g1 g' op e evs l _
    intro h t hh hr hm hc he hro
    have hg := hr.minv
    have hop : d.respects op := hro _ (List.mem_cons_self ..)
    have hro' : ∀ r ∈ l, d.respects r.1 := fun r h => hro r (List.mem_cons_of_mem _ h)
    have hr1 := hr.step ha hs
    have hc1 := d.keeps hg ha hs hop hc
    unfold Division.log
    cases ho : d.of op with
    | none =>
      simp only
      have ha' := t.admissible hh hg hm (.inr ho) hop ha
      obtain ⟨h1, e1, hs1, _⟩ := step_ok hh op ha'
      obtain ⟨rfl, t1, x, w, a1, a2, a3⟩ := t.all noId noZero hh hg (fun i o h => hm i o h) (fun k o h1 id e => e ▸ hc k o h1) ho hs1 (by rw [renOp_same]; exact hs)
      rw [hev] at a2
      cases List.append_cancel_left a2
      rw [renE_same_map] at a3
      obtain ⟨h', b1, b2⟩ := ih t1 (step_eff hh ha' hs1 |>.minv hh ha') hr1 (mine_kept hh ha' hs1 (.inr ho) hop hm) hc1 (by
        rw [a1, he, hev]; unfold Division.events at *; rw [List.filter_append, a3]) hro'
      rw [a3]
      exact ⟨h', .cons ha' hs1 a1 b1, b2⟩
    | some i =>
      simp only
      have hab := Twins.about hr hc ha hs hev ho hop
      by_cases hij : i = j
      · subst hij
        rw [if_pos rfl]
        have ha' := t.admissible hh hg hm (.inl ho) hop ha
        obtain ⟨h1, e1, hs1, _⟩ := step_ok hh op ha'
        obtain ⟨⟨g2, e2⟩, a0, rfl, t1, x, a1, a2⟩ := t.step noId noZero hh hm ho hop (by rintro s rfl; exact ha) _ hs1
        rw [renOp_same, hs] at a0
        cases a0
        rw [renE_same_map] at a2
        simp only at a1 a2 t1
        rw [hev] at a2
        cases List.append_cancel_left a2
        obtain ⟨h', b1, b2⟩ := ih t1 (step_eff hh ha' hs1 |>.minv hh ha') hr1 (mine_kept hh ha' hs1 (.inl ho) hop hm) hc1 (by
          rw [a1, he, hev]; unfold Division.events; rw [List.filter_append]
          congr 1
          exact (List.filter_eq_self.2 fun e he => decide_eq_true (hab e he)).symm) hro'
        exact ⟨h', .cons ha' hs1 a1 b1, b2⟩
      · rw [if_neg hij]
        refine ih (t.other hm hr hc ha hs ho hij hop (matching_kept hg ha hs ho)) hh hr1 hm hc1 ?_ hro'
        rw [he, hev]
        unfold Division.events
        rw [List.filter_append]
        have : evs.filter (fun e => decide (d.symbol e.symbol = j)) = [] := by
          rw [List.filter_eq_nil_iff]
          intro x hx
          rw [hab x hx]
          simpa using hij
        rw [this, List.append_nil]

/-- C72. Divide symbols and order ids among managers, and give each its own calls (the calls without a symbol or an order go to all of
them). Then manager `j` makes for each of its calls exactly the callbacks, in the same order, that the one manager made about its symbols, and
answers as that did; and its whole feed is the part of the one manager's feed that is about its symbols. -/
theorem C72_shards {d : Division} {j : Nat} {g : Mgr} {l : List (Op × ErrorCode × List Event)} (hl : Mgr.Logs Mgr.init l g)
    (hr : ∀ r ∈ l, d.respects r.1) : ∃ h : Mgr, Mgr.Logs Mgr.init (d.log j l) h ∧ h.ev = d.events j g.ev := by
  have t0 : Twins (fun i => i) d j Mgr.init Mgr.init :=
    ⟨rfl, fun _ _ => rfl, fun _ _ => rfl, fun _ _ h => (by cases h), fun _ _ _ => rfl, fun _ _ => rfl⟩
  obtain ⟨h, h1, _, h2⟩ := t0.logs hl MInv.init .init (fun _ _ h => by cases h) (fun _ _ h => by cases h) rfl hr
  exact ⟨h, h1, h2⟩

/-! Determinism: the calls determine the log. -/

theorem logs_function {g g1 g2 : Mgr} {l1 : List (Op × ErrorCode × List Event)} (h1 : Mgr.Logs g l1 g1) : ∀ {l2}, Mgr.Logs g l2 g2 → l1.map (·.1) = l2.map (·.1) →
    l1 = l2 ∧ g1 = g2 := by
  induction h1 with
  | nil =>
    intro l2 h2 e
    cases h2 with
    | nil => exact ⟨rfl, rfl⟩
    | cons => cases e
  | cons ha hs hev _ ih =>
    intro l2 h2 e
    cases h2 with
    | nil => cases e
    | cons ha' hs' hev' h2 =>
      rw [List.map_cons, List.map_cons] at e
      obtain ⟨e1, e2⟩ := List.cons.inj e
      simp only at e1
      subst e1
      rw [hs] at hs'
      cases hs'
      rw [hev] at hev'
      cases List.append_cancel_left hev'
      obtain ⟨r1, r2⟩ := ih h2 e2
      exact ⟨by rw [r1], r2⟩

/-- C72. Two sessions that bring the same calls in the same order to manager `j` of a division, and are interleaved with other calls
in any way, make the same callbacks about its symbols, call by call and as a whole. -/
theorem C72_interleaving {d : Division} {j : Nat} {g g' : Mgr} {l l' : List (Op × ErrorCode × List Event)} (hl : Mgr.Logs Mgr.init l g)
    (hl' : Mgr.Logs Mgr.init l' g') (hr : ∀ r ∈ l, d.respects r.1) (hr' : ∀ r ∈ l', d.respects r.1) (h : (d.log j l).map (·.1) = (d.log j l').map (·.1)) :
    d.log j l = d.log j l' ∧ d.events j g.ev = d.events j g'.ev := by
  obtain ⟨a, a1, a2⟩ := C72_shards (j := j) hl hr
  obtain ⟨b, b1, b2⟩ := C72_shards (j := j) hl' hr'
  obtain ⟨e1, e2⟩ := logs_function a1 b1 h
  exact ⟨e1, by rw [← a2, ← b2, e2]⟩

/-- C72. The same calls with other order ids make the same callbacks in the same order, with the new ids, and have the same result codes. -/
theorem C72_ids (c : Recast) (hv : c.OnlyIds) {g : Mgr} {l : List (Op × ErrorCode × List Event)} (hl : Mgr.Logs Mgr.init l g) :
    ∃ h : Mgr, Mgr.Logs Mgr.init (l.map c.logged) h ∧ h.ev = g.ev.map c.event := by
  have t0 : Twins c.id oneHouse 0 Mgr.init Mgr.init :=
    ⟨rfl, fun _ _ => rfl, fun _ _ => rfl, fun _ _ h => (by cases h), fun _ _ _ => rfl, fun _ _ => rfl⟩
  obtain ⟨h, h1, _⟩ := Recast.logs hv hl t0 MInv.init MInv.init (fun _ _ h => by cases h)
  refine ⟨h, h1, ?_⟩
  have whole : ∀ {a b : Mgr} {l}, Mgr.Logs a l b → b.ev = a.ev ++ (l.map (·.2.2)).flatten := by
    intro a b l hl
    induction hl with
    | nil => simp
    | cons _ _ hev _ ih => rw [ih, hev, List.map_cons, List.flatten_cons, List.append_assoc]
  rw [whole h1, whole hl]
  show (List.map (·.2.2) (l.map c.logged)).flatten = List.map c.event ([] ++ _)
  rw [List.nil_append, List.map_flatten, List.map_map, List.map_map]
  rfl

/-! The hypotheses are met. -/

theorem records_logs {g g' : Mgr} {l} (h : Mgr.Records g l g') : ∃ ll, Mgr.Logs g ll g' ∧ ll.map (·.1) = l.map (·.1) := by
  induction h with
  | nil => exact ⟨[], .nil, rfl⟩
  | cons ha hs hev _ ih =>
    obtain ⟨ll, h1, h2⟩ := ih
    exact ⟨_, .cons ha hs hev h1, by rw [List.map_cons, List.map_cons, h2]⟩

theorem checkRun_logs {ops : List Op} {p : Mgr → Bool} (h : (checkRun true Mgr.init ops).any p = true) :
    ∃ (g : Mgr) (l : List (Op × ErrorCode × List Event)), Mgr.Logs Mgr.init l g ∧ l.map (·.1) = ops ∧ p g = true := by
  cases hc : checkRun true Mgr.init ops with
  | none => rw [hc] at h; cases h
  | some g =>
    rw [hc] at h
    obtain ⟨l, h1, h2⟩ := checkRun_records .init (fun _ _ => rfl) hc
    obtain ⟨ll, h3, h4⟩ := records_logs h1
    exact ⟨g, ll, h3, h4.trans h2, h⟩

/-- C72 applies: a session about two symbols, with 34 callbacks about one and 23 about the other. -/
example : ∃ (g : Mgr) (l : List (Op × ErrorCode × List Event)), Mgr.Logs Mgr.init l g ∧ (∀ r ∈ l, oddEven.respects r.1) ∧
    (oddEven.events 0 g.ev).length = 34 ∧ (oddEven.events 1 g.ev).length = 23 ∧ g.ev.length = 57 := by
  obtain ⟨g, l, h1, h2, h3⟩ := checkRun_logs (ops := twoSymbols) (p := fun g => decide ((oddEven.events 0 g.ev).length = 34) && decide ((oddEven.events 1 g.ev).length = 23) &&
    decide (g.ev.length = 57)) (by decide +kernel)
  simp only [Bool.and_eq_true, decide_eq_true_eq] at h3
  refine ⟨g, l, h1, ?_, h3.1.1, h3.1.2, h3.2⟩
  intro r hr
  have hm : r.1 ∈ twoSymbols := by rw [← h2]; exact List.mem_map_of_mem hr
  revert hm
  generalize r.1 = op
  intro hm
  simp only [twoSymbols, opening, List.mem_append, List.mem_cons, List.not_mem_nil, or_false] at hm
  rcases hm with (rfl | rfl) | rfl | rfl | rfl | rfl | rfl | rfl | rfl | rfl | rfl | rfl | rfl | rfl | rfl <;> first | exact trivial | exact rfl | exact ⟨rfl, rfl⟩

/-- Ids one and two exchanged. -/
def swapIds : Recast where
  id i := if i = 1 then 2 else if i = 2 then 1 else i
  visible v := v
  inj a b h := by
    by_cases h1 : a = 1 <;> by_cases h2 : a = 2 <;> by_cases h3 : b = 1 <;> by_cases h4 : b = 2 <;> simp_all
  zero := rfl
  fits a h := by
    refine ⟨?_, h⟩
    have : W64 = 18446744073709551616 := rfl
    split
    · omega
    · split <;> omega

/-- C72 applies to it: the callbacks of the session with the ids one and two exchanged. -/
example : ∃ (g h : Mgr) (l : List (Op × ErrorCode × List Event)), Mgr.Logs Mgr.init l g ∧ Mgr.Logs Mgr.init (l.map swapIds.logged) h ∧
    h.ev = g.ev.map swapIds.event ∧ h.ev ≠ g.ev := by
  obtain ⟨g, l, h1, _, h3⟩ := checkRun_logs (ops := twoSymbols) (p := fun g => decide (g.ev.map swapIds.event ≠ g.ev)) (by decide +kernel)
  obtain ⟨h, h4, h5⟩ := C72_ids swapIds (fun _ => rfl) h1
  exact ⟨g, h, l, h1, h4, h5, by rw [h5]; exact of_decide_eq_true h3⟩

end CppTrader
