import Verif.Proof.Incoming
import Verif.Proof.Feeds
/-
How an order call ends: the order in flight is dropped or joins its line, then a final matching pass.
-/

namespace CppTrader
open Core

theorem enqueue_mem {k : Kind} {t x : Order} {rs : List Order} : x ∈ enqueue k t rs ↔ x = t ∨ x ∈ rs := by
  induction rs with
  | nil => simp [enqueue]
  | cons r rs ih =>
    unfold enqueue
    split
    · simp
    · simp only [List.mem_cons, ih]
      constructor
      · rintro (h | h | h)
        · exact .inr (.inl h)
        · exact .inl h
        · exact .inr (.inr h)
      · rintro (h | h | h)
        · exact .inr (.inl h)
        · exact .inl h
        · exact .inr (.inr h)

/-- The first order in line is the best one. -/
theorem line_head {s : Core} (hi : Inv s) {k r rs x} (h : s.line k = r :: rs) (hx : x ∈ s.line k) : k.better x.key r.key = false := by
  obtain ⟨x1, x2, x3⟩ := (line_mem hi).1 hx
  obtain ⟨p, h1, h2⟩ := hi.order_best x1 x2 x3
  obtain ⟨l, ls, h3, h4⟩ := hi.best_level h1
  have hl := (hi.book.kinds k).levels l (by rw [h3]; simp)
  cases hids : l.ids with
  | nil => exact absurd hids hl.nonempty
  | cons i is =>
    obtain ⟨o, g1, _, _, g4⟩ := hl.mem i (by simp [hids])
    have : s.line k = o :: restOf s (is ++ flatOf ls) := by
      unfold Core.line queue
      rw [h3, flatOf_cons, hids]
      unfold restOf
      rw [List.cons_append, List.filterMap_cons, g1]
    rw [h] at this
    have : r = o := (List.cons.inj this).1
    rw [this, g4, h4]; exact h2

theorem Core.finish_run {m : Bool} {s s' : Core} {e} (hi : Inv s) (h : s.finish m = .ok (s', e)) :
    e = .ok ∧ (∃ A, Steps A s none s' none) ∧ ∃ evs, Ev s s' evs ∧
      (Calm m s → execsOf evs = [] ∧ s'.orders = s.orders ∧ s'.line = s.line) ∧
      (∀ i, s.orders i = none → ∀ x ∈ execsOf evs, x.1.id ≠ i) := by
  obtain ⟨s1, e1, e2, _, e3⟩ := finish_ok hi m .delete
  rw [h] at e1; cases e1
  obtain ⟨evs, ls, h1⟩ := e3.stepsEv (CInv.none_iff.2 hi)
  refine ⟨rfl, ⟨_, e3⟩, evs, h1.ev, ?_, ?_⟩
  rotate_left
  · intro i hn
    have hno : ∀ l ∈ ls, l.noArrive ∧ l.inScope ⟨false, false, true⟩ := fun l hl =>
      ⟨(h1.labels l hl).1.2, (h1.labels l hl).1.1.inScope (by simp) (by simp) (by simp)⟩
    obtain ⟨v', a, b⟩ := h1.orders ⟨false, false, true⟩ s.orders rfl hno
    refine (OrdEv.absent a hn ?_).2
    rw [h1.adds, noArrive_flat fun l hl => (hno l hl).1]
    simp
  intro hq
  obtain ⟨s2, f1, f2, f3, f4⟩ := finish_idle hi hq
  rw [h] at f1; cases f1
  refine ⟨?_, f3, funext f4⟩
  have := h1.ev.ev
  rw [f2] at this
  have : evs = [] := List.self_eq_append_right.1 this
  rw [this]; rfl

/-- The order in flight is dropped. -/
theorem drop_run {m : Bool} {s s' : Core} {t e} (hc : CInv s (some t)) (h : (s.emit (.deleteOrder t)).finish m = .ok (s', e)) :
    e = .ok ∧ (∃ A, Steps A s (some t) s' none) ∧ ∃ evs, Ev s s' evs ∧
      (Calm m s → execsOf evs = [] ∧ s'.orders = s.orders ∧ s'.line = s.line) ∧
      (s.orders t.id = none → ∀ x ∈ execsOf evs, x.1.id ≠ t.id) := by
  have st : Step (.cancel t) s (some t) (s.emit (.deleteOrder t)) none := .cancel
  obtain ⟨a, ⟨A, b⟩, evs, c, d, d'⟩ := Core.finish_run (st.inv hc).inv h
  refine ⟨a, ⟨fun _ => True, .head trivial st (b.mono fun _ _ => trivial)⟩, _, (Ev.emit s (e := .deleteOrder t) rfl (hc.fly _ rfl).sym).trans c, ?_, ?_⟩
  rotate_left
  · intro hn
    rw [execsOf_append]
    exact d' t.id hn
  intro hq
  obtain ⟨d1, d2, d3⟩ := d hq
  exact ⟨by rw [execsOf_append, d1]; rfl, d2, d3⟩

/-- The order in flight joins its line. -/
theorem link_run {m : Bool} {s s2 s' : Core} {t e} (hc : CInv s (some t)) (hr : t.rests) (hf : s.orders t.id = none)
    (hl : s.link t = .ok s2) (h : s2.finish m = .ok (s', e)) :
    e = .ok ∧ (∃ A, Steps A s (some t) s' none) ∧ ∃ evs, Ev s s' evs ∧ Inv s2 ∧ s2.line = Board.insert s.line t ∧
      (Calm m s2 → execsOf evs = [] ∧ s'.line = s2.line) := by
  obtain ⟨h1, h2, h3⟩ := hr
  have st : Step (.put t) s (some t) s2 none := .put hf h1 h2 h3 hl
  have hi2 := (st.inv hc).inv
  obtain ⟨a, ⟨A, b⟩, evs, c, d, _⟩ := Core.finish_run hi2 h
  obtain ⟨ev1, g1⟩ := link_ev hi2 hl
  have hsym : s2.book.symbol = s.book.symbol := (st.iso hc).2
  refine ⟨a, ⟨fun _ => True, .head trivial st (b.mono fun _ _ => trivial)⟩, _, (g1.toEv hsym).trans c, hi2, ?_, ?_⟩
  · funext k
    rw [line_put hc.inv (hc.fly _ rfl) hf h1 h2 h3 hl]
    unfold Board.insert
    rw [home_kind]
  · intro hq
    obtain ⟨d1, d2, d3⟩ := d hq
    exact ⟨by rw [execsOf_append, d1, execsOf_levels fun e he => (g1.level e he).1]; rfl, d3⟩

/-- The result of an order in flight that was matched and then dropped or queued. -/
structure Landed (m : Bool) (s : Core) (t : Order) (s' : Core) : Prop where
  steps : ∃ A, Steps A s (some t) s' none
  ev : ∃ evs rest, Ev s s' evs ∧ execsOf evs = (Board.arrive m s.line t).1 ++ rest ∧
    ((m = true → (Board.arrive m s.line t).2.quiet) →
      rest = [] ∧ s'.line = (Board.arrive m s.line t).2) ∧
    (t.type = .market → s.orders t.id = none → ∀ x ∈ rest, x.1.id ≠ t.id)

theorem Hit.exec {m s t s' t'} (h : Hit m s t s' t') : ∃ evs, Ev s s' evs ∧ execsOf evs = (Board.arrive m s.line t).1 := by
  obtain ⟨evs, h1, h2⟩ := h.ev
  refine ⟨evs, h1, ?_⟩
  rw [h2]; unfold Board.arrive
  rw [← opp_limits]
  cases m <;> rfl

theorem Hit.line {m s t s' t'} (h : Hit m s t s' t') : (Board.arrive m s.line t).2 = if t'.rests then Board.insert s'.line t' else s'.line := by
  unfold Board.arrive
  rw [← opp_limits]
  have hl : s'.line = if m = true then Board.put s.line (oppKind t) ((t.capped (s.line (oppKind t))).leaveLine (s.line (oppKind t))) else s.line := by
    funext k
    by_cases e : k = oppKind t
    · subst e; rw [h.opp]; cases m <;> simp [Board.put]
    · rw [h.other k e]; cases m <;> simp [Board.put, e]
  have h1 := h.left
  cases m with
  | false =>
    simp only [Bool.false_eq_true, if_false] at h1 hl ⊢
    rw [h1, hl]
  | true =>
    simp only [if_true] at h1 hl ⊢
    rw [← h1, ← hl]

theorem greedyLeft_facts (rs : List Order) : ∀ t : Order, (greedyLeft t rs).side = t.side ∧ (greedyLeft t rs).price = t.price ∧
    (greedyLeft t rs).type = t.type ∧ (greedyLeft t rs).id = t.id ∧ (greedyLeft t rs).tif = t.tif := by
  induction rs with
  | nil => intro t; simp [greedyLeft]
  | cons r rs ih =>
    intro t
    unfold greedyLeft
    split
    · simp
    · exact ih _

theorem kind_limit' {t : Order} (h : t.type = .limit) : t.kind = some (limKind t.side) := kind_limit h

theorem key_price_of_limit {o : Order} {k} (h : o.kind = some k) (hk : k.isLimit = true) : o.key = o.price := by
  refine limit_key ?_
  unfold Order.kind at h
  cases ht : o.type <;> simp only [ht] at h
  · cases h
  · rfl
  all_goals (exfalso; split at h <;> cases h <;> simp [Kind.isLimit] at hk)

theorem left_facts (t : Order) (rs : List Order) : (t.left rs).side = t.side ∧ (t.left rs).price = t.price ∧
    (t.left rs).type = t.type ∧ (t.left rs).id = t.id ∧ (t.left rs).tif = t.tif := by
  unfold Order.left
  split
  · split <;> exact ⟨rfl, rfl, rfl, rfl, rfl⟩
  · exact greedyLeft_facts rs t

theorem quiet_calm {m : Bool} {s : Core} (hi : Inv s) (h : m = true → Board.quiet s.line) : Calm m s := (calm_lines hi).2 h

theorem Hit.facts {m s t s' t'} (h : Hit m s t s' t') : t'.id = t.id ∧ t'.type = t.type ∧ t'.tif = t.tif := by
  have := h.left
  cases m with
  | false => simp at this; subst this; exact ⟨rfl, rfl, rfl⟩
  | true =>
    simp only [if_true] at this
    obtain ⟨_, _, h3, h4, h5⟩ := left_facts (t.capped (s.line (oppKind t))) (s.line (oppKind t))
    rw [this, h3, h4, h5]
    unfold Order.capped
    split <;> exact ⟨rfl, rfl, rfl⟩

theorem Hit.landed_drop {m : Bool} {s s2 s' : Core} {t t2 : Order} {e} (h : Hit m s t s2 t2) {A} (hs : Steps A s (some t) s2 (some t2))
    (hn : ¬ t2.rests) (hd : (s2.emit (.deleteOrder t2)).finish m = .ok (s', e)) : e = .ok ∧ Landed m s t s' := by
  obtain ⟨a, ⟨B, b⟩, evs, c, d, d'⟩ := drop_run h.cinv hd
  obtain ⟨ev1, c1, c2⟩ := h.exec
  refine ⟨a, ⟨fun _ => True, (hs.mono fun _ _ => trivial).trans (b.mono fun _ _ => trivial)⟩, ev1 ++ evs, execsOf evs, c1.trans c, by rw [execsOf_append, c2], ?_,
    fun _ hf => by rw [← h.facts.1] at hf ⊢; exact d' (h.none _ hf)⟩
  intro hq
  have hli := h.line
  rw [if_neg hn] at hli
  rw [hli] at hq
  obtain ⟨d1, _, d3⟩ := d (quiet_calm h.cinv.inv hq)
  exact ⟨d1, by rw [d3, h.line, if_neg hn]⟩

theorem Hit.landed_link {m : Bool} {s s2 s3 s' : Core} {t t2 : Order} {e} (h : Hit m s t s2 t2) {A} (hs : Steps A s (some t) s2 (some t2))
    (hr : t2.rests) (hf : s2.orders t2.id = Option.none)
    (hl : s2.link t2 = .ok s3) (hd : s3.finish m = .ok (s', e)) : e = .ok ∧ Landed m s t s' := by
  obtain ⟨a, ⟨B, b⟩, evs, c, hi3, hl3, d⟩ := link_run h.cinv hr hf hl hd
  obtain ⟨ev1, c1, c2⟩ := h.exec
  refine ⟨a, ⟨fun _ => True, (hs.mono fun _ _ => trivial).trans (b.mono fun _ _ => trivial)⟩, ev1 ++ evs, execsOf evs, c1.trans c, by rw [execsOf_append, c2], ?_,
    fun ht => absurd (h.facts.2.1.trans ht) hr.2.1⟩
  intro hq
  have hli := h.line
  rw [if_pos hr, ← hl3] at hli
  rw [hli] at hq
  obtain ⟨d1, d2⟩ := d (quiet_calm hi3 hq)
  exact ⟨d1, by rw [d2, hl3, h.line, if_pos hr]⟩

end CppTrader
