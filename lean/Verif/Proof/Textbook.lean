import Verif.Textbook
import Verif.Props.Moves
import Verif.Props.Prices
/-
The engine simulates the textbook exchange.
-/

namespace CppTrader
open Core

/-- Resting orders of the textbook exchange. -/
def Order.book (o : Order) : Prop := o.type = .limit ∧ o.tif = .gtc

structure Agree (x : Exchange) (g : Mgr) : Prop where
  matching : x.matching = g.matching
  symbols : ∀ i, i ∈ x.symbols ↔ g.getSymbol i ≠ none
  books : ∀ i, i ∈ x.books ↔ g.getBook i ≠ none
  lines : x.lines = g.lines
  kept : ∀ i o, g.getOrder i = some o → g.getBook o.symbolId ≠ none
  plain : ∀ i o, g.getOrder i = some o → o.book
  uncrossed : g.matching = true → ∀ s, UncrossedAt g s

theorem getOrder_kind {g : Mgr} (hr : g.Reachable) {i o} (h : g.getOrder i = some o) : ∃ k, o.home.map (·.1) = some k := by
  rw [hr.minv.getOrder] at h
  obtain ⟨k, hk⟩ := kind_of_notMarket (hr.minv.orders i o h).2.notMarket
  exact ⟨k, by rw [home_kind]; exact hk⟩

theorem Order.book.kind {o : Order} (h : o.book) {k} (hk : o.home.map (·.1) = some k) : k = .bid ∨ k = .ask := by
  unfold Order.home at hk
  rw [h.1] at hk
  cases hs : o.side <;> simp [hs] at hk
  · exact .inl hk.symm
  · exact .inr hk.symm

theorem Agree.find {x : Exchange} {g : Mgr} (h : Agree x g) (hr : g.Reachable) (id : Nat) : x.find id = g.getOrder id := by
  have hmem : ∀ s r, r ∈ x.lines s .bid ++ x.lines s .ask → g.getOrder r.id = some r := by
    intro s r hm
    rw [h.lines] at hm
    have hb : g.getBook s ≠ none := by
      intro hb
      rw [lines_none (by exact hb), lines_none (by exact hb)] at hm; cases hm
    rcases List.mem_append.1 hm with hm | hm <;> exact ((lines_complete hr hb).1 hm).1
  unfold Exchange.find
  cases hf : x.books.findSome? fun s => (x.lines s .bid ++ x.lines s .ask).find? (fun r => r.id = id) with
  | some r =>
    obtain ⟨s, _, hs⟩ := List.exists_of_findSome?_eq_some hf
    have h1 := hmem s r (List.mem_of_find?_eq_some hs)
    have h2 : r.id = id := by simpa using List.find?_some hs
    rw [← h2, h1]
  | none =>
    rw [List.findSome?_eq_none_iff] at hf
    cases ho : g.getOrder id with
    | none => rfl
    | some o =>
      exfalso
      have hb := h.kept id o ho
      obtain ⟨k, hk⟩ := getOrder_kind hr ho
      have hid := own_id hr ho
      have hl := (lines_complete hr hb (k := k) (r := o)).2 ⟨by rw [hid]; exact ho, rfl, hk⟩
      have := hf o.symbolId ((h.books _).2 hb)
      rw [List.find?_eq_none] at this
      refine this o ?_ (by simp [hid])
      rw [h.lines]
      rcases (h.plain id o ho).kind hk with rfl | rfl
      · exact List.mem_append_left _ hl
      · exact List.mem_append_right _ hl

theorem lines_plain {x : Exchange} {g : Mgr} (h : Agree x g) (hr : g.Reachable) {s k r} (hm : r ∈ g.lines s k) : r.book ∧ (k = .bid ∨ k = .ask) := by
  have hb : g.getBook s ≠ none := by
    intro hb
    rw [lines_none (by exact hb)] at hm; cases hm
  obtain ⟨h1, _, h2⟩ := (lines_complete hr hb).1 hm
  have := h.plain _ _ h1
  exact ⟨this, this.kind h2⟩

theorem uncrossed_at {g : Mgr} (hi : MInv g) {s} : UncrossedAt g s ↔ ∀ b ∈ g.lines s .bid, ∀ a ∈ g.lines s .ask, b.price < a.price := by
  unfold UncrossedAt
  cases hb : slot g.books s with
  | none => rw [lines_none hb]; simp
  | some b =>
    rw [lines_core hi hb, lines_core hi hb, ← uncrossed_lines (hi.inv hb).1]
    exact ⟨fun h => h b rfl, fun h b' e => by cases e; exact h⟩

theorem Agree.quiet {x : Exchange} {g : Mgr} (h : Agree x g) (hr : g.Reachable) (s : Nat) : g.Quiet s := by
  intro hm
  refine ⟨(uncrossed_at hr.minv).1 (h.uncrossed hm s), ?_⟩
  intro k hk
  cases hl : g.lines s k with
  | nil => rfl
  | cons r rs =>
    rcases (lines_plain h hr (s := s) (k := k) (r := r) (by rw [hl]; simp)).2 with rfl | rfl <;> simp [Kind.isLimit] at hk

theorem Agree.noAON {x : Exchange} {g : Mgr} (h : Agree x g) (s : Nat) : g.NoAON s := by
  intro i o ho _ ht
  rw [(h.plain i o ho).2] at ht; cases ht

theorem Agree.resting {x : Exchange} {g : Mgr} (h : Agree x g) (hr : g.Reachable) (s sd) : ∀ r ∈ g.resting s sd, r.tif ≠ .aon := by
  intro r hm ht
  rw [(lines_plain h hr hm).1.2] at ht; cases ht

/-- A call on the book of `sym` keeps the agreement if it leaves plain orders. -/
theorem Agree.moved {x : Exchange} {g g' : Mgr} (h : Agree x g) (hr : g.Reachable) (hr' : g'.Reachable) {op tag sym e l}
    (heff : StepEff g op g' e) (ha : g.Admissible op) (hop : ∀ s, op.noAON s) (hbo : BookOp tag sym g g' e)
    (hl : g'.lines = g.lines.set sym l) (hp : ∀ k, ∀ r ∈ l k, r.book) : Agree { x with lines := x.lines.set sym l } g' := by
  have hi := hr.minv
  have hbs := hbo.bookSymbol hi
  have hsym : g'.symbols = g.symbols := by obtain ⟨b, s', _, _, rfl⟩ := hbo.ex; rfl
  have hbk : g.getBook sym ≠ none := by
    obtain ⟨b, s', h1, _⟩ := hbo.ex
    intro h2
    rw [show slot g.books sym = none from h2] at h1; cases h1
  have hkept : ∀ i o, g'.getOrder i = some o → g'.getBook o.symbolId ≠ none := by
    intro i o ho
    rw [bookSymbol_iff hbs]
    by_cases e : o.symbolId = sym
    · rw [e]; exact hbk
    · refine h.kept i o ?_
      rw [hr'.minv.getOrder] at ho
      rw [hi.getOrder]
      exact (hbo.iso hi).1.back i o ho e
  refine ⟨h.matching.trans hbo.matching.symm, ?_, ?_, ?_, hkept, ?_, ?_⟩
  · intro i
    rw [show g'.getSymbol i = g.getSymbol i by unfold Mgr.getSymbol; rw [hsym]]
    exact h.symbols i
  · intro i
    rw [bookSymbol_iff hbs]
    exact h.books i
  · show x.lines.set sym l = g'.lines
    rw [hl, h.lines]
  · intro i o ho
    obtain ⟨k, hk⟩ := getOrder_kind hr' ho
    have hid := own_id hr' ho
    have hm := (lines_complete hr' (hkept i o ho) (k := k) (r := o)).2 ⟨by rw [hid]; exact ho, rfl, hk⟩
    rw [hl] at hm
    unfold Lines.set at hm
    by_cases e : o.symbolId = sym
    · rw [if_pos e] at hm; exact hp k o hm
    · rw [if_neg e] at hm; exact (lines_plain h hr hm).1
  · intro hm s
    exact heff.uncrossed hi ha (h.noAON s) (hop s) (fun hm => h.uncrossed hm s) hm

/-! ### Plain orders stay plain -/

theorem change_plain {l : Board} {id v} (h : ∀ k, ∀ r ∈ l k, r.book) (hv : ∀ o, v = some o → o.book) : ∀ k, ∀ r ∈ l.change id v k, r.book := by
  intro k r hr
  unfold Board.change at hr
  obtain ⟨r0, h1, h2⟩ := List.mem_filterMap.1 hr
  by_cases e : r0.id = id
  · rw [if_pos e] at h2; exact hv r h2
  · rw [if_neg e] at h2; cases h2; exact h k r h1

theorem greedyRest_book (rs : List Order) : ∀ t : Order, (∀ r ∈ rs, r.book) → ∀ r ∈ greedyRest t rs, r.book := by
  induction rs with
  | nil => intro t _ r hr; cases hr
  | cons a rs ih =>
    intro t h r hr
    unfold greedyRest at hr
    by_cases e : t.stopsAt a
    · rw [if_pos e] at hr; exact h r hr
    · rw [if_neg e] at hr
      simp only at hr
      by_cases e' : min a.leaves t.leaves = a.leaves
      · rw [if_pos e'] at hr
        exact ih _ (fun r hr => h r (by simp [hr])) r hr
      · rw [if_neg e'] at hr
        rcases List.mem_cons.1 hr with rfl | hr
        · exact h a (by simp)
        · exact h r (by simp [hr])

theorem insert_plain {l : Board} {t} (h : ∀ k, ∀ r ∈ l k, r.book) (ht : t.book) : ∀ k, ∀ r ∈ l.insert t k, r.book := by
  intro k r hr
  unfold Board.insert at hr
  split at hr
  · rcases enqueue_mem.1 hr with rfl | hr
    · exact ht
    · exact h k r hr
  · exact h k r hr

theorem rests_plain {t : Order} (hp : Exchange.plain t) (hr : t.rests) : t.book := by
  obtain ⟨h1, h2⟩ := hp
  obtain ⟨_, h4, h5⟩ := hr
  have ht : t.type = .limit := by rcases h1 with h | h; exact h; exact absurd h h4
  refine ⟨ht, ?_⟩
  rcases h5 ht with h | h
  · exact h
  · exact absurd h h2

theorem capped_facts (t : Order) (rs : List Order) : (t.capped rs).type = t.type ∧ (t.capped rs).tif = t.tif ∧ (t.capped rs).id = t.id := by
  unfold Order.capped
  split <;> exact ⟨rfl, rfl, rfl⟩

theorem arrive_plain {l : Board} {m t} (h : ∀ k, ∀ r ∈ l k, r.book) (hp : Exchange.plain t) : ∀ k, ∀ r ∈ (l.arrive m t).2 k, r.book := by
  unfold Board.arrive
  cases m with
  | false =>
    simp only [Bool.false_eq_true, if_false]
    by_cases e : t.rests
    · rw [if_pos e]; exact insert_plain h (rests_plain hp e)
    · rw [if_neg e]; exact h
  | true =>
    simp only [if_true]
    have h' : ∀ k, ∀ r ∈ l.put t.side.other.limits ((t.capped (l t.side.other.limits)).leaveLine (l t.side.other.limits)) k, r.book := by
      intro k r hr
      unfold Board.put at hr
      split at hr
      · obtain ⟨r', a, _, _, b, c, _⟩ := leaveLine_mem hr
        have := h _ r' a
        exact ⟨c.trans this.1, b.trans this.2⟩
      · exact h k r hr
    have hpl : Exchange.plain ((t.capped (l t.side.other.limits)).left (l t.side.other.limits)) := by
      obtain ⟨_, _, f3, _, f5⟩ := left_facts (t.capped (l t.side.other.limits)) (l t.side.other.limits)
      obtain ⟨c1, c2, _⟩ := capped_facts t (l t.side.other.limits)
      unfold Exchange.plain
      rw [f3, f5, c1, c2]; exact hp
    by_cases e : ((t.capped (l t.side.other.limits)).left (l t.side.other.limits)).rests
    · rw [if_pos e]; exact insert_plain h' (rests_plain hpl e)
    · rw [if_neg e]; exact h'

theorem board_plain {x : Exchange} {g : Mgr} (h : Agree x g) (hr : g.Reachable) (s : Nat) : ∀ k, ∀ r ∈ g.lines s k, r.book :=
  fun _ _ hm => (lines_plain h hr hm).1

theorem Order.book.plain {o : Order} (h : o.book) : Exchange.plain o := ⟨.inl h.1, by rw [h.2]; simp⟩

/-! ### Matching with nothing to match -/

theorem matchAt_idle {g : Mgr} (hi : MInv g) (i : Nat) (hq : (g.lines i).quiet) :
    ∃ g', g.matchAt i = .ok g' ∧ MInv g' ∧ g'.ev = g.ev ∧ g'.lines = g.lines ∧ g'.orders = g.orders ∧ g'.symbols = g.symbols ∧
      g'.matching = g.matching ∧ g'.bookSymbol = g.bookSymbol ∧ g'.books.length = g.books.length := by
  obtain ⟨g1, a1, a2, _, _, _, _, a7, a8, a9⟩ := matchAt_ok hi i
  unfold Mgr.matchAt at a1 ⊢
  cases hb : slot g.books i with
  | none => exact ⟨g, rfl, hi, rfl, rfl, rfl, rfl, rfl, rfl, rfl⟩
  | some b =>
    rw [hb] at a1
    obtain ⟨h1, h2⟩ := hi.inv hb
    rw [lines_board hi hb] at hq
    obtain ⟨hu, hn⟩ := (calm_lines (m := true) h1).2 (fun _ => hq) rfl
    obtain ⟨tb, ta, e⟩ := matchBook_idle h1 hu hn
    have e' : matchBook ⟨g.orders, b, g.ev⟩ = .ok ((g.core b).trail tb ta) := e
    simp only [e', Except.bind_ok] at a1 ⊢
    cases a1
    refine ⟨_, rfl, a2, rfl, ?_, rfl, rfl, rfl, ?_, a8⟩
    · funext n k
      by_cases en : n = i
      · subst en
        have := lines_core (g := g.put n ((g.core b).trail tb ta)) a2 (put_getBook_same hb) k
        rw [lines_core hi hb]
        exact this
      · cases hn : slot g.books n with
        | none => rw [lines_none hn]; exact lines_none (g := g.put i ((g.core b).trail tb ta)) (by rw [put_getBook_other en]; exact hn) k
        | some b' =>
          rw [lines_core hi hn]
          exact lines_core (g := g.put i ((g.core b).trail tb ta)) a2 (by rw [put_getBook_other en]; exact hn) k
    · funext n
      by_cases en : n = i
      · subst en
        show (slot (g.put n ((g.core b).trail tb ta)).books n).map (·.symbol) = (slot g.books n).map (·.symbol)
        rw [put_getBook_same hb, hb]; rfl
      · show (slot (g.put i ((g.core b).trail tb ta)).books n).map (·.symbol) = (slot g.books n).map (·.symbol)
        rw [put_getBook_other en]

theorem matchFrom_idle (is : List Nat) : ∀ {g : Mgr}, MInv g → (∀ i, (g.lines i).quiet) →
    ∃ g', Mgr.matchFrom is g = .ok g' ∧ MInv g' ∧ g'.ev = g.ev ∧ g'.lines = g.lines ∧ g'.orders = g.orders ∧ g'.symbols = g.symbols ∧
      g'.matching = g.matching ∧ g'.bookSymbol = g.bookSymbol := by
  induction is with
  | nil => intro g hi _; exact ⟨g, rfl, hi, rfl, rfl, rfl, rfl, rfl, rfl⟩
  | cons i is ih =>
    intro g hi hq
    obtain ⟨g1, a1, a2, a3, a4, a5, a6, a7, a8, _⟩ := matchAt_idle hi i (hq i)
    obtain ⟨g2, b1, b2, b3, b4, b5, b6, b7, b8⟩ := ih a2 (by rw [a4]; exact hq)
    exact ⟨g2, by simp only [Mgr.matchFrom, a1, Except.bind_ok, b1], b2, b3.trans a3, b4.trans a4, b5.trans a5, b6.trans a6, b7.trans a7, b8.trans a8⟩

end CppTrader
