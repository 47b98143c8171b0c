import Verif.Proof.Mgr
/-
Every public call: totality, preservation of the invariant, and what it did.
-/

namespace CppTrader
open Core

/-- Slot-wise update of a registry. -/
def SlotSet {α : Type} (v v' : List (Option α)) (i : Nat) (x : Option α) : Prop :=
  ∀ j, slot v' j = if j = i then x else slot v j

theorem SlotSet.of_set {α} {v : List (Option α)} {i : Nat} {x : Option α} (h : i < v.length) : SlotSet v (v.set i x) i x := by
  intro j
  by_cases e : j = i
  · subst e; rw [slot_set_same h]; simp
  · rw [slot_set_other e]; simp [e]

/-- What a public call did. -/
inductive StepEff (g : Mgr) : Op → Mgr → ErrorCode → Prop
  | refused {op g' e} (h : Refused g (g.refusal op) g' e) : StepEff g op g' e
  | addSymbol {sym v} (hn : slot g.symbols sym.id = none) (hv : SlotSet g.symbols v sym.id (some sym)) :
      StepEff g (.addSymbol sym) { g with symbols := v, ev := g.ev ++ [.addSymbol sym] } .ok
  | deleteSymbol {id sym v} (hn : slot g.symbols id = some sym) (hv : SlotSet g.symbols v id none) :
      StepEff g (.deleteSymbol id) { g with symbols := v, ev := g.ev ++ [.deleteSymbol sym] } .ok
  | addBook {sym reg v} (hr : slot g.symbols sym.id = some reg) (hn : slot g.books sym.id = none)
      (hv : SlotSet g.books v sym.id (some (Book.new reg))) :
      StepEff g (.addOrderBook sym) { g with books := v, ev := g.ev ++ [.addBook reg] } .ok
  | deleteBook {id b v} (hn : slot g.books id = some b) (hv : SlotSet g.books v id none) :
      StepEff g (.deleteOrderBook id) { g with books := v, ev := g.ev ++ [.deleteBook b.symbol] } .ok
  | book {op tag sym g' e} (on : op.on g tag sym) (h : BookOp tag sym g g' e) : StepEff g op g' e
  | replaceWith {id o old g1 g' e} (ho : g.orders id = some old) (h1 : BookOp .delete old.symbolId g g1 .ok)
      (h2 : Refused g1 (g1.refusal (.addOrder o)) g' e ∨ BookOp (.add (g1.trailMarket o.symbolId o.side) o) o.symbolId g1 g' e) : StepEff g (.replaceWith id o) g' e
  | enable {g'} (acts : Acts (fun _ l => EngL l) { g with matching := true } g') (all : ∀ i, MatchedAt g' i)
      (hm : g'.matching = true) : StepEff g .enableMatching g' .ok
  | disable : StepEff g .disableMatching { g with matching := false } .ok
  | all {g'} (acts : Acts (fun _ l => EngL l) g g') (all : ∀ i, MatchedAt g' i)
      (hm : g'.matching = g.matching) : StepEff g .matchAll g' .ok

theorem resize_get {α} {v : List (Option α)} {i : Nat} (h : v.length ≤ i) (hi : i < 4294967295) :
    (resizeTo v ((i + 1) % 4294967296))[i]? = some none := by
  rw [Nat.mod_eq_of_lt (by omega)]
  unfold resizeTo
  rw [List.take_of_length_le (by omega), List.getElem?_append_right h, List.getElem?_replicate]
  simp; omega

theorem resize_len {α} {v : List (Option α)} {i : Nat} (h : v.length ≤ i) (hi : i < 4294967295) :
    i < (resizeTo v ((i + 1) % 4294967296)).length := by
  rw [Nat.mod_eq_of_lt (by omega)]
  unfold resizeTo
  simp; omega

theorem slot_resize' {α} {v : List (Option α)} {i : Nat} (h : v.length ≤ i) (hi : i < 4294967295) (j : Nat) :
    slot (resizeTo v ((i + 1) % 4294967296)) j = slot v j := by
  rw [Nat.mod_eq_of_lt (by omega)]
  exact slot_resize v (by omega) j

theorem slot_none_of_len {α} {v : List (Option α)} {i : Nat} (h : v.length ≤ i) : slot v i = none := by
  unfold slot; rw [List.getElem?_eq_none h]; rfl

theorem addSymbol_mgr {g : Mgr} {sym : Symbol} (hs : sym.id < 4294967295) :
    ∃ g' e, g.addSymbol sym = .ok (g', e) ∧ StepEff g (.addSymbol sym) g' e := by
  unfold Mgr.addSymbol
  by_cases hl : g.symbols.length ≤ sym.id
  · simp only [hl, if_true, resize_get hl hs]
    refine ⟨_, _, rfl, .addSymbol (slot_none_of_len hl) ?_⟩
    intro j
    rw [SlotSet.of_set (resize_len hl hs) j, slot_resize' hl hs]
  · simp only [hl, if_false]
    have hlt : sym.id < g.symbols.length := by omega
    cases hx : g.symbols[sym.id]? with
    | none => rw [List.getElem?_eq_none_iff] at hx; omega
    | some x =>
      cases x with
      | some y => exact ⟨_, _, rfl, .refused ⟨rfl, by simp, by simp, by simp [Mgr.refusal, Mgr.getSymbol, slot, hx]⟩⟩
      | none => exact ⟨_, _, rfl, .addSymbol (by unfold slot; rw [hx]; rfl) (SlotSet.of_set hlt)⟩

theorem addOrderBook_mgr {g : Mgr} (sym : Symbol) (hsy : ∀ s, slot g.symbols sym.id = some s → sym.id < 4294967295) :
    ∃ g' e, g.addOrderBook sym = .ok (g', e) ∧ StepEff g (.addOrderBook sym) g' e := by
  unfold Mgr.addOrderBook
  cases hr : slot g.symbols sym.id with
  | none => exact ⟨_, _, rfl, .refused ⟨rfl, by simp, by simp, by simp [Mgr.refusal, Mgr.getSymbol, hr]⟩⟩
  | some reg =>
    have hs := hsy _ hr
    by_cases hl : g.books.length ≤ sym.id
    · simp only [hl, if_true, resize_get hl hs]
      refine ⟨_, _, rfl, .addBook hr (slot_none_of_len hl) ?_⟩
      intro j
      rw [SlotSet.of_set (resize_len hl hs) j, slot_resize' hl hs]
    · simp only [hl, if_false]
      have hlt : sym.id < g.books.length := by omega
      cases hx : g.books[sym.id]? with
      | none => rw [List.getElem?_eq_none_iff] at hx; omega
      | some x =>
        cases x with
        | some y => exact ⟨_, _, rfl, .refused ⟨rfl, by simp, by simp, by simp only [Mgr.refusal, Mgr.getSymbol, Mgr.getBook, hr, show slot g.books sym.id = some y by unfold slot; rw [hx]; rfl]; simp⟩⟩
        | none => exact ⟨_, _, rfl, .addBook hr (by unfold slot; rw [hx]; rfl) (SlotSet.of_set hlt)⟩

theorem step_ok {g : Mgr} (hi : MInv g) (op : Op) (ha : g.Admissible op) :
    ∃ g' e, g.step op = .ok (g', e) ∧ StepEff g op g' e := by
  cases op with
  | addSymbol sym => exact addSymbol_mgr ha
  | deleteSymbol id =>
    simp only [Mgr.step, Mgr.deleteSymbol]
    cases hs : slot g.symbols id with
    | none => exact ⟨_, _, rfl, .refused ⟨rfl, by simp, by simp, by simp [Mgr.refusal, Mgr.getSymbol, hs]⟩⟩
    | some sym => exact ⟨_, _, rfl, .deleteSymbol hs (SlotSet.of_set (slot_lt hs))⟩
  | addOrderBook sym => exact addOrderBook_mgr sym fun s h => (hi.symbols _ s h).2
  | deleteOrderBook id =>
    simp only [Mgr.step, Mgr.deleteOrderBook]
    cases hs : slot g.books id with
    | none => exact ⟨_, _, rfl, .refused ⟨rfl, by simp, by simp, by simp [Mgr.refusal, Mgr.getBook, hs]⟩⟩
    | some b => exact ⟨_, _, rfl, .deleteBook hs (SlotSet.of_set (slot_lt hs))⟩
  | addOrder o =>
    obtain ⟨g', e, e1, e2⟩ := addOrder_mgr hi ha.1 ha.2
    refine ⟨g', e, e1, ?_⟩
    rcases e2 with e2 | e2
    · exact .refused e2
    · exact .book ⟨rfl, rfl⟩ e2.2
  | reduceOrder id q =>
    obtain ⟨g', e, e1, e2⟩ := reduceOrder_mgr hi id q
    refine ⟨g', e, e1, ?_⟩
    rcases e2 with e2 | ⟨o, e2, e3⟩
    · exact .refused e2
    · exact .book ⟨rfl, o, e2, rfl⟩ e3
  | modifyOrder id p q =>
    obtain ⟨g', e, e1, e2⟩ := modifyOrder_mgr hi id p q false ha.1 ha.2.1 ha.2.2
    refine ⟨g', e, e1, ?_⟩
    rcases e2 with e2 | ⟨o, e2, e3⟩
    · exact .refused e2
    · exact .book ⟨rfl, o, e2, rfl⟩ e3
  | mitigateOrder id p q =>
    obtain ⟨g', e, e1, e2⟩ := modifyOrder_mgr hi id p q true ha.1 ha.2.1 ha.2.2
    refine ⟨g', e, e1, ?_⟩
    rcases e2 with e2 | ⟨o, e2, e3⟩
    · exact .refused e2
    · exact .book ⟨rfl, o, e2, rfl⟩ e3
  | replaceOrder id n p q =>
    obtain ⟨g', e, e1, e2⟩ := replaceOrder_mgr hi id n p q ha.1 ha.2.1 ha.2.2.1 ha.2.2.2
    refine ⟨g', e, e1, ?_⟩
    rcases e2 with e2 | ⟨o, e2, e3⟩
    · exact .refused e2
    · exact .book ⟨o, rfl, e2, rfl⟩ e3
  | replaceWith id o =>
    obtain ⟨g', e, e1, e2⟩ := replaceWith_mgr hi id ha.1 ha.2
    refine ⟨g', e, e1, ?_⟩
    rcases e2 with e2 | ⟨old, g1, e2, e3, e4⟩
    · exact .refused e2
    · refine .replaceWith e2 e3 ?_
      rcases e4 with e4 | e4
      · exact .inl e4
      · exact .inr e4.2
  | deleteOrder id =>
    obtain ⟨g', e, e1, e2, _⟩ := deleteOrder_mgr hi id
    refine ⟨g', e, e1, ?_⟩
    rcases e2 with e2 | ⟨o, e2, e3⟩
    · exact .refused e2
    · exact .book ⟨rfl, o, e2, rfl⟩ e3
  | executeOrder id q =>
    obtain ⟨g', e, e1, e2⟩ := executeOrder_mgr hi id q
    refine ⟨g', e, e1, ?_⟩
    rcases e2 with e2 | ⟨o, e2, e3⟩
    · exact .refused e2
    · exact .book ⟨rfl, o, e2, rfl⟩ e3
  | executeOrderAt id p q =>
    obtain ⟨g', e, e1, e2⟩ := executeOrderAt_mgr hi id p q
    refine ⟨g', e, e1, ?_⟩
    rcases e2 with e2 | ⟨o, e2, e3⟩
    · exact .refused e2
    · exact .book ⟨rfl, o, e2, rfl⟩ e3
  | enableMatching =>
    have hi' : MInv { g with matching := true } := ⟨hi.orders, hi.books, hi.symbols⟩
    obtain ⟨g', a1, a2, a3, a4, a5, a6⟩ := matchAll_ok hi'
    exact ⟨g', .ok, by simp only [Mgr.step, a1, Except.bind_ok], .enable a3 a4 a5⟩
  | disableMatching => exact ⟨_, _, rfl, .disable⟩
  | matchAll =>
    obtain ⟨g', a1, a2, a3, a4, a5, a6⟩ := matchAll_ok hi
    exact ⟨g', .ok, by simp only [Mgr.step, a1, Except.bind_ok], .all a3 a4 a5⟩

theorem Book.new_ok {m : Nat → Option Order} {reg : Symbol} (h : ∀ i o, m i = some o → o.symbolId ≠ reg.id) :
    BookOK m (Book.new reg) :=
  ⟨fun k => ⟨List.Pairwise.nil, by simp [Book.new], rfl⟩, fun i o h1 h2 => absurd h2 (h i o h1)⟩

theorem StepEff.minv {g op g' e} (hi : MInv g) (ha : g.Admissible op) (h : StepEff g op g' e) : MInv g' := by
  cases h with
  | refused h => rw [h.1]; exact hi
  | addSymbol hn hv =>
    refine ⟨hi.orders, hi.books, ?_⟩
    intro i s hs
    rw [hv i] at hs
    split at hs
    · rename_i e; cases hs; exact ⟨e.symm, by rw [e]; exact ha⟩
    · exact hi.symbols i s hs
  | deleteSymbol hn hv =>
    refine ⟨hi.orders, hi.books, ?_⟩
    intro i s hs
    rw [hv i] at hs
    split at hs
    · cases hs
    · exact hi.symbols i s hs
  | addBook hr hn hv =>
    rename_i sym reg v
    refine ⟨hi.orders, ?_, hi.symbols⟩
    intro i b hb
    rw [hv i] at hb
    split at hb
    · rename_i e; subst e
      cases hb
      have hid := (hi.symbols _ _ hr).1
      refine ⟨hid, Book.new_ok ?_, by show (0 : Nat) < _; omega⟩
      intro i o ho
      rw [hid]
      exact ha hn i o (by rw [hi.getOrder]; exact ho)
    · exact hi.books i b hb
  | deleteBook hn hv =>
    refine ⟨hi.orders, ?_, hi.symbols⟩
    intro i b hb
    rw [hv i] at hb
    split at hb
    · cases hb
    · exact hi.books i b hb
  | book on h => exact h.minv hi
  | replaceWith ho h1 h2 =>
    rcases h2 with h2 | h2
    · rw [h2.1]; exact h1.minv hi
    · exact h2.minv (h1.minv hi)
  | enable acts all hm => exact acts.minv ⟨hi.orders, hi.books, hi.symbols⟩
  | disable => exact ⟨hi.orders, hi.books, hi.symbols⟩
  | all acts all hm => exact acts.minv hi

theorem MInv.init : MInv Mgr.init :=
  ⟨(fun i o h => by cases h), (fun i b h => by simp [Mgr.init, slot] at h), (fun i s h => by simp [Mgr.init, slot] at h)⟩

theorem step_eff {g : Mgr} (hi : MInv g) {op : Op} (ha : g.Admissible op) {g' e} (h : g.step op = .ok (g', e)) :
    StepEff g op g' e := by
  obtain ⟨g1, e1, h1, h2⟩ := step_ok hi op ha
  rw [h] at h1; cases h1; exact h2

theorem Mgr.Reachable.minv {g : Mgr} (h : g.Reachable) : MInv g := by
  induction h with
  | init => exact MInv.init
  | step _ ha hs ih => exact (step_eff ih ha hs).minv ih ha

/-- Everything known about one public call on a reachable state. -/
theorem Mgr.Reachable.eff {g : Mgr} (h : g.Reachable) {op g' e} (ha : g.Admissible op) (hs : g.step op = .ok (g', e)) :
    StepEff g op g' e := step_eff h.minv ha hs

end CppTrader
