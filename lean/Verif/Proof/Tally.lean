import Verif.Tally
import Verif.Props.OptimizedFeed
/-
Counting callbacks.
-/

namespace CppTrader
open Opt (Note)

/-- One callback. -/
def Tally.note (T : Tally) : Note → Tally
  | .symbol => { T with updates := T.updates + 1, symbols := T.symbols + 1 }
  | .book => { T with updates := T.updates + 1, books := T.books + 1 }
  | .level => { T with updates := T.updates + 1 }
  | .order => { T with updates := T.updates + 1, orders := T.orders + 1, maxOrders := max T.maxOrders (T.orders + 1), adds := T.adds + 1 }
  | .change => { T with updates := T.updates + 1, changes := T.changes + 1 }
  | .gone => { T with updates := T.updates + 1, orders := T.orders - 1, deletes := T.deletes + 1 }
  | .trade => { T with updates := T.updates + 1, execs := T.execs + 1 }

/-- What a note does to the counters of the market handlers. -/
def Stats.note (c : Stats) : Note → Stats
  | .symbol => c.addSymbol
  | .book => c.addBook
  | .level => c.tick
  | .order => c.addOrder
  | .change => c.updateOrder
  | .gone => c.deleteOrder
  | .trade => c.exec

/-- No counter exceeds the number of updates. -/
structure Tally.Ok (T : Tally) : Prop where
  symbols : T.symbols ≤ T.updates
  books : T.books ≤ T.updates
  orders : T.orders ≤ T.updates
  maxOrders : T.maxOrders ≤ T.updates
  adds : T.adds ≤ T.updates
  changes : T.changes ≤ T.updates
  deletes : T.deletes ≤ T.updates
  execs : T.execs ≤ T.updates

theorem Tally.Ok.note {T : Tally} (h : T.Ok) (n : Note) : (T.note n).Ok := by
  obtain ⟨h1, h2, h3, h4, h5, h6, h7, h8⟩ := h
  cases n <;> constructor <;> simp only [Tally.note] <;> omega

theorem add64_small {a b : Nat} (h : a + b < W64) : add64 a b = a + b := Nat.mod_eq_of_lt h

theorem sub64_one' {a : Nat} (h : 0 < a) (h' : a < W64) : sub64 a 1 = a - 1 := Opt.sub64_one h h'

theorem Stats.Is.note {c : Stats} {T : Tally} (h : c.Is T) (hT : T.Ok) (hw : T.updates + 1 < W64) {n : Note} (hn : n = .gone → 0 < T.orders) :
    (c.note n).Is (T.note n) := by
  obtain ⟨h1, h2, h3, h4, h5, h6, h7, h8, h9, h10, h11⟩ := h
  obtain ⟨t1, t2, t3, t4, t5, t6, t7, t8⟩ := hT
  have hu : add64 c.updates 1 = T.updates + 1 := by rw [h1, add64_small (by omega)]
  cases n with
  | symbol =>
    have : add64 c.symbols 1 = T.symbols + 1 := by rw [h2, add64_small (by omega)]
    refine ⟨hu, this, ?_, h4, h5, h6, h7, h8, h9, h10, h11⟩
    show max (add64 c.symbols 1) c.maxSymbols = T.symbols + 1
    rw [this, h3]; omega
  | book =>
    have : add64 c.books 1 = T.books + 1 := by rw [h4, add64_small (by omega)]
    refine ⟨hu, h2, h3, this, ?_, h6, h7, h8, h9, h10, h11⟩
    show max (add64 c.books 1) c.maxBooks = T.books + 1
    rw [this, h5]; omega
  | level => exact ⟨hu, h2, h3, h4, h5, h6, h7, h8, h9, h10, h11⟩
  | order =>
    have e : add64 c.orders 1 = T.orders + 1 := by rw [h6, add64_small (by omega)]
    refine ⟨hu, h2, h3, h4, h5, e, ?_, ?_, h9, h10, h11⟩
    · show max (add64 c.orders 1) c.maxOrders = max T.maxOrders (T.orders + 1)
      rw [e, h7, Nat.max_comm]
    · show add64 c.adds 1 = T.adds + 1
      rw [h8, add64_small (by omega)]
  | change =>
    refine ⟨hu, h2, h3, h4, h5, h6, h7, h8, ?_, h10, h11⟩
    show add64 c.changes 1 = T.changes + 1
    rw [h9, add64_small (by omega)]
  | gone =>
    refine ⟨hu, h2, h3, h4, h5, ?_, h7, h8, h9, ?_, h11⟩
    · show sub64 c.orders 1 = T.orders - 1
      rw [h6, sub64_one' (hn rfl) (by omega)]
    · show add64 c.deletes 1 = T.deletes + 1
      rw [h10, add64_small (by omega)]
  | trade =>
    refine ⟨hu, h2, h3, h4, h5, h6, h7, h8, h9, h10, ?_⟩
    show add64 c.execs 1 = T.execs + 1
    rw [h11, add64_small (by omega)]

/-- No order goes that is not there. -/
def Present : Nat → List Note → Prop
  | _, [] => True
  | n, .order :: ns => Present (n + 1) ns
  | n, .gone :: ns => 0 < n ∧ Present (n - 1) ns
  | n, _ :: ns => Present n ns

theorem Tally.note_updates (T : Tally) (n : Note) : (T.note n).updates = T.updates + 1 := by cases n <;> rfl

theorem Stats.Is.notes (ns : List Note) : ∀ {c : Stats} {T : Tally}, c.Is T → T.Ok → T.updates + ns.length < W64 → Present T.orders ns →
    (ns.foldl Stats.note c).Is (ns.foldl Tally.note T) ∧ (ns.foldl Tally.note T).Ok ∧
      (ns.foldl Tally.note T).updates = T.updates + ns.length := by
  induction ns with
  | nil => intro c T h hT _ _; exact ⟨h, hT, rfl⟩
  | cons n ns ih =>
    intro c T h hT hw hp
    rw [List.length_cons] at hw
    simp only [List.foldl_cons]
    have h1 := h.note hT (by omega) (n := n) (by rintro rfl; exact hp.1)
    have := ih h1 (hT.note n) (by rw [Tally.note_updates]; omega) (by
      cases n <;> first | exact hp | exact hp.2)
    rw [Tally.note_updates] at this
    exact ⟨this.1, this.2.1, by rw [this.2.2, List.length_cons]; omega⟩

/-- What is left after forgetting `maxLevels`. -/
def Stats.flat (c : Stats) : Stats := { c with maxLevels := 0 }

theorem Stats.Is.flat {c c' : Stats} {T : Tally} (h : c.Is T) (he : c'.flat = c.flat) : c'.Is T := by
  have e : ∀ {a b : Stats}, a.flat = b.flat → a.updates = b.updates ∧ a.symbols = b.symbols ∧ a.maxSymbols = b.maxSymbols ∧ a.books = b.books ∧
      a.maxBooks = b.maxBooks ∧ a.orders = b.orders ∧ a.maxOrders = b.maxOrders ∧ a.adds = b.adds ∧ a.changes = b.changes ∧
      a.deletes = b.deletes ∧ a.execs = b.execs := by
    intro a b h
    simp only [Stats.flat, Stats.mk.injEq] at h
    obtain ⟨h1, h2, h3, h4, h5, _, h6, h7, h8, h9, h10, h11⟩ := h
    exact ⟨h1, h2, h3, h4, h5, h6, h7, h8, h9, h10, h11⟩
  obtain ⟨e1, e2, e3, e4, e5, e6, e7, e8, e9, e10, e11⟩ := e he
  unfold Stats.Is
  rw [e1, e2, e3, e4, e5, e6, e7, e8, e9, e10, e11]; exact h

theorem Stats.note_flat {a b : Stats} (h : a.flat = b.flat) (n : Note) : (a.note n).flat = (b.note n).flat := by
  simp only [Stats.flat, Stats.mk.injEq] at h
  obtain ⟨h1, h2, h3, h4, h5, _, h6, h7, h8, h9, h10, h11⟩ := h
  cases n <;> simp [Stats.note, Stats.flat, Stats.addSymbol, Stats.addBook, Stats.tick, Stats.addOrder, Stats.updateOrder, Stats.deleteOrder, Stats.exec,
    h1, h2, h3, h4, h5, h6, h7, h8, h9, h10, h11]

theorem fold_flat (ns : List Note) : ∀ {a b : Stats}, a.flat = b.flat → (ns.foldl Stats.note a).flat = (ns.foldl Stats.note b).flat := by
  induction ns with
  | nil => intro a b h; exact h
  | cons n ns ih => intro a b h; exact ih (Stats.note_flat h n)

/-- Counting the callbacks of the optimised manager. -/
theorem opt_fold (evs : List Opt.Ev) (h : ∀ e ∈ evs, e.note = none → ∃ bids asks top, e = .updateBook bids asks top) : ∀ c : Stats,
    (evs.foldl Opt.Ev.count c).flat = ((evs.filterMap Opt.Ev.note).foldl Stats.note c).flat := by
  induction evs with
  | nil => intro c; rfl
  | cons e evs ih =>
    intro c
    have ih := ih (fun x hx => h x (List.mem_cons_of_mem _ hx))
    rw [List.foldl_cons]
    cases hn : e.note with
    | none =>
      obtain ⟨b, a, t, rfl⟩ := h e (List.mem_cons_self ..) hn
      rw [List.filterMap_cons_none hn, ih]
      exact fold_flat _ rfl
    | some n =>
      rw [List.filterMap_cons_some hn, List.foldl_cons, ih]
      cases e <;> simp only [Opt.Ev.note, Option.some.injEq, reduceCtorEq] at hn <;> subst hn <;> rfl

/-- What a callback of the market manager counts as. -/
def Event.note : Event → Option Note
  | .addSymbol _ => some .symbol
  | .addBook _ => some .book
  | .addLevel _ _ _ => some .level
  | .updateLevel _ _ _ => some .level
  | .deleteLevel _ _ _ => some .level
  | .addOrder _ => some .order
  | .updateOrder _ => some .change
  | .deleteOrder _ => some .gone
  | .exec _ _ _ => some .trade
  | _ => none

/-- Counting the callbacks of the market manager. -/
theorem mgr_fold (evs : List Event) (h : ∀ e ∈ evs, e.note = none → ∃ sym top, e = .updateBook sym top) : ∀ c : Stats,
    evs.foldl Event.count c = (evs.filterMap Event.note).foldl Stats.note c := by
  induction evs with
  | nil => intro c; rfl
  | cons e evs ih =>
    intro c
    have ih := ih (fun x hx => h x (List.mem_cons_of_mem _ hx))
    rw [List.foldl_cons]
    cases hn : e.note with
    | none =>
      obtain ⟨b, t, rfl⟩ := h e (List.mem_cons_self ..) hn
      rw [List.filterMap_cons_none hn, ih]
      rfl
    | some n =>
      rw [List.filterMap_cons_some hn, List.foldl_cons, ih]
      cases e <;> simp only [Event.note, Option.some.injEq, reduceCtorEq] at hn <;> subst hn <;> rfl

/-! ### The reports -/

theorem Tally.comes_notes (T : Tally) : T.comes = [Note.order, .level].foldl Tally.note T := rfl

/-- Counting the notes of a report gives its statistics. -/
theorem tally_notes {t : Tape} {x : Report}
    (hf : ∀ id q, (x = .cancel id q ∨ x = .tick (.take id q)) → ∃ r, t.find id = some r) (T : Tally) :
    (Opt.msgNotes t x).foldl Tally.note T = T.next t x := by
  cases x with
  | cancel id q =>
    obtain ⟨r, hr⟩ := hf id q (.inl rfl)
    show [Opt.stays t id q, Note.level].foldl Tally.note T = T.takes t id q
    unfold Opt.stays Tally.takes
    simp only [hr]
    by_cases hlt : q < r.qty
    · rw [if_pos hlt, if_pos hlt]; rfl
    · rw [if_neg hlt, if_neg hlt]; rfl
  | tick k =>
    cases k with
    | book _ => rfl
    | add _ => rfl
    | take id q =>
      obtain ⟨r, hr⟩ := hf id q (.inr rfl)
      show [Note.trade, .level, Opt.stays t id q].foldl Tally.note T = Tally.takes _ t id q
      unfold Opt.stays Tally.takes
      simp only [hr]
      by_cases hlt : q < r.qty
      · rw [if_pos hlt, if_pos hlt]; rfl
      · rw [if_neg hlt, if_neg hlt]; rfl
    | delete _ => rfl
    | modify id p q =>
      show (if 0 < q then _ else _ : List Note).foldl Tally.note T = if 0 < q then _ else _
      by_cases hq : 0 < q
      · rw [if_pos hq, if_pos hq]; rfl
      · rw [if_neg hq, if_neg hq]; rfl
    | replace id n p q =>
      show (if 0 < q then _ else _ : List Note).foldl Tally.note T = if 0 < q then _ else _
      by_cases hq : 0 < q
      · rw [if_pos hq, if_pos hq]
        simp only [List.foldl_cons, List.foldl_nil, Tally.note, Tally.goes, Tally.comes]
      · rw [if_neg hq, if_neg hq]; rfl

/-- The order a report speaks of. -/
def Report.target : Report → Option Nat
  | .cancel id _ => some id
  | .tick (.take id _) => some id
  | .tick (.delete id) => some id
  | .tick (.modify id _ _) => some id
  | .tick (.replace id _ _ _) => some id
  | _ => none

theorem length_find {t : Tape} (hn : (t.map (·.id)).Nodup) {id : Nat} {r : Ticket} (h : t.find id = some r) :
    t.length = (t.without id).length + 1 := by
  have := (Aggr.find_perm hn h).1.length_eq
  simpa using this

/-- The number of orders counted is the number of orders that rest. -/
theorem tally_length {t : Tape} (hn : (t.map (·.id)).Nodup) {x : Report} (hf : ∀ id, x.target = some id → ∃ r, t.find id = some r)
    {T : Tally} (h : T.orders = t.length) : (T.next t x).orders = (t.next x.plain).length ∧ Present T.orders (Opt.msgNotes t x) := by
  have htake : ∀ {id q : Nat} {r : Ticket}, t.find id = some r → ∀ T : Tally, T.orders = t.length →
      (T.takes t id q).orders = (t.next (.take id q)).length ∧ Present T.orders [Opt.stays t id q] := by
    intro id q r hr T h
    have hl := length_find hn hr
    unfold Tally.takes Tape.next Opt.stays
    simp only [hr]
    by_cases hlt : q < r.qty
    · rw [if_pos hlt, if_pos hlt, if_pos hlt]
      exact ⟨by show T.orders = _; rw [h, hl]; rfl, trivial⟩
    · rw [if_neg hlt, if_neg hlt, if_neg hlt]
      exact ⟨by show T.orders - 1 = _; rw [h, hl]; rfl, by omega, trivial⟩
  have hp : ∀ {n ns}, Present n ns → ∀ {k}, k = n → Present k ns := by rintro n ns h k rfl; exact h
  cases x with
  | cancel id q =>
    obtain ⟨r, hr⟩ := hf id rfl
    obtain ⟨a, b⟩ := htake (q := q) hr T h
    refine ⟨a, ?_⟩
    show Present T.orders [Opt.stays t id q, .level]
    cases hs : Opt.stays t id q <;> rw [hs] at b <;> first | trivial | exact ⟨b.1, trivial⟩
  | tick k =>
    cases k with
    | book _ => exact ⟨h, trivial⟩
    | add r => exact ⟨by show T.orders + 1 = (r :: t).length; rw [h]; rfl, trivial⟩
    | take id q =>
      obtain ⟨r, hr⟩ := hf id rfl
      exact htake (q := q) hr { T with updates := T.updates + 1, execs := T.execs + 1 } h
    | delete id =>
      obtain ⟨r, hr⟩ := hf id rfl
      have hl := length_find hn hr
      exact ⟨by show T.orders - 1 = (t.without id).length; omega, by show 0 < T.orders ∧ True; exact ⟨by omega, trivial⟩⟩
    | modify id p q =>
      obtain ⟨r, hr⟩ := hf id rfl
      have hl := length_find hn hr
      show (if 0 < q then _ else _ : Tally).orders = (t.next (.modify id p q)).length ∧ Present T.orders (if 0 < q then _ else _)
      unfold Tape.next
      simp only [hr]
      by_cases hq : 0 < q
      · rw [if_pos hq, if_pos hq, if_pos hq]
        exact ⟨by show T.orders = _; rw [h, hl]; rfl, trivial⟩
      · rw [if_neg hq, if_neg hq, if_neg hq]
        exact ⟨by show T.orders - 1 = _; omega, by show 0 < T.orders ∧ True; exact ⟨by omega, trivial⟩⟩
    | replace id n p q =>
      obtain ⟨r, hr⟩ := hf id rfl
      have hl := length_find hn hr
      show (if 0 < q then _ else _ : Tally).orders = (t.next (.replace id n p q)).length ∧ Present T.orders (if 0 < q then _ else _)
      unfold Tape.next
      simp only [hr]
      by_cases hq : 0 < q
      · rw [if_pos hq, if_pos hq, if_pos hq]
        exact ⟨by show T.orders - 1 + 1 = (t.without id).length + 1; omega, by show 0 < T.orders ∧ True; exact ⟨by omega, trivial⟩⟩
      · rw [if_neg hq, if_neg hq, if_neg hq]
        exact ⟨by show T.orders - 1 = _; omega, by show 0 < T.orders ∧ True; exact ⟨by omega, trivial⟩⟩

theorem notes_length (t : Tape) (x : Report) : (Opt.msgNotes t x).length ≤ 4 := by
  rcases x with k | ⟨id, q⟩
  · cases k with
    | modify id p q =>
      show (if 0 < q then _ else _ : List Note).length ≤ 4
      by_cases hq : 0 < q
      · rw [if_pos hq]; exact (by decide)
      · rw [if_neg hq]; exact (by decide)
    | replace id n p q =>
      show (if 0 < q then _ else _ : List Note).length ≤ 4
      by_cases hq : 0 < q
      · rw [if_pos hq]; exact (by decide)
      · rw [if_neg hq]; exact (by decide)
    | book _ => exact (by decide : 2 ≤ 4)
    | add _ => exact (by decide : 2 ≤ 4)
    | take _ _ => exact (by decide : 3 ≤ 4)
    | delete _ => exact (by decide : 2 ≤ 4)
  · exact (by decide : 2 ≤ 4)

/-- One report is counted. `ns` are the notes of the callbacks, possibly in another order than expected. -/
theorem Stats.Is.report {c : Stats} {T : Tally} (h : c.Is T) (hT : T.Ok) {t : Tape} (hn : (t.map (·.id)).Nodup) {x : Report}
    (hf : ∀ id, x.target = some id → ∃ r, t.find id = some r) (ho : T.orders = t.length) (hw : T.updates + 4 < W64) :
    ((Opt.msgNotes t x).foldl Stats.note c).Is (T.next t x) ∧ (T.next t x).Ok ∧ (T.next t x).updates ≤ T.updates + 4 ∧
      (T.next t x).orders = (t.next x.plain).length := by
  obtain ⟨h1, h2⟩ := tally_length hn hf ho
  have hl := notes_length t x
  have := h.notes (Opt.msgNotes t x) hT (by omega) h2
  rw [tally_notes (by
    rintro id q (rfl | rfl)
    · exact hf id rfl
    · exact hf id rfl)] at this
  exact ⟨this.1, this.2.1, by omega, h1⟩

end CppTrader
