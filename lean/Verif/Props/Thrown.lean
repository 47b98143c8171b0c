import Verif.Proof.Thrown
import Verif.Proof.Demo
import Verif.Proof.Grows
import Verif.Proof.Paused
/-
C89: what an exception thrown by a handler can damage, and how to go on.
-/

namespace CppTrader
open Core

theorem aside_of {S L : Nat → Prop} {next : Op} (h1 : ∀ id ∈ next.names, ¬ L id) (h2 : ∀ s ∈ next.namesSymbols, ¬ S s)
    (h3 : next ≠ .enableMatching) (h4 : next ≠ .matchAll) :
    ((aside S L).of next = some 0 ∨ next = .disableMatching) ∧ (aside S L).respects next := by
  have o : ∀ id, id ∈ next.names → (aside S L).order id = 0 := fun id hid => aside_order.2 (h1 id hid)
  have s : ∀ i, i ∈ next.namesSymbols → (aside S L).symbol i = 0 := fun i hi => aside_symbol.2 (h2 i hi)
  cases next with
  | addSymbol a => exact ⟨.inl (congrArg some (s a.id (by simp [Op.namesSymbols]))), trivial⟩
  | deleteSymbol a => exact ⟨.inl (congrArg some (s a (by simp [Op.namesSymbols]))), trivial⟩
  | addOrderBook a => exact ⟨.inl (congrArg some (s a.id (by simp [Op.namesSymbols]))), trivial⟩
  | deleteOrderBook a => exact ⟨.inl (congrArg some (s a (by simp [Op.namesSymbols]))), trivial⟩
  | addOrder a =>
    have e1 := s a.symbolId (by simp [Op.namesSymbols])
    exact ⟨.inl (congrArg some e1), (o a.id (by simp [Op.names])).trans e1.symm⟩
  | replaceOrder id n p q =>
    have e1 := o id (by simp [Op.names])
    exact ⟨.inl (congrArg some e1), (o n (by simp [Op.names])).trans e1.symm⟩
  | replaceWith id a =>
    have e1 := o id (by simp [Op.names])
    exact ⟨.inl (congrArg some e1), (o a.id (by simp [Op.names])).trans e1.symm, (s a.symbolId (by simp [Op.namesSymbols])).trans e1.symm⟩
  | reduceOrder id q => exact ⟨.inl (congrArg some (o id (by simp [Op.names]))), trivial⟩
  | modifyOrder id p q => exact ⟨.inl (congrArg some (o id (by simp [Op.names]))), trivial⟩
  | mitigateOrder id p q => exact ⟨.inl (congrArg some (o id (by simp [Op.names]))), trivial⟩
  | deleteOrder id => exact ⟨.inl (congrArg some (o id (by simp [Op.names]))), trivial⟩
  | executeOrder id q => exact ⟨.inl (congrArg some (o id (by simp [Op.names]))), trivial⟩
  | executeOrderAt id p q => exact ⟨.inl (congrArg some (o id (by simp [Op.names]))), trivial⟩
  | enableMatching => exact absurd rfl h3
  | disableMatching => exact ⟨.inr rfl, trivial⟩
  | matchAll => exact absurd rfl h4

theorem spared_of {g : Mgr} {op next : Op} (h : g.Spared op next) :
    ((aside (g.Addresses op) (g.Struck op)).of next = some 0 ∨ next = .disableMatching) ∧ (aside (g.Addresses op) (g.Struck op)).respects next :=
  aside_of h.1 h.2.1 h.2.2.1 h.2.2.2

/-- C89, containment. A call about an order is interrupted by an exception that a handler throws from one of its callbacks; `x` is
the manager then. Every further series of calls that keeps away from the symbols and orders of the interrupted call goes on as if that call
had never been made: with the same result codes, the same callbacks, and afterwards the same orders, symbols and books elsewhere. -/
theorem C89_contained {g : Mgr} (hr : g.Reachable) {op : Op} (ha : g.Admissible op) (hf : g.FreshId op) (hn : ¬ op.isRegistry) (hm : op.isMode = false)
    {g1 : Mgr} {e : ErrorCode} {seen : List Mgr} (hs : g.step op = .ok (g1, e)) (hw : g.watch op = .ok (g1, e, seen)) {x : Mgr} (hx : x ∈ seen)
    {l : List (Op × ErrorCode × List Event)} {g' : Mgr} (hl : g.Logs l g') (hsp : ∀ r ∈ l, g.Spared op r.1) :
    ∃ x' : Mgr, x.run (l.map (·.1)) = .ok (x', l.map (·.2.1)) ∧ x'.ev = x.ev ++ l.flatMap (·.2.2) ∧
      x'.matching = g'.matching ∧ (∀ id, ¬ g.Struck op id → x'.getOrder id = g'.getOrder id) ∧
      ∀ s, ¬ g.Addresses op s → x'.getSymbol s = g'.getSymbol s ∧ x'.getBook s = g'.getBook s := by
  have hi := hr.minv
  have sp := spares hr ha hf hn hm hs hw hx
  obtain ⟨h', x', a1, a2, a3, a4⟩ := twins_logs hl (d := aside (g.Addresses op) (g.Struck op))
    (without_twins (g := g) (x := g) rfl rfl (fun _ _ => rfl) (fun _ _ => rfl))
    (without_twins (g := g) (x := x) sp.matching sp.symbols sp.books.2 sp.orders)
    (without_minv hi fun id o ho h => .inl (struck_symbol hi hf ho h)) hi
    (fun i o ho => aside_symbol.2 fun h => (without_some.1 ho).1 (.inr ⟨o, by rw [hi.getOrder]; exact (without_some.1 ho).2, h⟩))
    (fun r hr => spared_of (hsp r hr))
  obtain ⟨b1, b2, b3⟩ := twins_same a3 a4
  refine ⟨x', a1, a2, b1, fun id hid => ?_, fun s hs => b3 s (aside_symbol.2 hs)⟩
  unfold Mgr.getOrder
  rw [b2 id (aside_order.2 hid)]

/-- One manager after the other, both with left-behind orders `L`. -/
theorem haunts_mends {L : Nat → Prop} {g g' : Mgr} {l : List (Op × ErrorCode × List Event)} (hl : Mgr.Mends L g l g') : ∀ {h x : Mgr},
    Haunts L h g → Haunts L h x → MInv h →
    ∃ h' x' : Mgr, x.run (l.map (·.1)) = .ok (x', l.map (·.2.1)) ∧ x'.ev = x.ev ++ l.flatMap (·.2.2) ∧ Haunts L h' g' ∧ Haunts L h' x' := by
  induction hl with
  | nil => intro h x t1 t2 _; exact ⟨h, x, rfl, by simp, t1, t2⟩
  | cons ho ha hs hev _ ih =>
    rename_i g g1 g' op e evs l _
    intro h x t1 t2 hh
    have ord : ∀ i o, h.getOrder i = some o → ¬ L i ∧ g.getOrder i = some o := by
      intro i o hi
      have hi' := hi
      rw [hh.getOrder] at hi
      have hli : ¬ L i := fun hl => by rw [t1.gone i hl] at hi; cases hi
      refine ⟨hli, ?_⟩
      unfold Mgr.getOrder at hi' ⊢
      rw [t1.same i hli]
      exact hi'
    have bk : ∀ s, h.getBook s = g.getBook s := fun s => congrArg (slot · s) t1.books.symm
    have ft : ∀ s q, g.Fits s q → h.Fits s q := fun s q hf b hb => hf b (bk s ▸ hb)
    have ha' : h.Admissible op := by
      rcases ha with ha | ⟨s, rfl, ha⟩
      · cases op with
        | addSymbol s => exact ha
        | addOrderBook s => exact fun h1 i o h2 => ha (bk s.id ▸ h1) i o (ord i o h2).2
        | addOrder o => exact ⟨ha.1, ft _ _ ha.2⟩
        | modifyOrder id p q => exact ⟨ha.1, ha.2.1, fun o h1 => ft _ _ (ha.2.2 o (ord _ _ h1).2)⟩
        | mitigateOrder id p q => exact ⟨ha.1, ha.2.1, fun o h1 => ft _ _ (ha.2.2 o (ord _ _ h1).2)⟩
        | replaceOrder id n p q => exact ⟨ha.1, ha.2.1, ha.2.2.1, fun o h1 => ft _ _ (ha.2.2.2 o (ord _ _ h1).2)⟩
        | replaceWith id o => exact ⟨ha.1, ft _ _ ha.2⟩
        | _ => trivial
      · exact fun _ i o h2 hsym => (ord i o h2).1 (ha i o (ord i o h2).2 hsym)
    obtain ⟨h1, e1, hs1, _⟩ := step_ok hh op ha'
    have hh1 := (step_eff hh ha' hs1).minv hh ha'
    have gone := Haunts.stays_gone hh ha' hs1 ho t1.gone
    obtain ⟨⟨g2, e2⟩, a0, k1⟩ := t1.step hh ha' ho _ hs1
    obtain ⟨⟨x2, e3⟩, c0, k2⟩ := t2.step hh ha' ho _ hs1
    rw [hs] at a0
    cases a0
    have n1 := Haunts.next k1 gone
    have n2 := Haunts.next k2 gone
    obtain ⟨q1, _, _, _, _, y, q2, q3⟩ := k1
    obtain ⟨r1, _, _, _, _, z, r2, r3⟩ := k2
    simp only at q1 q2 q3 r1 r2 r3
    subst q1
    subst r1
    rw [q2] at r2
    cases List.append_cancel_left r2
    rw [hev] at q3
    cases List.append_cancel_left q3
    obtain ⟨h', x', m1, m2, m3, m4⟩ := ih n1 n2 hh1
    refine ⟨h', x', ?_, ?_, m3, m4⟩
    · show Mgr.run x (op :: l.map (·.1)) = _
      unfold Mgr.run
      rw [c0]
      show (x2.run (l.map (·.1)) >>= _) = _
      rw [m1]; rfl
    · rw [m2, r3, List.append_assoc]; rfl

theorem books_ext {a b : List (Option Book)} (hl : a.length = b.length) (h : ∀ s, slot a s = slot b s) : a = b := by
  refine List.ext_getElem hl fun i h1 h2 => ?_
  have := h i
  simpa [slot, List.getElem?_eq_getElem h1, List.getElem?_eq_getElem h2] using this

theorem deletes_book {g : Mgr} {A : Nat} {g1 : Mgr} {e1 : ErrorCode} (h : g.step (.deleteOrderBook A) = .ok (g1, e1)) :
    g1.books = g.books.set A none ∧ g1.orders = g.orders ∧ g1.matching = g.matching ∧ g1.symbols = g.symbols ∧
    e1 = (if g.getBook A = none then .orderBookNotFound else .ok) ∧
    g1.ev = g.ev ++ ((g.getBook A).map (·.symbol)).toList.map .deleteBook := by
  change g.deleteOrderBook A = _ at h
  unfold Mgr.deleteOrderBook at h
  cases hb : slot g.books A with
  | none =>
    rw [hb] at h
    cases h
    rw [show g.getBook A = none from hb]
    refine ⟨books_ext (by simp) fun s => ?_, rfl, rfl, rfl, rfl, by simp⟩
    by_cases hs : s = A
    · subst hs
      by_cases hl : s < g.books.length
      · rw [slot_set_same hl, hb]
      · rw [List.set_eq_of_length_le (by omega)]
    · rw [slot_set_other hs]
  | some b =>
    rw [hb] at h
    cases h
    rw [show g.getBook A = some b from hb]
    exact ⟨rfl, rfl, rfl, rfl, rfl, rfl⟩

/-- Deleting the book of the one damaged symbol. -/
theorem mend {g x : Mgr} (hi : MInv g) {A : Nat} {L : Nat → Prop} (hL : ∀ id o, g.orders id = some o → L id → o.symbolId = A)
    (sm : x.matching = g.matching) (ss : x.symbols = g.symbols) (sb : BooksBut (· = A) g x)
    (sx : (x.getBook A).map (·.symbol) = (g.getBook A).map (·.symbol)) (so : ∀ id, ¬ L id → x.orders id = g.orders id)
    {g2 : Mgr} {e2 : ErrorCode} (hd : g.step (.deleteOrderBook A) = .ok (g2, e2))
    {l : List (Op × ErrorCode × List Event)} {g' : Mgr} (hl : Mgr.Mends L g2 l g') :
    ∃ (x2 x' : Mgr) (evs : List Event), x.step (.deleteOrderBook A) = .ok (x2, e2) ∧ g2.ev = g.ev ++ evs ∧ x2.ev = x.ev ++ evs ∧
      x2.run (l.map (·.1)) = .ok (x', l.map (·.2.1)) ∧ x'.ev = x2.ev ++ l.flatMap (·.2.2) ∧ x'.matching = g'.matching ∧
      (∀ s, x'.getBook s = g'.getBook s ∧ x'.getSymbol s = g'.getSymbol s) ∧
      ∀ id, ¬ L id → x'.getOrder id = g'.getOrder id := by
  classical
  obtain ⟨d1, d2, d3, d4, d5, d6⟩ := deletes_book hd
  have hxd : ∃ x2, x.step (.deleteOrderBook A) = .ok (x2, e2) := by
    have he := sx
    show ∃ x2, x.deleteOrderBook A = .ok (x2, e2)
    rw [d5]
    unfold Mgr.deleteOrderBook
    cases hb : g.getBook A with
    | none =>
      rw [hb] at he
      rw [show slot x.books A = none from Option.map_eq_none_iff.1 he]
      exact ⟨_, rfl⟩
    | some b =>
      rw [hb] at he
      obtain ⟨b', hb', _⟩ := Option.map_eq_some_iff.1 he
      rw [show slot x.books A = some b' from hb']
      exact ⟨_, rfl⟩
  obtain ⟨x2, hxd⟩ := hxd
  obtain ⟨c1, c2, c3, c4, _, c6⟩ := deletes_book hxd
  have hbooks : x2.books = g2.books := by
    rw [c1, d1]
    refine books_ext (by simp [sb.1]) fun s => ?_
    by_cases h : s = A
    · subst h
      have hlen := sb.1
      by_cases hl : s < g.books.length
      · rw [slot_set_same hl, slot_set_same (by omega)]
      · unfold slot
        rw [List.getElem?_eq_none (by simp; omega), List.getElem?_eq_none (by simp; omega)]
    · rw [slot_set_other h, slot_set_other h, sb.2 s h]
  have hi2 : MInv g2 := (step_eff (op := .deleteOrderBook A) hi trivial hd).minv hi (show g.Admissible (.deleteOrderBook A) from trivial)
  have hgone : g2.getBook A = none := by
    show slot g2.books A = none
    rw [d1]
    by_cases hl : A < g.books.length
    · rw [slot_set_same hl]
    · unfold slot
      rw [List.getElem?_eq_none (by simp; omega)]; rfl
  have hmi : MInv (without g2 (fun _ => False) L) := without_minv hi2 fun id o ho hl => .inr (by
    rw [d2] at ho
    rw [hL _ _ ho hl]; exact hgone)
  have hb0 : (without g2 (fun _ => False) L).books = g2.books :=
    books_ext (by simp [without]) fun s => by rw [without_slot]; simp
  have ords : ∀ y : Mgr, (∀ id, ¬ L id → y.orders id = g2.orders id) →
      ∀ id, ¬ L id → y.orders id = (without g2 (fun _ => False) L).orders id :=
    fun y hy id hid => (hy id hid).trans (by simp [without, hid])
  have gn : ∀ id, L id → (without g2 (fun _ => False) L).orders id = none := fun id hid => by simp [without, hid]
  obtain ⟨h', x', m1, m2, m3, m4⟩ := haunts_mends hl (h := without g2 (fun _ => False) L) (x := x2)
    ⟨rfl, rfl, hb0.symm, ords g2 fun _ _ => rfl, gn⟩
    ⟨(c3.trans sm).trans d3.symm, (c4.trans ss).trans d4.symm, hbooks.trans hb0.symm,
      ords x2 fun id hid => by rw [c2, d2]; exact so id hid, gn⟩ hmi
  refine ⟨x2, x', _, hxd, d6, by rw [c6, sx], m1, m2, m4.matching.trans m3.matching.symm, fun s => ⟨?_, ?_⟩, fun id hid => ?_⟩
  · exact congrArg (slot · s) (m4.books.trans m3.books.symm)
  · exact congrArg (slot · s) (m4.symbols.trans m3.symbols.symm)
  · unfold Mgr.getOrder
    rw [m4.same id hid, m3.same id hid]

/-- C89, repair. After a call interrupted by an exception, deleting the order book of the symbol it addresses, succeeds as it would have done
before the call, and from then on the manager, as long as no call names one of the damaged orders, behaves as if that call had never
been made: same result codes, same callbacks, same books and symbols, and the same orders except the damaged ones. The book may be added again. -/
theorem C89_repair {g : Mgr} (hr : g.Reachable) {op : Op} (ha : g.Admissible op) (hf : g.FreshId op) (hn : ¬ op.isRegistry) (hm : op.isMode = false)
    {A : Nat} (hA : ∀ s, g.Addresses op s → s = A)
    {g1 : Mgr} {e : ErrorCode} {seen : List Mgr} (hs : g.step op = .ok (g1, e)) (hw : g.watch op = .ok (g1, e, seen)) {x : Mgr} (hx : x ∈ seen)
    {g2 : Mgr} {e2 : ErrorCode} (hd : g.step (.deleteOrderBook A) = .ok (g2, e2))
    {l : List (Op × ErrorCode × List Event)} {g' : Mgr} (hl : Mgr.Mends (g.Struck op) g2 l g') :
    ∃ (x2 x' : Mgr) (evs : List Event), x.step (.deleteOrderBook A) = .ok (x2, e2) ∧ g2.ev = g.ev ++ evs ∧ x2.ev = x.ev ++ evs ∧
      x2.run (l.map (·.1)) = .ok (x', l.map (·.2.1)) ∧ x'.ev = x2.ev ++ l.flatMap (·.2.2) ∧ x'.matching = g'.matching ∧
      (∀ s, x'.getBook s = g'.getBook s ∧ x'.getSymbol s = g'.getSymbol s) ∧
      ∀ id, ¬ g.Struck op id → x'.getOrder id = g'.getOrder id := by
  have hi := hr.minv
  have sp := spares hr ha hf hn hm hs hw hx
  exact mend hi (fun id o ho h => hA _ (struck_symbol hi hf ho h)) sp.matching sp.symbols ⟨sp.books.1, fun s h => sp.books.2 s fun hs => h (hA s hs)⟩
    (sp.exist A) sp.orders hd hl

theorem set_self {g : Mgr} {sym : Nat} {b : Book} (hb : slot g.books sym = some b) : g.books.set sym (some b) = g.books := by
  refine books_ext (by simp) fun s => ?_
  by_cases h : s = sym
  · subst h; rw [slot_set_same (slot_lt hb), hb]
  · rw [slot_set_other h]

theorem watchBook_first {g : Mgr} {sym : Nat} {f : Watch → Except Err (Watch × ErrorCode)}
    (hf : ∀ w : Watch, ∃ y, Grows (w.log ++ [w.now.emit y]) (f w)) {g1 : Mgr} {e : ErrorCode} {x : Mgr} {seen : List Mgr}
    (h : g.watchBook sym f = .ok (g1, e, x :: seen)) : ∃ y, x = { g with ev := g.ev ++ [y] } := by
  unfold Mgr.watchBook at h
  cases hb : slot g.books sym with
  | none => rw [hb] at h; cases h
  | some b =>
    rw [hb] at h
    obtain ⟨⟨w, e1⟩, h1, h2⟩ := bind_inv h
    obtain ⟨y, hy⟩ := hf ⟨⟨g.orders, b, g.ev⟩, []⟩
    obtain ⟨t, ht⟩ := hy _ h1
    have h3 : w.log.map (g.at' sym) = x :: seen := (Prod.mk.inj (Prod.mk.inj (Except.ok.inj h2)).2).2
    rw [show w.log = _ from ht.symm] at h3
    refine ⟨y, ?_⟩
    rw [← (List.cons.inj h3).1]
    show ({ g with books := g.books.set sym (some b), ev := _ } : Mgr) = _
    rw [set_self hb]
    rfl

/-- C89, a failure at once. An exception from the first callback of `AddOrder`, `ExecuteOrder`, `DeleteSymbol` or `DeleteOrderBook` leaves the manager
exactly as it was (`y` is the callback that throws). -/
theorem C89_nothing {g : Mgr} {op : Op} (ho : op.announced = true) {g1 : Mgr} {e : ErrorCode} {x : Mgr} {seen : List Mgr}
    (h : g.watch op = .ok (g1, e, x :: seen)) : ∃ y, x = { g with ev := g.ev ++ [y] } := by
  cases op with
  | addOrder o =>
    change g.watchAdd o = _ at h
    unfold Mgr.watchAdd at h
    split at h
    · cases h
    · exact watchBook_first (fun w => Watch.addAny_first _ _) h
  | executeOrder id q =>
    simp only [Mgr.watch] at h
    split at h
    · cases h
    · split at h
      · cases h
      · unfold Mgr.watchOrder at h
        cases ho : g.orders id with
        | none => rw [ho] at h; cases h
        | some o => rw [ho] at h; exact watchBook_first (fun w => Watch.executeOp_first _ _ _ _) h
  | executeOrderAt id p q =>
    simp only [Mgr.watch] at h
    split at h
    · cases h
    · split at h
      · cases h
      · unfold Mgr.watchOrder at h
        cases ho : g.orders id with
        | none => rw [ho] at h; cases h
        | some o => rw [ho] at h; exact watchBook_first (fun w => Watch.executeOp_first _ _ _ _) h
  | deleteSymbol id =>
    simp only [Mgr.watch] at h
    split at h
    · cases h
    · cases h; exact ⟨_, rfl⟩
  | deleteOrderBook id =>
    simp only [Mgr.watch] at h
    split at h
    · cases h
    · cases h; exact ⟨_, rfl⟩
  | _ => cases ho

/-- C89, done already. The handler hears of a new symbol or order book when it is in place: if it throws, the call has had its whole effect. -/
theorem C89_everything {g : Mgr} {op : Op} (ho : ∃ s, op = .addSymbol s ∨ op = .addOrderBook s) {g1 : Mgr} {e : ErrorCode} {x : Mgr} {seen : List Mgr}
    (h : g.watch op = .ok (g1, e, x :: seen)) : x = g1 := by
  obtain ⟨s, rfl | rfl⟩ := ho
  all_goals
    simp only [Mgr.watch] at h
    obtain ⟨⟨g2, e2⟩, h1, h2⟩ := bind_inv h
    by_cases he : e2 = .ok
    · simp only [he, if_pos] at h2
      have h3 := Prod.mk.inj (Except.ok.inj h2)
      have h4 := (Prod.mk.inj h3.2).2
      rw [← h3.1, ← (List.cons.inj h4).1]
    · simp only [if_neg he] at h2
      have h3 := Prod.mk.inj (Except.ok.inj h2)
      cases (Prod.mk.inj h3.2).2

theorem match_moment {g : Mgr} (hi : MInv g) {g' : Mgr} (run : g.matchAll = .ok g') {seen : List Mgr} (hw : g.watchAll = .ok (g', seen))
    {x : Mgr} (hx : x ∈ seen) :
    ∃ i, x.matching = g.matching ∧ x.symbols = g.symbols ∧
      (∀ s, s ≠ i → slot x.books s = if s < i then slot g'.books s else slot g.books s) ∧
      (∀ id o, g.orders id = some o → o.symbolId ≠ i → x.orders id = if o.symbolId < i then g'.orders id else g.orders id) ∧
      ∀ id, g.orders id = none → x.orders id = none := by
  obtain ⟨pre, post, i, g1, g2, l, e1, e2, e3, e4, e5, e6⟩ := watchFrom_moment _ hi run hw hx
  obtain ⟨c1, c2⟩ := range_cut e1
  obtain ⟨a1, a2, a3, a4, a5, a6⟩ := matchFrom_others _ hi e2
  obtain ⟨b1, b2, b3, b4, b5⟩ := spares_at a1 e3 e4 e5
  obtain ⟨_, _, _, d4, d5, d6⟩ := matchFrom_others _ a1 e6
  have later : ∀ {s}, s < i → s ∉ i :: post := by
    intro s hs h
    rcases List.mem_cons.1 h with h | h
    · omega
    · have := c2 s h; omega
  have sooner : ∀ {s}, ¬ s < i → s ∉ pre := fun hs h => hs ((c1 _).1 h)
  refine ⟨i, b1.trans a2, b2.trans a3, fun s hs => ?_, fun id o ho hne => ?_, fun id hn => b5 id (a6 id hn)⟩
  · rw [b3.2 s hs]
    split
    · exact (d4 s (later ‹_›)).symm
    · exact a4 s (sooner ‹_›)
  · split
    · rename_i hlt
      have sym : ∀ o', g1.orders id = some o' → o'.symbolId < i := by
        intro o' ho'
        apply Classical.byContradiction
        intro h
        have := (a5 id o' (sooner h)).1 ho'
        rw [ho] at this
        cases this
        exact h hlt
      rw [b4 id fun o' ho' => Nat.ne_of_lt (sym o' ho')]
      cases h : g1.orders id with
      | none => exact (d6 id h).symm
      | some o' => exact ((d5 id o' (later (sym o' h))).2 h).symm
    · rename_i hlt
      have h1 := (a5 id o (sooner hlt)).2 ho
      rw [b4 id fun o' ho' => by rw [h1] at ho'; cases ho'; exact hne, h1, ho]

/-- The manager in which exactly the books before `i` have been matched, and what comes of calls made in its stead. -/
theorem match_after {g : Mgr} (hi : MInv g) {g' : Mgr} (run : g.matchAll = .ok g') {seen : List Mgr} (hw : g.watchAll = .ok (g', seen))
    {x : Mgr} (hx : x ∈ seen) :
    ∃ (i : Nat) (k : Mgr), k.matching = g.matching ∧ k.symbols = g.symbols ∧
      (∀ s, slot k.books s = if s < i then slot g'.books s else slot g.books s) ∧
      (∀ id o, g.orders id = some o → k.orders id = if o.symbolId < i then g'.orders id else g.orders id) ∧
      (∀ id, g.orders id = none → k.orders id = none) ∧
      (∀ l k', k.Logs l k' → (∀ r ∈ l, (∀ id ∈ r.1.names, ¬ ∃ o, g.orders id = some o ∧ o.symbolId = i) ∧ (∀ s ∈ r.1.namesSymbols, s ≠ i) ∧
          r.1 ≠ .enableMatching ∧ r.1 ≠ .matchAll) →
        ∃ x' : Mgr, x.run (l.map (·.1)) = .ok (x', l.map (·.2.1)) ∧ x'.ev = x.ev ++ l.flatMap (·.2.2) ∧ x'.matching = k'.matching ∧
          (∀ id, (¬ ∃ o, g.orders id = some o ∧ o.symbolId = i) → x'.orders id = k'.orders id) ∧
          ∀ s, s ≠ i → slot x'.symbols s = slot k'.symbols s ∧ slot x'.books s = slot k'.books s) ∧
      ∀ k2 e2, k.step (.deleteOrderBook i) = .ok (k2, e2) → ∀ l k', Mgr.Mends (fun id => ∃ o, g.orders id = some o ∧ o.symbolId = i) k2 l k' →
        ∃ (x2 x' : Mgr) (evs : List Event), x.step (.deleteOrderBook i) = .ok (x2, e2) ∧ k2.ev = k.ev ++ evs ∧ x2.ev = x.ev ++ evs ∧
          x2.run (l.map (·.1)) = .ok (x', l.map (·.2.1)) ∧ x'.ev = x2.ev ++ l.flatMap (·.2.2) ∧ x'.matching = k'.matching ∧
          (∀ s, x'.getBook s = k'.getBook s ∧ x'.getSymbol s = k'.getSymbol s) ∧
          ∀ id, (¬ ∃ o, g.orders id = some o ∧ o.symbolId = i) → x'.getOrder id = k'.getOrder id := by
  obtain ⟨pre, post, i, g1, g2, l, e1, e2, e3, e4, e5, e6⟩ := watchFrom_moment _ hi run hw hx
  obtain ⟨c1, c2⟩ := range_cut e1
  obtain ⟨a1, a2, a3, a4, a5, a6⟩ := matchFrom_others _ hi e2
  obtain ⟨b1, b2, b3, b4, b5⟩ := spares_at a1 e3 e4 e5
  obtain ⟨_, _, _, d4, d5, d6⟩ := matchFrom_others _ a1 e6
  have later : ∀ {s}, s < i → s ∉ i :: post := by
    intro s hs h
    rcases List.mem_cons.1 h with h | h
    · omega
    · have := c2 s h; omega
  have sooner : ∀ {s}, ¬ s < i → s ∉ pre := fun hs h => hs ((c1 _).1 h)
  have hL : ∀ id, (∃ o, g.orders id = some o ∧ o.symbolId = i) ↔ ∃ o, g1.orders id = some o ∧ o.symbolId = i :=
    fun id => ⟨fun ⟨o, h1, h2⟩ => ⟨o, (a5 id o (sooner (by omega))).2 h1, h2⟩, fun ⟨o, h1, h2⟩ => ⟨o, (a5 id o (sooner (by omega))).1 h1, h2⟩⟩
  have hLs : ∀ id o, g1.orders id = some o → (∃ o, g.orders id = some o ∧ o.symbolId = i) → o.symbolId = i := by
    intro id o ho h
    obtain ⟨o', h1, h2⟩ := (hL id).1 h
    rw [ho] at h1; cases h1; exact h2
  have hord : ∀ id, (¬ ∃ o, g.orders id = some o ∧ o.symbolId = i) → x.orders id = g1.orders id :=
    fun id hid => b4 id fun o ho hs => hid ((hL id).2 ⟨o, ho, hs⟩)
  refine ⟨i, g1, a2, a3, fun s => ?_, fun id o ho => ?_, a6, fun l k' hl hsp => ?_, fun k2 e2 hd l k' hl => ?_⟩
  · split
    · exact (d4 s (later ‹_›)).symm
    · exact a4 s (sooner ‹_›)
  · split
    · rename_i hlt
      have sym : ∀ o', g1.orders id = some o' → o'.symbolId < i := by
        intro o' ho'
        apply Classical.byContradiction
        intro h
        have := (a5 id o' (sooner h)).1 ho'
        rw [ho] at this
        cases this
        exact h hlt
      cases h : g1.orders id with
      | none => exact (d6 id h).symm
      | some o' => exact ((d5 id o' (later (sym o' h))).2 h).symm
    · rename_i hlt
      rw [(a5 id o (sooner hlt)).2 ho, ho]
  · obtain ⟨h', x', f1, f2, f3, f4⟩ := twins_logs hl (d := aside (· = i) fun id => ∃ o, g.orders id = some o ∧ o.symbolId = i)
      (without_twins (g := g1) (x := g1) rfl rfl (fun _ _ => rfl) (fun _ _ => rfl))
      (without_twins (g := g1) (x := x) b1 b2 b3.2 hord)
      (without_minv a1 fun id o ho h => .inl (hLs id o ho h)) a1
      (fun id o ho => aside_symbol.2 fun h => (without_some.1 ho).1 ((hL id).2 ⟨o, (without_some.1 ho).2, h⟩))
      (fun r hr => aside_of (hsp r hr).1 (hsp r hr).2.1 (hsp r hr).2.2.1 (hsp r hr).2.2.2)
    obtain ⟨q1, q2, q3⟩ := twins_same f3 f4
    exact ⟨x', f1, f2, q1, fun id hid => q2 id (aside_order.2 hid), fun s hs => q3 s (aside_symbol.2 hs)⟩
  · obtain ⟨news, l', hl', sp⟩ := Watch.watchAt_run a1 e3
    rw [e4] at hl'
    cases hl'
    obtain ⟨n, hn⟩ := List.getElem?_of_mem e5
    exact mend a1 hLs b1 b2 b3 ((sp.each n x hn).2.2.books i) hord hd hl

/-- C89, matching all books. `EnableMatching` or `Match()` is interrupted: the damage is confined to one symbol `i`, the one being matched. The
books and orders of the symbols before it are as they would be at the end of the call, those of the symbols after it as before the call; matching is on
after `EnableMatching`. -/
theorem C89_match {g : Mgr} (hr : g.Reachable) {op : Op} (ho : op = .enableMatching ∨ op = .matchAll) {g' : Mgr} {e : ErrorCode} {seen : List Mgr}
    (hs : g.step op = .ok (g', e)) (hw : g.watch op = .ok (g', e, seen)) {x : Mgr} (hx : x ∈ seen) :
    ∃ i, x.matching = (g.matching || decide (op = .enableMatching)) ∧ (∀ s, x.getSymbol s = g.getSymbol s) ∧
      (∀ s, s ≠ i → x.getBook s = if s < i then g'.getBook s else g.getBook s) ∧
      (∀ id o, g.getOrder id = some o → o.symbolId ≠ i → x.getOrder id = if o.symbolId < i then g'.getOrder id else g.getOrder id) ∧
      ∀ id, g.getOrder id = none → x.getOrder id = none := by
  have hi := hr.minv
  suffices key : ∃ k : Mgr, k.orders = g.orders ∧ k.books = g.books ∧ k.symbols = g.symbols ∧ k.matching = (g.matching || decide (op = .enableMatching)) ∧
      MInv k ∧ k.matchAll = .ok g' ∧ k.watchAll = .ok (g', seen) by
    obtain ⟨k, k1, k2, k3, k4, hk, h1, h2⟩ := key
    obtain ⟨i, a1, a2, a3, a4, a5⟩ := match_moment hk h1 h2 hx
    refine ⟨i, a1.trans k4, fun s => congrArg (slot · s) (a2.trans k3), fun s hs => ?_, fun id o hid hne => ?_, fun id hid => ?_⟩
    · have := a3 s hs; rw [k2] at this; exact this
    · rw [hi.getOrder] at hid
      have := a4 id o (by rw [k1]; exact hid) hne
      rw [k1] at this
      unfold Mgr.getOrder
      rw [this]
      split <;> split <;> rfl
    · have := a5 id (by rw [k1, ← hi.getOrder]; exact hid)
      unfold Mgr.getOrder
      rw [this]; split <;> rfl
  rcases ho with rfl | rfl
  · obtain ⟨g1, h1, h2⟩ := bind_inv hs
    cases h2
    obtain ⟨⟨g2, l⟩, h3, h4⟩ := bind_inv hw
    cases h4
    exact ⟨{ g with matching := true }, rfl, rfl, rfl, by simp, ⟨hi.orders, hi.books, hi.symbols⟩, h1, h3⟩
  · obtain ⟨g1, h1, h2⟩ := bind_inv hs
    cases h2
    obtain ⟨⟨g2, l⟩, h3, h4⟩ := bind_inv hw
    cases h4
    exact ⟨g, rfl, rfl, rfl, by simp, hi, h1, h3⟩

/-- C89, going on after an interrupted `EnableMatching` or `Match()`. There is a symbol `i` such that the manager goes on like the manager `k` in which
exactly the books before `i` have been matched: with every calls that keep away from `i` and its orders; and, after the order book of `i` has been
deleted, with all calls that name none of these orders. -/
theorem C89_match_after {g : Mgr} (hr : g.Reachable) {op : Op} (ho : op = .enableMatching ∨ op = .matchAll) {g' : Mgr} {e : ErrorCode} {seen : List Mgr}
    (hs : g.step op = .ok (g', e)) (hw : g.watch op = .ok (g', e, seen)) {x : Mgr} (hx : x ∈ seen) :
    ∃ (i : Nat) (k : Mgr) (L : Nat → Prop), (∀ id, L id ↔ ∃ o, g.getOrder id = some o ∧ o.symbolId = i) ∧
      k.matching = (g.matching || decide (op = .enableMatching)) ∧ (∀ s, k.getSymbol s = g.getSymbol s) ∧
      (∀ s, k.getBook s = if s < i then g'.getBook s else g.getBook s) ∧
      (∀ id o, g.getOrder id = some o → k.getOrder id = if o.symbolId < i then g'.getOrder id else g.getOrder id) ∧
      (∀ id, g.getOrder id = none → k.getOrder id = none) ∧
      (∀ l k', k.Logs l k' → (∀ r ∈ l, (∀ id ∈ r.1.names, ¬ L id) ∧ (∀ s ∈ r.1.namesSymbols, s ≠ i) ∧ r.1 ≠ .enableMatching ∧ r.1 ≠ .matchAll) →
        ∃ x' : Mgr, x.run (l.map (·.1)) = .ok (x', l.map (·.2.1)) ∧ x'.ev = x.ev ++ l.flatMap (·.2.2) ∧ x'.matching = k'.matching ∧
          (∀ id, ¬ L id → x'.getOrder id = k'.getOrder id) ∧ ∀ s, s ≠ i → x'.getSymbol s = k'.getSymbol s ∧ x'.getBook s = k'.getBook s) ∧
      ∀ k2 e2, k.step (.deleteOrderBook i) = .ok (k2, e2) → ∀ l k', Mgr.Mends L k2 l k' →
        ∃ (x2 x' : Mgr) (evs : List Event), x.step (.deleteOrderBook i) = .ok (x2, e2) ∧ k2.ev = k.ev ++ evs ∧ x2.ev = x.ev ++ evs ∧
          x2.run (l.map (·.1)) = .ok (x', l.map (·.2.1)) ∧ x'.ev = x2.ev ++ l.flatMap (·.2.2) ∧ x'.matching = k'.matching ∧
          (∀ s, x'.getBook s = k'.getBook s ∧ x'.getSymbol s = k'.getSymbol s) ∧ ∀ id, ¬ L id → x'.getOrder id = k'.getOrder id := by
  have hi := hr.minv
  suffices key : ∃ k : Mgr, k.orders = g.orders ∧ k.books = g.books ∧ k.symbols = g.symbols ∧ k.matching = (g.matching || decide (op = .enableMatching)) ∧
      MInv k ∧ k.matchAll = .ok g' ∧ k.watchAll = .ok (g', seen) by
    obtain ⟨k, k1, k2, k3, k4, hk, h1, h2⟩ := key
    obtain ⟨i, y, a1, a2, a3, a4, a5, a6, a7⟩ := match_after hk h1 h2 hx
    rw [k1] at a4 a5 a6 a7
    rw [k2] at a3
    have zero : ∀ z w : Mgr, ∀ id, z.orders id = w.orders id → z.getOrder id = w.getOrder id := fun z w id h => by unfold Mgr.getOrder; rw [h]
    refine ⟨i, y, fun id => ∃ o, g.orders id = some o ∧ o.symbolId = i, fun id => by rw [hi.getOrder], a1.trans k4, fun s => congrArg (slot · s) (a2.trans k3),
      a3, fun id o ho => ?_, fun id hid => ?_, fun l k' hl hsp => ?_, a7⟩
    · rw [hi.getOrder] at ho
      have := a4 id o ho
      split
      · exact zero _ _ _ (by rw [if_pos ‹_›] at this; exact this)
      · exact zero _ _ _ (by rw [if_neg ‹_›] at this; exact this)
    · have := a5 id (by rw [← hi.getOrder]; exact hid)
      unfold Mgr.getOrder
      rw [this]; split <;> rfl
    · obtain ⟨x', b1, b2, b3, b4, b5⟩ := a6 l k' hl hsp
      exact ⟨x', b1, b2, b3, fun id hid => zero _ _ _ (b4 id hid), b5⟩
  rcases ho with rfl | rfl
  · obtain ⟨g1, h1, h2⟩ := bind_inv hs
    cases h2
    obtain ⟨⟨g2, l⟩, h3, h4⟩ := bind_inv hw
    cases h4
    exact ⟨{ g with matching := true }, rfl, rfl, rfl, by simp, ⟨hi.orders, hi.books, hi.symbols⟩, h1, h3⟩
  · obtain ⟨g1, h1, h2⟩ := bind_inv hs
    cases h2
    obtain ⟨⟨g2, l⟩, h3, h4⟩ := bind_inv hw
    cases h4
    exact ⟨g, rfl, rfl, rfl, by simp, hi, h1, h3⟩

def thrownSession : List Op := [.addSymbol ⟨1, 7⟩, .addSymbol ⟨2, 8⟩, .addOrderBook ⟨1, 7⟩, .addOrderBook ⟨2, 8⟩,
  .addOrder (.mkLimit 1 1 .buy 90 10), .addOrder (.mkLimit 2 2 .sell 110 5), .addOrder (.mkLimit 3 1 .buy 90 3)]

/-- C89: why the orders of the interrupted call are to be kept away from. `ReduceOrder` interrupted in `onUpdateOrder` leaves a level that does
not count what its orders hold; after `DeleteOrder` interrupted in `onDeleteLevel` the order is still stored, and deleting it again is
undefined behaviour. -/
theorem C89_witness : ∃ g : Mgr, g.Reachable ∧
    (∃ g' e x seen, g.watch (.reduceOrder 1 4) = .ok (g', e, x :: seen) ∧
      (x.getOrder 1).map (·.leaves) = some 6 ∧ (x.levels 1 true 90).map (·.total) = some 13) ∧
    (∃ g' e x seen err, g.watch (.deleteOrder 2) = .ok (g', e, x :: seen) ∧
      (x.getOrder 2).map (·.leaves) = some 5 ∧ x.levels 2 false 110 = none ∧ x.step (.deleteOrder 2) = .error err) := by
  obtain ⟨g, hg, hp⟩ := demo (p := fun g => (match g.watch (.reduceOrder 1 4) with
    | .ok (_, _, x :: _) => decide ((x.getOrder 1).map (·.leaves) = some 6) && decide ((x.levels 1 true 90).map (·.total) = some 13)
    | _ => false) && (match g.watch (.deleteOrder 2) with
    | .ok (_, _, x :: _) => decide ((x.getOrder 2).map (·.leaves) = some 5) && decide ((x.levels 2 false 110).isNone) &&
        (match x.step (.deleteOrder 2) with | .error _ => true | .ok _ => false)
    | _ => false)) thrownSession (by decide +kernel)
  simp only [Bool.and_eq_true] at hp
  obtain ⟨p1, p2⟩ := hp
  refine ⟨g, hg, ?_, ?_⟩
  · cases hs : g.watch (.reduceOrder 1 4) with
    | error _ => rw [hs] at p1; cases p1
    | ok r =>
      obtain ⟨g', e, seen⟩ := r
      rw [hs] at p1
      cases seen with
      | nil => cases p1
      | cons x seen =>
        simp only [Bool.and_eq_true, decide_eq_true_eq] at p1
        exact ⟨g', e, x, seen, rfl, p1.1, p1.2⟩
  · cases hs : g.watch (.deleteOrder 2) with
    | error _ => rw [hs] at p2; cases p2
    | ok r =>
      obtain ⟨g', e, seen⟩ := r
      rw [hs] at p2
      cases seen with
      | nil => cases p2
      | cons x seen =>
        simp only [Bool.and_eq_true, decide_eq_true_eq] at p2
        cases h3 : x.step (.deleteOrder 2) with
        | ok _ => rw [h3] at p2; cases p2.2
        | error err => exact ⟨g', e, x, seen, err, rfl, p2.1.1, Option.isNone_iff_eq_none.1 p2.1.2, h3⟩

/-- The hypotheses of `C89_contained` and `C89_repair` are met: `DeleteOrder(2)` is interrupted in `onDeleteLevel`; trading in symbol 1 goes on,
or the book of symbol 2 is deleted, added again, and used. -/
example : ∃ (g : Mgr) (g1 : Mgr) (e : ErrorCode) (x : Mgr) (seen : List Mgr), g.Reachable ∧ g.FreshId (.deleteOrder 2) ∧
    g.step (.deleteOrder 2) = .ok (g1, e) ∧ g.watch (.deleteOrder 2) = .ok (g1, e, x :: seen) ∧ (∀ s, g.Addresses (.deleteOrder 2) s → s = 2) ∧
    (∃ evs g', g.Logs [(.reduceOrder 1 4, .ok, evs)] g' ∧ evs ≠ [] ∧ g.Spared (.deleteOrder 2) (.reduceOrder 1 4)) ∧
    ∃ g2 e2 l g', g.step (.deleteOrderBook 2) = .ok (g2, e2) ∧ Mgr.Mends (g.Struck (.deleteOrder 2)) g2 l g' ∧
      l.map (·.1) = [.addOrderBook ⟨2, 8⟩, .addOrder (.mkLimit 4 2 .buy 100 7)] ∧ (l.map (·.2.1)) = [.ok, .ok] := by
  obtain ⟨g, hg, hp⟩ := demo (p := fun g =>
    (match g.watch (.deleteOrder 2) with | .ok (_, _, _ :: _) => true | _ => false) &&
    (match g.step (.reduceOrder 1 4) with | .ok (a, c) => decide (c = .ok) && decide (a.ev = g.ev ++ a.ev.drop g.ev.length) && decide (a.ev.drop g.ev.length ≠ []) | _ => false) &&
    (match g.step (.deleteOrderBook 2) with
      | .ok (a, _) => (match a.step (.addOrderBook ⟨2, 8⟩) with
        | .ok (b, c) => decide (c = .ok) && decide (b.ev = a.ev ++ b.ev.drop a.ev.length) && admB false b (.addOrder (.mkLimit 4 2 .buy 100 7)) &&
          (match b.step (.addOrder (.mkLimit 4 2 .buy 100 7)) with
            | .ok (d, c) => decide (c = .ok) && decide (d.ev = b.ev ++ d.ev.drop b.ev.length)
            | _ => false)
        | _ => false)
      | _ => false) &&
    decide ((g.getOrder 1).map (·.symbolId) = some 1) && decide ((g.getOrder 2).map (·.symbolId) = some 2) && decide (g.getOrder 4 = none))
    thrownSession (by decide +kernel)
  simp only [Bool.and_eq_true, decide_eq_true_eq] at hp
  obtain ⟨⟨⟨⟨⟨p1, p2⟩, p3⟩, p4⟩, p5⟩, p6⟩ := hp
  have hA : ∀ s, g.Addresses (.deleteOrder 2) s → s = 2 := by
    rintro s ⟨o, ho, rfl⟩
    rw [ho] at p5; simpa using p5
  obtain ⟨g1, e, hs, _⟩ := step_ok hg.minv (.deleteOrder 2) (show g.Admissible (.deleteOrder 2) from trivial)
  obtain ⟨_, seen, z1, _⟩ := Watch.watch_run hg.minv (op := .deleteOrder 2) (fun h => h) hs
  rw [z1] at p1
  cases seen with
  | nil => cases p1
  | cons x seen =>
    have ns : ¬ g.Struck (.deleteOrder 2) 1 := by
      rintro (h | ⟨o, ho, h⟩)
      · cases h
      · rw [ho] at p4
        have := hA _ h
        simp [this] at p4
    have ns4 : ¬ g.Struck (.deleteOrder 2) 4 := by
      rintro (h | ⟨o, ho, h⟩)
      · cases h
      · rw [ho] at p6; cases p6
    refine ⟨g, g1, e, x, seen, hg, trivial, hs, z1, hA, ?_, ?_⟩
    · cases h : g.step (.reduceOrder 1 4) with
      | error _ => rw [h] at p2; cases p2
      | ok r =>
        obtain ⟨a, c⟩ := r
        rw [h] at p2
        simp only [Bool.and_eq_true, decide_eq_true_eq] at p2
        obtain ⟨⟨rfl, q2⟩, q3⟩ := p2
        refine ⟨_, a, .cons (show g.Admissible (.reduceOrder 1 4) from trivial) h q2 .nil, q3, ?_, ?_, nofun, nofun⟩
        · intro id hid; cases (List.mem_singleton.1 hid); exact ns
        · intro s hs; cases hs
    · cases h : g.step (.deleteOrderBook 2) with
      | error _ => rw [h] at p3; cases p3
      | ok r =>
        obtain ⟨a, c⟩ := r
        rw [h] at p3
        cases h2 : a.step (.addOrderBook ⟨2, 8⟩) with
        | error _ => simp only [h2] at p3; cases p3
        | ok r =>
          obtain ⟨b, c2⟩ := r
          simp only [h2] at p3
          cases h3 : b.step (.addOrder (.mkLimit 4 2 .buy 100 7)) with
          | error _ => simp [h3] at p3
          | ok r =>
            obtain ⟨d, c3⟩ := r
            simp only [h3, Bool.and_eq_true, decide_eq_true_eq] at p3
            obtain ⟨⟨⟨rfl, q2⟩, q3⟩, rfl, q4⟩ := p3
            refine ⟨a, c, _, d, rfl, .cons (fun _ h => by cases h) (.inr ⟨_, rfl, ?_⟩) h2 q2 (.cons ?_ (.inl (admB_sound (fresh := false) (by simp) q3)) h3 q4 .nil), rfl, rfl⟩
            · intro id o ho hsym
              cases h2 : g.getOrder 2 with
              | none => rw [h2] at p5; cases p5
              | some q =>
                rw [h2] at p5
                refine .inr ⟨o, ?_, q, h2, ?_⟩
                · unfold Mgr.getOrder at ho ⊢
                  rw [(deletes_book h).2.1] at ho; exact ho
                · rw [hsym]; simpa using p5
            · intro id hid; cases (List.mem_singleton.1 hid); exact ns4

/-- The calls of `C89_nothing` and `C89_everything` do call handlers. -/
example : ∃ g : Mgr, g.Reachable ∧ ∀ op ∈ [Op.addOrder (.mkLimit 4 1 .sell 90 12), .executeOrder 1 3, .executeOrderAt 3 91 3, .deleteSymbol 2,
    .deleteOrderBook 2, .addSymbol ⟨3, 9⟩], ∃ g1 e x seen, g.watch op = .ok (g1, e, x :: seen) := by
  obtain ⟨g, hg, hp⟩ := demo (p := fun g => [Op.addOrder (.mkLimit 4 1 .sell 90 12), .executeOrder 1 3, .executeOrderAt 3 91 3, .deleteSymbol 2,
    .deleteOrderBook 2, .addSymbol ⟨3, 9⟩].all fun op => match g.watch op with | .ok (_, _, _ :: _) => true | _ => false) thrownSession (by decide +kernel)
  refine ⟨g, hg, fun op hop => ?_⟩
  have := List.all_eq_true.1 hp op hop
  cases h : g.watch op with
  | error _ => rw [h] at this; cases this
  | ok r =>
    obtain ⟨g1, e, l⟩ := r
    rw [h] at this
    cases l with
    | nil => cases this
    | cons x l => exact ⟨g1, e, x, l, rfl⟩

/-- `C89_match` applies: two crossed books; the fourth callback is made while book 1 is being matched, and book 2 still is as before the call. -/
example : ∃ g : Mgr, g.Reachable ∧ ∃ g' e seen x, g.step .matchAll = .ok (g', e) ∧ g.watch .matchAll = .ok (g', e, seen) ∧ seen[3]? = some x ∧
    (x.getOrder 4).map (·.leaves) = some 10 ∧ (g'.getOrder 4).map (·.leaves) = some 5 := by
  obtain ⟨g, hg, hp⟩ := demo (p := fun g => match g.watch .matchAll with
    | .ok (g', _, seen) => decide (((seen[3]?).bind fun x => (x.getOrder 4).map (·.leaves)) = some 10) && decide ((g'.getOrder 4).map (·.leaves) = some 5)
    | _ => false) (thrownSession ++ [.addOrder (.mkLimit 5 1 .sell 90 4), .addOrder (.mkLimit 4 2 .buy 110 10)]) (by decide +kernel)
  refine ⟨g, hg, ?_⟩
  obtain ⟨g1, e, hs, _⟩ := step_ok hg.minv .matchAll (show g.Admissible .matchAll from trivial)
  obtain ⟨_, seen, z1, _⟩ := Watch.watch_run hg.minv (op := .matchAll) (fun h => h) hs
  rw [z1] at hp
  simp only [Bool.and_eq_true, decide_eq_true_eq] at hp
  cases hx : seen[3]? with
  | none => rw [hx] at hp; cases hp.1
  | some x => exact ⟨g1, e, seen, x, hs, z1, hx, by simpa [hx] using hp.1, hp.2⟩

end CppTrader
