import Verif.Proof.Division
/-
The reference exchange and its share of the work at an exchange of its own.
-/

namespace CppTrader
open Core

/-! ### The orders of an exchange -/

theorem venue_orders {x : Venue} {r : Order} : r ∈ x.orders ↔ (∃ s, s ∈ x.books ∧ r ∈ (x.pits s).board.orders) ∨ r ∈ x.ghosts := by
  unfold Venue.orders
  rw [List.mem_append, List.mem_flatMap]

theorem venue_find_some {x : Venue} {id : Nat} {o : Order} (h : x.find id = some o) : o ∈ x.orders ∧ o.id = id := by
  unfold Venue.find at h
  have h1 := List.mem_of_find?_eq_some h
  have h2 := List.find?_some h
  simp at h2
  exact ⟨h1, h2⟩

theorem venue_find_none {x : Venue} {id : Nat} : x.find id = none ↔ ∀ r ∈ x.orders, r.id ≠ id := by
  unfold Venue.find
  rw [List.find?_eq_none]
  simp

/-- What is known of the exchange: every order is with its symbol and with the manager of its symbol. -/
structure Fair (d : Division) (x : Venue) : Prop where
  own : ∀ s ∈ x.books, ∀ r ∈ (x.pits s).board.orders, r.symbolId = s
  cons : ∀ r ∈ x.orders, d.order r.id = d.symbol r.symbolId
  uniq : ∀ r ∈ x.orders, ∀ r' ∈ x.orders, r.id = r'.id → r = r'
  sorted : x.books.Pairwise (· < ·)

theorem Seats.fair {d : Division} {x : Venue} {g : Mgr} (h : Seats x g) (hi : MInv g) (hg : Goes (fun i s => d.order i = d.symbol s) g.orders) :
    Fair d x := by
  refine ⟨?_, ?_, ?_, h.sorted⟩
  · intro s hs r hr
    obtain ⟨b, hb⟩ := Option.ne_none_iff_exists'.1 ((h.books s).1 hs)
    rw [h.pits s b hb] at hr
    exact ((pit_orders hi hb).1 hr).2
  · intro r hr; exact hg _ _ ((h.orders hi r).1 hr)
  · intro r hr r' hr' e
    have h1 := (h.orders hi r).1 hr
    have h2 := (h.orders hi r').1 hr'
    rw [e, h2] at h1
    exact (Option.some.inj h1).symm

/-- `y` is the share of manager `j` in `x`. -/
structure Part (d : Division) (j : Nat) (x y : Venue) : Prop where
  matching : y.matching = x.matching
  symbols : ∀ i, d.symbol i = j → (i ∈ y.symbols ↔ i ∈ x.symbols)
  books : y.books = x.books.filter (fun s => d.symbol s = j)
  pits : ∀ s, d.symbol s = j → y.pits s = x.pits s
  ghosts : ∀ r, r ∈ y.ghosts ↔ r ∈ x.ghosts ∧ d.symbol r.symbolId = j

theorem Part.mem {d j x y} (p : Part d j x y) {s : Nat} : s ∈ y.books ↔ s ∈ x.books ∧ d.symbol s = j := by
  rw [p.books, List.mem_filter]; simp

theorem Part.orders {d j x y} (p : Part d j x y) (f : Fair d x) {r : Order} : r ∈ y.orders ↔ r ∈ x.orders ∧ d.symbol r.symbolId = j := by
  rw [venue_orders, venue_orders]
  constructor
  · rintro (⟨s, h1, h2⟩ | h)
    · obtain ⟨h3, h4⟩ := p.mem.1 h1
      rw [p.pits s h4] at h2
      exact ⟨.inl ⟨s, h3, h2⟩, by rw [f.own s h3 r h2]; exact h4⟩
    · exact ⟨.inr ((p.ghosts r).1 h).1, ((p.ghosts r).1 h).2⟩
  · rintro ⟨⟨s, h1, h2⟩ | h, hj⟩
    · have e := f.own s h1 r h2
      rw [e] at hj
      exact .inl ⟨s, p.mem.2 ⟨h1, hj⟩, by rw [p.pits s hj]; exact h2⟩
    · exact .inr ((p.ghosts r).2 ⟨h, hj⟩)

theorem Part.find {d j x y} (p : Part d j x y) (f : Fair d x) {id : Nat} (hid : d.order id = j) : y.find id = x.find id := by
  cases hx : x.find id with
  | none =>
    rw [venue_find_none] at hx ⊢
    intro r hr
    exact hx r ((p.orders f).1 hr).1
  | some o =>
    obtain ⟨h1, h2⟩ := venue_find_some hx
    have hs : d.symbol o.symbolId = j := by rw [← f.cons o h1, h2]; exact hid
    have hy := (p.orders f).2 ⟨h1, hs⟩
    cases hf : y.find id with
    | none => exact absurd h2 (venue_find_none.1 hf o hy)
    | some o' =>
      obtain ⟨h3, h4⟩ := venue_find_some hf
      rw [f.uniq o' ((p.orders f).1 h3).1 o h1 (by rw [h2, h4])]

/-- The orders found belong to the manager. -/
theorem Fair.found {d x} (f : Fair d x) {id : Nat} {o : Order} (h : x.find id = some o) : d.symbol o.symbolId = d.order id := by
  obtain ⟨h1, h2⟩ := venue_find_some h
  rw [← f.cons o h1, h2]

theorem Part.set {d j x y} (p : Part d j x y) (sym : Nat) (q : Pit) : Part d j (x.setPit sym q) (y.setPit sym q) := by
  refine ⟨p.matching, p.symbols, p.books, ?_, p.ghosts⟩
  intro s hs
  show (if s = sym then q else y.pits s) = (if s = sym then q else x.pits s)
  rw [p.pits s hs]

theorem Part.setOther {d j x y} (p : Part d j x y) {sym : Nat} (h : d.symbol sym ≠ j) (q : Pit) : Part d j (x.setPit sym q) y := by
  refine ⟨p.matching, p.symbols, p.books, ?_, p.ghosts⟩
  intro s hs
  show y.pits s = (if s = sym then q else x.pits s)
  rw [if_neg (fun e => h (by rw [← e]; exact hs))]
  exact p.pits s hs

/-! ### Calls to the manager -/

/-- The call had the same result code and executions, and the second exchange is the share of the manager afterwards. -/
structure Alike (d : Division) (j : Nat) (a b : Venue.Answer) : Prop where
  code : b.1 = a.1
  execs : b.2.1 = a.2.1
  part : Part d j a.2.2 b.2.2

theorem Alike.refuse {d j x y} (p : Part d j x y) (e : ErrorCode) : Alike d j (x.refuse e) (y.refuse e) := ⟨rfl, rfl, p⟩

theorem Alike.done {d j x y} (p : Part d j x y) (sym : Nat) (r : List Execution × Pit) : Alike d j (x.done sym r) (y.done sym r) := by
  unfold Venue.done
  rw [p.matching]
  exact ⟨rfl, rfl, p.set _ _⟩

theorem Part.used {d j x y} (p : Part d j x y) (f : Fair d x) {sym : Nat} (hs : d.symbol sym = j) (q : Pit) {id : Nat} (hid : d.order id = j) :
    (y.setPit sym q).find id = none ↔ (x.setPit sym q).find id = none := by
  rw [venue_find_none, venue_find_none]
  constructor
  · intro h r hr e
    refine h r ?_ e
    rw [venue_orders] at hr ⊢
    rcases hr with ⟨s, h1, h2⟩ | h1
    · have h1' : s ∈ x.books := h1
      by_cases es : s = sym
      · subst es
        refine .inl ⟨s, p.mem.2 ⟨h1', hs⟩, ?_⟩
        have : r ∈ (if s = s then q else x.pits s).board.orders := h2
        show r ∈ (if s = s then q else y.pits s).board.orders
        rw [if_pos rfl] at this ⊢
        exact this
      · have h2' : r ∈ (if s = sym then q else x.pits s).board.orders := h2
        rw [if_neg es] at h2'
        have hc := f.cons r (venue_orders.2 (.inl ⟨s, h1', h2'⟩))
        rw [e, hid, f.own s h1' r h2'] at hc
        refine .inl ⟨s, p.mem.2 ⟨h1', hc.symm⟩, ?_⟩
        show r ∈ (if s = sym then q else y.pits s).board.orders
        rw [if_neg es, p.pits s hc.symm]
        exact h2'
    · have h1' : r ∈ x.ghosts := h1
      have hc := f.cons r (venue_orders.2 (.inr h1'))
      rw [e, hid] at hc
      exact .inr ((p.ghosts r).2 ⟨h1', hc.symm⟩)
  · intro h r hr e
    refine h r ?_ e
    rw [venue_orders] at hr ⊢
    rcases hr with ⟨s, h1, h2⟩ | h1
    · obtain ⟨h3, h4⟩ := p.mem.1 h1
      refine .inl ⟨s, h3, ?_⟩
      have h2' : r ∈ (if s = sym then q else y.pits s).board.orders := h2
      rw [p.pits s h4] at h2'
      exact h2'
    · exact .inr ((p.ghosts r).1 h1).1

theorem Alike.land {d j x y} (p : Part d j x y) (f : Fair d x) {sym : Nat} (hs : d.symbol sym = j) {r : List Execution × Order × Pit}
    (hid : d.order r.2.1.id = j) : Alike d j (x.land sym r) (y.land sym r) := by
  unfold Venue.land
  simp only
  have hu := p.used f hs r.2.2 hid
  by_cases h : r.2.1.rests ∧ (x.setPit sym r.2.2).find r.2.1.id ≠ none
  · rw [if_pos h, if_pos ⟨h.1, fun e => h.2 (hu.1 e)⟩]
    exact ⟨rfl, rfl, p.set _ _⟩
  · rw [if_neg h, if_neg (fun h' => h ⟨h'.1, fun e => h'.2 (hu.2 e)⟩)]
    exact .done p _ _

theorem Alike.onOrder {d j x y} (p : Part d j x y) (f : Fair d x) {id : Nat} (hid : d.order id = j) {F G : Order → Pit → Venue.Answer}
    (h : ∀ o, x.find id = some o → d.symbol o.symbolId = j → Alike d j (F o (x.pits o.symbolId)) (G o (x.pits o.symbolId))) :
    Alike d j (x.onOrder id F) (y.onOrder id G) := by
  unfold Venue.onOrder
  rw [p.find f hid]
  cases hx : x.find id with
  | none => exact .refuse p _
  | some o =>
    have hs : d.symbol o.symbolId = j := (f.found hx).trans hid
    simp only
    by_cases hb : o.symbolId ∈ x.books
    · rw [if_pos hb, if_pos (p.mem.2 ⟨hb, hs⟩), p.pits _ hs]
      exact h o hx hs
    · rw [if_neg hb, if_neg (fun h' => hb (p.mem.1 h').1)]
      exact .refuse p _

theorem Alike.withQty {d j x y} (p : Part d j x y) {id q : Nat} {a b : Venue.Answer} (h : Alike d j a b) :
    Alike d j (x.withQty id q a) (y.withQty id q b) := by
  unfold Venue.withQty
  by_cases h1 : id = 0
  · rw [if_pos h1, if_pos h1]; exact .refuse p _
  · rw [if_neg h1, if_neg h1]
    by_cases h2 : q = 0
    · rw [if_pos h2, if_pos h2]; exact .refuse p _
    · rw [if_neg h2, if_neg h2]; exact h

theorem released_id (o : Order) : o.released.id = o.id := by unfold Order.released; split <;> rfl
theorem retrailed_id (o : Order) (m : Nat) : (o.retrailed m).id = o.id := by unfold Order.retrailed; split <;> rfl

theorem enter_id (m : Bool) (p : Pit) (o : Order) : (p.enter m o).2.1.id = o.id := by
  have key : ∀ t : Order, t.id = o.id → (if t.waits ∧ ¬ (m = true ∧ p.reached t) then (([] : List Execution), t, p) else p.strike m t.released).2.1.id = o.id := by
    intro t ht
    by_cases h : t.waits ∧ ¬ (m = true ∧ p.reached t)
    · rw [if_pos h]; exact ht
    · rw [if_neg h, (strike_facts _ _ _).2.1, released_id]; exact ht
  exact key _ (retrailed_id _ _)

theorem Alike.add {d j x y} (p : Part d j x y) (f : Fair d x) {o : Order} (hs : d.symbol o.symbolId = j) (hid : d.order o.id = j) :
    Alike d j (x.add o) (y.add o) := by
  unfold Venue.add
  by_cases h1 : o.validate ≠ .ok
  · rw [if_pos h1, if_pos h1]; exact .refuse p _
  · rw [if_neg h1, if_neg h1]
    by_cases h2 : o.symbolId ∉ x.books
    · rw [if_pos h2, if_pos (fun h' => h2 (p.mem.1 h').1)]; exact .refuse p _
    · rw [if_neg h2, if_neg (fun h' => h' (p.mem.2 ⟨Classical.not_not.1 h2, hs⟩)), p.matching, p.pits _ hs]
      exact .land p f hs (by rw [enter_id]; exact hid)

theorem Alike.delete {d j x y} (p : Part d j x y) (f : Fair d x) {id : Nat} (hid : d.order id = j) : Alike d j (x.delete id) (y.delete id) := by
  unfold Venue.delete
  by_cases h1 : id = 0
  · rw [if_pos h1, if_pos h1]; exact .refuse p _
  · rw [if_neg h1, if_neg h1]
    exact .onOrder p f hid fun o _ _ => .done p _ _

theorem Alike.execute {d j x y} (p : Part d j x y) (f : Fair d x) {id q : Nat} (hid : d.order id = j) (price : Order → Nat) :
    Alike d j (x.execute id q price) (y.execute id q price) :=
  .withQty p (.onOrder p f hid fun o _ _ => .done p _ _)

theorem Alike.modify {d j x y} (p : Part d j x y) (o : Order) (q : Pit) (t : Order) : Alike d j (x.modify o q t) (y.modify o q t) := by
  unfold Venue.modify
  rw [p.matching]
  exact .done p _ _

theorem insert_filter (n : Nat) (c : Nat → Bool) : ∀ l : List Nat,
    (Venue.insert n l).Pairwise (· < ·) → (Venue.insert n l).filter c = if c n then Venue.insert n (l.filter c) else l.filter c := by
  intro l hl
  cases hc : c n with
  | false =>
    simp only [Bool.false_eq_true, if_false]
    clear hl
    induction l with
    | nil => simp [Venue.insert, hc]
    | cons a l ih =>
      unfold Venue.insert
      by_cases h : n < a
      · rw [if_pos h, List.filter_cons_of_neg (by simp [hc])]
      · rw [if_neg h]
        by_cases ha : c a = true
        · rw [List.filter_cons_of_pos ha, List.filter_cons_of_pos ha, ih]
        · rw [List.filter_cons_of_neg ha, List.filter_cons_of_neg ha, ih]
  | true =>
    simp only [if_true]
    induction l with
    | nil => simp [Venue.insert, hc]
    | cons a l ih =>
      have e : Venue.insert n (a :: l) = if n < a then n :: a :: l else a :: Venue.insert n l := rfl
      rw [e] at hl ⊢
      by_cases h : n < a
      · rw [if_pos h] at hl ⊢
        rw [List.filter_cons_of_pos hc]
        obtain ⟨h1, _⟩ := List.pairwise_cons.1 hl
        cases hf : (a :: l).filter c with
        | nil => rfl
        | cons b t =>
          have hb : b ∈ (a :: l).filter c := by rw [hf]; simp
          show _ = Venue.insert n (b :: t)
          unfold Venue.insert
          rw [if_pos (h1 b (List.mem_filter.1 hb).1)]
      · rw [if_neg h] at hl ⊢
        obtain ⟨_, h2⟩ := List.pairwise_cons.1 hl
        by_cases ha : c a = true
        · rw [List.filter_cons_of_pos ha, List.filter_cons_of_pos ha, ih h2]
          show _ = Venue.insert n (a :: l.filter c)
          rw [show Venue.insert n (a :: l.filter c) = a :: Venue.insert n (l.filter c) by
            show (if n < a then _ else _) = _
            rw [if_neg h]]
        · rw [List.filter_cons_of_neg ha, List.filter_cons_of_neg ha, ih h2]

theorem filter_comm (c e : Nat → Bool) (l : List Nat) : (l.filter c).filter e = (l.filter e).filter c := by
  rw [List.filter_filter, List.filter_filter]
  congr 1
  funext a
  exact Bool.and_comm _ _

/-- Calls that go to manager `j`. `hm` says what is known after the first half of a replacement by a new order. -/
theorem Part.call {d j x y} (p : Part d j x y) (f : Fair d x) {op : Op} (ho : d.of op = some j) (hr : d.respects op)
    (hm : ∀ id o, op = .replaceWith id o → Fair d (x.delete id).2.2) : Alike d j (x.call op) (y.call op) := by
  cases op with
  | addSymbol s =>
    have hs : d.symbol s.id = j := Option.some.inj ho
    unfold Venue.call
    simp only
    by_cases h : s.id ∈ x.symbols
    · rw [if_pos h, if_pos ((p.symbols _ hs).2 h)]; exact .refuse p _
    · rw [if_neg h, if_neg (fun h' => h ((p.symbols _ hs).1 h'))]
      refine ⟨rfl, rfl, p.matching, ?_, p.books, p.pits, p.ghosts⟩
      intro i hi
      show i ∈ s.id :: y.symbols ↔ i ∈ s.id :: x.symbols
      rw [List.mem_cons, List.mem_cons, p.symbols i hi]
  | deleteSymbol id =>
    have hs : d.symbol id = j := Option.some.inj ho
    unfold Venue.call
    simp only
    by_cases h : id ∈ x.symbols
    · rw [if_pos h, if_pos ((p.symbols _ hs).2 h)]
      refine ⟨rfl, rfl, p.matching, ?_, p.books, p.pits, p.ghosts⟩
      intro i hi
      show i ∈ y.symbols.filter (· ≠ id) ↔ i ∈ x.symbols.filter (· ≠ id)
      rw [List.mem_filter, List.mem_filter, p.symbols i hi]
    · rw [if_neg h, if_neg (fun h' => h ((p.symbols _ hs).1 h'))]; exact .refuse p _
  | addOrderBook s =>
    have hs : d.symbol s.id = j := Option.some.inj ho
    unfold Venue.call
    simp only
    by_cases h : s.id ∉ x.symbols
    · rw [if_pos h, if_pos (fun h' => h ((p.symbols _ hs).1 h'))]; exact .refuse p _
    · have h' : ¬ s.id ∉ y.symbols := fun h' => h' ((p.symbols _ hs).2 (Classical.not_not.1 h))
      rw [if_neg h, if_neg h']
      by_cases h2 : s.id ∈ x.books
      · rw [if_pos h2, if_pos (p.mem.2 ⟨h2, hs⟩)]; exact .refuse p _
      · rw [if_neg h2, if_neg (fun h' => h2 (p.mem.1 h').1)]
        refine ⟨rfl, rfl, p.matching, p.symbols, ?_, (p.set s.id .empty).pits, p.ghosts⟩
        show Venue.insert s.id y.books = (Venue.insert s.id x.books).filter _
        rw [insert_filter _ _ _ (insert_sorted f.sorted h2), if_pos (by simp [hs]), p.books]
  | deleteOrderBook id =>
    have hs : d.symbol id = j := Option.some.inj ho
    unfold Venue.call
    simp only
    by_cases h : id ∈ x.books
    · rw [if_pos h, if_pos (p.mem.2 ⟨h, hs⟩)]
      refine ⟨rfl, rfl, p.matching, p.symbols, ?_, p.pits, ?_⟩
      · show y.books.filter _ = (x.books.filter _).filter _
        rw [p.books, filter_comm]
      · intro r
        show r ∈ (y.pits id).board.orders ++ y.ghosts ↔ r ∈ (x.pits id).board.orders ++ x.ghosts ∧ _
        rw [List.mem_append, List.mem_append, p.pits id hs, p.ghosts]
        constructor
        · rintro (h1 | h1)
          · exact ⟨.inl h1, by rw [f.own id h r h1]; exact hs⟩
          · exact ⟨.inr h1.1, h1.2⟩
        · rintro ⟨h1 | h1, h2⟩
          · exact .inl h1
          · exact .inr ⟨h1, h2⟩
    · rw [if_neg h, if_neg (fun h' => h (p.mem.1 h').1)]; exact .refuse p _
  | addOrder o => exact .add p f (Option.some.inj ho) ((show d.order o.id = d.symbol o.symbolId from hr).trans (Option.some.inj ho))
  | reduceOrder id q => exact .withQty p (.onOrder p f (Option.some.inj ho) fun o _ _ => .done p _ _)
  | modifyOrder id a q => exact .withQty p (.onOrder p f (Option.some.inj ho) fun o _ _ => .modify p _ _ _)
  | mitigateOrder id a q => exact .withQty p (.onOrder p f (Option.some.inj ho) fun o _ _ => .modify p _ _ _)
  | replaceOrder id n a q =>
    have hid : d.order id = j := Option.some.inj ho
    unfold Venue.call
    simp only
    by_cases h1 : id = 0 ∨ n = 0
    · rw [if_pos h1, if_pos h1]; exact .refuse p _
    · rw [if_neg h1, if_neg h1]
      by_cases h2 : q = 0
      · rw [if_pos h2, if_pos h2]; exact .refuse p _
      · rw [if_neg h2, if_neg h2, p.find f hid]
        cases hx : x.find id with
        | none => exact .refuse p _
        | some o =>
          simp only
          by_cases h3 : o.type ≠ .limit
          · rw [if_pos h3, if_pos h3]; exact .refuse p _
          · rw [if_neg h3, if_neg h3, p.matching]
            refine .onOrder p f hid fun o' _ hs => .land p f hs ?_
            rw [(strike_facts _ _ _).2.1]
            exact (show d.order n = d.order id from hr).trans hid
  | replaceWith id o =>
    have hid : d.order id = j := Option.some.inj ho
    have hd := Alike.delete p f hid
    have hf := hm id o rfl
    unfold Venue.call
    simp only
    generalize x.delete id = a at hd hf
    generalize y.delete id = b at hd
    obtain ⟨e, xs, x'⟩ := a
    obtain ⟨e', xs', y'⟩ := b
    obtain ⟨c1, c2, c3⟩ := hd
    simp only at c1 c2 c3 hf
    subst c1; subst c2
    have hadd := Alike.add c3 hf (o := o) (hr.2.trans hid) (hr.1.trans hid)
    cases e' <;> first
      | exact ⟨hadd.code, by show _ ++ _ = _ ++ _; rw [hadd.execs], hadd.part⟩
      | exact ⟨rfl, rfl, c3⟩
  | deleteOrder id => exact .delete p f (Option.some.inj ho)
  | executeOrder id q => exact .execute p f (Option.some.inj ho) _
  | executeOrderAt id a q => exact .execute p f (Option.some.inj ho) _
  | enableMatching => cases ho
  | disableMatching => cases ho
  | matchAll => cases ho

/-! ### Calls to another manager -/

theorem Part.doneOther {d j x y} (p : Part d j x y) {sym : Nat} (h : d.symbol sym ≠ j) (r : List Execution × Pit) :
    Part d j (x.done sym r).2.2 y := p.setOther h _

theorem Part.landOther {d j x y} (p : Part d j x y) {sym : Nat} (h : d.symbol sym ≠ j) (r : List Execution × Order × Pit) :
    Part d j (x.land sym r).2.2 y := by
  unfold Venue.land
  simp only
  split
  · exact p.setOther h _
  · exact p.doneOther h _

theorem Part.onOrderOther {d j x y} (p : Part d j x y) (f : Fair d x) {id : Nat} (hid : d.order id ≠ j) {F : Order → Pit → Venue.Answer}
    (h : ∀ o q, d.symbol o.symbolId ≠ j → Part d j (F o q).2.2 y) : Part d j (x.onOrder id F).2.2 y := by
  unfold Venue.onOrder
  cases hx : x.find id with
  | none => exact p
  | some o =>
    simp only
    split
    · exact h _ _ (by rw [f.found hx]; exact hid)
    · exact p

theorem Part.withQtyOther {d j x y} (p : Part d j x y) {id q : Nat} {a : Venue.Answer} (h : Part d j a.2.2 y) :
    Part d j (x.withQty id q a).2.2 y := by
  unfold Venue.withQty
  split
  · exact p
  · split
    · exact p
    · exact h

theorem Part.addOther {d j x y} (p : Part d j x y) {o : Order} (h : d.symbol o.symbolId ≠ j) : Part d j (x.add o).2.2 y := by
  unfold Venue.add
  split
  · exact p
  · split
    · exact p
    · exact p.landOther h _

theorem Part.deleteOther {d j x y} (p : Part d j x y) (f : Fair d x) {id : Nat} (hid : d.order id ≠ j) : Part d j (x.delete id).2.2 y := by
  unfold Venue.delete
  split
  · exact p
  · exact p.onOrderOther f hid fun o q h => p.doneOther h _

theorem Part.callOther {d j i x y} (p : Part d j x y) (f : Fair d x) {op : Op} (ho : d.of op = some i) (hj : i ≠ j) (hr : d.respects op) :
    Part d j (x.call op).2.2 y := by
  cases op with
  | addSymbol s =>
    have hs : d.symbol s.id ≠ j := fun e => hj ((Option.some.inj ho).symm.trans e)
    unfold Venue.call
    simp only
    split
    · exact p
    · refine ⟨p.matching, ?_, p.books, p.pits, p.ghosts⟩
      intro k hk
      show k ∈ y.symbols ↔ k ∈ s.id :: x.symbols
      rw [List.mem_cons, p.symbols k hk]
      exact ⟨.inr, fun h => h.resolve_left (fun e => hs (by rw [← e]; exact hk))⟩
  | deleteSymbol id =>
    have hs : d.symbol id ≠ j := fun e => hj ((Option.some.inj ho).symm.trans e)
    unfold Venue.call
    simp only
    split
    · refine ⟨p.matching, ?_, p.books, p.pits, p.ghosts⟩
      intro k hk
      show k ∈ y.symbols ↔ k ∈ x.symbols.filter (· ≠ id)
      rw [List.mem_filter, p.symbols k hk]
      exact ⟨fun h => ⟨h, by simp; exact fun e => hs (by rw [← e]; exact hk)⟩, fun h => h.1⟩
    · exact p
  | addOrderBook s =>
    have hs : d.symbol s.id ≠ j := fun e => hj ((Option.some.inj ho).symm.trans e)
    unfold Venue.call
    simp only
    split
    · exact p
    · by_cases h2 : s.id ∈ x.books
      · rw [if_pos h2]; exact p
      · rw [if_neg h2]
        refine ⟨p.matching, p.symbols, ?_, (p.setOther hs .empty).pits, p.ghosts⟩
        show y.books = (Venue.insert s.id x.books).filter _
        rw [insert_filter _ _ _ (insert_sorted f.sorted h2), if_neg (by simp [hs]), p.books]
  | deleteOrderBook id =>
    have hs : d.symbol id ≠ j := fun e => hj ((Option.some.inj ho).symm.trans e)
    unfold Venue.call
    simp only
    by_cases h : id ∈ x.books
    · rw [if_pos h]
      refine ⟨p.matching, p.symbols, ?_, p.pits, ?_⟩
      · show y.books = (x.books.filter _).filter _
        rw [filter_comm, ← p.books, List.filter_eq_self.2]
        intro a ha
        simp
        exact fun e => hs (by rw [← e]; exact (p.mem.1 ha).2)
      · intro r
        show r ∈ y.ghosts ↔ r ∈ (x.pits id).board.orders ++ x.ghosts ∧ _
        rw [List.mem_append, p.ghosts]
        constructor
        · exact fun h1 => ⟨.inr h1.1, h1.2⟩
        · rintro ⟨h1 | h1, h2⟩
          · rw [f.own id h r h1] at h2; exact absurd h2 hs
          · exact ⟨h1, h2⟩
    · rw [if_neg h]; exact p
  | addOrder o => exact p.addOther (fun e => hj ((Option.some.inj ho).symm.trans e))
  | reduceOrder id q =>
    exact p.withQtyOther (p.onOrderOther f (fun e => hj ((Option.some.inj ho).symm.trans e)) fun o q h => p.doneOther h _)
  | modifyOrder id a q =>
    exact p.withQtyOther (p.onOrderOther f (fun e => hj ((Option.some.inj ho).symm.trans e)) fun o q h => p.doneOther h _)
  | mitigateOrder id a q =>
    exact p.withQtyOther (p.onOrderOther f (fun e => hj ((Option.some.inj ho).symm.trans e)) fun o q h => p.doneOther h _)
  | replaceOrder id n a q =>
    unfold Venue.call
    simp only
    split
    · exact p
    · split
      · exact p
      · cases x.find id with
        | none => exact p
        | some o =>
          simp only
          split
          · exact p
          · exact p.onOrderOther f (fun e => hj ((Option.some.inj ho).symm.trans e)) fun o q h => p.landOther h _
  | replaceWith id o =>
    have hid : d.order id ≠ j := fun e => hj ((Option.some.inj ho).symm.trans e)
    have hd := p.deleteOther f hid
    unfold Venue.call
    simp only
    generalize x.delete id = a at hd
    obtain ⟨e, xs, x'⟩ := a
    have hadd := Part.addOther (o := o) hd (by rw [hr.2]; exact hid)
    cases e <;> first | exact hadd | exact hd
  | deleteOrder id => exact p.deleteOther f (fun e => hj ((Option.some.inj ho).symm.trans e))
  | executeOrder id q =>
    exact p.withQtyOther (p.onOrderOther f (fun e => hj ((Option.some.inj ho).symm.trans e)) fun o q h => p.doneOther h _)
  | executeOrderAt id a q =>
    exact p.withQtyOther (p.onOrderOther f (fun e => hj ((Option.some.inj ho).symm.trans e)) fun o q h => p.doneOther h _)
  | enableMatching => cases ho
  | disableMatching => cases ho
  | matchAll => cases ho

/-! ### Calls to all managers -/

theorem setPit_pits_other {x : Venue} {s i : Nat} (h : i ≠ s) (q : Pit) : (x.setPit s q).pits i = x.pits i := by
  show (if i = s then q else x.pits i) = _
  rw [if_neg h]

/-- The executions of a book are of its symbol. -/
def Venue.Local (x : Venue) (l : List Nat) : Prop := ∀ s ∈ l, ∀ e ∈ (x.pits s).rest.1, e.1.symbolId = s

theorem Part.matchAll {d j} : ∀ (l : List Nat) {x y : Venue}, Part d j x y → l.Nodup → x.Local l →
    (Venue.matchAll (l.filter (fun s => d.symbol s = j)) y).1 = d.execs j (Venue.matchAll l x).1 ∧
    Part d j (Venue.matchAll l x).2 (Venue.matchAll (l.filter (fun s => d.symbol s = j)) y).2 := by
  intro l
  induction l with
  | nil => intro x y p _ _; exact ⟨rfl, p⟩
  | cons s l ih =>
    intro x y p hn hl
    obtain ⟨hs, hn⟩ := List.nodup_cons.1 hn
    have hl' : ∀ q, (x.setPit s q).Local l := by
      intro q i hi e he
      rw [setPit_pits_other (fun e => hs (by rw [← e]; exact hi))] at he
      exact hl i (List.mem_cons_of_mem _ hi) e he
    have hall : ∀ e ∈ (x.pits s).rest.1, d.symbol e.1.symbolId = d.symbol s := fun e he => by rw [hl s (by simp) e he]
    have hx : ∀ (l : List Nat) (x : Venue), Venue.matchAll (s :: l) x =
      ((x.pits s).rest.1 ++ (Venue.matchAll l (x.setPit s (x.pits s).rest.2)).1, (Venue.matchAll l (x.setPit s (x.pits s).rest.2)).2) := fun _ _ => rfl
    rw [hx]
    by_cases h : d.symbol s = j
    · rw [List.filter_cons_of_pos (by simp [h]), hx]
      obtain ⟨a, b⟩ := ih (p.set s (x.pits s).rest.2) hn (hl' _)
      simp only
      rw [p.pits s h]
      refine ⟨?_, b⟩
      rw [a]
      unfold Division.execs
      rw [List.filter_append]
      congr 1
      exact (List.filter_eq_self.2 (fun e he => by simp [hall e he, h])).symm
    · rw [List.filter_cons_of_neg (by simp [h])]
      obtain ⟨a, b⟩ := ih (p.setOther h (x.pits s).rest.2) hn (hl' _)
      refine ⟨?_, b⟩
      show (Venue.matchAll (l.filter _) y).1 = _
      rw [a]
      unfold Division.execs
      have hz : (x.pits s).rest.1.filter (fun e => decide (d.symbol e.1.symbolId = j)) = [] :=
        List.filter_eq_nil_iff.2 (fun e he => by simp [hall e he, h])
      rw [List.filter_append, hz, List.nil_append]

/-- The executions of a book that comes to rest are of its symbol. -/
theorem Seats.local {x : Venue} {g : Mgr} (h : Seats x g) (hi : MInv g) : x.Local x.books := by
  intro s hs e he
  obtain ⟨b, hb⟩ := Option.ne_none_iff_exists'.1 ((h.books s).1 hs)
  rw [h.pits s b hb] at he
  obtain ⟨hI, hid⟩ := hi.inv hb
  obtain ⟨s', run, _⟩ := matchBook_ok hI
  have hp := matchBook_plays hI run
  obtain ⟨evs, a1, a2⟩ := hp.ev
  rw [← a2] at he
  rw [← hid]
  exact execsOf_sym a1.sym e he

theorem Part.callAll {d j x y} {op : Op} (p : Part d j x y) (f : Fair d x) (hl : x.Local x.books) (ho : d.of op = none) :
    (y.call op).1 = (x.call op).1 ∧ (y.call op).2.1 = d.execs j (x.call op).2.1 ∧ Part d j (x.call op).2.2 (y.call op).2.2 := by
  have hn : x.books.Nodup := f.sorted.imp (fun h => by omega)
  cases op with
  | enableMatching =>
    obtain ⟨a, b⟩ := Part.matchAll (d := d) (j := j) x.books (x := { x with matching := true }) (y := { y with matching := true })
      ⟨rfl, p.symbols, p.books, p.pits, p.ghosts⟩ hn hl
    rw [← p.books] at a b
    exact ⟨rfl, a, b⟩
  | matchAll =>
    obtain ⟨a, b⟩ := Part.matchAll (d := d) (j := j) x.books p hn hl
    rw [← p.books] at a b
    exact ⟨rfl, a, b⟩
  | disableMatching => exact ⟨rfl, rfl, rfl, p.symbols, p.books, p.pits, p.ghosts⟩
  | addSymbol _ => cases ho
  | deleteSymbol _ => cases ho
  | addOrderBook _ => cases ho
  | deleteOrderBook _ => cases ho
  | addOrder _ => cases ho
  | reduceOrder _ _ => cases ho
  | modifyOrder _ _ _ => cases ho
  | mitigateOrder _ _ _ => cases ho
  | replaceOrder _ _ _ _ => cases ho
  | replaceWith _ _ => cases ho
  | deleteOrder _ => cases ho
  | executeOrder _ _ => cases ho
  | executeOrderAt _ _ _ => cases ho

end CppTrader
