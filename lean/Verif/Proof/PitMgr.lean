import Verif.Proof.PitOps
import Verif.Proof.MgrLines
import Verif.Proof.Textbook
/-
The engine and the reference exchange, call by call.
-/

namespace CppTrader
open Core

/-- The reference exchange and the engine are in the same state. -/
structure Seats (x : Venue) (g : Mgr) : Prop where
  matching : x.matching = g.matching
  symbols : ∀ i, i ∈ x.symbols ↔ slot g.symbols i ≠ none
  sorted : x.books.Pairwise (· < ·)
  books : ∀ i, i ∈ x.books ↔ slot g.books i ≠ none
  pits : ∀ i b, slot g.books i = some b → x.pits i = (g.core b).pit
  ghosts : ∀ r, r ∈ x.ghosts ↔ g.orders r.id = some r ∧ slot g.books r.symbolId = none

theorem Kind.mem_all (k : Kind) : k ∈ Kind.all := by cases k <;> simp [Kind.all]

theorem board_orders {l : Board} {r : Order} : r ∈ l.orders ↔ ∃ k, r ∈ l k := by
  unfold Board.orders
  rw [List.mem_flatMap]
  exact ⟨fun ⟨k, _, h⟩ => ⟨k, h⟩, fun ⟨k, h⟩ => ⟨k, k.mem_all, h⟩⟩

/-- The orders of a book. -/
theorem pit_orders {g : Mgr} (hi : MInv g) {sym b} (hb : slot g.books sym = some b) {r : Order} :
    r ∈ (g.core b).pit.board.orders ↔ g.orders r.id = some r ∧ r.symbolId = sym := by
  rw [board_orders]
  constructor
  · rintro ⟨k, h⟩
    have := lines_sym hi (n := sym) (k := k) (r := r) (by rw [lines_core hi hb]; exact h)
    exact ⟨this.1, this.2.1⟩
  · rintro ⟨h1, h2⟩
    obtain ⟨hI, hid⟩ := hi.inv hb
    obtain ⟨k, l, _, hl, hq⟩ := hI.book.complete r.id r h1 (h2.trans hid.symm)
    exact ⟨k, restOf_mem.2 ⟨r.id, mem_flatOf.2 ⟨l, hl, hq⟩, h1⟩⟩

/-- The orders of the reference are those of the engine. -/
theorem Seats.orders {x : Venue} {g : Mgr} (h : Seats x g) (hi : MInv g) (r : Order) : r ∈ x.orders ↔ g.orders r.id = some r := by
  unfold Venue.orders
  rw [List.mem_append, List.mem_flatMap, h.ghosts]
  constructor
  · rintro (⟨s, h1, h2⟩ | h1)
    · obtain ⟨b, hb⟩ := Option.ne_none_iff_exists'.1 ((h.books s).1 h1)
      rw [h.pits s b hb] at h2
      exact ((pit_orders hi hb).1 h2).1
    · exact h1.1
  · intro h1
    cases hb : slot g.books r.symbolId with
    | none => exact .inr ⟨h1, rfl⟩
    | some b =>
      refine .inl ⟨r.symbolId, (h.books _).2 (by simp [hb]), ?_⟩
      rw [h.pits _ b hb]
      exact (pit_orders hi hb).2 ⟨h1, rfl⟩

theorem Seats.find {x : Venue} {g : Mgr} (h : Seats x g) (hi : MInv g) (id : Nat) : x.find id = g.orders id := by
  unfold Venue.find
  cases hf : x.orders.find? (fun r => r.id = id) with
  | some r =>
    have h1 := List.find?_some hf
    have h2 := (h.orders hi r).1 (List.mem_of_find?_eq_some hf)
    simp only [decide_eq_true_eq] at h1
    rw [h1] at h2; exact h2.symm
  | none =>
    cases ho : g.orders id with
    | none => rfl
    | some o =>
      have hid := (hi.orders id o ho).1
      have := List.find?_eq_none.1 hf o ((h.orders hi o).2 (by rw [hid]; exact ho))
      simp [hid] at this

/-! ### Work on one book -/

theorem MInv.played {g : Mgr} (h : MInv g) {sym b r s'} (hb : slot g.books sym = some b) (hp : Plays (g.core b) r s') : MInv (g.put sym s') := by
  obtain ⟨hi, hid⟩ := h.inv hb
  have hsym : s'.book.symbol = b.symbol := by obtain ⟨_, a, _⟩ := hp.ev; exact a.bsym
  refine ⟨hp.inv.orders, ?_, h.symbols⟩
  intro i b' hb'
  by_cases e : i = sym
  · subst e
    simp only [Mgr.put] at hb'
    rw [slot_set_same (slot_lt hb)] at hb'
    cases hb'
    exact ⟨by rw [hsym]; exact hid, hp.inv.book, hp.inv.vol⟩
  · simp only [Mgr.put] at hb'
    rw [slot_set_other e] at hb'
    obtain ⟨a, c, d⟩ := h.books i b' hb'
    refine ⟨a, c.iso hp.iso ?_, d⟩
    show b'.symbol.id ≠ b.symbol.id
    rw [a, hid]; exact e

theorem Seats.put {x : Venue} {g : Mgr} (h : Seats x g) (hi : MInv g) {sym b r s'} (hb : slot g.books sym = some b)
    (hp : Plays (g.core b) r s') : Seats (x.setPit sym r.2) (g.put sym s') := by
  have hslot : ∀ i, slot (g.put sym s').books i ≠ none ↔ slot g.books i ≠ none := by
    intro i
    by_cases e : i = sym
    · subst e; rw [put_getBook_same hb, hb]; simp
    · rw [put_getBook_other e]
  obtain ⟨hI, hid⟩ := hi.inv hb
  refine ⟨h.matching, h.symbols, h.sorted, fun i => (h.books i).trans (hslot i).symm, ?_, ?_⟩
  · intro i b' hb'
    show (if i = sym then r.2 else x.pits i) = _
    by_cases e : i = sym
    · subst e
      rw [put_getBook_same hb] at hb'; cases hb'
      rw [if_pos rfl, ← hp.pit]
      rfl
    · rw [put_getBook_other e] at hb'
      rw [if_neg e, h.pits i b' hb']
      have hline : ((g.put sym s').core b').line = (g.core b').line := by
        funext k
        unfold Core.line
        refine restOf_congr ?_
        intro j hq
        obtain ⟨o, h1, h2, _⟩ := (hi.inv hb').1.book.queue_mem hq
        have hid' := (hi.inv hb').2
        have hne : o.symbolId ≠ b.symbol.id := by
          rw [hid]
          intro e2
          have h2' : o.symbolId = b'.symbol.id := h2
          rw [hid', e2] at h2'
          exact e h2'.symm
        have h3 := hp.iso.keep j o h1 hne
        show s'.orders j = _
        rw [h3]; exact h1.symm
      unfold Core.pit
      rw [hline]
      rfl
  · intro r'
    show r' ∈ x.ghosts ↔ s'.orders r'.id = some r' ∧ slot (g.put sym s').books r'.symbolId = none
    rw [h.ghosts]
    have hs2 : slot (g.put sym s').books r'.symbolId = none ↔ slot g.books r'.symbolId = none := by
      have := hslot r'.symbolId
      constructor
      · intro a; exact Decidable.byContradiction fun c => this.2 c a
      · intro a; exact Decidable.byContradiction fun c => this.1 c a
    rw [hs2]
    constructor
    · rintro ⟨h1, h2⟩
      have hne : r'.symbolId ≠ b.symbol.id := by
        rw [hid]; intro e; rw [e, hb] at h2; cases h2
      exact ⟨hp.iso.keep _ _ h1 hne, h2⟩
    · rintro ⟨h1, h2⟩
      have hne : r'.symbolId ≠ b.symbol.id := by
        rw [hid]; intro e; rw [e, hb] at h2; cases h2
      exact ⟨hp.iso.back _ _ h1 hne, h2⟩

/-! ### Calls -/

/-- The engine's call had the effect that the reference gives. -/
structure Echo (r : Venue.Answer) (g g' : Mgr) (e : ErrorCode) : Prop where
  code : r.1 = e
  ev : ∃ evs, g'.ev = g.ev ++ evs ∧ execsOf evs = r.2.1
  seats : Seats r.2.2 g'
  inv : MInv g'

theorem Echo.refused {x : Venue} {g : Mgr} (h : Seats x g) (hi : MInv g) (e) : Echo (x.refuse e) g g e :=
  ⟨rfl, ⟨[], by simp, rfl⟩, h, hi⟩

theorem setPit_setPit (x : Venue) (s : Nat) (p q : Pit) : (x.setPit s p).setPit s q = x.setPit s q := by
  have : (fun i => if i = s then q else if i = s then p else x.pits i) = fun i => if i = s then q else x.pits i := by
    funext i; by_cases h : i = s <;> simp [h]
  unfold Venue.setPit
  simp only
  rw [this]

theorem Echo.plays {x : Venue} {g : Mgr} (h : Seats x g) (hi : MInv g) {sym b r s'} {e : ErrorCode} (hb : slot g.books sym = some b)
    (hp : Plays (g.core b) r s') : Echo (e, r.1, x.setPit sym r.2) g (g.put sym s') e := by
  obtain ⟨evs, h1, h2⟩ := hp.ev
  exact ⟨rfl, ⟨evs, h1.ev, h2⟩, h.put hi hb hp, hi.played hb hp⟩

/-- The call was carried out on a book. -/
theorem Echo.done {x : Venue} {g : Mgr} (h : Seats x g) (hi : MInv g) {sym b r s1 s'} (hb : slot g.books sym = some b)
    (hp : Plays (g.core b) r s1) (hq : Plays s1 (r.2.close g.matching) s') : Echo (x.done sym r) g (g.put sym s') .ok := by
  have := hp.trans (xs := r.1) (p := r.2) (ys := (r.2.close g.matching).1) (q := (r.2.close g.matching).2) hq
  unfold Venue.done
  rw [h.matching]
  exact Echo.plays h hi hb this

theorem Echo.lands {x : Venue} {g : Mgr} (h : Seats x g) (hi : MInv g) {sym b r s' e} (hb : slot g.books sym = some b)
    (hl : Lands g.matching (g.core b) r s' e) : Echo (x.land sym r) g (g.put sym s') e := by
  obtain ⟨s2, hp, hl⟩ := hl
  have hm := hi.played hb hp
  have hs := h.put hi hb hp
  have hf : (x.setPit sym r.2.2).find r.2.1.id = s2.orders r.2.1.id := hs.find hm _
  unfold Venue.land
  simp only
  rw [hf]
  rcases hl with ⟨h1, h2, rfl, h4⟩ | ⟨h1, rfl, h4⟩
  · rw [if_pos ⟨h1, h2⟩]
    have := Echo.plays (e := .orderDuplicate) h hi hb (hp.trans h4)
    rw [List.append_nil] at this
    exact this
  · rw [if_neg h1]
    have := hp.trans (ys := ((r.2.2.land r.2.1).close g.matching).1) (q := ((r.2.2.land r.2.1).close g.matching).2) h4
    unfold Venue.done
    rw [h.matching]
    exact Echo.plays h hi hb this

/-- A call about an order. -/
theorem Echo.onOrder {x : Venue} {g g' : Mgr} (h : Seats x g) (hi : MInv g) {id e f F} (run : g.onOrder id f = .ok (g', e))
    (hf : ∀ o b s', g.orders id = some o → o.id = id → slot g.books o.symbolId = some b → Inv (g.core b) → o.symbolId = b.symbol.id →
      f o (g.core b) = .ok (s', e) → Echo (F o (g.core b).pit) g (g.put o.symbolId s') e) : Echo (x.onOrder id F) g g' e := by
  unfold Venue.onOrder
  rw [h.find hi]
  unfold Mgr.onOrder at run
  cases ho : g.orders id with
  | none =>
    rw [ho] at run
    simp only at run ⊢
    cases run
    exact .refused h hi _
  | some o =>
    rw [ho] at run
    simp only at run ⊢
    cases hb : slot g.books o.symbolId with
    | none =>
      unfold Mgr.onBook at run
      rw [hb] at run
      cases run
      rw [if_neg (fun hm => (h.books _).1 hm hb)]
      exact .refused h hi _
    | some b =>
      obtain ⟨b', c, h1, h2, h3⟩ := onBook_inv run (by rw [show g.getBook o.symbolId = some b from hb]; simp)
      rw [hb] at h1; cases h1
      rw [if_pos ((h.books _).2 (by simp [hb])), h.pits _ b hb, h3]
      obtain ⟨h4, h5⟩ := hi.inv hb
      exact hf o b c ho (hi.orders id o ho).1 hb h4 h5.symm h2

theorem Echo.withQty {x : Venue} {g g' : Mgr} (h : Seats x g) (hi : MInv g) {id q e f r}
    (run : (if id = 0 then .ok (g, .orderIdInvalid) else if q = 0 then .ok (g, .orderQuantityInvalid) else f : Except Err (Mgr × ErrorCode)) = .ok (g', e))
    (hf : id ≠ 0 → q ≠ 0 → f = .ok (g', e) → Echo r g g' e) : Echo (x.withQty id q r) g g' e := by
  unfold Venue.withQty
  by_cases h0 : id = 0
  · rw [if_pos h0] at run ⊢; cases run; exact .refused h hi _
  · rw [if_neg h0] at run ⊢
    by_cases h1 : q = 0
    · rw [if_pos h1] at run ⊢; cases run; exact .refused h hi _
    · rw [if_neg h1] at run ⊢
      exact hf h0 h1 run

theorem Echo.add {x : Venue} {g g' : Mgr} (h : Seats x g) (hi : MInv g) {o e} (hr : o.Repr64) (hfit : g.Fits o.symbolId o.leaves)
    (run : g.addOrder o = .ok (g', e)) : Echo (x.add o) g g' e := by
  unfold Venue.add
  unfold Mgr.addOrder at run
  by_cases hv : o.validate = .ok
  · rw [if_neg (by simp [hv])] at run ⊢
    cases hb : slot g.books o.symbolId with
    | none =>
      unfold Mgr.onBook at run
      rw [hb] at run
      cases run
      rw [if_pos (fun hm => (h.books _).1 hm hb)]
      exact .refused h hi _
    | some b =>
      obtain ⟨b', c, h1, h2, h3⟩ := onBook_inv run (by rw [show g.getBook o.symbolId = some b from hb]; simp)
      rw [hb] at h1; cases h1
      rw [if_neg (Decidable.not_not.2 ((h.books _).2 (by simp [hb]))), h.pits _ b hb, h3, h.matching]
      obtain ⟨h4, h5⟩ := hi.inv hb
      exact .lands h hi hb (addAny_lands h4 hv hr h5.symm (hfit b hb) h2)
  · rw [if_pos hv] at run ⊢; cases run; exact .refused h hi _

theorem Echo.delete {x : Venue} {g g' : Mgr} (h : Seats x g) (hi : MInv g) {id e} (run : g.deleteOrder id = .ok (g', e)) :
    Echo (x.delete id) g g' e := by
  unfold Venue.delete
  unfold Mgr.deleteOrder at run
  by_cases h0 : id = 0
  · rw [if_pos h0] at run ⊢; cases run; exact .refused h hi _
  rw [if_neg h0] at run ⊢
  refine .onOrder h hi run ?_
  intro o b s' ho hid hb hI hsym h2
  obtain ⟨rfl, hp⟩ := deleteOp_plays hI (by rw [hid]; exact ho) hsym h2
  rw [hid] at hp
  have := Echo.plays (e := .ok) h hi hb hp
  unfold Venue.done
  rw [h.matching]
  exact this

theorem Echo.execute {x : Venue} {g g' : Mgr} (h : Seats x g) (hi : MInv g) {id q e} {price : Order → Nat}
    (run : (if id = 0 then .ok (g, .orderIdInvalid) else if q = 0 then .ok (g, .orderQuantityInvalid) else
      g.onOrder id (fun o c => c.executeOp g.matching o (price o) q) : Except Err (Mgr × ErrorCode)) = .ok (g', e)) :
    Echo (x.execute id q price) g g' e := by
  unfold Venue.execute
  refine .withQty h hi run fun _ h1 run => .onOrder h hi run ?_
  intro o b s' ho hid hb hI hsym h2
  obtain ⟨rfl, s1, hp, hq⟩ := executeOp_plays hI (by rw [hid]; exact ho) hsym (by omega) h2
  rw [hid] at hp
  rw [hp.pit] at hq
  exact .done h hi hb hp hq

theorem Echo.reduce {x : Venue} {g g' : Mgr} (h : Seats x g) (hi : MInv g) {id q e} (run : g.reduceOrder id q = .ok (g', e)) :
    Echo (x.call (.reduceOrder id q)) g g' e := by
  refine .withQty h hi run fun _ h1 run => .onOrder h hi run ?_
  intro o b s' ho hid hb hI hsym h2
  subst hid
  obtain ⟨rfl, hp⟩ := reduceOp_plays hI ho hsym (by omega) h2
  have := Echo.plays (e := .ok) h hi hb hp
  unfold Venue.done
  rw [h.matching]
  exact this

theorem Echo.modify {x : Venue} {g g' : Mgr} (h : Seats x g) (hi : MInv g) {id p q : Nat} {mit : Bool} {e} (hp : p < W64) (hq : q < W64)
    (hfit : ∀ o, g.getOrder id = some o → g.Fits o.symbolId q) (run : g.modifyOrder id p q mit = .ok (g', e)) :
    Echo (x.withQty id q <| x.onOrder id fun o c => x.modify o c (modified o p q mit)) g g' e := by
  refine .withQty h hi run fun _ h1 run => .onOrder h hi run ?_
  intro o b s' ho hid hb hI hsym h2
  obtain ⟨rfl, s1, hp, hq⟩ := modifyOp_plays hI (by rw [hid]; exact ho) hsym hp hq (hfit o (by rw [hi.getOrder]; exact ho) b hb) h2
  rw [hp.pit] at hq
  unfold Venue.modify
  rw [h.matching]
  exact .done h hi hb hp hq

theorem modified_modify (o : Order) (p q : Nat) : modified o p q false = { o with price := p, quantity := q, leaves := q } := rfl

theorem modified_mitigate (o : Order) (p q : Nat) : modified o p q true = { o with price := p, quantity := q, leaves := q - o.executed } := by
  unfold modified
  by_cases h : q > o.executed
  · simp [h]
  · have : q - o.executed = 0 := by omega
    simp [h, this]

theorem Echo.replace {x : Venue} {g g' : Mgr} (h : Seats x g) (hi : MInv g) {id n p q : Nat} {e} (hn : n < W64) (hp : p < W64) (hq : q < W64)
    (hfit : ∀ o, g.getOrder id = some o → g.Fits o.symbolId q) (run : g.replaceOrder id n p q = .ok (g', e)) :
    Echo (x.call (.replaceOrder id n p q)) g g' e := by
  unfold Mgr.replaceOrder at run
  unfold Venue.call
  simp only
  by_cases h0 : id = 0
  · rw [if_pos h0] at run; rw [if_pos (.inl h0)]; cases run; exact .refused h hi _
  rw [if_neg h0] at run
  by_cases h1 : n = 0
  · rw [if_pos h1] at run; rw [if_pos (.inr h1)]; cases run; exact .refused h hi _
  rw [if_neg h1] at run; rw [if_neg (by simp [h0, h1])]
  by_cases h2 : q = 0
  · rw [if_pos h2] at run ⊢; cases run; exact .refused h hi _
  rw [if_neg h2] at run ⊢
  rw [h.find hi]
  cases ho : g.orders id with
  | none => rw [ho] at run; cases run; exact .refused h hi _
  | some o =>
    rw [ho] at run
    simp only at run ⊢
    by_cases hl : o.type = .limit
    · rw [if_pos (show o.isLimit = true by simp [Order.isLimit, hl])] at run
      rw [if_neg (by simp [hl])]
      have run2 : g.onOrder id (fun o c => c.replaceOp g.matching o n p q) = .ok (g', e) := by
        unfold Mgr.onOrder; rw [ho]; exact run
      clear run
      refine .onOrder h hi run2 ?_
      intro o' b s' ho' hid hb hI hsym h2
      rw [ho] at ho'; cases ho'
      have := replaceOp_lands hI (by rw [hid]; exact ho) hsym hl (by omega) hn hp (by omega) hq (hfit o (by rw [hi.getOrder]; exact ho) b hb) h2
      rw [hid] at this
      rw [h.matching]
      exact .lands h hi hb this
    · rw [if_neg (show ¬ o.isLimit = true by simp [Order.isLimit, hl])] at run
      rw [if_pos hl]
      cases run
      exact .refused h hi _

theorem Echo.then {r : Venue.Answer} {g g1 g' : Mgr} {e e1} (h : Echo r g g1 e1) {r' : Venue.Answer} (h' : Echo r' g1 g' e) :
    Echo (r'.1, r.2.1 ++ r'.2.1, r'.2.2) g g' e := by
  obtain ⟨e1, a1, a2⟩ := h.ev
  obtain ⟨e2, b1, b2⟩ := h'.ev
  exact ⟨h'.code, ⟨e1 ++ e2, by rw [b1, a1, List.append_assoc], by rw [execsOf_append, a2, b2]⟩, h'.seats, h'.inv⟩

theorem Echo.replaceWith {x : Venue} {g g' : Mgr} (h : Seats x g) (hi : MInv g) {id o e} (hr : o.Repr64) (hfit : g.Fits o.symbolId o.leaves)
    (run : g.replaceWith id o = .ok (g', e)) : Echo (x.call (.replaceWith id o)) g g' e := by
  unfold Mgr.replaceWith at run
  obtain ⟨⟨g1, e1⟩, h1, run2⟩ := bind_inv run
  clear run
  obtain ⟨g2, e2, a1, a2, a3⟩ := deleteOrder_mgr hi id
  rw [h1] at a1; cases a1
  have hd := Echo.delete h hi h1
  unfold Venue.call
  simp only
  generalize hx : x.delete id = r at hd
  obtain ⟨c, xs, x'⟩ := r
  have hc : c = e1 := hd.code
  subst hc
  simp only at run2
  by_cases hok : c = .ok
  · subst hok
    rw [if_neg (by simp)] at run2
    have ha := Echo.add hd.seats hd.inv (o := o) hr (by
      intro b' hb'
      obtain ⟨b, h2, h3⟩ := a3 _ b' hb'
      have := hfit b h2
      omega) run2
    exact hd.then ha
  · rw [if_pos hok] at run2
    cases run2
    cases e <;> first | exact absurd rfl hok | exact hd

/-! ### All books -/

theorem Echo.matchFrom : ∀ (is : List Nat) {x : Venue} {g g' : Mgr}, Seats x g → MInv g → Mgr.matchFrom is g = .ok g' →
    Echo (.ok, Venue.matchAll (is.filter (fun i => decide (i ∈ x.books))) x) g g' .ok := by
  intro is
  induction is with
  | nil => intro x g g' h hi run; cases run; exact ⟨rfl, ⟨[], by simp, rfl⟩, h, hi⟩
  | cons i is ih =>
    intro x g g' h hi run
    unfold Mgr.matchFrom at run
    obtain ⟨g1, h1, run2⟩ := bind_inv run
    clear run
    unfold Mgr.matchAt at h1
    cases hb : slot g.books i with
    | none =>
      rw [hb] at h1
      cases h1
      rw [List.filter_cons_of_neg (by simp; exact fun hm => (h.books i).1 hm hb)]
      exact ih h hi run2
    | some b =>
      rw [hb] at h1
      simp only at h1
      obtain ⟨c, h2, h3⟩ := bind_inv h1
      cases h3
      rw [List.filter_cons_of_pos (by simp; exact (h.books i).2 (by simp [hb]))]
      have hp := matchBook_plays (hi.inv hb).1 h2
      have e1 := Echo.plays (e := .ok) h hi hb hp
      have e2 := ih (x := x.setPit i (g.core b).pit.rest.2) e1.seats e1.inv run2
      have := e1.then e2
      unfold Venue.matchAll
      simp only
      rw [h.pits i b hb]
      exact this

theorem sorted_ext : ∀ {xs ys : List Nat}, xs.Pairwise (· < ·) → ys.Pairwise (· < ·) → (∀ i, i ∈ xs ↔ i ∈ ys) → xs = ys := by
  intro xs ys h1 h2 h
  have hn : ∀ {l : List Nat}, l.Pairwise (· < ·) → l.Nodup := fun h => h.imp (fun h e => by omega)
  exact (List.perm_ext_iff_of_nodup (hn h1) (hn h2)).2 h |>.eq_of_pairwise (fun a b _ _ h1 h2 => absurd h1 (by omega)) h1 h2

theorem Seats.range {x : Venue} {g : Mgr} (h : Seats x g) : (List.range g.books.length).filter (fun i => decide (i ∈ x.books)) = x.books := by
  refine sorted_ext (List.pairwise_lt_range.filter _) h.sorted ?_
  intro i
  rw [List.mem_filter, List.mem_range]
  constructor
  · rintro ⟨_, h1⟩; simpa using h1
  · intro h1
    obtain ⟨b, hb⟩ := Option.ne_none_iff_exists'.1 ((h.books i).1 h1)
    exact ⟨slot_lt hb, by simpa using h1⟩

theorem Echo.matchAll {x : Venue} {g g' : Mgr} (h : Seats x g) (hi : MInv g) (run : g.matchAll = .ok g') :
    Echo (.ok, Venue.matchAll x.books x) g g' .ok := by
  have := Echo.matchFrom _ h hi run
  rw [h.range] at this
  exact this

/-! ### Registers -/

theorem insert_mem {n : Nat} {l : List Nat} {i} : i ∈ Venue.insert n l ↔ i = n ∨ i ∈ l := by
  induction l with
  | nil => simp [Venue.insert]
  | cons m ms ih =>
    unfold Venue.insert
    split
    · simp
    · rw [List.mem_cons, ih, List.mem_cons]
      constructor
      · rintro (h | h | h) <;> simp [h]
      · rintro (h | h | h) <;> simp [h]

theorem insert_sorted {n : Nat} {l : List Nat} (h : l.Pairwise (· < ·)) (hn : n ∉ l) : (Venue.insert n l).Pairwise (· < ·) := by
  induction l with
  | nil => simp [Venue.insert]
  | cons m ms ih =>
    unfold Venue.insert
    rw [List.pairwise_cons] at h
    split
    · rename_i hlt
      refine List.pairwise_cons.2 ⟨?_, List.pairwise_cons.2 h⟩
      intro a ha
      rcases List.mem_cons.1 ha with rfl | ha
      · exact hlt
      · have := h.1 a ha; omega
    · rename_i hlt
      refine List.pairwise_cons.2 ⟨?_, ih h.2 (fun hm => hn (by simp [hm]))⟩
      intro a ha
      rcases insert_mem.1 ha with rfl | ha
      · have : a ≠ m := fun e => hn (by simp [e])
        omega
      · exact h.1 a ha

theorem Echo.ofRefused {x : Venue} {g g' : Mgr} (h : Seats x g) (hi : MInv g) {op e} (hr : Refused g (g.refusal op) g' e) :
    Echo (x.refuse e) g g' e := by obtain ⟨rfl, _⟩ := hr; exact .refused h hi e

theorem Echo.addSymbol {x : Venue} {g g' : Mgr} (h : Seats x g) (hi : MInv g) {sym : Symbol} {e} (hs : StepEff g (.addSymbol sym) g' e)
    (hi' : MInv g') : Echo (x.call (.addSymbol sym)) g g' e := by
  unfold Venue.call
  simp only
  cases hs with
  | refused hr =>
    have he : (if g.getSymbol sym.id = none then none else some ErrorCode.symbolDuplicate) = some e := hr.2.2.2
    have hne : g.getSymbol sym.id ≠ none := fun hn => by rw [if_pos hn] at he; cases he
    rw [if_neg hne] at he
    cases he
    rw [if_pos ((h.symbols _).2 hne)]
    exact .ofRefused h hi hr
  | addSymbol hn hv =>
    rw [if_neg (fun hm => (h.symbols _).1 hm hn)]
    refine ⟨rfl, ⟨[_], rfl, rfl⟩, ⟨h.matching, ?_, h.sorted, h.books, h.pits, h.ghosts⟩, hi'⟩
    intro i
    show i ∈ sym.id :: x.symbols ↔ _
    rw [show slot _ i = _ from hv i, List.mem_cons, h.symbols]
    by_cases e : i = sym.id <;> simp [e]
  | book on _ => cases on

theorem Echo.deleteSymbol {x : Venue} {g g' : Mgr} (h : Seats x g) (hi : MInv g) {id e} (hs : StepEff g (.deleteSymbol id) g' e)
    (hi' : MInv g') : Echo (x.call (.deleteSymbol id)) g g' e := by
  unfold Venue.call
  simp only
  cases hs with
  | refused hr =>
    have he : (if g.getSymbol id = none then some ErrorCode.symbolNotFound else none) = some e := hr.2.2.2
    have hn : g.getSymbol id = none := Decidable.byContradiction fun hn => by rw [if_neg hn] at he; cases he
    rw [if_pos hn] at he
    cases he
    rw [if_neg (fun hm => (h.symbols _).1 hm hn)]
    exact .ofRefused h hi hr
  | deleteSymbol hn hv =>
    rw [if_pos ((h.symbols _).2 (by simp [hn]))]
    refine ⟨rfl, ⟨[_], rfl, rfl⟩, ⟨h.matching, ?_, h.sorted, h.books, h.pits, h.ghosts⟩, hi'⟩
    intro i
    show i ∈ x.symbols.filter _ ↔ _
    rw [show slot _ i = _ from hv i, List.mem_filter, h.symbols]
    by_cases e : i = id <;> simp [e]
  | book on _ => cases on

theorem new_pit {g : Mgr} (reg : Symbol) : (g.core (Book.new reg)).pit = Pit.empty := by
  have : (g.core (Book.new reg)).line = fun _ => [] := by funext k; cases k <;> rfl
  unfold Core.pit
  rw [this]
  rfl

theorem Echo.addBook {x : Venue} {g g' : Mgr} (h : Seats x g) (hi : MInv g) {sym : Symbol} {e} (ha : g.Admissible (.addOrderBook sym))
    (hs : StepEff g (.addOrderBook sym) g' e) (hi' : MInv g') : Echo (x.call (.addOrderBook sym)) g g' e := by
  unfold Venue.call
  simp only
  cases hs with
  | refused hr =>
    have he : (if g.getSymbol sym.id = none then some ErrorCode.symbolNotFound
      else if g.getBook sym.id = none then none else some ErrorCode.orderBookDuplicate) = some e := hr.2.2.2
    by_cases h1 : g.getSymbol sym.id = none
    · rw [if_pos h1] at he; cases he
      rw [if_pos (fun hm => (h.symbols _).1 hm h1)]
      exact .ofRefused h hi hr
    · rw [if_neg h1] at he
      rw [if_neg (Decidable.not_not.2 ((h.symbols _).2 h1))]
      by_cases h2 : g.getBook sym.id = none
      · rw [if_pos h2] at he; cases he
      · rw [if_neg h2] at he; cases he
        rw [if_pos ((h.books _).2 h2)]
        exact .ofRefused h hi hr
  | @addBook _ reg v hr hn hv =>
    rw [if_neg (Decidable.not_not.2 ((h.symbols _).2 (by simp [hr]))), if_neg (fun hm => (h.books _).1 hm hn)]
    refine ⟨rfl, ⟨[_], rfl, rfl⟩, ⟨h.matching, h.symbols, insert_sorted h.sorted (fun hm => (h.books _).1 hm hn), ?_, ?_, ?_⟩, hi'⟩
    · intro i
      show i ∈ Venue.insert sym.id x.books ↔ slot v i ≠ none
      rw [hv i, insert_mem, h.books]
      by_cases e : i = sym.id <;> simp [e]
    · intro i b hb
      have hb2 : slot v i = some b := hb
      rw [hv i] at hb2
      show (if i = sym.id then Pit.empty else x.pits i) = _
      by_cases e : i = sym.id
      · rw [if_pos e] at hb2 ⊢; cases hb2
        exact (new_pit reg).symm
      · rw [if_neg e] at hb2 ⊢
        exact h.pits i b hb2
    · intro r
      show r ∈ x.ghosts ↔ g.orders r.id = some r ∧ slot v r.symbolId = none
      rw [h.ghosts, hv r.symbolId]
      constructor
      · rintro ⟨h1, h2⟩
        have := ha hn r.id r (by rw [hi.getOrder]; exact h1)
        exact ⟨h1, by rw [if_neg this]; exact h2⟩
      · rintro ⟨h1, h2⟩
        have := ha hn r.id r (by rw [hi.getOrder]; exact h1)
        rw [if_neg this] at h2
        exact ⟨h1, h2⟩
  | book on _ => cases on

theorem Echo.deleteBook {x : Venue} {g g' : Mgr} (h : Seats x g) (hi : MInv g) {id e} (hs : StepEff g (.deleteOrderBook id) g' e)
    (hi' : MInv g') : Echo (x.call (.deleteOrderBook id)) g g' e := by
  unfold Venue.call
  simp only
  cases hs with
  | refused hr =>
    have he : (if g.getBook id = none then some ErrorCode.orderBookNotFound else none) = some e := hr.2.2.2
    have hn : g.getBook id = none := Decidable.byContradiction fun hn => by rw [if_neg hn] at he; cases he
    rw [if_pos hn] at he
    cases he
    rw [if_neg (fun hm => (h.books _).1 hm hn)]
    exact .ofRefused h hi hr
  | @deleteBook _ b v hn hv =>
    rw [if_pos ((h.books _).2 (by simp [hn]))]
    refine ⟨rfl, ⟨[_], rfl, rfl⟩, ⟨h.matching, h.symbols, h.sorted.filter _, ?_, ?_, ?_⟩, hi'⟩
    · intro i
      show i ∈ x.books.filter _ ↔ slot v i ≠ none
      rw [hv i, List.mem_filter, h.books]
      by_cases e : i = id <;> simp [e]
    · intro i b' hb
      have hb2 : slot v i = some b' := hb
      rw [hv i] at hb2
      by_cases e : i = id
      · rw [if_pos e] at hb2; cases hb2
      · rw [if_neg e] at hb2
        exact h.pits i b' hb2
    · intro r
      show r ∈ (x.pits id).board.orders ++ x.ghosts ↔ g.orders r.id = some r ∧ slot v r.symbolId = none
      rw [List.mem_append, h.pits id b hn, pit_orders hi hn, h.ghosts, hv r.symbolId]
      by_cases e : r.symbolId = id
      · simp [e, hn]
      · simp [e]
  | book on _ => cases on

/-! ### One call -/

theorem Seats.step {x : Venue} {g g' : Mgr} (h : Seats x g) (hi : MInv g) {op e} (ha : g.Admissible op) (hs : g.step op = .ok (g', e)) :
    Echo (x.call op) g g' e := by
  have heff := step_eff hi ha hs
  have hi' := heff.minv hi ha
  cases op with
  | addSymbol s => exact .addSymbol h hi heff hi'
  | deleteSymbol id => exact .deleteSymbol h hi heff hi'
  | addOrderBook s => exact .addBook h hi ha heff hi'
  | deleteOrderBook id => exact .deleteBook h hi heff hi'
  | addOrder o => exact .add h hi ha.1 ha.2 hs
  | reduceOrder id q => exact .reduce h hi hs
  | modifyOrder id p q =>
    have := Echo.modify h hi ha.1 ha.2.1 ha.2.2 (mit := false) hs
    simp only [modified_modify] at this
    exact this
  | mitigateOrder id p q =>
    have := Echo.modify h hi ha.1 ha.2.1 ha.2.2 (mit := true) hs
    simp only [modified_mitigate] at this
    exact this
  | replaceOrder id n p q => exact .replace h hi ha.1 ha.2.1 ha.2.2.1 ha.2.2.2 hs
  | replaceWith id o => exact .replaceWith h hi ha.1 ha.2 hs
  | deleteOrder id => exact .delete h hi hs
  | executeOrder id q => exact .execute h hi hs
  | executeOrderAt id p q => exact .execute h hi hs
  | enableMatching =>
    have hs2 : (do let s ← ({ g with matching := true } : Mgr).matchAll; .ok (s, .ok) : Except Err (Mgr × ErrorCode)) = .ok (g', e) := hs
    obtain ⟨g1, h1, h2⟩ := bind_inv hs2
    cases h2
    have h' : Seats { x with matching := true } { g with matching := true } := ⟨rfl, h.symbols, h.sorted, h.books, h.pits, h.ghosts⟩
    have := Echo.matchAll h' ⟨hi.orders, hi.books, hi.symbols⟩ h1
    exact ⟨this.code, this.ev, this.seats, this.inv⟩
  | disableMatching =>
    cases hs
    exact ⟨rfl, ⟨[], (List.append_nil _).symm, rfl⟩, ⟨rfl, h.symbols, h.sorted, h.books, h.pits, h.ghosts⟩, hi'⟩
  | matchAll =>
    have hs2 : (do let s ← g.matchAll; .ok (s, .ok) : Except Err (Mgr × ErrorCode)) = .ok (g', e) := hs
    obtain ⟨g1, h1, h2⟩ := bind_inv hs2
    cases h2
    have := Echo.matchAll h hi h1
    exact ⟨this.code, this.ev, this.seats, this.inv⟩

theorem seats_init : Seats Venue.init Mgr.init := by
  refine ⟨rfl, ?_, List.Pairwise.nil, ?_, ?_, ?_⟩
  · intro i; simp [Venue.init, Mgr.init, slot]
  · intro i; simp [Venue.init, Mgr.init, slot]
  · intro i b hb; simp [Mgr.init, slot] at hb
  · intro r; simp [Venue.init, Mgr.init]

theorem Seats.records {x : Venue} {g g' : Mgr} (h : Seats x g) (hi : MInv g) {l} (hl : Mgr.Records g l g') :
    l.map (·.2) = x.results (l.map (·.1)) ∧ MInv g' ∧ Seats (x.after (l.map (·.1))) g' := by
  induction hl generalizing x with
  | nil => exact ⟨rfl, hi, h⟩
  | cons ha hs hev _ ih =>
    have hE := h.step hi ha hs
    obtain ⟨evs, a1, a2⟩ := hE.ev
    rw [hev] at a1
    cases List.append_cancel_left a1
    obtain ⟨b1, b2, b3⟩ := ih hE.seats hE.inv
    refine ⟨?_, b2, b3⟩
    show _ :: _ = _ :: _
    rw [b1, hE.code, a2]

end CppTrader
