import Verif.Props.Aggressive
import Verif.Props.Feeder
import Verif.Proof.Depth
import Verif.Props.State
/-
C59: the level-only manager and the market manager show the same price levels for the same ITCH stream.
-/

namespace CppTrader
open Itch

/-- What the tape remembers of an order. -/
def Order.ticket (o : Order) : Ticket := ⟨o.id, o.symbolId, o.side, o.price, o.leaves⟩

/-- The exchange holds exactly the orders of the tape. -/
structure Held (x : Exchange) (ann : List Nat) (t : Tape) : Prop where
  off : x.matching = false
  wf : ∀ sym k o, o ∈ x.lines sym k → o.symbolId = sym ∧ o.side.limits = k ∧ o.type = .limit ∧ o.tif = .gtc ∧ 0 < o.leaves ∧ o.id ≠ 0
  mem : ∀ r, r ∈ t ↔ ∃ o, o ∈ x.lines o.symbolId o.side.limits ∧ o.ticket = r
  books : x.books = ann
  syms : x.symbols = ann
  home : ∀ r ∈ t, r.sym ∈ ann
  ids : (t.map (·.id)).Nodup

theorem held_init : Held Exchange.init [] [] where
  off := rfl
  wf := by intro _ _ _ h; cases h
  mem := by intro r; simp [Exchange.init]
  books := rfl
  syms := rfl
  home := by simp
  ids := by simp

theorem ticket_uniq {t : Tape} (h : (t.map (·.id)).Nodup) {a b : Ticket} (ha : a ∈ t) (hb : b ∈ t) (he : a.id = b.id) : a = b := by
  induction t with
  | nil => cases ha
  | cons x t ih =>
    simp only [List.map_cons, List.nodup_cons] at h
    rcases List.mem_cons.1 ha with rfl | ha' <;> rcases List.mem_cons.1 hb with rfl | hb'
    · rfl
    · exact absurd (List.mem_map_of_mem (f := (·.id)) hb') (by rw [← he]; exact h.1)
    · exact absurd (List.mem_map_of_mem (f := (·.id)) ha') (by rw [he]; exact h.1)
    · exact ih h.2 ha' hb'

theorem find_mem {t : Tape} {id : Nat} {r : Ticket} (h : t.find id = some r) : r ∈ t ∧ r.id = id :=
  ⟨List.mem_of_find?_eq_some h, by simpa using List.find?_some h⟩

theorem mem_without {t : Tape} {id : Nat} {r : Ticket} : r ∈ t.without id ↔ r ∈ t ∧ r.id ≠ id := by
  unfold Tape.without; rw [List.mem_filter]; simp

theorem Held.back {x ann t} (h : Held x ann t) {id : Nat} {o : Order} (ho : x.find id = some o) :
    o ∈ x.lines o.symbolId o.side.limits ∧ o.id = id := by
  obtain ⟨s, _, hs⟩ := List.exists_of_findSome?_eq_some ho
  have h1 := List.mem_of_find?_eq_some hs
  have h2 : o.id = id := by simpa using List.find?_some hs
  refine ⟨?_, h2⟩
  rcases List.mem_append.1 h1 with h1 | h1
  · obtain ⟨a, b, _⟩ := h.wf _ _ _ h1; rw [a, b]; exact h1
  · obtain ⟨a, b, _⟩ := h.wf _ _ _ h1; rw [a, b]; exact h1

/-- The lookup by id. -/
theorem Held.find {x ann t} (h : Held x ann t) {id : Nat} {r : Ticket} (hr : t.find id = some r) :
    ∃ o, x.find id = some o ∧ o.ticket = r ∧ o ∈ x.lines o.symbolId o.side.limits ∧ o.id = id := by
  obtain ⟨hm, hid⟩ := find_mem hr
  obtain ⟨o, h1, h2⟩ := (h.mem r).1 hm
  cases hf : x.find id with
  | some o' =>
    obtain ⟨k1, k2⟩ := h.back hf
    exact ⟨o', rfl, ticket_uniq h.ids ((h.mem _).2 ⟨o', k1, rfl⟩) hm (by rw [hid]; exact k2), k1, k2⟩
  | none =>
    exfalso
    have hs : o.symbolId ∈ x.books := by rw [h.books]; have := h.home r hm; rw [← h2] at this; exact this
    have := List.findSome?_eq_none_iff.1 hf _ hs
    have := List.find?_eq_none.1 this o (by
      cases hsd : o.side <;> rw [hsd] at h1
      · exact List.mem_append_left _ h1
      · exact List.mem_append_right _ h1)
    have e : o.id = id := by rw [← hid, ← h2]; rfl
    exact this (by simpa using e)

theorem Held.find_none {x ann t} (h : Held x ann t) {id : Nat} (hr : t.find id = none) : x.find id = none := by
  cases hf : x.find id with
  | none => rfl
  | some o =>
    obtain ⟨k1, k2⟩ := h.back hf
    exact absurd k2 (Aggr.find_none hr o.ticket ((h.mem _).2 ⟨o, k1, rfl⟩))

theorem set_apply (L : Lines) (sym : Nat) (l : Board) (n : Nat) : L.set sym l n = if n = sym then l else L n := rfl

theorem mem_change {l : Board} {id : Nat} {v : Option Order} {k : Kind} {o : Order} :
    o ∈ l.change id v k ↔ (o ∈ l k ∧ o.id ≠ id) ∨ (v = some o ∧ ∃ r ∈ l k, r.id = id) := by
  unfold Board.change
  rw [List.mem_filterMap]
  constructor
  · rintro ⟨a, h1, h2⟩
    by_cases hc : a.id = id
    · rw [if_pos hc] at h2; exact .inr ⟨h2, a, h1, hc⟩
    · rw [if_neg hc] at h2; cases h2; exact .inl ⟨h1, hc⟩
  · rintro (⟨h1, h2⟩ | ⟨h1, a, h2, h3⟩)
    · exact ⟨o, h1, by rw [if_neg h2]⟩
    · exact ⟨a, h2, by rw [if_pos h3]; exact h1⟩

theorem nodup_without {t : Tape} (h : (t.map (·.id)).Nodup) (id : Nat) : ((t.without id).map (·.id)).Nodup :=
  List.Nodup.sublist ((List.filter_sublist).map _) h

/-- An order leaves. -/
theorem Held.drop {x ann t} (h : Held x ann t) {id : Nat} {o : Order} (ho : x.find id = some o) :
    Held { x with lines := x.lines.set o.symbolId ((x.lines o.symbolId).change id none) } ann (t.without id) where
  off := h.off
  wf := by
    intro sym k a ha
    simp only [set_apply] at ha
    by_cases hs : sym = o.symbolId
    · rw [if_pos hs] at ha
      rcases mem_change.1 ha with ⟨h1, _⟩ | ⟨h1, _⟩
      · rw [hs]; exact h.wf _ _ _ h1
      · cases h1
    · rw [if_neg hs] at ha; exact h.wf _ _ _ ha
  mem := by
    intro r
    rw [mem_without, h.mem]
    obtain ⟨k1, k2⟩ := h.back ho
    have hot : o.ticket ∈ t := (h.mem _).2 ⟨o, k1, rfl⟩
    constructor
    · rintro ⟨⟨a, h1, rfl⟩, h2⟩
      refine ⟨a, ?_, rfl⟩
      simp only [set_apply]
      by_cases hs : a.symbolId = o.symbolId
      · rw [if_pos hs]; rw [hs] at h1; exact mem_change.2 (.inl ⟨h1, h2⟩)
      · rw [if_neg hs]; exact h1
    · rintro ⟨a, h1, rfl⟩
      simp only [set_apply] at h1
      by_cases hs : a.symbolId = o.symbolId
      · rw [if_pos hs] at h1
        rcases mem_change.1 h1 with ⟨h2, h3⟩ | ⟨h2, _⟩
        · rw [← hs] at h2; exact ⟨⟨a, h2, rfl⟩, h3⟩
        · cases h2
      · rw [if_neg hs] at h1
        refine ⟨⟨a, h1, rfl⟩, fun he => hs ?_⟩
        have := ticket_uniq h.ids ((h.mem _).2 ⟨a, h1, rfl⟩) hot (by rw [he]; exact k2.symm)
        exact congrArg Ticket.sym this
  books := h.books
  syms := h.syms
  home := fun r hr => h.home r (mem_without.1 hr).1
  ids := nodup_without h.ids id

/-- An order changes but keeps its place. -/
theorem Held.keep {x ann t} (h : Held x ann t) {id : Nat} {o w : Order} (ho : x.find id = some o) (w1 : w.symbolId = o.symbolId)
    (w2 : w.side = o.side) (w3 : w.type = .limit) (w4 : w.tif = .gtc) (w5 : 0 < w.leaves) (w6 : w.id = id) :
    Held { x with lines := x.lines.set o.symbolId ((x.lines o.symbolId).change id (some w)) } ann (w.ticket :: t.without id) := by
  obtain ⟨k1, k2⟩ := h.back ho
  have hot : o.ticket ∈ t := (h.mem _).2 ⟨o, k1, rfl⟩
  have hid : id ≠ 0 := by rw [← k2]; exact (h.wf _ _ _ k1).2.2.2.2.2
  have only : ∀ a, a ∈ x.lines a.symbolId a.side.limits → a.id = id → a.symbolId = o.symbolId ∧ a.side = o.side := by
    intro a ha he
    have := ticket_uniq h.ids ((h.mem _).2 ⟨a, ha, rfl⟩) hot (by show a.id = o.id; rw [he, k2])
    exact ⟨congrArg Ticket.sym this, congrArg Ticket.side this⟩
  refine ⟨h.off, ?_, ?_, h.books, h.syms, ?_, ?_⟩
  · intro sym k a ha
    simp only [set_apply] at ha
    by_cases hs : sym = o.symbolId
    · rw [if_pos hs] at ha
      rcases mem_change.1 ha with ⟨h1, _⟩ | ⟨h1, b, h2, h3⟩
      · rw [hs]; exact h.wf _ _ _ h1
      · cases h1
        obtain ⟨b1, b2, _⟩ := h.wf _ _ _ h2
        have := only b (by rw [b1, b2]; exact h2) h3
        exact ⟨by rw [w1, hs], by rw [w2, ← this.2]; exact b2, w3, w4, w5, by rw [w6]; exact hid⟩
    · rw [if_neg hs] at ha; exact h.wf _ _ _ ha
  · intro r
    rw [List.mem_cons, mem_without, h.mem]
    constructor
    · rintro (rfl | ⟨⟨a, h1, rfl⟩, h2⟩)
      · refine ⟨w, ?_, rfl⟩
        simp only [set_apply, w1, if_true, w2]
        exact mem_change.2 (.inr ⟨rfl, o, k1, k2⟩)
      · refine ⟨a, ?_, rfl⟩
        simp only [set_apply]
        by_cases hs : a.symbolId = o.symbolId
        · rw [if_pos hs]; rw [hs] at h1; exact mem_change.2 (.inl ⟨h1, h2⟩)
        · rw [if_neg hs]; exact h1
    · rintro ⟨a, h1, rfl⟩
      simp only [set_apply] at h1
      by_cases hs : a.symbolId = o.symbolId
      · rw [if_pos hs] at h1
        rcases mem_change.1 h1 with ⟨h2, h3⟩ | ⟨h2, _⟩
        · rw [← hs] at h2; exact .inr ⟨⟨a, h2, rfl⟩, h3⟩
        · cases h2; exact .inl rfl
      · rw [if_neg hs] at h1
        exact .inr ⟨⟨a, h1, rfl⟩, fun he => hs (only a h1 he).1⟩
  · intro r hr
    rcases List.mem_cons.1 hr with rfl | hr
    · show w.symbolId ∈ ann; rw [w1]; exact h.home _ hot
    · exact h.home r (mem_without.1 hr).1
  · rw [List.map_cons]
    refine List.nodup_cons.2 ⟨fun hm => ?_, nodup_without h.ids id⟩
    obtain ⟨a, h1, h2⟩ := List.mem_map.1 hm
    exact (mem_without.1 h1).2 (by rw [h2]; exact w6)

theorem mem_enqueue {k : Kind} {t o : Order} {rs : List Order} : o ∈ enqueue k t rs ↔ o = t ∨ o ∈ rs := by
  induction rs with
  | nil => simp [enqueue]
  | cons r rs ih =>
    unfold enqueue
    by_cases h : t.beats k r
    · rw [if_pos h]; simp
    · rw [if_neg h, List.mem_cons, ih, List.mem_cons]
      constructor
      · rintro (h | h | h) <;> simp [h]
      · rintro (h | h | h) <;> simp [h]

theorem limit_home {o : Order} (h : o.type = .limit) : o.home.map (·.1) = some o.side.limits := by
  unfold Order.home; rw [h]; cases o.side <;> rfl

/-- An order joins. -/
theorem Held.join {x ann t} (h : Held x ann t) {o : Order} (hs : o.symbolId ∈ ann) (o3 : o.type = .limit)
    (o4 : o.tif = .gtc) (o5 : 0 < o.leaves) (o6 : o.id ≠ 0) (hn : t.find o.id = none) :
    Held { x with lines := x.lines.set o.symbolId ((x.lines o.symbolId).insert o) } ann (o.ticket :: t) := by
  have hmem : ∀ sym k a, a ∈ x.lines.set o.symbolId ((x.lines o.symbolId).insert o) sym k ↔
      (a = o ∧ sym = o.symbolId ∧ k = o.side.limits) ∨ a ∈ x.lines sym k := by
    intro sym k a
    simp only [set_apply]
    by_cases hc : sym = o.symbolId
    · rw [if_pos hc]
      unfold Board.insert
      rw [limit_home o3]
      by_cases hk : k = o.side.limits
      · rw [if_pos (by rw [hk]), mem_enqueue, ← hc]; simp [hk, hc]
      · rw [if_neg (by simp only [Option.some.injEq]; exact fun e => hk e.symm), ← hc]; simp [hk]
    · rw [if_neg hc]; simp [hc]
  refine ⟨h.off, ?_, ?_, h.books, h.syms, ?_, ?_⟩
  · intro sym k a ha
    rcases (hmem sym k a).1 ha with ⟨rfl, rfl, rfl⟩ | ha
    · exact ⟨rfl, rfl, o3, o4, o5, o6⟩
    · exact h.wf _ _ _ ha
  · intro r
    rw [List.mem_cons, h.mem]
    constructor
    · rintro (rfl | ⟨a, h1, rfl⟩)
      · exact ⟨o, (hmem _ _ _).2 (.inl ⟨rfl, rfl, rfl⟩), rfl⟩
      · exact ⟨a, (hmem _ _ _).2 (.inr h1), rfl⟩
    · rintro ⟨a, h1, rfl⟩
      rcases (hmem _ _ _).1 h1 with ⟨rfl, _⟩ | h1
      · exact .inl rfl
      · exact .inr ⟨a, h1, rfl⟩
  · intro r hr
    rcases List.mem_cons.1 hr with rfl | hr
    · exact hs
    · exact h.home r hr
  · rw [List.map_cons]
    refine List.nodup_cons.2 ⟨fun hm => ?_, h.ids⟩
    obtain ⟨a, h1, h2⟩ := List.mem_map.1 hm
    exact Aggr.find_none hn a h1 h2

/-! ### Calls -/

theorem set_set (L : Lines) (sym : Nat) (a b : Board) : (L.set sym a).set sym b = L.set sym b := by
  funext n; simp only [set_apply]; by_cases h : n = sym <;> simp [h]

theorem arrive_off {x : Exchange} {l : Board} {o : Order} (h : x.matching = false) (h1 : 0 < o.leaves) (h2 : o.type = .limit) (h3 : o.tif = .gtc) :
    l.arrive x.matching o = ([], l.insert o) := by
  unfold Board.arrive
  rw [h]
  simp only [Bool.false_eq_true, if_false]
  rw [if_pos (by exact ⟨h1, by rw [h2]; simp, fun _ => .inl h3⟩)]

theorem Held.add {x ann t} (h : Held x ann t) {r : Ticket} (hs : r.sym ∈ ann) (h0 : r.id ≠ 0) (hq : 0 < r.qty)
    (hn : t.find r.id = none) :
    x.Covers (.addOrder (.mkLimit r.id r.sym r.side r.price r.qty)) ∧
    Held (x.call (.addOrder (.mkLimit r.id r.sym r.side r.price r.qty))).2.2 ann (r :: t) := by
  refine ⟨⟨⟨.inl rfl, by simp [Order.mkLimit, Order.mk']⟩, h.find_none hn⟩, ?_⟩
  have hv : (Order.mkLimit r.id r.sym r.side r.price r.qty).validate = .ok := by
    have hq' : r.qty ≠ 0 := by omega
    simp [Order.mkLimit, Order.mk', Order.validate, h0, hq', Order.isMarket, Order.isStop, Order.isStopLimit, Order.isTrailingStop,
      Order.isTrailingStopLimit, Order.isSlippage]
  have := h.join (o := .mkLimit r.id r.sym r.side r.price r.qty) hs rfl rfl hq h0 hn
  show Held (x.add _).2.2 ann _
  unfold Exchange.add
  rw [if_neg (by rw [hv]; simp), if_neg (by rw [h.books]; exact fun e => e hs)]
  unfold Exchange.accept
  rw [arrive_off h.off hq rfl rfl]
  exact this

theorem Held.book {x ann t} (h : Held x ann t) {sym name : Nat} (hs : sym ∉ ann) :
    x.CoversAll [.addSymbol ⟨sym, name⟩, .addOrderBook ⟨sym, name⟩] ∧
    Held (x.after [.addSymbol ⟨sym, name⟩, .addOrderBook ⟨sym, name⟩]) (sym :: ann) t := by
  refine ⟨⟨trivial, trivial, trivial⟩, ?_⟩
  unfold Exchange.after Exchange.after Exchange.after Exchange.call
  simp only [h.syms, hs, if_false, List.mem_cons, true_or, not_true, h.books]
  exact ⟨h.off, h.wf, h.mem, rfl, rfl, fun r hr => List.mem_cons_of_mem _ (h.home r hr), h.ids⟩

theorem Held.id_ne {x ann t} (h : Held x ann t) {id : Nat} {o : Order} (ho : x.find id = some o) : id ≠ 0 := by
  obtain ⟨k1, k2⟩ := h.back ho
  rw [← k2]; exact (h.wf _ _ _ k1).2.2.2.2.2

theorem Held.delete {x ann t} (h : Held x ann t) {id : Nat} {r : Ticket} (hr : t.find id = some r) :
    Held (x.call (.deleteOrder id)).2.2 ann (t.without id) := by
  obtain ⟨o, h1, -, -, -⟩ := h.find hr
  unfold Exchange.call Exchange.delete Exchange.onOrder
  simp only [h.id_ne h1, if_false, h1]
  exact h.drop h1

/-- The next tape after a part of an order is taken. -/
theorem Held.take {x ann t} (h : Held x ann t) {id q : Nat} {r : Ticket} (hr : t.find id = some r) {o w : Order}
    (h1 : x.find id = some o) (h2 : o.ticket = r) (w0 : q < o.leaves → w.ticket = { r with qty := r.qty - q } ∧ w.type = o.type ∧ w.tif = o.tif) :
    Held { x with lines := x.lines.set o.symbolId ((x.lines o.symbolId).change id (if q < o.leaves then some w else none)) } ann
      (t.next (.take id q)) := by
  obtain ⟨k1, k2⟩ := h.back h1
  obtain ⟨-, -, f3, f4, f5, f6⟩ := h.wf _ _ _ k1
  have hl : o.leaves = r.qty := by rw [← h2]; rfl
  unfold Tape.next
  simp only [hr]
  by_cases hq : q < o.leaves
  · obtain ⟨w1, w2, w3⟩ := w0 hq
    rw [if_pos hq, if_pos (by omega), ← w1]
    have e1 : w.symbolId = r.sym := congrArg Ticket.sym w1
    have e2 : w.side = r.side := congrArg Ticket.side w1
    have e3 : w.id = r.id := congrArg Ticket.id w1
    have e4 : w.leaves = r.qty - q := congrArg Ticket.qty w1
    exact h.keep h1 (by rw [e1, ← h2]; rfl) (by rw [e2, ← h2]; rfl) (by rw [w2, f3]) (by rw [w3, f4]) (by omega)
      (by rw [e3, ← h2]; exact k2)
  · rw [if_neg hq, if_neg (by omega)]
    exact h.drop h1

theorem Held.reduce {x ann t} (h : Held x ann t) {id q : Nat} {r : Ticket} (hr : t.find id = some r) (hq : 0 < q) :
    Held (x.call (.reduceOrder id q)).2.2 ann (t.next (.take id q)) := by
  obtain ⟨o, h1, h2, -, -⟩ := h.find hr
  unfold Exchange.call Exchange.withQty Exchange.onOrder
  simp only [h.id_ne h1, if_false, h1, show q ≠ 0 by omega]
  exact h.take hr h1 h2 fun _ => ⟨by rw [← h2]; rfl, rfl, rfl⟩

theorem Held.execute {x ann t} (h : Held x ann t) {id q : Nat} {p : Order → Nat} {r : Ticket} (hr : t.find id = some r) (hq : 0 < q) :
    Held (x.execute id q p).2.2 ann (t.next (.take id q)) := by
  obtain ⟨o, h1, h2, -, -⟩ := h.find hr
  unfold Exchange.execute Exchange.withQty Exchange.onOrder
  simp only [h.id_ne h1, if_false, h1, show q ≠ 0 by omega]
  exact h.take hr h1 h2 fun _ => ⟨by rw [← h2]; rfl, rfl, rfl⟩

theorem without_find {t : Tape} {id n : Nat} (h : (t.without id).find n = none) : n = id ∨ t.find n = none := by
  by_cases hn : n = id
  · exact .inl hn
  · right
    cases hf : t.find n with
    | none => rfl
    | some r =>
      obtain ⟨h1, h2⟩ := find_mem hf
      exact absurd h2 (Aggr.find_none h r (mem_without.2 ⟨h1, by rw [h2]; exact hn⟩))

theorem Held.replace {x ann t} (h : Held x ann t) {id n p q : Nat} {r : Ticket} (hr : t.find id = some r) (hn : n ≠ 0) (hq : 0 < q)
    (hf : (t.without id).find n = none) :
    x.Covers (.replaceOrder id n p q) ∧ Held (x.call (.replaceOrder id n p q)).2.2 ann (t.next (.replace id n p q)) := by
  obtain ⟨o, h1, h2, h3, h4⟩ := h.find hr
  refine ⟨(without_find hf).imp (fun e => e) h.find_none, ?_⟩
  obtain ⟨-, -, f3, f4, f5, f6⟩ := h.wf _ _ _ h3
  have hd := (h.drop h1).join (o := { o with id := n, price := p, quantity := q, executed := 0, leaves := q })
    (by have := h.home r (find_mem hr).1; rw [← h2] at this; exact this) f3 f4 hq hn hf
  simp only [set_set, set_apply, if_true] at hd
  unfold Exchange.call Exchange.onOrder
  simp only [h.id_ne h1, hn, or_self, if_false, h1, show q ≠ 0 by omega]
  unfold Exchange.accept
  rw [arrive_off (o := { o with id := n, price := p, quantity := q, executed := 0, leaves := q }) h.off hq f3 f4]
  unfold Tape.next
  simp only [hr, hq, if_true]
  rw [← h2]
  exact hd

/-! ### Messages -/

theorem coversAll_append (a b : List Op) : ∀ x : Exchange, x.CoversAll (a ++ b) ↔ x.CoversAll a ∧ (x.after a).CoversAll b := by
  induction a with
  | nil => intro x; simp [Exchange.CoversAll, Exchange.after]
  | cons op a ih =>
    intro x
    show (x.Covers op ∧ (x.call op).2.2.CoversAll (a ++ b)) ↔ (x.Covers op ∧ (x.call op).2.2.CoversAll a) ∧ _
    rw [ih, and_assoc]
    rfl

theorem after_append (a b : List Op) : ∀ x : Exchange, x.after (a ++ b) = (x.after a).after b := by
  induction a with
  | nil => intro x; rfl
  | cons op a ih => intro x; exact ih _

/-- The exchange follows the tape, message by message. -/
theorem Held.msg {x ann t} (h : Held x ann t) (m : Msg)
    (hc : ∀ k, m.tick = some k → t.Consistent k ∧ Tape.Strict ann k) :
    x.CoversAll m.ops ∧ Held (x.after m.ops) (match m.tick with | some k => Tape.announced ann k | none => ann)
      (match m.tick with | some k => t.next k | none => t) := by
  have one : ∀ {op}, x.CoversAll [op] ↔ x.Covers op := by intro op; simp [Exchange.CoversAll]
  cases m
  case stockDirectory hd st _ _ _ _ _ _ _ _ _ _ _ _ _ =>
    obtain ⟨_, h2⟩ := hc _ rfl
    exact h.book (name := beVal st) h2
  case addOrder hd ref side sh st pr =>
    obtain ⟨⟨_, _, _, _, f5, _, f7⟩, h2, h3⟩ := hc _ rfl
    have := h.add (r := ⟨ref, hd.locate, if side = 66 then .buy else .sell, pr, sh⟩) h2 h3 f5 f7
    exact ⟨one.2 this.1, this.2⟩
  case addOrderMPID hd ref side sh st pr at' =>
    obtain ⟨⟨_, _, _, _, f5, _, f7⟩, h2, h3⟩ := hc _ rfl
    have := h.add (r := ⟨ref, hd.locate, if side = 66 then .buy else .sell, pr, sh⟩) h2 h3 f5 f7
    exact ⟨one.2 this.1, this.2⟩
  case orderExecuted hd ref sh mn =>
    obtain ⟨⟨r, h1, _⟩, h2⟩ := hc _ rfl
    exact ⟨one.2 trivial, h.execute h1 h2⟩
  case orderExecutedWithPrice hd ref sh mn pr px =>
    obtain ⟨⟨r, h1, _⟩, h2⟩ := hc _ rfl
    exact ⟨one.2 trivial, h.execute h1 h2⟩
  case orderCancel hd ref sh =>
    obtain ⟨⟨r, h1, _⟩, h2⟩ := hc _ rfl
    exact ⟨one.2 trivial, h.reduce h1 h2⟩
  case orderDelete hd ref =>
    obtain ⟨⟨r, h1⟩, _⟩ := hc _ rfl
    exact ⟨one.2 trivial, h.delete h1⟩
  case orderReplace hd orig new sh pr =>
    obtain ⟨⟨r, h1, h2, _⟩, h3, h4⟩ := hc _ rfl
    obtain ⟨_, _, _, _, _, _, f7⟩ := h2 h4
    have := h.replace (p := pr) h1 h3 h4 f7
    exact ⟨one.2 this.1, this.2⟩
  all_goals exact ⟨trivial, h⟩

theorem Held.msgs (ms : List Msg) : ∀ {x ann t}, Held x ann t → t.ConsistentAll (ms.filterMap Msg.tick) →
    Tape.StrictAll ann (ms.filterMap Msg.tick) →
    x.CoversAll (ms.flatMap Msg.ops) ∧ ∃ ann', Held (x.after (ms.flatMap Msg.ops)) ann' (t.after (ms.filterMap Msg.tick)) := by
  induction ms with
  | nil => intro x ann t h _ _; exact ⟨trivial, ann, h⟩
  | cons m ms ih =>
    intro x ann t h hc hs
    rw [List.flatMap_cons, coversAll_append, after_append]
    cases hk : m.tick with
    | none =>
      rw [List.filterMap_cons_none hk] at hc hs ⊢
      have := h.msg m (by rw [hk]; intro k e; cases e)
      rw [hk] at this
      exact ⟨⟨this.1, (ih this.2 hc hs).1⟩, (ih this.2 hc hs).2⟩
    | some k =>
      rw [List.filterMap_cons_some hk] at hc hs ⊢
      have := h.msg m (by rw [hk]; intro k' e; cases e; exact ⟨hc.1, hs.1⟩)
      rw [hk] at this
      have r := ih this.2 hc.2 hs.2
      exact ⟨⟨this.1, r.1⟩, r.2⟩

theorem toInt32_small {p : Nat} (h : p < 2147483648) : Aggr.toInt32 p = (p : Int) := if_pos h

theorem neg32_small {p : Nat} : Aggr.neg32 (p : Int) = .ok (-(p : Int)) := if_neg (by omega)

/-- The handler of the level-only manager makes the call of the tape. -/
theorem react_tick {s : Aggr.St} {t : Tape} (m : Msg) (hc : ∀ k, m.tick = some k → t.Consistent k) :
    Aggr.react s m = match m.tick with | some k => Aggr.call s k | none => .ok s := by
  cases m
  case addOrder hd ref side sh st pr =>
    obtain ⟨_, _, _, f4, _⟩ := hc _ rfl
    simp only [Aggr.react, Msg.tick, Aggr.call, toInt32_small f4, neg32_small]
    by_cases hs : side = 66 <;> simp [hs, Except.bind_ok]
  case addOrderMPID hd ref side sh st pr at' =>
    obtain ⟨_, _, _, f4, _⟩ := hc _ rfl
    simp only [Aggr.react, Msg.tick, Aggr.call, toInt32_small f4, neg32_small]
    by_cases hs : side = 66 <;> simp [hs, Except.bind_ok]
  case orderReplace hd orig new sh pr =>
    obtain ⟨_, _, _, f⟩ := hc _ rfl
    simp only [Aggr.react, Msg.tick, Aggr.call, toInt32_small f]
  all_goals rfl

theorem reactAll_run (ms : List Msg) : ∀ {s : Aggr.St} {t : Tape}, t.ConsistentAll (ms.filterMap Msg.tick) →
    Aggr.reactAll s ms = Aggr.run s (ms.filterMap Msg.tick) := by
  induction ms with
  | nil => intro s t _; rfl
  | cons m ms ih =>
    intro s t hc
    unfold Aggr.reactAll
    cases hk : m.tick with
    | none =>
      rw [List.filterMap_cons_none hk] at hc ⊢
      rw [react_tick (t := t) m (by rw [hk]; intro k e; cases e), hk]
      simp only [Except.bind_ok]
      exact ih hc
    | some k =>
      rw [List.filterMap_cons_some hk] at hc ⊢
      rw [react_tick (t := t) m (by rw [hk]; intro k' e; cases e; exact hc.1), hk]
      unfold Aggr.run
      simp only
      cases Aggr.call s k with
      | error e => rfl
      | ok s' => simp only [Except.bind_ok]; exact ih hc.2

theorem reactAll_append (a b : List Msg) : ∀ s : Aggr.St, Aggr.reactAll s (a ++ b) = (Aggr.reactAll s a).bind fun s => Aggr.reactAll s b := by
  induction a with
  | nil => intro s; rfl
  | cons m a ih =>
    intro s
    show (Aggr.react s m >>= fun s => Aggr.reactAll s (a ++ b)) = (Aggr.react s m >>= fun s => Aggr.reactAll s a).bind _
    cases Aggr.react s m with
    | error e => rfl
    | ok s' => exact ih s'

/-- The chunks are as good as the messages. -/
theorem aggr_chunks (cs : List (List UInt8)) : ∀ {p p' : Itch.St} {s s' : Aggr.St} {new : List Msg}, Itch.Any p →
    processChunks (fun _ _ => true) p cs = .ok (true, p') → p'.log = p.log ++ new → Aggr.reactAll s new = .ok s' →
    Aggr.main cs (p, s) = .ok (p', s') := by
  have mono : ∀ (cs : List (List UInt8)) (s s' : St), Any s → processChunks (fun _ _ => true) s cs = .ok (true, s') →
      ∃ new, s'.log = s.log ++ new := by
    intro cs
    induction cs with
    | nil => intro s s' _ h; cases h; exact ⟨[], by simp⟩
    | cons c cs ih =>
      intro s s' ha h
      obtain ⟨r, s1, h1, h2⟩ := process_total (fun _ _ => true) s c ha
      unfold processChunks at h
      rw [h1] at h
      obtain ⟨new, e1, _⟩ := h2.log
      cases r with
      | false => cases h
      | true =>
        obtain ⟨new', e2⟩ := ih s1 s' h2.any h
        exact ⟨new ++ new', by rw [e2, e1, List.append_assoc]⟩
  induction cs with
  | nil =>
    intro p p' s s' new _ h hl hr
    cases h
    have : new = [] := by simpa using hl
    subst this
    cases hr
    rfl
  | cons c cs ih =>
    intro p p' s s' new ha h hl hr
    obtain ⟨r, p1, h1, h2⟩ := process_total (fun _ _ => true) p c ha
    unfold processChunks at h
    rw [h1] at h
    obtain ⟨new1, e1, _⟩ := h2.log
    cases r with
    | false => cases h
    | true =>
      obtain ⟨new2, e2⟩ := mono cs p1 p' h2.any h
      rw [e1, List.append_assoc, hl] at e2
      have e2 := List.append_cancel_left e2
      subst e2
      rw [reactAll_append] at hr
      cases hs : Aggr.reactAll s new1 with
      | error e => rw [hs] at hr; cases hr
      | ok s1 =>
        rw [hs] at hr
        unfold Aggr.main Aggr.chunk
        simp only [h1, Except.bind_ok, e1, List.drop_left, hs]
        exact ih h2.any h (by rw [hl, e1, List.append_assoc]) hr

theorem cut_tick (m : Msg) : (m.mapHdr Hdr.cut).tick = m.tick := by cases m <;> rfl

/-! ### Levels -/

theorem levels_unique {t : Tape} {sym : Nat} {sd : Side} {a b : List (Nat × Nat)} (ha : t.Levels sym sd a) (hb : t.Levels sym sd b) :
    a = b := by
  obtain ⟨a1, a2⟩ := ha
  obtain ⟨b1, b2⟩ := hb
  refine List.Perm.eq_of_pairwise (le := fun x y => match sd with | .buy => y.1 < x.1 | .sell => x.1 < y.1) ?_ a1 b1 ?_
  · intro x y _ _ h1 h2
    cases sd <;> simp only at h1 h2 <;> omega
  · have nd : ∀ {l : List (Nat × Nat)}, l.Pairwise (fun x y => match sd with | .buy => y.1 < x.1 | .sell => x.1 < y.1) → l.Nodup := by
      intro l h
      refine h.imp ?_
      rintro x y hxy rfl
      cases sd <;> simp only at hxy <;> omega
    refine (List.perm_ext_iff_of_nodup (nd a1) (nd b1)).2 ?_
    rintro ⟨p, v⟩
    rw [a2, b2]

/-- The market manager shows the levels of the tape. -/
theorem Held.levels {x ann t} (h : Held x ann t) {g : Mgr} (hr : g.Reachable) (hl : g.lines = x.lines) (sym : Nat) (sd : Side) :
    t.Levels sym sd (g.shown sym sd) := by
  have hi := hr.minv
  have hk : (if sd = .buy then Kind.bid else Kind.ask) = sd.limits := by cases sd <;> rfl
  have hvol : ∀ p, volAt Order.leaves p (g.lines sym sd.limits) = t.volume sym sd p := by
    intro p
    have hnd : ((g.lines sym sd.limits).map (·.id)).Nodup := by
      cases hb : slot g.books sym with
      | none => rw [lines_none hb]; simp
      | some b => rw [lines_core hi hb]; exact line_nodup (hi.inv hb).1 _
    have hperm : (((g.lines sym sd.limits).filter (fun r => decide (r.rank = p))).map Order.ticket).Perm
        (List.filter (fun r => r.sym = sym ∧ r.side = sd ∧ r.price = p) t) := by
      refine (List.perm_ext_iff_of_nodup ?_ ?_).2 ?_
      · have : (((g.lines sym sd.limits).filter (fun r => decide (r.rank = p))).map (·.id)).Nodup :=
          List.Nodup.sublist ((List.filter_sublist).map _) hnd
        have e : ((g.lines sym sd.limits).filter (fun r => decide (r.rank = p))).map (·.id) =
            (((g.lines sym sd.limits).filter (fun r => decide (r.rank = p))).map Order.ticket).map (·.id) := by
          rw [List.map_map]; rfl
        rw [e] at this
        exact List.Pairwise.imp (fun hxy => by rintro rfl; exact hxy rfl) (List.pairwise_map.1 this)
      · have := List.Pairwise.imp (S := fun a b => a ≠ b) (fun hxy => by rintro rfl; exact hxy rfl) (List.pairwise_map.1 h.ids)
        exact List.Nodup.sublist List.filter_sublist this
      · intro r
        rw [List.mem_map, List.mem_filter, h.mem, hl]
        constructor
        · rintro ⟨o, ho, rfl⟩
          obtain ⟨h1, h2⟩ := List.mem_filter.1 ho
          obtain ⟨w1, w2, w3, _⟩ := h.wf _ _ _ h1
          have hsd : o.side = sd := by
            cases hos : o.side <;> cases sd <;> rw [hos] at w2 <;> first | rfl | cases w2
          refine ⟨⟨o, by rw [w1, w2]; exact h1, rfl⟩, ?_⟩
          simp only [decide_eq_true_eq] at h2 ⊢
          exact ⟨w1, hsd, by rw [← h2]; unfold Order.rank; rw [if_pos w3]; rfl⟩
        · rintro ⟨⟨o, h1, rfl⟩, h2⟩
          simp only [decide_eq_true_eq] at h2
          obtain ⟨e1, e2, e3⟩ := h2
          have e1 : o.symbolId = sym := e1
          have e2 : o.side = sd := e2
          obtain ⟨_, _, w3, _⟩ := h.wf _ _ _ h1
          refine ⟨o, List.mem_filter.2 ⟨by rw [← e1, ← e2]; exact h1, ?_⟩, rfl⟩
          simp only [decide_eq_true_eq]
          unfold Order.rank; rw [if_pos w3]; exact e3
    unfold volAt Tape.volume
    rw [← (hperm.map (·.qty)).sum_nat, List.map_map]
    rfl
  have hd : ∀ p, (g.depth sym sd.limits p).1 = t.volume sym sd p := by
    intro p; rw [depth_volAt hi, ← hvol]
  unfold Mgr.shown
  rw [hk]
  unfold Mgr.depth at hd
  cases hb : g.getBook sym with
  | none =>
    rw [hb] at hd
    refine ⟨.nil, ?_⟩
    intro p v
    have := hd p
    simp only [Option.bind_none] at this
    simp only [List.not_mem_nil, false_iff]
    omega
  | some b =>
    rw [hb] at hd
    simp only [Option.bind_some] at hd
    obtain ⟨hsort, _⟩ := C03_levels_sorted hr hb sd.limits
    refine ⟨?_, ?_⟩
    · rw [List.pairwise_map]
      refine hsort.imp ?_
      intro x y hxy
      cases sd <;> simpa [Side.limits, Kind.highestFirst] using hxy
    · have hne : (b.lv sd.limits).Pairwise (fun x y => x.price ≠ y.price) := by
        refine hsort.imp ?_
        intro x y hxy
        cases sd <;> simp [Side.limits, Kind.highestFirst] at hxy <;> omega
      have hfind : ∀ l ∈ b.lv sd.limits, (b.lv sd.limits).find? (fun x => x.price = l.price) = some l := by
        intro l hlm
        obtain ⟨l', hl'⟩ : ∃ l', (b.lv sd.limits).find? (fun x => x.price = l.price) = some l' := by
          cases hf : (b.lv sd.limits).find? (fun x => x.price = l.price) with
          | some l' => exact ⟨l', rfl⟩
          | none => exact absurd (List.find?_eq_none.1 hf l hlm) (by simp)
        have e1 := List.mem_of_find?_eq_some hl'
        have e2 : l'.price = l.price := by simpa using List.find?_some hl'
        rw [hl']
        congr 1
        exact Classical.byContradiction fun hneq => by
          have : ∀ {ls : List Level}, ls.Pairwise (fun x y => x.price ≠ y.price) → l ∈ ls → l' ∈ ls → False := by
            intro ls hp
            induction hp with
            | nil => intro h; cases h
            | cons hx _ ih =>
              intro h1 h2
              rcases List.mem_cons.1 h1 with rfl | m1 <;> rcases List.mem_cons.1 h2 with rfl | m2
              · exact hneq rfl
              · exact hx _ m2 e2.symm
              · exact hx _ m1 e2
              · exact ih m1 m2
          exact this hne hlm e1
      intro p v
      rw [List.mem_map]
      constructor
      · rintro ⟨l, hlm, he⟩
        cases he
        have := hd l.price
        rw [hfind l hlm] at this
        refine ⟨this, ?_⟩
        obtain ⟨c1, _, _, c4, c5, _⟩ := C02_level_sums hr hb _ l hlm
        rw [c5]
        obtain ⟨i, is, hi'⟩ := List.exists_cons_of_ne_nil c1
        obtain ⟨o, ho⟩ := Option.ne_none_iff_exists'.1 (c4 i (by rw [hi']; simp))
        have hpos : 0 < o.leaves := by
          rw [hi.getOrder] at ho
          exact (hi.orders i o ho).2.leaves
        exact Nat.lt_of_lt_of_le hpos (sumOver_ge_mem (by rw [hi']; simp) ho)
      · rintro ⟨h1, h2⟩
        have := hd p
        cases hf : (b.lv sd.limits).find? (fun l => l.price = p) with
        | none => rw [hf] at this; simp only at this; omega
        | some l =>
          rw [hf] at this
          exact ⟨l, List.mem_of_find?_eq_some hf, by rw [h1, ← this, show l.price = p by simpa using List.find?_some hf]⟩

/-- C59: a stream of well-formed messages, wire-encoded, framed and cut into any chunks, leaves the market manager and the
level-only manager with the same price levels: in every book, on both sides, the same prices with the same volumes, best
first. They are the levels the messages imply. -/
theorem C59_agreement (ms : List (Msg × List UInt8)) (chunks : List (List UInt8))
    (hm : ∀ x ∈ ms, x.1.Fits ∧ x.2.length = 3)
    (hc : chunks.flatten = (ms.map (fun x => frame (x.1.wire x.2))).flatten)
    (hq : ((ms.flatMap (fun x => x.1.ops)).map Op.quantity).sum < 2 ^ 64)
    (ht : Tape.ConsistentAll [] (ms.filterMap (fun x => x.1.tick)))
    (hs : Tape.StrictAll [] (ms.filterMap (fun x => x.1.tick))) :
    ∃ p g s, Feeder.main chunks (St.init, Mgr.init) = .ok (p, g) ∧ Aggr.main chunks (St.init, Aggr.init) = .ok (p, s) ∧
      ∀ sym sd, g.shown sym sd = Aggr.levels s sym sd ∧
        (Tape.after [] (ms.filterMap (fun x => x.1.tick))).Levels sym sd (g.shown sym sd) := by
  have he : (ms.map (fun x => x.1.mapHdr Hdr.cut)).flatMap Msg.ops = ms.flatMap (fun x => x.1.ops) := by
    rw [List.flatMap_map]; simp only [cut_ops]
  have het : (ms.map (fun x => x.1.mapHdr Hdr.cut)).filterMap Msg.tick = ms.filterMap (fun x => x.1.tick) := by
    rw [List.filterMap_map]; congr 1; funext x; exact cut_tick x.1
  have hstream := stream_roundtrip ms chunks hm hc
  obtain ⟨g, h1, h2⟩ := Feeder.main_chunks chunks Feeder.inv_init hstream (by rw [he]; exact hq)
  obtain ⟨l, h3, h4⟩ := h2.records
  rw [← het] at ht hs ⊢
  obtain ⟨c1, ann, c2⟩ := Held.msgs _ held_init ht hs
  obtain ⟨-, k2, -⟩ := C51_textbook h3 (by rw [h4]; exact c1)
  rw [h4] at k2
  obtain ⟨s, s1, s2⟩ := Aggr.C58_levels _ ht
  refine ⟨_, g, s, h1, aggr_chunks chunks Feeder.inv_init.any hstream (new := ms.map (fun x => x.1.mapHdr Hdr.cut)) (by simp [Itch.St.init]) ?_, ?_⟩
  · rw [reactAll_run _ ht]; exact s1
  · intro sym sd
    have := c2.levels h2.reach k2 sym sd
    exact ⟨levels_unique this (s2 sym sd), this⟩

theorem Tape.find_iff {t : Tape} (h : (t.map (·.id)).Nodup) {id : Nat} {r : Ticket} : t.find id = some r ↔ r ∈ t ∧ r.id = id := by
  unfold Tape.find
  constructor
  · intro hf
    exact ⟨List.mem_of_find?_eq_some hf, by simpa using List.find?_some hf⟩
  · rintro ⟨hm, rfl⟩
    cases hf : List.find? (fun x : Ticket => x.id = r.id) t with
    | none => rw [List.find?_eq_none] at hf; exact absurd (decide_eq_true rfl) (hf r hm)
    | some x =>
      have h1 := List.mem_of_find?_eq_some hf
      have h2 : x.id = r.id := by simpa using List.find?_some hf
      congr 1
      clear hf
      induction t with
      | nil => cases hm
      | cons y t ih =>
        obtain ⟨n1, n2⟩ := List.nodup_cons.1 (by simpa only [List.map_cons] using h)
        rcases List.mem_cons.1 hm with e | hm' <;> rcases List.mem_cons.1 h1 with e' | h1'
        · rw [e, e']
        · exact absurd (List.mem_map.2 ⟨x, h1', by rw [h2, e]⟩) n1
        · exact absurd (List.mem_map.2 ⟨r, hm', by rw [← h2, e']⟩) n1
        · exact ih n2 hm' h1'

/-- C54, in terms of the messages: after the stream the market manager stores exactly the orders that rest according to the
messages, each under its reference number with its symbol, side, price and remaining quantity. -/
theorem C54_messages (ms : List (Msg × List UInt8)) (chunks : List (List UInt8))
    (hm : ∀ x ∈ ms, x.1.Fits ∧ x.2.length = 3)
    (hc : chunks.flatten = (ms.map (fun x => frame (x.1.wire x.2))).flatten)
    (hq : ((ms.flatMap (fun x => x.1.ops)).map Op.quantity).sum < 2 ^ 64)
    (ht : Tape.ConsistentAll [] (ms.filterMap (fun x => x.1.tick)))
    (hs : Tape.StrictAll [] (ms.filterMap (fun x => x.1.tick))) :
    ∃ p g, Feeder.main chunks (St.init, Mgr.init) = .ok (p, g) ∧
      ∀ id, (g.getOrder id).map (fun o => (⟨o.id, o.symbolId, o.side, o.price, o.leaves⟩ : Ticket)) =
        (Tape.after [] (ms.filterMap (fun x => x.1.tick))).find id := by
  have he : (ms.map (fun x => x.1.mapHdr Hdr.cut)).flatMap Msg.ops = ms.flatMap (fun x => x.1.ops) := by
    rw [List.flatMap_map]; simp only [cut_ops]
  have het : (ms.map (fun x => x.1.mapHdr Hdr.cut)).filterMap Msg.tick = ms.filterMap (fun x => x.1.tick) := by
    rw [List.filterMap_map]; congr 1; funext x; exact cut_tick x.1
  have hstream := stream_roundtrip ms chunks hm hc
  obtain ⟨g, h1, h2⟩ := Feeder.main_chunks chunks Feeder.inv_init hstream (by rw [he]; exact hq)
  obtain ⟨l, h3, h4⟩ := h2.records
  rw [← het] at ht hs ⊢
  obtain ⟨c1, ann, c2⟩ := Held.msgs _ held_init ht hs
  obtain ⟨-, k2, k3⟩ := C51_textbook h3 (by rw [h4]; exact c1)
  rw [h4] at k2 k3
  refine ⟨_, g, h1, fun id => ?_⟩
  generalize Exchange.init.after _ = x at k2 k3 c2
  generalize Tape.after [] _ = t at c2 ⊢
  have hr := h2.reach
  have key : ∀ o, g.getOrder id = some o → o.ticket ∈ t ∧ o.id = id := by
    intro o ho
    have hid := own_id hr ho
    refine ⟨(c2.mem _).2 ⟨o, ?_, rfl⟩, hid⟩
    rw [k3] at ho
    unfold Exchange.find at ho
    obtain ⟨sy, _, hs⟩ := List.exists_of_findSome?_eq_some ho
    have hmem := List.mem_of_find?_eq_some hs
    rcases List.mem_append.1 hmem with h' | h'
    · obtain ⟨w1, w2, _⟩ := c2.wf _ _ _ h'
      rw [w1, w2]; exact h'
    · obtain ⟨w1, w2, _⟩ := c2.wf _ _ _ h'
      rw [w1, w2]; exact h'
  cases ho : g.getOrder id with
  | some o =>
    obtain ⟨a, b⟩ := key o ho
    exact ((Tape.find_iff c2.ids).2 ⟨a, b⟩).symm
  | none =>
    cases hf : t.find id with
    | none => rfl
    | some r =>
      exfalso
      obtain ⟨a, rfl⟩ := (Tape.find_iff c2.ids).1 hf
      obtain ⟨o, b1, rfl⟩ := (c2.mem r).1 a
      rw [← k2] at b1
      have hb : g.getBook o.symbolId ≠ none := by
        intro hb
        rw [lines_none (by exact hb)] at b1; cases b1
      have := ((lines_complete hr hb).1 b1).1
      rw [show (Order.ticket o).id = o.id from rfl] at ho
      rw [this] at ho; cases ho

instance (ann : List Nat) (x : Tick) : Decidable (Tape.Strict ann x) := by
  cases x <;> unfold Tape.Strict <;> infer_instance

instance decStrictAll : (ann : List Nat) → (xs : List Tick) → Decidable (Tape.StrictAll ann xs)
  | _, [] => isTrue trivial
  | ann, x :: xs => by
    unfold Tape.StrictAll
    have := decStrictAll (Tape.announced ann x) xs
    infer_instance

/-- C59 applies to the stream of C54. -/
example : (∀ x ∈ itchDay, x.1.Fits ∧ x.2.length = 3) ∧ ((itchDay.flatMap (fun x => x.1.ops)).map Op.quantity).sum < 2 ^ 64 ∧
    Tape.ConsistentAll [] (itchDay.filterMap (fun x => x.1.tick)) ∧ Tape.StrictAll [] (itchDay.filterMap (fun x => x.1.tick)) ∧
    (itchDay.filterMap (fun x => x.1.tick)).length = 9 := by
  refine ⟨?_, by decide +kernel, by decide +kernel, by decide +kernel, rfl⟩
  simp [itchDay, Msg.Fits, Hdr.Fits, known]

/-- Beyond the bounds: a bid at a price of 2^31 or more is shown as an ask, because the price is cast to `int32_t`; an ask at
exactly 2^31 overflows the negation. -/
theorem C59_price_witness :
    (Aggr.reactAll Aggr.init [.addOrder ⟨65, 1, 0, 7⟩ 1001 66 300 [] 2147483658]).toOption.map
      (fun s => (Aggr.levels s 1 .buy, Aggr.levels s 1 .sell)) = some ([], [(2147483638, 300)]) ∧
    Aggr.reactAll Aggr.init [.addOrder ⟨65, 1, 0, 7⟩ 1001 83 300 [] 2147483648] = .error .ub := by
  exact ⟨by decide +kernel, rfl⟩

end CppTrader
