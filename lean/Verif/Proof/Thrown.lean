import Verif.Thrown
import Verif.Props.Glimpse
import Verif.Props.Logs
import Verif.Props.Feeds
import Verif.Proof.Haunts
import Verif.Inert
/-
The manager in the middle of a call, beside a manager without the symbols of the call.
-/

namespace CppTrader
open Core

/-! ### What an interrupted call leaves alone -/

theorem updated_symbol {sc : Scope} {x o : Order} (h : x.Updated sc o) : o.symbolId = x.symbolId := by cases h <;> rfl

theorem sameBut_symbol {x o : Order} (h : x.sameBut o) : o.symbolId = x.symbolId := by
  rcases h with rfl | ⟨_, h⟩
  · rfl
  · exact (congrArg Order.symbolId h).symm

theorem deleted_symbol {sc : Scope} {x o : Order} (h : x.Deleted sc o) : o.symbolId = x.symbolId := by
  cases h with
  | known h => exact sameBut_symbol h
  | _ => rfl

/-- Callbacks about other symbols are not about the orders of this one. -/
theorem silent_of {sc : Scope} {id : Nat} {p : Order} : ∀ (evs : List Event) {v v' : OrderView},
    Replays (OrderView.ok sc) OrderView.next v evs v' → v id = some p → (∀ e ∈ evs, e.symbol ≠ p.symbolId) → Silent evs id
  | [], _, _, _, _, _ => fun e he => by cases he
  | e :: es, v, v', h, hv, hs => by
    have hne : ∀ o, e.about = some o → o.id ≠ id := by
      intro o ho hid
      have hse := hs e (by simp)
      cases e with
      | addOrder q =>
        cases ho
        have := h.1
        rw [show OrderView.ok sc v (.addOrder o) = (v o.id = none) from rfl, hid, hv] at this
        cases this
      | updateOrder q =>
        cases ho
        obtain ⟨x, h1, h2⟩ := h.1
        rw [hid, hv] at h1; cases h1
        exact hse (updated_symbol h2)
      | deleteOrder q =>
        cases ho
        obtain ⟨x, h1, h2⟩ := h.1
        rw [hid, hv] at h1; cases h1
        exact hse (deleted_symbol h2)
      | exec q a b =>
        cases ho
        obtain ⟨⟨x, h1, h2⟩, _⟩ := h.1
        rw [hid, hv] at h1; cases h1
        exact hse (sameBut_symbol h2)
      | _ => cases ho
    have hv' : OrderView.next v e id = some p := by
      cases e with
      | addOrder q => exact (if_neg (Ne.symm (hne q rfl))).trans hv
      | updateOrder q => exact (if_neg (Ne.symm (hne q rfl))).trans hv
      | deleteOrder q => exact (if_neg (Ne.symm (hne q rfl))).trans hv
      | exec q a b => exact (if_neg (Ne.symm (hne q rfl))).trans hv
      | _ => exact hv
    intro e' he' o ho
    rcases List.mem_cons.1 he' with rfl | he'
    · exact hne o ho
    · exact silent_of es h.2 hv' (fun a ha => hs a (by simp [ha])) e' he' o ho

theorem Silent.take {evs : List Event} {id : Nat} (h : Silent evs id) (n : Nat) : Silent (evs.take n) id :=
  fun e he => h e (List.mem_of_mem_take he)

/-- Books away from `S` are as in `g`. -/
def BooksBut (S : Nat → Prop) (g x : Mgr) : Prop := x.books.length = g.books.length ∧ ∀ s, ¬ S s → slot x.books s = slot g.books s

theorem BooksBut.refl (S : Nat → Prop) (g : Mgr) : BooksBut S g g := ⟨rfl, fun _ _ => rfl⟩
theorem BooksBut.trans {S : Nat → Prop} {g x y : Mgr} (h : BooksBut S g x) (k : BooksBut S x y) : BooksBut S g y :=
  ⟨k.1.trans h.1, fun s hs => (k.2 s hs).trans (h.2 s hs)⟩

theorem at_books {S : Nat → Prop} (g : Mgr) {sym : Nat} (hs : S sym) (c : Core) : BooksBut S g (g.at' sym c) :=
  ⟨List.length_set, fun s h => slot_set_other (by rintro rfl; exact h hs)⟩

theorem watchBook_books {S : Nat → Prop} {g : Mgr} {sym : Nat} (hs : S sym) {f : Watch → Except Err (Watch × ErrorCode)} {g' : Mgr} {e : ErrorCode}
    {seen : List Mgr} (h : g.watchBook sym f = .ok (g', e, seen)) : BooksBut S g g' ∧ ∀ x ∈ seen, BooksBut S g x := by
  unfold Mgr.watchBook at h
  cases hb : slot g.books sym with
  | none => rw [hb] at h; cases h; exact ⟨.refl _ _, fun x hx => by cases hx⟩
  | some b =>
    rw [hb] at h
    obtain ⟨⟨w, e1⟩, h1, h2⟩ := bind_inv h
    cases h2
    refine ⟨at_books g hs _, fun x hx => ?_⟩
    obtain ⟨c, _, rfl⟩ := List.mem_map.1 hx
    exact at_books g hs c

theorem watchOrder_books {S : Nat → Prop} {g : Mgr} {id : Nat} (hs : ∀ o, g.orders id = some o → S o.symbolId)
    {f : Order → Watch → Except Err (Watch × ErrorCode)} {g' : Mgr} {e : ErrorCode}
    {seen : List Mgr} (h : g.watchOrder id f = .ok (g', e, seen)) : BooksBut S g g' ∧ ∀ x ∈ seen, BooksBut S g x := by
  unfold Mgr.watchOrder at h
  cases ho : g.orders id with
  | none => rw [ho] at h; cases h; exact ⟨.refl _ _, fun x hx => by cases hx⟩
  | some o => rw [ho] at h; exact watchBook_books (hs o ho) h

theorem refused_books {S : Nat → Prop} {g : Mgr} {e' : ErrorCode} {g' : Mgr} {e : ErrorCode} {seen : List Mgr}
    (h : (.ok (g, e', []) : Mgr.Seen) = .ok (g', e, seen)) : BooksBut S g g' ∧ ∀ x ∈ seen, BooksBut S g x := by
  cases h; exact ⟨.refl _ _, fun x hx => by cases hx⟩

theorem watchDelete_books {S : Nat → Prop} {g : Mgr} {id : Nat} (hs : ∀ o, g.orders id = some o → S o.symbolId) {g' : Mgr} {e : ErrorCode}
    {seen : List Mgr} (h : g.watchDelete id = .ok (g', e, seen)) : BooksBut S g g' ∧ ∀ x ∈ seen, BooksBut S g x := by
  unfold Mgr.watchDelete at h
  split at h
  · exact refused_books h
  · exact watchOrder_books hs h

theorem watchAdd_books {S : Nat → Prop} {g : Mgr} {o : Order} (hs : S o.symbolId) {g' : Mgr} {e : ErrorCode}
    {seen : List Mgr} (h : g.watchAdd o = .ok (g', e, seen)) : BooksBut S g g' ∧ ∀ x ∈ seen, BooksBut S g x := by
  unfold Mgr.watchAdd at h
  split at h
  · exact refused_books h
  · exact watchBook_books hs h

theorem watchModify_books {S : Nat → Prop} {g : Mgr} {id p q : Nat} {m : Bool} (hs : ∀ o, g.orders id = some o → S o.symbolId) {g' : Mgr} {e : ErrorCode}
    {seen : List Mgr} (h : g.watchModify id p q m = .ok (g', e, seen)) : BooksBut S g g' ∧ ∀ x ∈ seen, BooksBut S g x := by
  unfold Mgr.watchModify at h
  split at h
  · exact refused_books h
  · split at h
    · exact refused_books h
    · exact watchOrder_books hs h

theorem watch_books {g : Mgr} (hi : MInv g) {op : Op} (hn : ¬ op.isRegistry) (hm : op.isMode = false) {g' : Mgr} {e : ErrorCode} {seen : List Mgr}
    (h : g.watch op = .ok (g', e, seen)) : ∀ x ∈ seen, BooksBut (g.Addresses op) g x := by
  have key : ∀ {id : Nat}, (∀ o : Order, g.getOrder id = some o → g.Addresses op o.symbolId) → ∀ o, g.orders id = some o → g.Addresses op o.symbolId :=
    fun hk o ho => hk o (by rw [hi.getOrder]; exact ho)
  cases op with
  | addSymbol s => exact absurd trivial hn
  | deleteSymbol s => exact absurd trivial hn
  | addOrderBook s => exact absurd trivial hn
  | deleteOrderBook s => exact absurd trivial hn
  | enableMatching => cases hm
  | disableMatching => cases hm
  | matchAll => cases hm
  | addOrder o => exact (watchAdd_books rfl h).2
  | reduceOrder id q =>
    simp only [Mgr.watch] at h
    split at h
    · exact (refused_books h).2
    · split at h
      · exact (refused_books h).2
      · exact (watchOrder_books (key fun o ho => ⟨o, ho, rfl⟩) h).2
  | modifyOrder id p q => exact (watchModify_books (key fun o ho => ⟨o, ho, rfl⟩) h).2
  | mitigateOrder id p q => exact (watchModify_books (key fun o ho => ⟨o, ho, rfl⟩) h).2
  | replaceOrder id n p q =>
    have k := key (id := id) fun o ho => ⟨o, ho, rfl⟩
    simp only [Mgr.watch] at h
    split at h
    · exact (refused_books h).2
    · split at h
      · exact (refused_books h).2
      · split at h
        · exact (refused_books h).2
        · cases ho : g.orders id with
          | none => rw [ho] at h; exact (refused_books h).2
          | some o =>
            rw [ho] at h
            simp only at h
            split at h
            · exact (watchBook_books (k o ho) h).2
            · exact (refused_books h).2
  | replaceWith id o =>
    have k := key (id := id) fun o ho => .inr ⟨o, ho, rfl⟩
    simp only [Mgr.watch] at h
    obtain ⟨⟨g1, e1, l1⟩, h1, h2⟩ := bind_inv h
    obtain ⟨a1, a2⟩ := watchDelete_books k h1
    simp only at h2
    split at h2
    · cases h2; exact a2
    · obtain ⟨⟨g2, e2, l2⟩, h3, h4⟩ := bind_inv h2
      cases h4
      obtain ⟨b1, b2⟩ := watchAdd_books (S := g.Addresses (.replaceWith id o)) (.inl rfl) h3
      intro x hx
      rcases List.mem_append.1 hx with hx | hx
      · exact a2 x hx
      · exact a1.trans (b2 x hx)
  | deleteOrder id => exact (watchDelete_books (key fun o ho => ⟨o, ho, rfl⟩) h).2
  | executeOrder id q =>
    simp only [Mgr.watch] at h
    split at h
    · exact (refused_books h).2
    · split at h
      · exact (refused_books h).2
      · exact (watchOrder_books (key fun o ho => ⟨o, ho, rfl⟩) h).2
  | executeOrderAt id p q =>
    simp only [Mgr.watch] at h
    split at h
    · exact (refused_books h).2
    · split at h
      · exact (refused_books h).2
      · exact (watchOrder_books (key fun o ho => ⟨o, ho, rfl⟩) h).2

/-- What is left alone at every moment of a call about an order. -/
structure Spares (g : Mgr) (op : Op) (x : Mgr) : Prop where
  orders : ∀ id, ¬ g.Struck op id → x.orders id = g.orders id
  matching : x.matching = g.matching
  symbols : x.symbols = g.symbols
  books : BooksBut (g.Addresses op) g x
  exist : ∀ s, (x.getBook s).map (·.symbol) = (g.getBook s).map (·.symbol)

theorem spares {g : Mgr} (hr : g.Reachable) {op : Op} (ha : g.Admissible op) (hf : g.FreshId op) (hn : ¬ op.isRegistry) (hm : op.isMode = false)
    {g' : Mgr} {e : ErrorCode} {seen : List Mgr} (hs : g.step op = .ok (g', e)) (hw : g.watch op = .ok (g', e, seen)) {x : Mgr} (hx : x ∈ seen) :
    Spares g op x := by
  have hi := hr.minv
  obtain ⟨news, seen', h1, h2, _, h4⟩ := C80_callbacks hr hn hs
  obtain ⟨_, _, z1, z2⟩ := Watch.watch_run hi hn hs
  rw [hw] at h1 z1
  cases h1
  cases z1
  obtain ⟨i, hi'⟩ := List.getElem?_of_mem hx
  obtain ⟨_, h5, c⟩ := h4 i x hi'
  have hne : op ≠ .enableMatching := by rintro rfl; cases hm
  refine ⟨?_, by rw [h5]; simp [hne], c.symbols, watch_books hi hn hm hw x hx, c.books⟩
  intro id hid
  by_cases hz : id = 0
  · subst hz
    rw [z2.zero x hx, ← hi.getOrder]; rfl
  have hadd : some id ≠ op.adds := fun h => hid (.inl h)
  have : x.getOrder id = g.getOrder id := by
    cases ho : g.getOrder id with
    | none => exact c.absent id hadd ho
    | some o =>
      have hna : ¬ g.Addresses op o.symbolId := fun h => hid (.inr ⟨o, ho, h⟩)
      obtain ⟨_, _, _, evs, b1, b2⟩ := C31_isolation hr ha hs hna
      rw [h2] at b1
      cases List.append_cancel_left b1
      have := c.others id hadd ((silent_of news (C45_order_feed hr ha hf hs h2).1 ho b2).take _)
      rw [this, ho]
  simpa only [Mgr.getOrder, if_neg hz] using this

/-! ### The manager without what was struck -/

open Classical in
/-- `g` without the books of `S` and the orders of `L`. -/
noncomputable def without (g : Mgr) (S L : Nat → Prop) : Mgr :=
  { g with
    orders := fun id => if L id then none else g.orders id
    books := (List.range g.books.length).map fun i => if S i then none else slot g.books i }

theorem without_slot (g : Mgr) (S L : Nat → Prop) (s : Nat) [Decidable (S s)] : slot (without g S L).books s = if S s then none else slot g.books s := by
  unfold without
  simp only [slot, List.getElem?_map]
  by_cases h : s < g.books.length
  · rw [List.getElem?_range h]
    simp only [Option.map_some, Option.join_some]
    split <;> rfl
  · rw [List.getElem?_eq_none (l := List.range _) (by simp; omega), List.getElem?_eq_none (l := g.books) (by omega)]
    simp

theorem without_some {g : Mgr} {S L : Nat → Prop} {id : Nat} {o : Order} : (without g S L).orders id = some o ↔ ¬ L id ∧ g.orders id = some o := by
  unfold without
  by_cases h : L id <;> simp [h]

theorem without_minv {g : Mgr} (hi : MInv g) {S L : Nat → Prop} (h : ∀ id o, g.orders id = some o → L id → S o.symbolId ∨ g.getBook o.symbolId = none) :
    MInv (without g S L) := by
  classical
  refine ⟨fun i o ho => hi.orders i o (without_some.1 ho).2, ?_, hi.symbols⟩
  intro i b hb
  rw [without_slot] at hb
  by_cases hs : S i
  · rw [if_pos hs] at hb; cases hb
  rw [if_neg hs] at hb
  obtain ⟨h1, h2, h3⟩ := hi.books i b hb
  refine ⟨h1, ⟨fun k => (h2.kinds k).congr ?_, ?_⟩, h3⟩
  · intro j hj
    obtain ⟨o, e1, e2, _⟩ := (h2.kinds k).mem hj
    rw [e1]
    symm
    refine without_some.2 ⟨fun hl => ?_, e1⟩
    rcases h j o e1 hl with h4 | h4
    · rw [e2, h1] at h4; exact hs h4
    · rw [e2, h1] at h4; rw [show slot g.books i = none from h4] at hb; cases hb
  · intro j o ho
    exact h2.complete j o (without_some.1 ho).2

theorem struck_symbol {g : Mgr} (hi : MInv g) {op : Op} (hf : g.FreshId op) {id : Nat} {o : Order} (ho : g.orders id = some o) (hl : g.Struck op id) :
    g.Addresses op o.symbolId := by
  rw [← hi.getOrder] at ho
  rcases hl with hl | ⟨o', h1, h2⟩
  · cases op with
    | addOrder q => cases hl; rw [show g.getOrder _ = none from hf] at ho; cases ho
    | replaceOrder i n p q =>
      cases hl
      rcases (show id = i ∨ g.getOrder id = none from hf) with rfl | h
      · exact ⟨o, ho, rfl⟩
      · rw [h] at ho; cases ho
    | replaceWith i q =>
      cases hl
      rcases (show q.id = i ∨ g.getOrder q.id = none from hf) with rfl | h
      · exact .inr ⟨o, ho, rfl⟩
      · rw [h] at ho; cases ho
    | _ => cases hl
  · rw [ho] at h1; cases h1; exact h2

open Classical in
/-- Keeps the symbols of `S` and the orders of `L` apart from the others. -/
noncomputable def aside (S L : Nat → Prop) : Division := ⟨fun s => if S s then 2 else 0, fun id => if L id then 1 else 0⟩

theorem aside_symbol {S L : Nat → Prop} {s : Nat} : (aside S L).symbol s = 0 ↔ ¬ S s := by
  unfold aside; by_cases h : S s <;> simp [h]
theorem aside_order {S L : Nat → Prop} {id : Nat} : (aside S L).order id = 0 ↔ ¬ L id := by
  unfold aside; by_cases h : L id <;> simp [h]

theorem without_twins {g x : Mgr} {S L : Nat → Prop} (h1 : x.matching = g.matching) (h2 : x.symbols = g.symbols)
    (h3 : ∀ s, ¬ S s → slot x.books s = slot g.books s) (h4 : ∀ id, ¬ L id → x.orders id = g.orders id) :
    Twins asIs (aside S L) 0 (without g S L) x := by
  classical
  refine ⟨h1, fun s _ => by rw [h2]; rfl, ?_, ?_, ?_, ?_⟩
  · intro s hs
    have hs' := aside_symbol.1 hs
    rw [without_slot, if_neg hs', h3 s hs']
    cases slot g.books s with
    | none => rfl
    | some b => exact congrArg some (renB_same b).symm
  · intro id o ho
    obtain ⟨a, b⟩ := without_some.1 ho
    exact (h4 id a).trans b
  · intro id hid ho
    have hl := aside_order.1 hid
    show x.orders id = none
    rw [h4 id hl]
    cases e : g.orders id with
    | none => rfl
    | some o => rw [without_some.2 ⟨hl, e⟩] at ho; cases ho
  · intro s hs
    have : S s := Classical.byContradiction fun h => hs (aside_symbol.2 h)
    rw [without_slot, if_pos this]

/-- Two managers that both extend a third one answer alike. -/
theorem twins_logs {d : Division} {g g' : Mgr} {l : List (Op × ErrorCode × List Event)} (hl : g.Logs l g') : ∀ {h x : Mgr},
    Twins asIs d 0 h g → Twins asIs d 0 h x → MInv h → MInv g → (∀ i o, h.orders i = some o → d.symbol o.symbolId = 0) →
    (∀ r ∈ l, (d.of r.1 = some 0 ∨ r.1 = .disableMatching) ∧ d.respects r.1) →
    ∃ h' x' : Mgr, x.run (l.map (·.1)) = .ok (x', l.map (·.2.1)) ∧ x'.ev = x.ev ++ l.flatMap (·.2.2) ∧
      Twins asIs d 0 h' g' ∧ Twins asIs d 0 h' x' := by
  induction hl with
  | nil => intro h x t1 t2 _ _ _ _; exact ⟨h, x, rfl, by simp, t1, t2⟩
  | cons ha hs hev _ ih =>
    rename_i g g1 g' op e evs l _
    intro h x t1 t2 hh hg hm hn
    obtain ⟨ho, hro⟩ := hn (op, e, evs) (by simp)
    have hn' : ∀ r ∈ l, (d.of r.1 = some 0 ∨ r.1 = .disableMatching) ∧ d.respects r.1 := fun r hr => hn r (by simp [hr])
    have hg1 : MInv g1 := (step_eff hg ha hs).minv hg ha
    have key : ∃ h1 x1 : Mgr, x.step op = .ok (x1, e) ∧ x1.ev = x.ev ++ evs ∧ Twins asIs d 0 h1 g1 ∧ Twins asIs d 0 h1 x1 ∧ MInv h1 ∧
        ∀ i o, h1.orders i = some o → d.symbol o.symbolId = 0 := by
      rcases ho with ho | rfl
      · have ha' := t1.admissible hh hg hm (.inl ho) hro ha
        obtain ⟨h1, e1, hs1, _⟩ := step_ok hh op ha'
        obtain ⟨⟨g2, e2⟩, a0, rfl, b1, y, a1, a2⟩ := t1.step noId noZero hh hm ho hro (by rintro s rfl; exact ha) _ hs1
        obtain ⟨⟨x2, e3⟩, c0, rfl, d1, z, c1, c2⟩ := t2.step noId noZero hh hm ho hro (by rintro s rfl; exact ha) _ hs1
        rw [renOp_same] at a0 c0
        rw [hs] at a0
        cases a0
        rw [renE_same_map] at a2 c2
        simp only at a1 a2 c1 c2 b1 d1
        rw [a1] at c1
        cases List.append_cancel_left c1
        rw [hev] at a2
        cases List.append_cancel_left a2
        exact ⟨h1, x2, c0, c2, b1, d1, (step_eff hh ha' hs1).minv hh ha', mine_kept hh ha' hs1 (.inl ho) hro hm⟩
      · cases hs
        have : evs = [] := List.append_cancel_left (hev.symm.trans (List.append_nil g.ev).symm)
        subst this
        exact ⟨{ h with matching := false }, { x with matching := false }, rfl, by simp,
          ⟨rfl, t1.symbols, t1.books, t1.sub, t1.back, t1.mine⟩, ⟨rfl, t2.symbols, t2.books, t2.sub, t2.back, t2.mine⟩,
          ⟨hh.orders, hh.books, hh.symbols⟩, hm⟩
    obtain ⟨h1, x1, k1, k2, k3, k4, k5, k6⟩ := key
    obtain ⟨h', x', m1, m2, m3, m4⟩ := ih k3 k4 k5 hg1 k6 hn'
    refine ⟨h', x', ?_, ?_, m3, m4⟩
    · show Mgr.run x (op :: l.map (·.1)) = _
      unfold Mgr.run
      rw [k1]
      show (x1.run (l.map (·.1)) >>= _) = _
      rw [m1]; rfl
    · rw [m2, k2, List.append_assoc]; rfl

theorem twins_same {d : Division} {h g x : Mgr} (t1 : Twins asIs d 0 h g) (t2 : Twins asIs d 0 h x) :
    x.matching = g.matching ∧ (∀ id, d.order id = 0 → x.orders id = g.orders id) ∧
    ∀ s, d.symbol s = 0 → slot x.symbols s = slot g.symbols s ∧ slot x.books s = slot g.books s := by
  refine ⟨t2.matching.trans t1.matching.symm, fun id hid => ?_, fun s hs => ⟨(t2.symbols s hs).trans (t1.symbols s hs).symm, (t2.books s hs).trans (t1.books s hs).symm⟩⟩
  cases ho : h.orders id with
  | none => exact (t2.back id hid ho).trans (t1.back id hid ho).symm
  | some o => exact (t2.sub id o ho).trans (t1.sub id o ho).symm

end CppTrader
