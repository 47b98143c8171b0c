import Verif.Proof.Twin
import Verif.Proof.Division
import Verif.Props.Calls
import Verif.Logs
/-
The market manager beside more symbols and orders, and under other order ids.
-/

namespace CppTrader
open Core

variable {f : Nat → Nat} {d : Division} {j : Nat}

/-- The second manager has the symbols, books and orders of the first (with other order ids), and possibly more, of symbols and orders
that the division gives to other managers. -/
structure Twins (f : Nat → Nat) (d : Division) (j : Nat) (h g : Mgr) : Prop where
  matching : g.matching = h.matching
  symbols : ∀ s, d.symbol s = j → slot g.symbols s = slot h.symbols s
  books : ∀ s, d.symbol s = j → slot g.books s = (slot h.books s).map (renB f)
  sub : ∀ id o, h.orders id = some o → g.orders (f id) = some (renO f o)
  back : ∀ id, d.order id = j → h.orders id = none → g.orders (f id) = none
  mine : ∀ s, d.symbol s ≠ j → slot h.books s = none

/-- The next pair of states: the same answer, and the same callbacks. -/
def Next (f : Nat → Nat) (d : Division) (j : Nat) (h g : Mgr) (v w : Mgr × ErrorCode) : Prop :=
  w.2 = v.2 ∧ Twins f d j v.1 w.1 ∧ ∃ x, v.1.ev = h.ev ++ x ∧ w.1.ev = g.ev ++ x.map (renE f)

/-- The call with other ids. -/
def renOp (f : Nat → Nat) : Op → Op
  | .addOrder o => .addOrder (renO f o)
  | .reduceOrder id q => .reduceOrder (f id) q
  | .modifyOrder id p q => .modifyOrder (f id) p q
  | .mitigateOrder id p q => .mitigateOrder (f id) p q
  | .replaceOrder id n p q => .replaceOrder (f id) (f n) p q
  | .replaceWith id o => .replaceWith (f id) (renO f o)
  | .deleteOrder id => .deleteOrder (f id)
  | .executeOrder id q => .executeOrder (f id) q
  | .executeOrderAt id p q => .executeOrderAt (f id) p q
  | op => op

namespace Twins
variable {h g : Mgr}

theorem refuse (t : Twins f d j h g) (e : ErrorCode) : Ensues (Next f d j h g) (.ok (h, e)) (.ok (g, e)) :=
  .ok ⟨rfl, t, [], by simp, by simp⟩

theorem twin (t : Twins f d j h g) (b : Book) : Twin f (fun id => d.order id = j) h.ev g.ev ⟨h.orders, b, h.ev⟩ ⟨g.orders, renB f b, g.ev⟩ :=
  ⟨rfl, t.sub, t.back, [], by simp, by simp⟩

theorem written (t : Twins f d j h g) {sym : Nat} {b : Book} (hs : d.symbol sym = j) (hb : slot h.books sym = some b) {v w : Core}
    (hv : Twin f (fun id => d.order id = j) h.ev g.ev v w) : Twins f d j (h.put sym v) (g.put sym w) := by
  have hb' : slot g.books sym = some (renB f b) := by rw [t.books sym hs, hb]; rfl
  refine ⟨t.matching, t.symbols, ?_, hv.sub, hv.back, ?_⟩
  · intro s h1
    show slot (g.books.set sym _) s = Option.map _ (slot (h.books.set sym _) s)
    by_cases e : s = sym
    · subst e
      rw [slot_set_same (slot_lt hb), slot_set_same (slot_lt hb'), hv.book]; rfl
    · rw [slot_set_other e, slot_set_other e, t.books s h1]
  · intro s h1
    show slot (h.books.set sym _) s = none
    rw [slot_set_other (by rintro rfl; exact h1 hs)]
    exact t.mine s h1

theorem onBook (t : Twins f d j h g) {sym : Nat} (hs : d.symbol sym = j) {F G : Core → Except Err (Core × ErrorCode)}
    (hF : ∀ {a b : List Event} {x y : Core}, Twin f (fun id => d.order id = j) a b x y → Ensues (Twin.With f (fun id => d.order id = j) a b) (F x) (G y)) :
    Ensues (Next f d j h g) (h.onBook sym F) (g.onBook sym G) := by
  unfold Mgr.onBook
  rw [t.books sym hs]
  cases hb : slot h.books sym with
  | none => exact t.refuse _
  | some b =>
    simp only [Option.map_some]
    refine .bind (hF (t.twin b)) fun v w hv => ?_
    exact .ok ⟨hv.2, t.written hs hb hv.1, hv.1.ev⟩

theorem onOrder (t : Twins f d j h g) (hm : ∀ i o, h.orders i = some o → d.symbol o.symbolId = j) {id : Nat} (hid : d.order id = j)
    {F G : Order → Core → Except Err (Core × ErrorCode)}
    (hF : ∀ {a b : List Event} {x y : Core} (o : Order), Twin f (fun id => d.order id = j) a b x y → Ensues (Twin.With f (fun id => d.order id = j) a b) (F o x) (G (renO f o) y)) :
    Ensues (Next f d j h g) (h.onOrder id F) (g.onOrder (f id) G) := by
  unfold Mgr.onOrder
  cases ho : h.orders id with
  | none => rw [t.back id hid ho]; exact t.refuse _
  | some o =>
    rw [t.sub id o ho]
    exact t.onBook (hm id o ho) fun tw => hF o tw

theorem validate_ren (hz : ∀ i, f i = 0 ↔ i = 0) (o : Order) : (renO f o).validate = o.validate := by
  unfold Order.validate
  by_cases h0 : o.id = 0
  · rw [if_pos h0, if_pos (show (renO f o).id = 0 from (hz _).2 h0)]
  · rw [if_neg h0, if_neg (show ¬ (renO f o).id = 0 from fun e => h0 ((hz _).1 e))]
    rfl

theorem guards (hz : ∀ i, f i = 0 ↔ i = 0) (t : Twins f d j h g) {id q : Nat} {x y : Except Err (Mgr × ErrorCode)} (k : Ensues (Next f d j h g) x y) :
    Ensues (Next f d j h g) (if id = 0 then .ok (h, .orderIdInvalid) else if q = 0 then .ok (h, .orderQuantityInvalid) else x)
      (if f id = 0 then .ok (g, .orderIdInvalid) else if q = 0 then .ok (g, .orderQuantityInvalid) else y) :=
  .ite (hz id) (fun _ => t.refuse _) fun _ => .ite Iff.rfl (fun _ => t.refuse _) fun _ => k

theorem addOrder (hf : ∀ a b, f a = f b → a = b) (hz : ∀ i, f i = 0 ↔ i = 0) (t : Twins f d j h g) {o : Order} (hs : d.symbol o.symbolId = j) (hid : d.order o.id = j) :
    Ensues (Next f d j h g) (h.addOrder o) (g.addOrder (renO f o)) := by
  unfold Mgr.addOrder
  rw [validate_ren hz, t.matching]
  exact .ite Iff.rfl (fun _ => t.refuse _) fun _ => t.onBook hs fun tw => tw.addAny hf hz _ hid

theorem deleteOrder (hf : ∀ a b, f a = f b → a = b) (hz : ∀ i, f i = 0 ↔ i = 0) (t : Twins f d j h g) (hm : ∀ i o, h.orders i = some o → d.symbol o.symbolId = j)
    {id : Nat} (hid : d.order id = j) : Ensues (Next f d j h g) (h.deleteOrder id) (g.deleteOrder (f id)) := by
  unfold Mgr.deleteOrder
  rw [t.matching]
  exact .ite (hz id) (fun _ => t.refuse _) fun _ => t.onOrder hm hid fun o tw => tw.deleteOp hf hz _ o

theorem modifyOrder (hf : ∀ a b, f a = f b → a = b) (hz : ∀ i, f i = 0 ↔ i = 0) (t : Twins f d j h g) (hm : ∀ i o, h.orders i = some o → d.symbol o.symbolId = j)
    {id : Nat} (hid : d.order id = j) (p q : Nat) (mit : Bool) : Ensues (Next f d j h g) (h.modifyOrder id p q mit) (g.modifyOrder (f id) p q mit) := by
  unfold Mgr.modifyOrder
  rw [t.matching]
  exact t.guards hz (t.onOrder hm hid fun o tw => tw.modifyOp hf hz _ o p q mit)

theorem addSymbol_cases {g : Mgr} {s : Symbol} (hs : s.id < 4294967295) :
    (slot g.symbols s.id ≠ none ∧ g.addSymbol s = .ok (g, .symbolDuplicate)) ∨
    (slot g.symbols s.id = none ∧ ∃ v, SlotSet g.symbols v s.id (some s) ∧ g.addSymbol s = .ok ({ g with symbols := v, ev := g.ev ++ [.addSymbol s] }, .ok)) := by
  obtain ⟨g', e, a1, a2⟩ := addSymbol_mgr (g := g) hs
  cases a2 with
  | refused h =>
    obtain ⟨rfl, _, _, h4⟩ := h
    simp only [Mgr.refusal] at h4
    by_cases hn : g'.getSymbol s.id = none
    · rw [if_pos hn] at h4; cases h4
    · rw [if_neg hn] at h4; cases h4; exact .inl ⟨hn, a1⟩
  | addSymbol h1 h2 => exact .inr ⟨h1, _, h2, a1⟩
  | book on => cases on

theorem addOrderBook_cases {g : Mgr} (s : Symbol) (hsy : ∀ x, slot g.symbols s.id = some x → s.id < 4294967295) :
    (slot g.symbols s.id = none ∧ g.addOrderBook s = .ok (g, .symbolNotFound)) ∨
    (slot g.symbols s.id ≠ none ∧ slot g.books s.id ≠ none ∧ g.addOrderBook s = .ok (g, .orderBookDuplicate)) ∨
    (∃ reg v, slot g.symbols s.id = some reg ∧ slot g.books s.id = none ∧ SlotSet g.books v s.id (some (Book.new reg)) ∧
      g.addOrderBook s = .ok ({ g with books := v, ev := g.ev ++ [.addBook reg] }, .ok)) := by
  obtain ⟨g', e, a1, a2⟩ := addOrderBook_mgr s hsy
  cases a2 with
  | refused h =>
    obtain ⟨rfl, _, _, h4⟩ := h
    simp only [Mgr.refusal] at h4
    by_cases hn : g'.getSymbol s.id = none
    · rw [if_pos hn] at h4; cases h4; exact .inl ⟨hn, a1⟩
    · rw [if_neg hn] at h4
      by_cases hb : g'.getBook s.id = none
      · rw [if_pos hb] at h4; cases h4
      · rw [if_neg hb] at h4; cases h4; exact .inr (.inl ⟨hn, hb, a1⟩)
  | addBook h0 h1 h2 => exact .inr (.inr ⟨_, _, h0, h1, h2, a1⟩)
  | book on => cases on

/-- A call that goes to this manager. -/
theorem step (hf : ∀ a b, f a = f b → a = b) (hz : ∀ i, f i = 0 ↔ i = 0) (t : Twins f d j h g) (hh : MInv h)
    (hm : ∀ i o, h.orders i = some o → d.symbol o.symbolId = j) {op : Op} (ho : d.of op = some j) (hr : d.respects op)
    (hb : ∀ s, op = .addSymbol s → s.id < 4294967295) : Ensues (Next f d j h g) (h.step op) (g.step (renOp f op)) := by
  cases op with
  | addSymbol s =>
    have hs : d.symbol s.id = j := Option.some.inj ho
    have hl := hb s rfl
    show Ensues _ (h.addSymbol s) (g.addSymbol s)
    rcases addSymbol_cases (g := h) hl with ⟨a1, a2⟩ | ⟨a1, v, a3, a2⟩
    · rcases addSymbol_cases (g := g) hl with ⟨b1, b2⟩ | ⟨b1, w, b3, b2⟩
      · rw [a2, b2]; exact t.refuse _
      · exact absurd ((t.symbols _ hs).symm.trans b1) a1
    · rcases addSymbol_cases (g := g) hl with ⟨b1, b2⟩ | ⟨b1, w, b3, b2⟩
      · exact absurd ((t.symbols _ hs).trans a1) b1
      · rw [a2, b2]
        refine .ok ⟨rfl, ⟨t.matching, ?_, t.books, t.sub, t.back, t.mine⟩, [.addSymbol s], rfl, rfl⟩
        intro i hi
        show slot w i = slot v i
        rw [a3 i, b3 i, t.symbols i hi]
  | deleteSymbol id =>
    have hs : d.symbol id = j := Option.some.inj ho
    show Ensues _ (h.deleteSymbol id) (g.deleteSymbol id)
    unfold Mgr.deleteSymbol
    have e := t.symbols _ hs
    rw [e]
    cases hx : slot h.symbols id with
    | none => exact t.refuse _
    | some s =>
      refine .ok ⟨rfl, ⟨t.matching, ?_, t.books, t.sub, t.back, t.mine⟩, [.deleteSymbol s], rfl, rfl⟩
      intro i hi
      show slot (g.symbols.set id none) i = slot (h.symbols.set id none) i
      rw [SlotSet.of_set (slot_lt hx) i, SlotSet.of_set (slot_lt (e.trans hx)) i, t.symbols i hi]
  | addOrderBook s =>
    have hs : d.symbol s.id = j := Option.some.inj ho
    have e1 := t.symbols _ hs
    have e2 := t.books _ hs
    have hl : ∀ x, slot h.symbols s.id = some x → s.id < 4294967295 := fun x hx => (hh.symbols _ x hx).2
    have hk : ∀ x, slot g.symbols s.id = some x → s.id < 4294967295 := fun x hx => hl x (e1.symm.trans hx)
    show Ensues _ (h.addOrderBook s) (g.addOrderBook s)
    rcases addOrderBook_cases s hl with ⟨a1, a2⟩ | ⟨a1, a3, a2⟩ | ⟨reg, v, a1, a3, a4, a2⟩
    · rcases addOrderBook_cases s hk with ⟨b1, b2⟩ | ⟨b1, b3, b2⟩ | ⟨reg, w, b1, b3, b4, b2⟩
      · rw [a2, b2]; exact t.refuse _
      · exact absurd (e1.trans a1) b1
      · rw [e1, a1] at b1; cases b1
    · rcases addOrderBook_cases s hk with ⟨b1, b2⟩ | ⟨b1, b3, b2⟩ | ⟨reg, w, b1, b3, b4, b2⟩
      · exact absurd (e1.symm.trans b1) a1
      · rw [a2, b2]; exact t.refuse _
      · rw [e2] at b3; exact absurd (Option.map_eq_none_iff.1 b3) a3
    · rcases addOrderBook_cases s hk with ⟨b1, b2⟩ | ⟨b1, b3, b2⟩ | ⟨reg', w, b1, b3, b4, b2⟩
      · rw [e1, a1] at b1; cases b1
      · rw [e2, a3] at b3; exact absurd rfl b3
      · rw [e1, a1] at b1; cases b1
        rw [a2, b2]
        refine .ok ⟨rfl, ⟨t.matching, t.symbols, ?_, t.sub, t.back, ?_⟩, [.addBook reg], rfl, rfl⟩
        · intro i hi
          show slot w i = Option.map _ (slot v i)
          rw [a4 i, b4 i, t.books i hi]
          split <;> rfl
        · intro i hi
          show slot v i = none
          rw [a4 i, if_neg (by rintro rfl; exact hi hs)]
          exact t.mine i hi
  | deleteOrderBook id =>
    have hs : d.symbol id = j := Option.some.inj ho
    show Ensues _ (h.deleteOrderBook id) (g.deleteOrderBook id)
    unfold Mgr.deleteOrderBook
    have e := t.books _ hs
    rw [e]
    cases hx : slot h.books id with
    | none => exact t.refuse _
    | some b =>
      rw [hx] at e
      refine .ok ⟨rfl, ⟨t.matching, t.symbols, ?_, t.sub, t.back, ?_⟩, [.deleteBook b.symbol], rfl, rfl⟩
      · intro i hi
        show slot (g.books.set id none) i = Option.map _ (slot (h.books.set id none) i)
        rw [SlotSet.of_set (slot_lt hx) i, SlotSet.of_set (slot_lt e) i, t.books i hi]
        split <;> rfl
      · intro i hi
        show slot (h.books.set id none) i = none
        rw [SlotSet.of_set (slot_lt hx) i, t.mine i hi, ite_self]
  | addOrder o =>
    have hs : d.symbol o.symbolId = j := Option.some.inj ho
    exact t.addOrder hf hz hs (hr.trans hs)
  | reduceOrder id q =>
    have hid : d.order id = j := Option.some.inj ho
    show Ensues _ (h.reduceOrder id q) (g.reduceOrder (f id) q)
    unfold Mgr.reduceOrder
    rw [t.matching]
    exact t.guards hz (t.onOrder hm hid fun o tw => tw.reduceOp hf hz _ o q)
  | modifyOrder id p q => exact t.modifyOrder hf hz hm (Option.some.inj ho) p q false
  | mitigateOrder id p q => exact t.modifyOrder hf hz hm (Option.some.inj ho) p q true
  | replaceOrder id n p q =>
    have hid : d.order id = j := Option.some.inj ho
    have hn : d.order n = j := hr.trans hid
    show Ensues _ (h.replaceOrder id n p q) (g.replaceOrder (f id) (f n) p q)
    unfold Mgr.replaceOrder
    rw [t.matching]
    refine .ite (hz id) (fun _ => t.refuse _) fun _ => .ite (hz n) (fun _ => t.refuse _) fun _ => .ite Iff.rfl (fun _ => t.refuse _) fun _ => ?_
    cases hx : h.orders id with
    | none => rw [t.back id hid hx]; exact t.refuse _
    | some o =>
      rw [t.sub id o hx]
      exact .ite Iff.rfl (fun _ => t.onBook (hm id o hx) fun tw => tw.replaceOp hf hz _ o hn p q) fun _ => t.refuse _
  | replaceWith id o =>
    have hid : d.order id = j := Option.some.inj ho
    show Ensues _ (h.replaceWith id o) (g.replaceWith (f id) (renO f o))
    unfold Mgr.replaceWith
    cases hx : h.deleteOrder id with
    | error e => exact .error
    | ok r =>
      obtain ⟨h1, e1⟩ := r
      obtain ⟨⟨g1, e2⟩, y1, y2, y3, x, y4, y5⟩ := t.deleteOrder hf hz hm hid _ hx
      cases y2
      rw [y1]
      show Ensues _ (if e1 ≠ .ok then _ else _) (if e1 ≠ .ok then _ else _)
      refine .ite Iff.rfl (fun _ => .ok ⟨rfl, y3, x, y4, y5⟩) fun _ => ?_
      refine (y3.addOrder hf hz (hr.2.trans hid) (hr.1.trans hid)).mono ?_
      rintro v w ⟨c1, c2, x', c3, c4⟩
      refine ⟨c1, c2, x ++ x', ?_, ?_⟩
      · rw [c3, show h1.ev = _ from y4, List.append_assoc]
      · rw [c4, show g1.ev = _ from y5, List.append_assoc, List.map_append]
  | deleteOrder id => exact t.deleteOrder hf hz hm (Option.some.inj ho)
  | executeOrder id q =>
    have hid : d.order id = j := Option.some.inj ho
    show Ensues _ (h.executeOrder id q) (g.executeOrder (f id) q)
    unfold Mgr.executeOrder
    rw [t.matching]
    exact t.guards hz (t.onOrder hm hid fun o tw => tw.executeOp hf hz _ o o.price q)
  | executeOrderAt id p q =>
    have hid : d.order id = j := Option.some.inj ho
    show Ensues _ (h.executeOrderAt id p q) (g.executeOrderAt (f id) p q)
    unfold Mgr.executeOrderAt
    rw [t.matching]
    exact t.guards hz (t.onOrder hm hid fun o tw => tw.executeOp hf hz _ o p q)
  | enableMatching => cases ho
  | disableMatching => cases ho
  | matchAll => cases ho

/-! Calls that go elsewhere. -/

theorem addresses (hi : MInv g) (hc : Goes (fun i s => d.order i = d.symbol s) g.orders) {op : Op} {i sym : Nat} (ho : d.of op = some i) (hr : d.respects op)
    (ha : g.Addresses op sym) : d.symbol sym = i := by
  have get : ∀ {id : Nat}, some (d.order id) = some i → (∃ o, g.getOrder id = some o ∧ o.symbolId = sym) → d.symbol sym = i := by
    rintro id h1 ⟨o, h2, rfl⟩
    rw [hi.getOrder] at h2
    rw [← hc id o h2]
    exact Option.some.inj h1
  cases op with
  | addSymbol s => exact ha ▸ Option.some.inj ho
  | deleteSymbol s => exact ha ▸ Option.some.inj ho
  | addOrderBook s => exact ha ▸ Option.some.inj ho
  | deleteOrderBook s => exact ha ▸ Option.some.inj ho
  | addOrder o => exact ha ▸ Option.some.inj ho
  | reduceOrder id q => exact get ho ha
  | modifyOrder id p q => exact get ho ha
  | mitigateOrder id p q => exact get ho ha
  | replaceOrder id n p q => exact get ho ha
  | replaceWith id o =>
    rcases ha with rfl | ha
    · exact hr.2.trans (Option.some.inj ho)
    · exact get ho ha
  | deleteOrder id => exact get ho ha
  | executeOrder id q => exact get ho ha
  | executeOrderAt id p q => exact get ho ha
  | enableMatching => cases ho
  | disableMatching => cases ho
  | matchAll => cases ho

/-- The callbacks of a call are about symbols of the manager it goes to. -/
theorem about (hr : g.Reachable) (hc : Goes (fun i s => d.order i = d.symbol s) g.orders) {op : Op} {g' : Mgr} {e : ErrorCode} {evs : List Event} (ha : g.Admissible op)
    (hs : g.step op = .ok (g', e)) (hev : g'.ev = g.ev ++ evs) {i : Nat} (ho : d.of op = some i) (hro : d.respects op) : ∀ x ∈ evs, d.symbol x.symbol = i := by
  intro x hx
  by_cases hn : g.Addresses op x.symbol
  · exact addresses hr.minv hc ho hro hn
  · obtain ⟨_, _, _, evs', h1, h2⟩ := C31_isolation hr ha hs hn
    rw [hev] at h1
    cases List.append_cancel_left h1
    exact absurd rfl (h2 x hx)

theorem other (t : Twins (fun i => i) d j h g) (hm : ∀ i o, h.orders i = some o → d.symbol o.symbolId = j) (hr : g.Reachable)
    (hc : Goes (fun i s => d.order i = d.symbol s) g.orders) {op : Op} {g' : Mgr} {e : ErrorCode} (ha : g.Admissible op)
    (hs : g.step op = .ok (g', e)) {i : Nat} (ho : d.of op = some i) (hij : i ≠ j) (hro : d.respects op) (hmt : g'.matching = g.matching) : Twins (fun i => i) d j h g' := by
  have hi := hr.minv
  have hi' : MInv g' := (hr.step ha hs).minv
  have hc' := d.keeps hi ha hs hro hc
  have iso : ∀ s, d.symbol s = j → _ := fun s h1 => C31_isolation hr ha hs (sym := s) (fun hn => hij ((addresses hi hc ho hro hn).symm.trans h1))
  refine ⟨hmt.trans t.matching, ?_, ?_, ?_, ?_, t.mine⟩
  · intro s h1
    exact (iso s h1).2.1.trans (t.symbols s h1)
  · intro s h1
    exact (iso s h1).1.trans (t.books s h1)
  · intro id o h1
    have := ((iso o.symbolId (hm id o h1)).2.2.1 id (renO (fun i => i) o) rfl).2 (by rw [hi.getOrder]; exact t.sub id o h1)
    rw [hi'.getOrder] at this
    exact this
  · intro id h1 h2
    show g'.orders id = none
    cases hx : g'.orders id with
    | none => rfl
    | some o =>
      have h3 : d.symbol o.symbolId = j := (hc' id o hx).symm.trans h1
      have := ((iso _ h3).2.2.1 id o rfl).1 (by rw [hi'.getOrder]; exact hx)
      rw [hi.getOrder, show g.orders id = none from t.back id h1 h2] at this
      cases this

/-! Matching all books. -/

theorem matchAt_none {g : Mgr} {i : Nat} (h : slot g.books i = none) : g.matchAt i = .ok g := by unfold Mgr.matchAt; rw [h]

theorem matchFrom_none : ∀ (is : List Nat) {g : Mgr}, (∀ i ∈ is, slot g.books i = none) → Mgr.matchFrom is g = .ok g
  | [], _, _ => rfl
  | i :: is, g, h => by
    unfold Mgr.matchFrom
    rw [matchAt_none (h i (List.mem_cons_self ..))]
    exact matchFrom_none is fun k hk => h k (List.mem_cons_of_mem _ hk)

theorem matchFrom_append : ∀ (a b : List Nat) (g : Mgr), Mgr.matchFrom (a ++ b) g = (Mgr.matchFrom a g >>= fun g => Mgr.matchFrom b g)
  | [], b, g => rfl
  | i :: a, b, g => by
    show (g.matchAt i >>= fun g => Mgr.matchFrom (a ++ b) g) = ((g.matchAt i >>= fun g => Mgr.matchFrom a g) >>= fun g => Mgr.matchFrom b g)
    cases g.matchAt i with
    | error e => rfl
    | ok g1 => exact matchFrom_append a b g1

theorem matchAll_more {g g' : Mgr} (hi : MInv g) (m : Nat) (run : g.matchAll = .ok g') : Mgr.matchFrom (List.range (g.books.length + m)) g = .ok g' := by
  obtain ⟨g1, a1, _, _, _, _, _, _, a8, _⟩ := matchFrom_ok (List.range g.books.length) List.nodup_range hi
  have e : g' = g1 := by
    have : g.matchAll = .ok g1 := a1
    rw [run] at this; cases this; rfl
  subst e
  rw [List.range_add, matchFrom_append, a1]
  refine matchFrom_none _ fun i hi => ?_
  obtain ⟨k, _, rfl⟩ := List.mem_map.1 hi
  exact slot_none_of_len (by omega)

theorem matchFrom (hf : ∀ a b, f a = f b → a = b) (hz : ∀ i, f i = 0 ↔ i = 0) : ∀ (is : List Nat) {h g h' g' : Mgr}, Twins f d j h g → MInv h → MInv g →
    Goes (fun _ s => d.symbol s = j) h.orders → Goes (fun k s => ∀ id, k = f id → d.order id = d.symbol s) g.orders →
    Mgr.matchFrom is h = .ok h' → Mgr.matchFrom is g = .ok g' →
    Twins f d j h' g' ∧ ∃ x w, h'.ev = h.ev ++ x ∧ g'.ev = g.ev ++ w ∧ d.events j w = x.map (renE f)
  | [], h, g, h', g', t, _, _, _, _, r1, r2 => by
    cases r1; cases r2
    exact ⟨t, [], [], by simp, by simp, rfl⟩
  | i :: is, h, g, h', g', t, hh, hg, hm, hc, r1, r2 => by
    unfold Mgr.matchFrom at r1 r2
    obtain ⟨h1, s1, r1⟩ := bind_inv r1
    obtain ⟨g1, s2, r2⟩ := bind_inv r2
    obtain ⟨h1', a1, a2, a3, _⟩ := matchAt_ok hh i
    rw [s1] at a1; cases a1
    obtain ⟨g1', b1, b2, b3, _, b5, b6, b7, _, b9⟩ := matchAt_ok hg i
    rw [s2] at b1; cases b1
    have m1 := (a3.mono (B := fun _ l => EngL l) fun _ _ h => h.2).goes hh hm
    have c1 := (b3.mono (B := fun _ l => EngL l) fun _ _ h => h.2).goes hg hc
    have key : Twins f d j h1 g1 ∧ ∃ x w, h1.ev = h.ev ++ x ∧ g1.ev = g.ev ++ w ∧ d.events j w = x.map (renE f) := by
      obtain ⟨w, ls, hE⟩ := b3.events hg
      have hsym : ∀ e ∈ w, e.symbol = i := fun e he => (hE.sym e he).choose_spec.1
      by_cases hij : d.symbol i = j
      · have hall : d.events j w = w := by
          unfold Division.events
          rw [List.filter_eq_self]
          intro e he
          rw [hsym e he]
          exact decide_eq_true hij
        cases hb : slot h.books i with
        | none =>
          have hb' : slot g.books i = none := by rw [t.books i hij, hb]; rfl
          rw [matchAt_none hb] at s1; cases s1
          rw [matchAt_none hb'] at s2; cases s2
          exact ⟨t, [], [], by simp, by simp, rfl⟩
        | some b =>
          have hb' : slot g.books i = some (renB f b) := by rw [t.books i hij, hb]; rfl
          unfold Mgr.matchAt at s1 s2
          rw [hb] at s1
          rw [hb'] at s2
          obtain ⟨c, u1, u2⟩ := bind_inv s1
          cases u2
          obtain ⟨c', u3, u4⟩ := (t.twin b).matchBook hf hz c u1
          simp only [u3] at s2
          cases s2
          obtain ⟨x, y1, y2⟩ := u4.ev
          refine ⟨t.written hij hb u4, x, w, y1, hE.ev, ?_⟩
          rw [hall]
          have y3 : c'.ev = g.ev ++ w := hE.ev
          rw [y2] at y3
          exact (List.append_cancel_left y3).symm
      · rw [matchAt_none (t.mine i hij)] at s1; cases s1
        refine ⟨⟨b7.trans t.matching, ?_, ?_, ?_, ?_, t.mine⟩, [], w, by simp, hE.ev, ?_⟩
        · intro s h1
          rw [b9]; exact t.symbols s h1
        · intro s h1
          rw [b5 s (by rintro rfl; exact hij h1)]; exact t.books s h1
        · intro id o ho
          refine b6.keep _ _ (t.sub id o ho) ?_
          intro e
          exact hij ((show i = o.symbolId from e.symm) ▸ hm id o ho)
        · intro id h1 h2
          cases hx : g1.orders (f id) with
          | none => rfl
          | some o =>
            have h3 : d.symbol o.symbolId = j := (c1 _ o hx id rfl).symm.trans h1
            have := b6.back _ _ hx (by intro e; exact hij (e ▸ h3))
            rw [t.back id h1 h2] at this
            cases this
        · show d.events j w = []
          unfold Division.events
          rw [List.filter_eq_nil_iff]
          intro e he
          rw [hsym e he]
          simpa using hij
    obtain ⟨t1, x1, w1, e1, e2, e3⟩ := key
    obtain ⟨t2, x2, w2, e4, e5, e6⟩ := matchFrom hf hz is t1 a2 b2 m1 c1 r1 r2
    refine ⟨t2, x1 ++ x2, w1 ++ w2, by rw [e4, e1, List.append_assoc], by rw [e5, e2, List.append_assoc], ?_⟩
    unfold Division.events at *
    rw [List.filter_append, e3, e6, List.map_append]

theorem matchAll (hf : ∀ a b, f a = f b → a = b) (hz : ∀ i, f i = 0 ↔ i = 0) (t : Twins f d j h g) (hh : MInv h) (hg : MInv g)
    (hm : Goes (fun _ s => d.symbol s = j) h.orders) (hc : Goes (fun k s => ∀ id, k = f id → d.order id = d.symbol s) g.orders) {h' g' : Mgr}
    (r1 : h.matchAll = .ok h') (r2 : g.matchAll = .ok g') :
    Twins f d j h' g' ∧ ∃ x w, h'.ev = h.ev ++ x ∧ g'.ev = g.ev ++ w ∧ d.events j w = x.map (renE f) := by
  have q1 := matchAll_more hh g.books.length r1
  have q2 := matchAll_more hg h.books.length r2
  rw [Nat.add_comm] at q2
  exact matchFrom hf hz _ t hh hg hm hc q1 q2

/-- A call that goes to all managers. -/
theorem all (hf : ∀ a b, f a = f b → a = b) (hz : ∀ i, f i = 0 ↔ i = 0) (t : Twins f d j h g) (hh : MInv h) (hg : MInv g)
    (hm : Goes (fun _ s => d.symbol s = j) h.orders) (hc : Goes (fun k s => ∀ id, k = f id → d.order id = d.symbol s) g.orders) {op : Op} (ho : d.of op = none)
    {h' g' : Mgr} {e e' : ErrorCode} (r1 : h.step op = .ok (h', e)) (r2 : g.step (renOp f op) = .ok (g', e')) :
    e = e' ∧ Twins f d j h' g' ∧ ∃ x w, h'.ev = h.ev ++ x ∧ g'.ev = g.ev ++ w ∧ d.events j w = x.map (renE f) := by
  cases op with
  | enableMatching =>
    obtain ⟨h1, a1, a2⟩ := bind_inv (show (({ h with matching := true }).matchAll >>= fun s => Except.ok (s, ErrorCode.ok)) = Except.ok (h', e) from r1)
    cases a2
    obtain ⟨g1, b1, b2⟩ := bind_inv (show (({ g with matching := true }).matchAll >>= fun s => Except.ok (s, ErrorCode.ok)) = Except.ok (g', e') from r2)
    cases b2
    exact ⟨rfl, matchAll hf hz (h := { h with matching := true }) (g := { g with matching := true }) ⟨rfl, t.symbols, t.books, t.sub, t.back, t.mine⟩
      ⟨hh.orders, hh.books, hh.symbols⟩ ⟨hg.orders, hg.books, hg.symbols⟩ hm hc a1 b1⟩
  | disableMatching =>
    cases r1; cases r2
    exact ⟨rfl, ⟨rfl, t.symbols, t.books, t.sub, t.back, t.mine⟩, [], [], by simp, by simp, rfl⟩
  | matchAll =>
    obtain ⟨h1, a1, a2⟩ := bind_inv (show (h.matchAll >>= fun s => Except.ok (s, ErrorCode.ok)) = Except.ok (h', e) from r1)
    cases a2
    obtain ⟨g1, b1, b2⟩ := bind_inv (show (g.matchAll >>= fun s => Except.ok (s, ErrorCode.ok)) = Except.ok (g', e') from r2)
    cases b2
    exact ⟨rfl, t.matchAll hf hz hh hg hm hc a1 b1⟩
  | _ => cases ho

/-! What may be called. -/

theorem fits (t : Twins f d j h g) {sym q : Nat} (hs : d.symbol sym = j) : h.Fits sym q ↔ g.Fits sym q := by
  have hv : ∀ b, volume (renB f b) = volume b := fun b => by unfold volume; simp only [Twin.kindVolume_ren]
  have e : g.getBook sym = (h.getBook sym).map (renB f) := t.books sym hs
  unfold Mgr.Fits
  rw [e]
  constructor
  · intro h1 b hb
    obtain ⟨c, h2, rfl⟩ := Option.map_eq_some_iff.1 hb
    have := h1 c h2
    rw [hv]; exact this
  · intro h1 b hb
    have := h1 (renB f b) (by rw [hb]; rfl)
    rw [hv] at this; exact this

end Twins
end CppTrader
