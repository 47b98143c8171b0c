import Verif.Proof.Ops
/-
The manager: invariant over all books, isolation of symbols, decomposition of public calls.
-/

namespace CppTrader
open Core

/-! ### Isolation -/

/-- `m'` agrees with `m` on the orders of all symbols but `sym`. -/
structure Iso (sym : Nat) (m m' : Nat → Option Order) : Prop where
  keep : ∀ i o, m i = some o → o.symbolId ≠ sym → m' i = some o
  back : ∀ i o, m' i = some o → o.symbolId ≠ sym → m i = some o

theorem Iso.refl (sym m) : Iso sym m m := ⟨fun _ _ h _ => h, fun _ _ h _ => h⟩
theorem Iso.trans {sym m m1 m2} (h : Iso sym m m1) (h' : Iso sym m1 m2) : Iso sym m m2 :=
  ⟨fun i o h1 h2 => h'.keep i o (h.keep i o h1 h2) h2, fun i o h1 h2 => h.back i o (h'.back i o h1 h2) h2⟩

theorem Iso.setO {sym : Nat} {m : Nat → Option Order} {id : Nat} {v : Option Order}
    (h1 : ∀ o, m id = some o → o.symbolId = sym) (h2 : ∀ o, v = some o → o.symbolId = sym) : Iso sym m (setO m id v) := by
  constructor
  · intro i o h hne
    by_cases e : i = id
    · subst e; exact absurd (h1 o h) hne
    · rw [setO_other _ _ e]; exact h
  · intro i o h hne
    by_cases e : i = id
    · subst e; simp at h; exact absurd (h2 o h) hne
    · rw [setO_other _ _ e] at h; exact h

theorem afterFill_some {o o' : Order} {q} (h : afterFill o q = some o') : o' = o.filled q := by
  unfold afterFill at h; split at h <;> simp_all

theorem Fill.iso {s o p q s'} (f : Fill s o p q s') (hi : Inv s) :
    Iso s.book.symbol.id s.orders s'.orders ∧ s'.book.symbol = s.book.symbol := by
  have e := f.eff hi
  refine ⟨?_, e.same.symbol⟩
  rw [e.orders]
  refine Iso.setO ?_ ?_
  · intro o' h; rw [f.pre.mem] at h; cases h; exact f.pre.sym
  · intro o' h; rw [afterFill_some h]; exact f.pre.sym

theorem Fills.iso {p s xs s'} (f : Fills p s xs s') (hi : Inv s) :
    Iso s.book.symbol.id s.orders s'.orders ∧ s'.book.symbol = s.book.symbol := by
  induction f with
  | nil => exact ⟨.refl _ _, rfl⟩
  | cons f _ ih =>
    obtain ⟨a, b⟩ := f.iso hi
    obtain ⟨c, d⟩ := ih (f.eff hi).inv
    rw [b] at c
    exact ⟨a.trans c, d.trans b⟩

theorem Step.iso {l s t s' t'} (st : Step l s t s' t') (hc : CInv s t) :
    Iso s.book.symbol.id s.orders s'.orders ∧ s'.book.symbol = s.book.symbol := by
  obtain ⟨hi, hf⟩ := hc
  cases st with
  | trade fill head side reach qty nf na =>
    obtain ⟨a, b⟩ := fill.iso hi
    exact ⟨a, (execTaker_symbol ..).trans b⟩
  | sweep fills sum pos sides tif =>
    obtain ⟨a, b⟩ := fills.iso hi
    exact ⟨a, (execTaker_symbol ..).trans b⟩
  | pair fe fr side ne nae nar crossed =>
    obtain ⟨a, b⟩ := fe.iso hi
    obtain ⟨c, d⟩ := fr.iso (fe.eff hi).inv
    rw [b] at c
    exact ⟨a.trans c, d.trans b⟩
  | cross f1 f2 ne aon side =>
    obtain ⟨a, b⟩ := f1.iso hi
    obtain ⟨c, d⟩ := f2.iso (f1.inv hi).1
    rw [b] at c
    exact ⟨a.trans c, d.trans b⟩
  | take mem sym run =>
    obtain ⟨k, a1, a2, a3, a4, a5, a6⟩ := hi.take mem sym run
    refine ⟨?_, a4.symbol⟩
    rw [a3.orders]
    exact Iso.setO (fun o' h => by rw [mem] at h; cases h; exact sym) (by simp)
  | put fresh pos nm tif run =>
    obtain ⟨k, a1, a2, a3, a4, _⟩ := hi.put (hf _ rfl) fresh pos nm tif run
    refine ⟨?_, a4.symbol⟩
    rw [a3.orders]
    exact Iso.setO (fun o' h => by rw [fresh] at h; cases h) (fun o' h => by cases h; exact (hf _ rfl).sym)
  | cancel => exact ⟨.refl _ _, rfl⟩
  | activate ty trig => exact ⟨.refl _ _, rfl⟩
  | bound ty lim => exact ⟨.refl _ _, rfl⟩
  | retrail ty ne => exact ⟨.refl _ _, rfl⟩
  | mark => exact ⟨.refl _ _, rfl⟩
  | reset => exact ⟨.refl _ _, rfl⟩
  | arrive rep idp sym vol tr => exact ⟨.refl _ _, rfl⟩
  | reduce mem sym pos run =>
    obtain ⟨k, a1, a2, a3, a4, _⟩ := hi.reduce mem sym run
    refine ⟨?_, a4.symbol⟩
    rw [a3.orders]
    refine Iso.setO (fun o' h => by rw [mem] at h; cases h; exact sym) ?_
    intro o' h
    split at h
    · cases h
    · cases h; exact sym
  | execute mem sym pos le run =>
    rename_i o p q s1
    obtain ⟨k, s2, a1, a2, a3, a4, a5, _⟩ := hi.execute_ok mem sym p q le
    have run' : (s.reported o p q).shrink (o.filled q) q
        (o.hiddenQty - (o.filled q).hiddenQty) (o.visibleQty - (o.filled q).visibleQty) = .ok s1 := run
    rw [run'] at a2; cases a2
    refine ⟨?_, a5.symbol.trans (updatePrices_symbol ..)⟩
    show Iso _ _ s1.orders
    rw [a4.orders]
    exact Iso.setO (m := s.orders) (fun o' h => by rw [mem] at h; cases h; exact sym)
      (fun o' h => by rw [afterFill_some h]; exact sym)
  | modify rep pos vol => exact ⟨.refl _ _, rfl⟩
  | vanish zero => exact ⟨.refl _ _, rfl⟩

theorem Steps.iso {A s t s' t'} (h : Steps A s t s' t') (hc : CInv s t) :
    Iso s.book.symbol.id s.orders s'.orders ∧ s'.book.symbol = s.book.symbol := by
  induction h with
  | refl => exact ⟨.refl _ _, rfl⟩
  | head _ st _ ih =>
    obtain ⟨a, b⟩ := st.iso hc
    obtain ⟨c, d⟩ := ih (st.inv hc)
    rw [b] at c
    exact ⟨a.trans c, d.trans b⟩

theorem BookOK.iso {sym m m' b} (h : BookOK m b) (hi : Iso sym m m') (hne : b.symbol.id ≠ sym) : BookOK m' b := by
  constructor
  · intro k
    refine (h.kinds k).congr ?_
    intro i hq
    obtain ⟨o, h1, h2, _⟩ := h.queue_mem (k := k) hq
    rw [h1, hi.keep i o h1 (by rw [h2]; exact hne)]
  · intro i o h1 h2
    exact h.complete i o (hi.back i o h1 (by rw [h2]; exact hne)) h2

/-! ### The manager invariant -/

structure MInv (g : Mgr) : Prop where
  orders : OrdersOK g.orders
  books : ∀ i b, slot g.books i = some b → b.symbol.id = i ∧ BookOK g.orders b ∧ volume b < W64
  symbols : ∀ i s, slot g.symbols i = some s → s.id = i ∧ i < 4294967295

/-- The part of the manager an operation on the book of `sym` works on. -/
def Mgr.core (g : Mgr) (b : Book) : Core := ⟨g.orders, b, g.ev⟩

/-- Write a core back. -/
def Mgr.put (g : Mgr) (sym : Nat) (c : Core) : Mgr :=
  { g with orders := c.orders, books := g.books.set sym (some c.book), ev := c.ev }

theorem slot_set_same {α} {v : List (Option α)} {i : Nat} {x : Option α} (h : i < v.length) : slot (v.set i x) i = x := by
  unfold slot; rw [List.getElem?_set]; simp [h]

theorem slot_set_other {α} {v : List (Option α)} {i j : Nat} {x : Option α} (h : j ≠ i) : slot (v.set i x) j = slot v j := by
  unfold slot; rw [List.getElem?_set]; simp [Ne.symm h]

theorem slot_lt {α} {v : List (Option α)} {i : Nat} {x : α} (h : slot v i = some x) : i < v.length := by
  unfold slot at h
  by_cases hl : i < v.length
  · exact hl
  · rw [List.getElem?_eq_none (by omega)] at h; cases h

theorem slot_resize {α} (v : List (Option α)) {n : Nat} (h : v.length ≤ n) (i : Nat) : slot (resizeTo v n) i = slot v i := by
  unfold slot resizeTo
  rw [List.take_of_length_le h, List.getElem?_append]
  split
  · rfl
  · rename_i hl
    rw [List.getElem?_eq_none (by omega : v.length ≤ i), List.getElem?_replicate]
    split <;> rfl

theorem MInv.inv {g : Mgr} (h : MInv g) {sym b} (hb : slot g.books sym = some b) : Inv (g.core b) ∧ b.symbol.id = sym := by
  obtain ⟨a, c, d⟩ := h.books sym b hb
  exact ⟨⟨c, h.orders, d⟩, a⟩

theorem MInv.put {g : Mgr} (h : MInv g) {sym b s' A} (hb : slot g.books sym = some b)
    (hs : Steps A (g.core b) none s' none) : MInv (g.put sym s') := by
  obtain ⟨hi, hid⟩ := h.inv hb
  have hc := hs.inv (CInv.none_iff.2 hi)
  obtain ⟨iso, hsym⟩ := hs.iso (CInv.none_iff.2 hi)
  refine ⟨hc.inv.orders, ?_, h.symbols⟩
  intro i b' hb'
  by_cases e : i = sym
  · subst e
    simp only [Mgr.put] at hb'
    rw [slot_set_same (slot_lt hb)] at hb'
    cases hb'
    exact ⟨by rw [hsym]; exact hid, hc.inv.book, hc.inv.vol⟩
  · simp only [Mgr.put] at hb'
    rw [slot_set_other e] at hb'
    obtain ⟨a, c, d⟩ := h.books i b' hb'
    refine ⟨a, c.iso iso ?_, d⟩
    show b'.symbol.id ≠ b.symbol.id
    rw [a, hid]; exact e

theorem put_getBook_same {g : Mgr} {sym b c} (hb : slot g.books sym = some b) : slot (g.put sym c).books sym = some c.book :=
  slot_set_same (slot_lt hb)
theorem put_getBook_other {g : Mgr} {sym c i} (h : i ≠ sym) : slot (g.put sym c).books i = slot g.books i :=
  slot_set_other h

/-- An order operation on the book of `sym` was carried out. -/
structure BookOp (tag : Tag) (sym : Nat) (g g' : Mgr) (e : ErrorCode) : Prop where
  ex : ∃ b s', slot g.books sym = some b ∧ OpEff g.matching tag.adds tag (g.core b) s' e ∧ g' = g.put sym s'

theorem BookOp.minv {tag sym g g' e} (h : BookOp tag sym g g' e) (hi : MInv g) : MInv g' := by
  obtain ⟨b, s', h1, h2, rfl⟩ := h.ex
  exact hi.put h1 h2.steps

theorem BookOp.matching {tag sym g g' e} (h : BookOp tag sym g g' e) : g'.matching = g.matching := by
  obtain ⟨b, s', h1, h2, rfl⟩ := h.ex; rfl

theorem onBook_ok {g : Mgr} (hi : MInv g) {sym tag f}
    (hf : ∀ b, slot g.books sym = some b → Inv (g.core b) → b.symbol.id = sym →
      ∃ s' e, f (g.core b) = .ok (s', e) ∧ OpEff g.matching tag.adds tag (g.core b) s' e) :
    ∃ g' e, g.onBook sym f = .ok (g', e) ∧
      (g' = g ∧ e = .orderBookNotFound ∧ g.getBook sym = none ∨ BookOp tag sym g g' e) := by
  unfold Mgr.onBook
  cases hb : slot g.books sym with
  | none => exact ⟨g, _, rfl, .inl ⟨rfl, rfl, hb⟩⟩
  | some b =>
    obtain ⟨h1, h2⟩ := hi.inv hb
    obtain ⟨s', e, e1, e2⟩ := hf b hb h1 h2
    refine ⟨g.put sym s', e, ?_, .inr ⟨b, s', hb, e2, rfl⟩⟩
    simp only
    rw [show (⟨g.orders, b, g.ev⟩ : Core) = g.core b from rfl, e1, Except.bind_ok]
    rfl

theorem getOrder_eq {g : Mgr} {id} (h : id ≠ 0) : g.getOrder id = g.orders id := by simp [Mgr.getOrder, h]

theorem MInv.getOrder {g : Mgr} (hi : MInv g) (id) : g.getOrder id = g.orders id := by
  unfold Mgr.getOrder
  split
  · rename_i h; subst h
    cases ho : g.orders 0 with
    | none => rfl
    | some o => have := hi.orders 0 o ho; have h2 := this.2.idPos; omega
  · rfl

/-- Which book operation a public call is. -/
def Op.on (g : Mgr) : Op → Tag → Nat → Prop
  | .addOrder o, tag, sym => tag = .add (g.trailMarket o.symbolId o.side) o ∧ sym = o.symbolId
  | .reduceOrder id _, tag, sym => tag = .reduce ∧ ∃ o, g.orders id = some o ∧ o.symbolId = sym
  | .modifyOrder id _ _, tag, sym => tag = .modify ∧ ∃ o, g.orders id = some o ∧ o.symbolId = sym
  | .mitigateOrder id _ _, tag, sym => tag = .modify ∧ ∃ o, g.orders id = some o ∧ o.symbolId = sym
  | .replaceOrder id n p q, tag, sym => ∃ o, tag = .replace { o with id := n, price := p, quantity := q, executed := 0, leaves := q } o ∧ g.orders id = some o ∧ o.symbolId = sym
  | .deleteOrder id, tag, sym => tag = .delete ∧ ∃ o, g.orders id = some o ∧ o.symbolId = sym
  | .executeOrder id _, tag, sym => tag = .execute ∧ ∃ o, g.orders id = some o ∧ o.symbolId = sym
  | .executeOrderAt id _ _, tag, sym => tag = .execute ∧ ∃ o, g.orders id = some o ∧ o.symbolId = sym
  | _, _, _ => False

/-- A call refused without any effect. -/
def Refused (g : Mgr) (r : Option ErrorCode) (g' : Mgr) (e : ErrorCode) : Prop := g' = g ∧ e ≠ .ok ∧ e ≠ .orderDuplicate ∧ r = some e

theorem ite_ne {α} {c : Prop} [Decidable c] {a b d : α} (h1 : a ≠ d) (h2 : b ≠ d) : (if c then a else b) ≠ d := by
  split <;> assumption

theorem validate_ne_dup (o : Order) : o.validate ≠ .orderDuplicate := by
  unfold Order.validate
  repeat' apply ite_ne
  all_goals exact fun h => by cases h

theorem trailMarket_book {g : Mgr} {sym : Nat} {b : Book} (h : g.getBook sym = some b) (sd : Side) :
    g.trailMarket sym sd = b.trailMarket sd := by
  unfold Mgr.trailMarket Book.trailMarket
  rw [h]; cases sd <;> rfl

theorem addOrder_mgr {g : Mgr} (hi : MInv g) {o : Order} (hr : o.Repr64) (hf : g.Fits o.symbolId o.leaves) :
    ∃ g' e, g.addOrder o = .ok (g', e) ∧ (Refused g (g.refusal (.addOrder o)) g' e ∨ o.validate = .ok ∧ BookOp (.add (g.trailMarket o.symbolId o.side) o) o.symbolId g g' e) := by
  unfold Mgr.addOrder
  by_cases hv : o.validate = .ok
  · simp only [hv, ne_eq, not_true, if_false]
    obtain ⟨g', e, e1, e2⟩ := onBook_ok hi (sym := o.symbolId) (tag := .add (g.trailMarket o.symbolId o.side) o) (f := fun c => c.addAny g.matching o)
      (fun b hb h1 h2 => by rw [trailMarket_book hb]; exact addAny_ok h1 hv hr h2.symm (hf b hb))
    refine ⟨g', e, e1, ?_⟩
    rcases e2 with ⟨a, b, hb⟩ | e2
    · left; exact ⟨a, by simp [b], by simp [b], by simp [Mgr.refusal, hv, b, hb]⟩
    · right; exact ⟨trivial, e2⟩
  · simp only [hv, ne_eq, not_false_eq_true, if_true]
    exact ⟨g, _, rfl, .inl ⟨rfl, hv, validate_ne_dup o, by simp [Mgr.refusal, hv]⟩⟩

theorem onOrder_ok {g : Mgr} (hi : MInv g) {id tag f}
    (hf : ∀ o b, g.orders id = some o → slot g.books o.symbolId = some b → Inv (g.core b) → o.symbolId = b.symbol.id →
      o.id = id → ∃ s' e, f o (g.core b) = .ok (s', e) ∧ OpEff g.matching tag.adds tag (g.core b) s' e) :
    ∃ g' e, g.onOrder id f = .ok (g', e) ∧
      (Refused g (g.orderRefusal id) g' e ∨ ∃ o, g.orders id = some o ∧ BookOp tag o.symbolId g g' e) := by
  unfold Mgr.onOrder
  cases ho : g.orders id with
  | none => exact ⟨g, _, rfl, .inl ⟨rfl, by simp, by simp, by simp [Mgr.orderRefusal, hi.getOrder, ho]⟩⟩
  | some o =>
    obtain ⟨g', e, e1, e2⟩ := onBook_ok hi (sym := o.symbolId) (tag := tag) (f := f o)
      (fun b hb h1 h2 => hf o b ho hb h1 h2.symm (hi.orders id o ho).1)
    refine ⟨g', e, e1, ?_⟩
    rcases e2 with ⟨a, b, hb⟩ | e2
    · left; exact ⟨a, by simp [b], by simp [b], by simp [Mgr.orderRefusal, hi.getOrder, ho, hb, b]⟩
    · right; exact ⟨o, rfl, e2⟩

theorem reduceOrder_mgr {g : Mgr} (hi : MInv g) (id q : Nat) :
    ∃ g' e, g.reduceOrder id q = .ok (g', e) ∧ (Refused g (g.refusal (.reduceOrder id q)) g' e ∨ ∃ o, g.orders id = some o ∧ BookOp .reduce o.symbolId g g' e) := by
  unfold Mgr.reduceOrder
  by_cases h0 : id = 0
  · simp only [h0, if_true]; exact ⟨g, _, rfl, .inl ⟨rfl, by simp, by simp, by simp [Mgr.refusal]⟩⟩
  by_cases h1 : q = 0
  · simp only [h0, h1, if_true, if_false]; exact ⟨g, _, rfl, .inl ⟨rfl, by simp, by simp, by simp [Mgr.refusal, h0]⟩⟩
  simp only [h0, h1, if_false]
  rw [show g.refusal (.reduceOrder id q) = g.orderRefusal id from by simp [Mgr.refusal, h0, h1]]
  exact onOrder_ok hi fun o b ho hb h2 h3 h4 => reduceOp_ok h2 (by rw [h4]; exact ho) h3 (by omega)

theorem modifyOrder_mgr {g : Mgr} (hi : MInv g) (id p q : Nat) (mit : Bool) (hp : p < W64) (hq : q < W64)
    (hf : ∀ o, g.getOrder id = some o → g.Fits o.symbolId q) :
    ∃ g' e, g.modifyOrder id p q mit = .ok (g', e) ∧
      (Refused g (g.refusal (.modifyOrder id p q)) g' e ∨ ∃ o, g.orders id = some o ∧ BookOp .modify o.symbolId g g' e) := by
  unfold Mgr.modifyOrder
  by_cases h0 : id = 0
  · simp only [h0, if_true]; exact ⟨g, _, rfl, .inl ⟨rfl, by simp, by simp, by simp [Mgr.refusal]⟩⟩
  by_cases h1 : q = 0
  · simp only [h0, h1, if_true, if_false]; exact ⟨g, _, rfl, .inl ⟨rfl, by simp, by simp, by simp [Mgr.refusal, h0]⟩⟩
  simp only [h0, h1, if_false]
  rw [show g.refusal (.modifyOrder id p q) = g.orderRefusal id from by simp [Mgr.refusal, h0, h1]]
  exact onOrder_ok hi fun o b ho hb h2 h3 h4 => modifyOp_ok h2 (by rw [h4]; exact ho) h3 hp hq
    (hf o (by rw [getOrder_eq h0]; exact ho) b hb)

theorem deleteOrder_mgr {g : Mgr} (hi : MInv g) (id : Nat) :
    ∃ g' e, g.deleteOrder id = .ok (g', e) ∧ (Refused g (g.refusal (.deleteOrder id)) g' e ∨ ∃ o, g.orders id = some o ∧ BookOp .delete o.symbolId g g' e) ∧
      (∀ sym b', slot g'.books sym = some b' → ∃ b, slot g.books sym = some b ∧ volume b' ≤ volume b) := by
  have key : ∀ g' e, Refused g (g.refusal (.deleteOrder id)) g' e → (∀ sym b', slot g'.books sym = some b' → ∃ b, slot g.books sym = some b ∧ volume b' ≤ volume b) := by
    rintro g' e ⟨rfl, _⟩ sym b' hb; exact ⟨b', hb, Nat.le_refl _⟩
  unfold Mgr.deleteOrder
  by_cases h0 : id = 0
  · rw [if_pos h0]
    have : Refused g (g.refusal (.deleteOrder id)) g .orderIdInvalid := ⟨rfl, by simp, by simp, by simp [Mgr.refusal, h0]⟩
    exact ⟨g, _, rfl, .inl this, key _ _ this⟩
  simp only [h0, if_false]
  unfold Mgr.onOrder
  cases ho : g.orders id with
  | none =>
    have : Refused g (g.refusal (.deleteOrder id)) g .orderNotFound := ⟨rfl, by simp, by simp, by simp [Mgr.refusal, h0, Mgr.orderRefusal, hi.getOrder, ho]⟩
    exact ⟨g, _, rfl, .inl this, key _ _ this⟩
  | some o =>
    simp only
    unfold Mgr.onBook
    cases hb : slot g.books o.symbolId with
    | none =>
      have : Refused g (g.refusal (.deleteOrder id)) g .orderBookNotFound := ⟨rfl, by simp, by simp, by simp [Mgr.refusal, h0, Mgr.orderRefusal, hi.getOrder, ho, Mgr.getBook, hb]⟩
      exact ⟨g, _, rfl, .inl this, key _ _ this⟩
    | some b =>
      obtain ⟨h1, h2⟩ := hi.inv hb
      obtain ⟨s', e, e1, e2, e3⟩ := deleteOp_ok (m := g.matching) (o := o) h1
        (by have := (hi.orders id o ho).1; rw [this]; exact ho) h2.symm
      refine ⟨g.put o.symbolId s', e, ?_, .inr ⟨o, rfl, b, s', hb, e2, rfl⟩, ?_⟩
      · simp only
        rw [show (⟨g.orders, b, g.ev⟩ : Core) = g.core b from rfl, e1, Except.bind_ok]
        rfl
      · intro sym b' hb'
        by_cases e : sym = o.symbolId
        · subst e
          rw [put_getBook_same hb] at hb'; cases hb'
          exact ⟨b, hb, e3⟩
        · rw [put_getBook_other e] at hb'; exact ⟨b', hb', Nat.le_refl _⟩

theorem replaceOrder_mgr {g : Mgr} (hi : MInv g) (id n p q : Nat) (hn : n < W64) (hp : p < W64) (hq : q < W64)
    (hf : ∀ o, g.getOrder id = some o → g.Fits o.symbolId q) :
    ∃ g' e, g.replaceOrder id n p q = .ok (g', e) ∧
      (Refused g (g.refusal (.replaceOrder id n p q)) g' e ∨ ∃ o, g.orders id = some o ∧ BookOp (.replace { o with id := n, price := p, quantity := q, executed := 0, leaves := q } o) o.symbolId g g' e) := by
  unfold Mgr.replaceOrder
  by_cases h0 : id = 0
  · simp only [h0, if_true]; exact ⟨g, _, rfl, .inl ⟨rfl, by simp, by simp, by simp [Mgr.refusal]⟩⟩
  by_cases h1 : n = 0
  · simp only [h0, h1, if_true, if_false]; exact ⟨g, _, rfl, .inl ⟨rfl, by simp, by simp, by simp [Mgr.refusal]⟩⟩
  by_cases h2 : q = 0
  · simp only [h0, h1, h2, if_true, if_false]; exact ⟨g, _, rfl, .inl ⟨rfl, by simp, by simp, by simp [Mgr.refusal, h0, h1]⟩⟩
  simp only [h0, h1, h2, if_false]
  cases ho : g.orders id with
  | none => exact ⟨g, _, rfl, .inl ⟨rfl, by simp, by simp, by simp [Mgr.refusal, h0, h1, h2, hi.getOrder, ho]⟩⟩
  | some o =>
    simp only
    by_cases hl : o.isLimit = true
    · simp only [hl, if_true]
      obtain ⟨g', e, e1, e2⟩ := onBook_ok hi (sym := o.symbolId) (tag := .replace { o with id := n, price := p, quantity := q, executed := 0, leaves := q } o)
        (f := fun c => c.replaceOp g.matching o n p q)
        (fun b hb h3 h4 => replaceOp_ok h3 (by rw [(hi.orders id o ho).1]; exact ho) h4.symm
          (by simpa [Order.isLimit] using hl) (by omega) hn hp (by omega) hq (hf o (by rw [getOrder_eq h0]; exact ho) b hb))
      refine ⟨g', e, e1, ?_⟩
      rcases e2 with ⟨a, b, hb⟩ | e2
      · left; exact ⟨a, by simp [b], by simp [b], by simp [Mgr.refusal, h0, h1, h2, hi.getOrder, ho, hb, b, show o.type = .limit by simpa [Order.isLimit] using hl]⟩
      · right; exact ⟨o, rfl, e2⟩
    · simp only [hl, Bool.false_eq_true, if_false]
      exact ⟨g, _, rfl, .inl ⟨rfl, by simp, by simp, by simp [Mgr.refusal, h0, h1, h2, hi.getOrder, ho, show ¬ o.type = .limit by simpa [Order.isLimit] using hl]⟩⟩

theorem executeOrderAt_mgr {g : Mgr} (hi : MInv g) (id p q : Nat) :
    ∃ g' e, g.executeOrderAt id p q = .ok (g', e) ∧
      (Refused g (g.refusal (.executeOrderAt id p q)) g' e ∨ ∃ o, g.orders id = some o ∧ BookOp .execute o.symbolId g g' e) := by
  unfold Mgr.executeOrderAt
  by_cases h0 : id = 0
  · simp only [h0, if_true]; exact ⟨g, _, rfl, .inl ⟨rfl, by simp, by simp, by simp [Mgr.refusal]⟩⟩
  by_cases h1 : q = 0
  · simp only [h0, h1, if_true, if_false]; exact ⟨g, _, rfl, .inl ⟨rfl, by simp, by simp, by simp [Mgr.refusal, h0]⟩⟩
  simp only [h0, h1, if_false]
  rw [show g.refusal (.executeOrderAt id p q) = g.orderRefusal id from by simp [Mgr.refusal, h0, h1]]
  exact onOrder_ok hi fun o b ho hb h2 h3 h4 => executeOp_ok h2 (by rw [h4]; exact ho) h3 (by omega)

theorem executeOrder_mgr {g : Mgr} (hi : MInv g) (id q : Nat) :
    ∃ g' e, g.executeOrder id q = .ok (g', e) ∧
      (Refused g (g.refusal (.executeOrder id q)) g' e ∨ ∃ o, g.orders id = some o ∧ BookOp .execute o.symbolId g g' e) := by
  unfold Mgr.executeOrder
  by_cases h0 : id = 0
  · simp only [h0, if_true]; exact ⟨g, _, rfl, .inl ⟨rfl, by simp, by simp, by simp [Mgr.refusal]⟩⟩
  by_cases h1 : q = 0
  · simp only [h0, h1, if_true, if_false]; exact ⟨g, _, rfl, .inl ⟨rfl, by simp, by simp, by simp [Mgr.refusal, h0]⟩⟩
  simp only [h0, h1, if_false]
  rw [show g.refusal (.executeOrder id q) = g.orderRefusal id from by simp [Mgr.refusal, h0, h1]]
  exact onOrder_ok hi fun o b ho hb h2 h3 h4 => executeOp_ok h2 (by rw [h4]; exact ho) h3 (by omega)

/-- `ReplaceOrder(id, new_order)`: a deletion, then an addition that may be refused. -/
theorem replaceWith_mgr {g : Mgr} (hi : MInv g) (id : Nat) {o : Order} (hr : o.Repr64) (hf : g.Fits o.symbolId o.leaves) :
    ∃ g' e, g.replaceWith id o = .ok (g', e) ∧
      (Refused g (g.refusal (.replaceWith id o)) g' e ∨ ∃ old g1, g.orders id = some old ∧ BookOp .delete old.symbolId g g1 .ok ∧
        (Refused g1 (g1.refusal (.addOrder o)) g' e ∨ o.validate = .ok ∧ BookOp (.add (g1.trailMarket o.symbolId o.side) o) o.symbolId g1 g' e)) := by
  obtain ⟨g1, e, e1, e2, e3⟩ := deleteOrder_mgr hi id
  unfold Mgr.replaceWith
  rw [e1, Except.bind_ok]
  simp only
  by_cases he : e = .ok
  · subst he
    simp only [ne_eq, not_true, if_false]
    rcases e2 with e2 | ⟨old, e2, e4⟩
    · exact absurd rfl e2.2.1
    · obtain ⟨g', e', f1, f2⟩ := addOrder_mgr (e4.minv hi) hr (fun b hb => by
        obtain ⟨b0, h1, h2⟩ := e3 _ b hb
        have := hf b0 h1; omega)
      exact ⟨g', e', f1, .inr ⟨old, g1, e2, e4, f2⟩⟩
  · simp only [he, ne_eq, not_false_eq_true, if_true]
    refine ⟨g1, e, rfl, ?_⟩
    rcases e2 with e2 | ⟨old, e2, e4⟩
    · exact .inl e2
    · obtain ⟨b, s', h1, h2, h3⟩ := e4.ex
      rcases h2.code with h | h
      · exact absurd h he
      · obtain ⟨_, ⟨t, ht, _⟩, _⟩ := h2.dup h; cases ht

/-! ### Matching all books -/

/-- A sequence of steps on several books. -/
inductive Acts (A : Nat → Lbl → Prop) : Mgr → Mgr → Prop
  | refl (g) : Acts A g g
  | book {g sym b s' g'} : slot g.books sym = some b → Steps (A sym) (g.core b) none s' none →
      Acts A (g.put sym s') g' → Acts A g g'

theorem Acts.trans {A g g1 g2} (h : Acts A g g1) (h' : Acts A g1 g2) : Acts A g g2 := by
  induction h with
  | refl => exact h'
  | book a b _ ih => exact .book a b (ih h')

theorem Acts.mono {A B : Nat → Lbl → Prop} {g g'} (h : Acts A g g') (hab : ∀ n l, A n l → B n l) : Acts B g g' := by
  induction h with
  | refl => exact .refl _
  | book a b _ ih => exact .book a (b.mono (hab _)) ih

theorem Acts.minv {A g g'} (h : Acts A g g') (hi : MInv g) : MInv g' := by
  induction h with
  | refl => exact hi
  | book a b _ ih => exact ih (hi.put a b)

theorem BookOp.acts {tag sym g g' e} (h : BookOp tag sym g g' e) :
    Acts (fun n l => n = sym ∧ OpL g.matching tag l) g g' := by
  obtain ⟨b, s', h1, h2, rfl⟩ := h.ex
  exact .book h1 (h2.steps.mono fun _ h => ⟨rfl, h⟩) (.refl _)

/-- Result of `Match` for the book in a slot. -/
def MatchedAt (g : Mgr) (i : Nat) : Prop :=
  ∀ b, slot g.books i = some b → HasAON (g.core b) ∨ Uncrossed b ∧ Settled b

theorem matchAt_ok {g : Mgr} (hi : MInv g) (i : Nat) :
    ∃ g', g.matchAt i = .ok g' ∧ MInv g' ∧ Acts (fun n l => n = i ∧ EngL l) g g' ∧ MatchedAt g' i ∧
      (∀ j, j ≠ i → slot g'.books j = slot g.books j) ∧ Iso i g.orders g'.orders ∧ g'.matching = g.matching ∧
      g'.books.length = g.books.length ∧ g'.symbols = g.symbols := by
  unfold Mgr.matchAt
  cases hb : slot g.books i with
  | none => exact ⟨g, rfl, hi, .refl _, (fun b h => by rw [hb] at h; cases h), fun _ _ => rfl, .refl _ _, rfl, rfl, rfl⟩
  | some b =>
    obtain ⟨h1, h2⟩ := hi.inv hb
    obtain ⟨s', e1, e2, e3⟩ := matchBook_ok h1
    have hs := e2.steps
    refine ⟨g.put i s', ?_, hi.put hb hs, .book hb (hs.mono fun _ h => ⟨rfl, h⟩) (.refl _), ?_, ?_, ?_, rfl, ?_, rfl⟩
    · simp only
      rw [show (⟨g.orders, b, g.ev⟩ : Core) = g.core b from rfl, e1, Except.bind_ok]
      rfl
    · intro b' hb'
      rw [put_getBook_same hb] at hb'; cases hb'
      exact e3
    · intro j hj; exact put_getBook_other hj
    · have := (hs.iso (CInv.none_iff.2 h1)).1
      rw [show (g.core b).book.symbol.id = i from h2] at this
      exact this
    · simp [Mgr.put]

theorem MatchedAt.keep {g g' : Mgr} {i j : Nat} (hi : MInv g) (h : MatchedAt g i) (hne : i ≠ j)
    (hs : ∀ j', j' ≠ j → slot g'.books j' = slot g.books j') (hiso : Iso j g.orders g'.orders) : MatchedAt g' i := by
  intro b hb
  rw [hs i hne] at hb
  rcases h b hb with ⟨k, o, h1, h2, h3, h4⟩ | h
  · left
    refine ⟨k, o, hiso.keep k o h1 ?_, h2, h3, h4⟩
    rw [h2, show (g.core b).book.symbol.id = i from (hi.inv hb).2]; exact hne
  · exact .inr h

theorem matchFrom_ok (is : List Nat) (hnd : is.Nodup) : ∀ {g : Mgr}, MInv g →
    ∃ g', Mgr.matchFrom is g = .ok g' ∧ MInv g' ∧ Acts (fun n l => n ∈ is ∧ EngL l) g g' ∧ (∀ i ∈ is, MatchedAt g' i) ∧
      (∀ j, j ∉ is → slot g'.books j = slot g.books j) ∧
      (∀ j, j ∉ is → (∀ i o, o.symbolId = j → (g.orders i = some o ↔ g'.orders i = some o))) ∧
      g'.matching = g.matching ∧ g'.books.length = g.books.length ∧ g'.symbols = g.symbols := by
  induction is with
  | nil => intro g hi; exact ⟨g, rfl, hi, .refl _, by simp, by simp, by simp, rfl, rfl, rfl⟩
  | cons i is ih =>
    intro g hi
    obtain ⟨hni, hnd⟩ := List.nodup_cons.1 hnd
    obtain ⟨g1, a1, a2, a3, a4, a5, a6, a7, a8, a9⟩ := matchAt_ok hi i
    obtain ⟨g2, b1, b2, b3, b4, b5, b6, b7, b8, b9⟩ := ih hnd a2
    refine ⟨g2, by simp only [Mgr.matchFrom, a1, Except.bind_ok, b1], b2,
      (a3.mono fun n l h => ⟨by simp [h.1], h.2⟩).trans (b3.mono fun n l h => ⟨by simp [h.1], h.2⟩), ?_, ?_, ?_, b7.trans a7,
      b8.trans a8, b9.trans a9⟩
    · intro j hj
      rcases List.mem_cons.1 hj with rfl | hj
      · intro b hb
        rw [b5 j hni] at hb
        rcases a4 b hb with ⟨k, o, h1, h2, h3, h4⟩ | h
        · left
          refine ⟨k, o, (b6 j hni k o ?_).1 h1, h2, h3, h4⟩
          rw [h2]; exact (a2.inv hb).2
        · exact .inr h
      · exact b4 j hj
    · intro j hj
      simp only [List.mem_cons, not_or] at hj
      rw [b5 j hj.2, a5 j hj.1]
    · intro j hj k o ho
      simp only [List.mem_cons, not_or] at hj
      rw [← b6 j hj.2 k o ho]
      exact ⟨fun h => a6.keep k o h (by omega), fun h => a6.back k o h (by omega)⟩

theorem matchAll_ok {g : Mgr} (hi : MInv g) :
    ∃ g', g.matchAll = .ok g' ∧ MInv g' ∧ Acts (fun _ l => EngL l) g g' ∧ (∀ i, MatchedAt g' i) ∧
      g'.matching = g.matching ∧ g'.symbols = g.symbols := by
  obtain ⟨g', a1, a2, a3, a4, a5, a6, a7, a8, a9⟩ := matchFrom_ok (List.range g.books.length) List.nodup_range hi
  refine ⟨g', a1, a2, a3.mono fun _ _ h => h.2, ?_, a7, a9⟩
  intro i b hb
  exact a4 i (List.mem_range.2 (by rw [← a8]; exact slot_lt hb)) b hb

end CppTrader
