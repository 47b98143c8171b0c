import Verif.Revival
import Verif.Proof.Future
import Verif.Proof.PitMgr
import Verif.Proof.FeedAt
/-
A manager with orders left behind by deleted books, beside one without them.
-/

namespace CppTrader
open Core

/-- The second manager is the first one with the orders `L` added. -/
structure Haunts (L : Nat → Prop) (h g : Mgr) : Prop where
  matching : g.matching = h.matching
  symbols : g.symbols = h.symbols
  books : g.books = h.books
  same : ∀ id, ¬ L id → g.orders id = h.orders id
  gone : ∀ id, L id → h.orders id = none

/-- After a call. -/
def Haunted (L : Nat → Prop) (h g : Mgr) (v w : Mgr × ErrorCode) : Prop :=
  w.2 = v.2 ∧ w.1.matching = v.1.matching ∧ w.1.symbols = v.1.symbols ∧ w.1.books = v.1.books ∧
    (∀ id, ¬ L id → w.1.orders id = v.1.orders id) ∧ ∃ x, v.1.ev = h.ev ++ x ∧ w.1.ev = g.ev ++ x

abbrev asIs : Nat → Nat := fun i => i

theorem renE_id (x : List Event) : x.map (renE asIs) = x := renE_same_map x

namespace Haunts
variable {L : Nat → Prop} {h g : Mgr}

theorem refuse (t : Haunts L h g) (e : ErrorCode) : Ensues (Haunted L h g) (.ok (h, e)) (.ok (g, e)) :=
  .ok ⟨rfl, t.matching, t.symbols, t.books, t.same, [], by simp, by simp⟩

theorem twin (t : Haunts L h g) (b : Book) : Twin asIs (fun id => ¬ L id) h.ev g.ev ⟨h.orders, b, h.ev⟩ ⟨g.orders, b, g.ev⟩ := by
  refine ⟨(renB_same b).symm, fun id o ho => ?_, fun id hp ho => ?_, [], by simp, by simp⟩
  · have hl : ¬ L id := fun hl => by cases (t.gone id hl).symm.trans ho
    show g.orders id = some o
    rw [t.same id hl]; exact ho
  · show g.orders id = none
    rw [t.same id hp]; exact ho

theorem agree {a b : List Event} {v w : Core} (hv : Twin asIs (fun id => ¬ L id) a b v w) (id : Nat) (hl : ¬ L id) :
    w.orders id = v.orders id := by
  cases ho : v.orders id with
  | none => exact hv.back id hl ho
  | some o => exact hv.sub id o ho

theorem evs {a b : List Event} {v w : Core} (hv : Twin asIs (fun id => ¬ L id) a b v w) : ∃ x, v.ev = a ++ x ∧ w.ev = b ++ x := by
  obtain ⟨x, h1, h2⟩ := hv.ev
  rw [renE_id] at h2
  exact ⟨x, h1, h2⟩

theorem onBook (t : Haunts L h g) (sym : Nat) {F G : Core → Except Err (Core × ErrorCode)}
    (hF : ∀ {a b : List Event} {x y : Core}, Twin asIs (fun id => ¬ L id) a b x y → Ensues (Twin.With asIs (fun id => ¬ L id) a b) (F x) (G y)) :
    Ensues (Haunted L h g) (h.onBook sym F) (g.onBook sym G) := by
  unfold Mgr.onBook
  rw [t.books]
  cases hb : slot h.books sym with
  | none => exact t.refuse _
  | some b =>
    refine .bind (hF (t.twin b)) fun v w hv => ?_
    refine .ok ⟨hv.2, t.matching, t.symbols, ?_, agree hv.1, evs hv.1⟩
    show h.books.set sym (some w.1.book) = h.books.set sym (some v.1.book)
    rw [hv.1.book, renB_same]

theorem onOrder (t : Haunts L h g) {id : Nat} (hid : ¬ L id) {F G : Order → Core → Except Err (Core × ErrorCode)}
    (hF : ∀ {a b : List Event} {x y : Core} (o : Order), Twin asIs (fun id => ¬ L id) a b x y → Ensues (Twin.With asIs (fun id => ¬ L id) a b) (F o x) (G o y)) :
    Ensues (Haunted L h g) (h.onOrder id F) (g.onOrder id G) := by
  unfold Mgr.onOrder
  rw [t.same id hid]
  cases ho : h.orders id with
  | none => exact t.refuse _
  | some o => exact t.onBook _ fun tw => hF o tw

theorem inj : ∀ a b : Nat, asIs a = asIs b → a = b := fun _ _ h => h
theorem zero : ∀ i : Nat, asIs i = 0 ↔ i = 0 := fun _ => Iff.rfl

theorem guards (t : Haunts L h g) {id q : Nat} {x y : Except Err (Mgr × ErrorCode)} (k : Ensues (Haunted L h g) x y) :
    Ensues (Haunted L h g) (if id = 0 then .ok (h, .orderIdInvalid) else if q = 0 then .ok (h, .orderQuantityInvalid) else x)
      (if id = 0 then .ok (g, .orderIdInvalid) else if q = 0 then .ok (g, .orderQuantityInvalid) else y) :=
  .ite Iff.rfl (fun _ => t.refuse _) fun _ => .ite Iff.rfl (fun _ => t.refuse _) fun _ => k

theorem addOrder (t : Haunts L h g) {o : Order} (hid : ¬ L o.id) : Ensues (Haunted L h g) (h.addOrder o) (g.addOrder o) := by
  unfold Mgr.addOrder
  rw [t.matching]
  exact .ite Iff.rfl (fun _ => t.refuse _) fun _ => t.onBook _ fun tw => tw.addAny inj zero _ hid

theorem deleteOrder (t : Haunts L h g) {id : Nat} (hid : ¬ L id) : Ensues (Haunted L h g) (h.deleteOrder id) (g.deleteOrder id) := by
  unfold Mgr.deleteOrder
  rw [t.matching]
  exact .ite Iff.rfl (fun _ => t.refuse _) fun _ => t.onOrder hid fun o tw => tw.deleteOp inj zero _ o

theorem modifyOrder (t : Haunts L h g) {id : Nat} (hid : ¬ L id) (p q : Nat) (mit : Bool) :
    Ensues (Haunted L h g) (h.modifyOrder id p q mit) (g.modifyOrder id p q mit) := by
  unfold Mgr.modifyOrder
  rw [t.matching]
  exact t.guards (t.onOrder hid fun o tw => tw.modifyOp inj zero _ o p q mit)

/-- `gone` is only needed until the second call of `ReplaceOrder`; it holds there because the first call only takes orders away. -/
theorem next {v w : Mgr × ErrorCode} (k : Haunted L h g v w) (hg : ∀ id, L id → v.1.orders id = none) : Haunts L v.1 w.1 :=
  ⟨k.2.1, k.2.2.1, k.2.2.2.1, k.2.2.2.2.1, hg⟩

def MatchedTo (L : Nat → Prop) (h g v w : Mgr) : Prop := w.matching = v.matching ∧ w.symbols = v.symbols ∧ w.books = v.books ∧
    (∀ id, ¬ L id → w.orders id = v.orders id) ∧ ∃ x, v.ev = h.ev ++ x ∧ w.ev = g.ev ++ x

theorem matchAt (t : Haunts L h g) (i : Nat) : Ensues (MatchedTo L h g) (h.matchAt i) (g.matchAt i) := by
  unfold Mgr.matchAt
  rw [t.books]
  cases hb : slot h.books i with
  | none => exact .ok ⟨t.matching, t.symbols, t.books, t.same, [], by simp, by simp⟩
  | some b =>
    refine .bind ((t.twin b).matchBook inj zero) fun v w hv => ?_
    refine .ok ⟨t.matching, t.symbols, ?_, agree hv, evs hv⟩
    show h.books.set i (some w.book) = h.books.set i (some v.book)
    rw [hv.book, renB_same]

/-- The orders that are gone stay gone while matching. -/
theorem matchAt_gone (hi : MInv h) {i : Nat} {h' : Mgr} (hs : h.matchAt i = .ok h') (hg : ∀ id, L id → h.orders id = none) :
    MInv h' ∧ ∀ id, L id → h'.orders id = none := by
  obtain ⟨h1, a1, a2, a3, _⟩ := matchAt_ok hi i
  rw [hs] at a1; cases a1
  refine ⟨a2, fun id hl => ?_⟩
  have := (a3.mono (B := fun _ l => EngL l) fun _ _ h => h.2).goes (R := fun i _ => ¬ L i) hi (fun j o ho hl => by rw [hg j hl] at ho; cases ho)
  cases ho : h'.orders id with
  | none => rfl
  | some o => exact absurd hl (this id o ho)

theorem matchFrom : ∀ (is : List Nat) {h g : Mgr}, Haunts L h g → MInv h → Ensues (MatchedTo L h g) (Mgr.matchFrom is h) (Mgr.matchFrom is g)
  | [], h, g, t, _ => .ok ⟨t.matching, t.symbols, t.books, t.same, [], by simp, by simp⟩
  | i :: is, h, g, t, hi => by
    unfold Mgr.matchFrom
    intro v hv
    obtain ⟨h1, s1, s2⟩ := bind_inv hv
    obtain ⟨g1, r1, r2⟩ := t.matchAt i h1 s1
    obtain ⟨m1, m2⟩ := matchAt_gone hi s1 t.gone
    obtain ⟨w, q1, q2⟩ := matchFrom is (h := h1) (g := g1) ⟨r2.1, r2.2.1, r2.2.2.1, r2.2.2.2.1, m2⟩ m1 v s2
    refine ⟨w, by rw [r1]; exact q1, q2.1, q2.2.1, q2.2.2.1, q2.2.2.2.1, ?_⟩
    obtain ⟨x, x1, x2⟩ := r2.2.2.2.2
    obtain ⟨y, y1, y2⟩ := q2.2.2.2.2
    exact ⟨x ++ y, by rw [y1, x1, List.append_assoc], by rw [y2, x2, List.append_assoc]⟩

theorem matchAll (t : Haunts L h g) (hi : MInv h) : Ensues (MatchedTo L h g) h.matchAll g.matchAll := by
  unfold Mgr.matchAll
  rw [t.books]
  exact matchFrom _ t hi

/-- The division that keeps the orders left behind apart. -/
noncomputable def apart (L : Nat → Prop) : Division := ⟨fun _ => 0, fun i => open Classical in if L i then 1 else 0⟩

theorem apart_iff (i s : Nat) : (apart L).order i = (apart L).symbol s ↔ ¬ L i := by
  unfold apart
  by_cases hl : L i <;> simp [hl]

theorem apart_respects {op : Op} (hn : ∀ id ∈ op.names, ¬ L id) : (apart L).respects op := by
  cases op with
  | addOrder o => exact (apart_iff _ _).2 (hn _ (by simp [Op.names]))
  | replaceOrder id n p q =>
    have h1 := (apart_iff (L := L) id 0).2 (hn _ (by simp [Op.names]))
    have h2 := (apart_iff (L := L) n 0).2 (hn _ (by simp [Op.names]))
    exact h2.trans h1.symm
  | replaceWith id o =>
    have h1 := (apart_iff (L := L) id 0).2 (hn _ (by simp [Op.names]))
    have h2 := (apart_iff (L := L) o.id 0).2 (hn _ (by simp [Op.names]))
    exact ⟨h2.trans h1.symm, h1.symm⟩
  | _ => trivial

/-- Orders that are gone and not named stay gone. -/
theorem stays_gone (hi : MInv h) {op : Op} {h' : Mgr} {e : ErrorCode} (ha : h.Admissible op) (hs : h.step op = .ok (h', e))
    (hn : ∀ id ∈ op.names, ¬ L id) (hg : ∀ id, L id → h.orders id = none) : ∀ id, L id → h'.orders id = none := by
  intro id hl
  have := (apart L).keeps hi ha hs (apart_respects hn) (fun j o ho => (apart_iff j _).2 fun hl => by rw [hg j hl] at ho; cases ho)
  cases ho : h'.orders id with
  | none => rfl
  | some o => exact absurd hl ((apart_iff id _).1 (this id o ho))

/-- One call, on the manager with and without the orders left behind. -/
theorem step (t : Haunts L h g) (hi : MInv h) {op : Op} (ha : h.Admissible op) (hn : ∀ id ∈ op.names, ¬ L id) :
    Ensues (Haunted L h g) (h.step op) (g.step op) := by
  cases op with
  | addSymbol s =>
    show Ensues _ (h.addSymbol s) (g.addSymbol s)
    unfold Mgr.addSymbol
    rw [t.symbols]
    generalize (if h.symbols.length ≤ s.id then resizeTo h.symbols ((s.id + 1) % 4294967296) else h.symbols) = v
    simp only
    cases hv : v[s.id]? with
    | none => exact .error
    | some o =>
      cases o with
      | some x => exact .ok ⟨rfl, t.matching, rfl, t.books, t.same, [], by simp, by simp⟩
      | none => exact .ok ⟨rfl, t.matching, rfl, t.books, t.same, [.addSymbol s], rfl, rfl⟩
  | deleteSymbol id =>
    show Ensues _ (h.deleteSymbol id) (g.deleteSymbol id)
    unfold Mgr.deleteSymbol
    rw [t.symbols]
    cases hx : slot h.symbols id with
    | none => exact t.refuse _
    | some s => exact .ok ⟨rfl, t.matching, rfl, t.books, t.same, [.deleteSymbol s], rfl, rfl⟩
  | addOrderBook s =>
    show Ensues _ (h.addOrderBook s) (g.addOrderBook s)
    unfold Mgr.addOrderBook
    rw [t.symbols, t.books]
    cases hx : slot h.symbols s.id with
    | none => exact t.refuse _
    | some reg =>
      simp only
      generalize (if h.books.length ≤ s.id then resizeTo h.books ((s.id + 1) % 4294967296) else h.books) = v
      cases hv : v[s.id]? with
      | none => exact .error
      | some o =>
        cases o with
        | some x => exact .ok ⟨rfl, t.matching, rfl, rfl, t.same, [], by simp, by simp⟩
        | none => exact .ok ⟨rfl, t.matching, rfl, rfl, t.same, [.addBook reg], rfl, rfl⟩
  | deleteOrderBook id =>
    show Ensues _ (h.deleteOrderBook id) (g.deleteOrderBook id)
    unfold Mgr.deleteOrderBook
    rw [t.books]
    cases hx : slot h.books id with
    | none => exact t.refuse _
    | some b => exact .ok ⟨rfl, t.matching, t.symbols, rfl, t.same, [.deleteBook b.symbol], rfl, rfl⟩
  | addOrder o => exact t.addOrder (hn _ (by simp [Op.names]))
  | reduceOrder id q =>
    show Ensues _ (h.reduceOrder id q) (g.reduceOrder id q)
    unfold Mgr.reduceOrder
    rw [t.matching]
    exact t.guards (t.onOrder (hn _ (by simp [Op.names])) fun o tw => tw.reduceOp inj zero _ o q)
  | modifyOrder id p q => exact t.modifyOrder (hn _ (by simp [Op.names])) p q false
  | mitigateOrder id p q => exact t.modifyOrder (hn _ (by simp [Op.names])) p q true
  | replaceOrder id n p q =>
    have hid : ¬ L id := hn _ (by simp [Op.names])
    have hn' : ¬ L n := hn _ (by simp [Op.names])
    show Ensues _ (h.replaceOrder id n p q) (g.replaceOrder id n p q)
    unfold Mgr.replaceOrder
    rw [t.matching, t.same id hid]
    refine .ite Iff.rfl (fun _ => t.refuse _) fun _ => .ite Iff.rfl (fun _ => t.refuse _) fun _ => .ite Iff.rfl (fun _ => t.refuse _) fun _ => ?_
    cases hx : h.orders id with
    | none => exact t.refuse _
    | some o => exact .ite Iff.rfl (fun _ => t.onBook _ fun tw => tw.replaceOp inj zero _ o hn' p q) fun _ => t.refuse _
  | replaceWith id o =>
    have hid : ¬ L id := hn _ (by simp [Op.names])
    have hn' : ¬ L o.id := hn _ (by simp [Op.names])
    show Ensues _ (h.replaceWith id o) (g.replaceWith id o)
    unfold Mgr.replaceWith
    cases hx : h.deleteOrder id with
    | error e => exact .error
    | ok r =>
      obtain ⟨h1, e1⟩ := r
      obtain ⟨⟨g1, e2⟩, y1, y2⟩ := t.deleteOrder hid _ hx
      have y3 : Haunts L h1 g1 := next y2 (stays_gone hi (op := .deleteOrder id) trivial hx (by simpa [Op.names] using hid) t.gone)
      obtain ⟨yc, _, _, _, _, x, y4, y5⟩ := y2
      cases yc
      rw [y1]
      show Ensues _ (if e1 ≠ .ok then _ else _) (if e1 ≠ .ok then _ else _)
      refine .ite Iff.rfl (fun _ => .ok ⟨rfl, y3.matching, y3.symbols, y3.books, y3.same, x, y4, y5⟩) fun _ => ?_
      refine (y3.addOrder hn').mono ?_
      rintro v w ⟨c1, c2, c3, c4, c5, x', c6, c7⟩
      exact ⟨c1, c2, c3, c4, c5, x ++ x', by rw [c6, show h1.ev = _ from y4, List.append_assoc], by rw [c7, show g1.ev = _ from y5, List.append_assoc]⟩
  | deleteOrder id => exact t.deleteOrder (hn _ (by simp [Op.names]))
  | executeOrder id q =>
    show Ensues _ (h.executeOrder id q) (g.executeOrder id q)
    unfold Mgr.executeOrder
    rw [t.matching]
    exact t.guards (t.onOrder (hn _ (by simp [Op.names])) fun o tw => tw.executeOp inj zero _ o o.price q)
  | executeOrderAt id p q =>
    show Ensues _ (h.executeOrderAt id p q) (g.executeOrderAt id p q)
    unfold Mgr.executeOrderAt
    rw [t.matching]
    exact t.guards (t.onOrder (hn _ (by simp [Op.names])) fun o tw => tw.executeOp inj zero _ o p q)
  | enableMatching =>
    have t' : Haunts L { h with matching := true } { g with matching := true } := ⟨rfl, t.symbols, t.books, t.same, t.gone⟩
    exact .bind (t'.matchAll ⟨hi.orders, hi.books, hi.symbols⟩) fun v w hv => .ok ⟨rfl, hv⟩
  | disableMatching => exact .ok ⟨rfl, rfl, t.symbols, t.books, t.same, [], by simp, by simp⟩
  | matchAll => exact .bind (t.matchAll hi) fun v w hv => .ok ⟨rfl, hv⟩

end Haunts
end CppTrader
