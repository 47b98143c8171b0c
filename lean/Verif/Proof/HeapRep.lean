import Verif.Proof.HeapList
import Verif.Proof.Exec
/-
What a heap represents: the order map and the level lists, and the changes of both.
-/

namespace CppTrader
namespace Ptr

/-! ### Addresses and levels side by side -/

/-- The levels at a list of addresses. -/
def Trees (P : Nat → Level → Prop) : List Nat → List Level → Prop
  | [], [] => True
  | a :: as, l :: ls => P a l ∧ Trees P as ls
  | _, _ => False

theorem Trees.mono {P Q : Nat → Level → Prop} : ∀ {as : List Nat} {ls : List Level}, Trees P as ls →
    (∀ a ∈ as, ∀ l ∈ ls, P a l → Q a l) → Trees Q as ls
  | [], [], _, _ => trivial
  | _ :: _, _ :: _, h, H =>
    ⟨H _ List.mem_cons_self _ List.mem_cons_self h.1, Trees.mono h.2 (fun a ha l hl => H a (List.mem_cons_of_mem _ ha) l (List.mem_cons_of_mem _ hl))⟩
  | [], _ :: _, h, _ => h.elim
  | _ :: _, [], h, _ => h.elim

theorem Trees.append {P : Nat → Level → Prop} : ∀ {as : List Nat} {ls : List Level} {bs : List Nat} {ms : List Level},
    Trees P as ls → Trees P bs ms → Trees P (as ++ bs) (ls ++ ms)
  | [], [], _, _, _, h' => h'
  | _ :: _, _ :: _, _, _, h, h' => ⟨h.1, h.2.append h'⟩
  | [], _ :: _, _, _, h, _ => h.elim
  | _ :: _, [], _, _, h, _ => h.elim

theorem Trees.split {P : Nat → Level → Prop} : ∀ {as : List Nat} (ls : List Level) {ms : List Level}, Trees P as (ls ++ ms) →
    ∃ bs cs, as = bs ++ cs ∧ Trees P bs ls ∧ Trees P cs ms
  | as, [], _, h => ⟨[], as, rfl, trivial, h⟩
  | [], _ :: _, _, h => h.elim
  | a :: as, l :: ls, ms, h => by
    obtain ⟨bs, cs, e, h1, h2⟩ := Trees.split ls (ms := ms) h.2
    exact ⟨a :: bs, cs, by rw [e]; rfl, ⟨h.1, h1⟩, h2⟩

theorem Trees.at {P : Nat → Level → Prop} {as : List Nat} {L1 L2 : List Level} {l : Level} (h : Trees P as (L1 ++ l :: L2)) :
    ∃ A1 a A2, as = A1 ++ a :: A2 ∧ Trees P A1 L1 ∧ P a l ∧ Trees P A2 L2 := by
  obtain ⟨bs, cs, e, h1, h2⟩ := h.split
  cases cs with
  | nil => exact h2.elim
  | cons c cs => exact ⟨bs, c, cs, e, h1, h2.1, h2.2⟩

theorem Trees.left {P : Nat → Level → Prop} : ∀ {as : List Nat} {ls : List Level}, Trees P as ls → ∀ {A1 : List Nat} {a : Nat} {A2 : List Nat},
    as = A1 ++ a :: A2 → ∃ L1 l L2, ls = L1 ++ l :: L2 ∧ Trees P A1 L1 ∧ P a l ∧ Trees P A2 L2
  | [], _, _, A1, a, A2, e => by cases A1 <;> cases e
  | b :: bs, [], h, _, _, _, _ => h.elim
  | b :: bs, l :: ls, h, A1, a, A2, e => by
    cases A1 with
    | nil => cases e; exact ⟨[], l, ls, rfl, trivial, h.1, h.2⟩
    | cons c A1 =>
      cases e
      obtain ⟨L1, l', L2, e', h1, h2, h3⟩ := Trees.left h.2 rfl
      exact ⟨l :: L1, l', L2, by rw [e']; rfl, ⟨h.1, h1⟩, h2, h3⟩

theorem Trees.head {P : Nat → Level → Prop} {as : List Nat} {ls : List Level} (h : Trees P as ls) :
    (as = [] ∧ ls = []) ∨ ∃ a as' l ls', as = a :: as' ∧ ls = l :: ls' ∧ P a l ∧ Trees P as' ls' := by
  cases as with
  | nil => cases ls with
    | nil => exact .inl ⟨rfl, rfl⟩
    | cons l ls => exact h.elim
  | cons a as => cases ls with
    | nil => exact h.elim
    | cons l ls => exact .inr ⟨a, as, l, ls, rfl, rfl, h.1, h.2⟩

theorem Trees.length {P : Nat → Level → Prop} : ∀ {as : List Nat} {ls : List Level}, Trees P as ls → as.length = ls.length
  | [], [], _ => rfl
  | _ :: _, _ :: _, h => by simp [h.2.length]
  | [], _ :: _, h => h.elim
  | _ :: _, [], h => h.elim

/-! ### Levels -/

/-- The node of a level. -/
def lnodeOf (h : Heap) (k : Kind) (l : Level) : LNode :=
  ⟨k.isBidType, l.price, l.total, l.hidden, l.visible, l.count, l.ids.head?.bind h.orders, l.ids.getLast?.bind h.orders⟩

/-- The node at `la` is the level `l`, and its orders are linked. -/
def LevelRep (h : Heap) (k : Kind) (la : Nat) (l : Level) : Prop := h.lnode la = some (lnodeOf h k l) ∧ Links h la l.ids

theorem bind_congr {f g : Nat → Option Nat} {x : Option Nat} (h : ∀ i, x = some i → g i = f i) : x.bind g = x.bind f := by
  cases x with
  | none => rfl
  | some i => exact h i rfl

theorem Links.frame {h h' : Heap} {la : Nat} {L : List Nat} (hl : Links h la L) (hnd : L.Nodup) (ho : ∀ i ∈ L, h'.orders i = h.orders i)
    (hn : ∀ i ∈ L, ∀ a, h.orders i = some a → h'.onode a = h.onode a) : Links h' la L := by
  intro i hi
  obtain ⟨a, n, h1, h2, h3, h4, h5⟩ := hl i hi
  refine ⟨a, n, (ho i hi).trans h1, (hn i hi a h1).trans h2, h3, ?_, ?_⟩
  · rw [h4]; exact (bind_congr (fun j hj => ho j (succ_mem hnd hj))).symm
  · rw [h5]; exact (bind_congr (fun j hj => ho j (pred_mem hnd hj))).symm

theorem LevelRep.frame {h h' : Heap} {k : Kind} {la : Nat} {l : Level} (r : LevelRep h k la l) (hnd : l.ids.Nodup)
    (hl : h'.lnode la = h.lnode la) (ho : ∀ i ∈ l.ids, h'.orders i = h.orders i)
    (hn : ∀ i ∈ l.ids, ∀ a, h.orders i = some a → h'.onode a = h.onode a) : LevelRep h' k la l := by
  refine ⟨?_, r.2.frame hnd ho hn⟩
  rw [hl, r.1]
  unfold lnodeOf
  congr 2
  · exact (bind_congr (fun j hj => ho j (List.mem_of_head? hj))).symm
  · exact (bind_congr (fun j hj => ho j (List.mem_of_getLast? hj))).symm

/-- The order is queued at some level. -/
def Linked (lv : Col → List Level) (i : Nat) : Prop := ∃ x l, l ∈ lv x ∧ i ∈ l.ids

/-- The heap holds the orders `M`, the levels `lv` and, outside of the order map, the order `out`; and nothing else. -/
structure Rep (h : Heap) (M : Nat → Option Order) (lv : Col → List Level) (out : Option (Nat × Order)) : Prop where
  back : ∀ i a, h.orders i = some a → ∃ n, h.onode a = some n ∧ n.order.id = i ∧ M i = some n.order
  fwd : ∀ i o, M i = some o → ∃ a, h.orders i = some a
  full : ∀ a n, h.onode a = some n → a < h.freshO ∧ ((∃ i, h.orders i = some a) ∨ ∃ t, out = some (a, t))
  outOk : ∀ a t, out = some (a, t) → (∃ n, h.onode a = some n ∧ n.order = t) ∧ ∀ i, h.orders i ≠ some a
  trees : ∀ x, Trees (LevelRep h x.2) (h.tree x) (lv x)
  lfull : ∀ a n, h.lnode a = some n → a < h.freshL ∧ ∃ x, a ∈ h.tree x
  nodup : ∀ x, (h.tree x).Nodup
  apart : ∀ x y a, a ∈ h.tree x → a ∈ h.tree y → x = y
  best : ∀ x, h.best x = (h.tree x).head?
  sorted : ∀ x, Sorted x.2 (lv x)
  idsNodup : ∀ x, ∀ l ∈ lv x, l.ids.Nodup
  count : ∀ x, ∀ l ∈ lv x, l.count = l.ids.length
  mem : ∀ x, ∀ l ∈ lv x, ∀ i ∈ l.ids, ∃ o, M i = some o ∧ o.symbolId = x.1 ∧ o.kind = some x.2 ∧ o.key = l.price

theorem Rep.inj {h : Heap} {M lv out} (r : Rep h M lv out) {i j a : Nat} (hi : h.orders i = some a) (hj : h.orders j = some a) : i = j := by
  obtain ⟨n, h1, h2, _⟩ := r.back i a hi
  obtain ⟨m, h3, h4, _⟩ := r.back j a hj
  rw [h1] at h3; cases h3
  exact h2.symm.trans h4

theorem Rep.node {h : Heap} {M lv out} (r : Rep h M lv out) {i : Nat} {o : Order} (hi : M i = some o) :
    ∃ a n, h.orders i = some a ∧ h.onode a = some n ∧ n.order = o ∧ o.id = i := by
  obtain ⟨a, ha⟩ := r.fwd i o hi
  obtain ⟨n, h1, h2, h3⟩ := r.back i a ha
  rw [hi] at h3
  cases h3
  exact ⟨a, n, ha, h1, rfl, h2⟩

theorem Rep.nodeAt {h : Heap} {M lv out} (r : Rep h M lv out) {i a : Nat} {o : Order} (hi : M i = some o) (ha : h.orders i = some a) :
    ∃ n, h.onode a = some n ∧ n.order = o ∧ o.id = i := by
  obtain ⟨b, n, h1, h2, h3, h4⟩ := r.node hi
  rw [ha] at h1; cases h1
  exact ⟨n, h2, h3, h4⟩

theorem sorted_price_inj {k : Kind} {ls : List Level} (hs : Sorted k ls) {l m : Level} (hl : l ∈ ls) (hm : m ∈ ls) (he : l.price = m.price) : l = m := by
  obtain ⟨xs, ys, e⟩ := mem_split hl
  rw [e] at hs hm
  have sp := sorted_mid hs
  rcases List.mem_append.mp hm with h | h
  · exact absurd he.symm (sp.left_ne m h)
  · rcases List.mem_cons.mp h with h | h
    · exact h.symm
    · exact absurd he.symm (sp.right_ne m h)

/-- An order is queued at one level only. -/
theorem Rep.alone {h : Heap} {M lv out} (r : Rep h M lv out) {x y : Col} {l m : Level} {i : Nat} (hl : l ∈ lv x) (hi : i ∈ l.ids)
    (hm : m ∈ lv y) (hj : i ∈ m.ids) : x = y ∧ l.price = m.price := by
  obtain ⟨o, h1, h2, h3, h4⟩ := r.mem x l hl i hi
  obtain ⟨o', h1', h2', h3', h4'⟩ := r.mem y m hm i hj
  rw [h1] at h1'; cases h1'
  refine ⟨Prod.ext (h2.symm.trans h2') (Option.some.inj (h3.symm.trans h3')), h4.symm.trans h4'⟩

theorem Rep.ids_inj {h : Heap} {M lv out} (r : Rep h M lv out) (L : List Nat) (hd : ∀ i ∈ L, ∃ o, M i = some o) : Inj h L := by
  intro i hi j hj e
  obtain ⟨o, ho⟩ := hd i hi
  obtain ⟨a, ha⟩ := r.fwd i o ho
  exact r.inj ha (e ▸ ha)

/-- The address `la` is the level of price `p` of the collection. -/
def LAt (h : Heap) (x : Col) (la p : Nat) : Prop := la ∈ h.tree x ∧ ∃ n, h.lnode la = some n ∧ n.price = p

theorem Rep.lat {h : Heap} {M lv out} (r : Rep h M lv out) {x : Col} {L1 L2 : List Level} {l : Level} (hx : lv x = L1 ++ l :: L2) {la : Nat}
    (hla : LAt h x la l.price) : ∃ A1 A2, h.tree x = A1 ++ la :: A2 ∧ Trees (LevelRep h x.2) A1 L1 ∧ LevelRep h x.2 la l ∧ Trees (LevelRep h x.2) A2 L2 := by
  obtain ⟨A1, A2, e⟩ := split_of_mem hla.1
  obtain ⟨K1, m, K2, em, h1, h2, h3⟩ := (r.trees x).left e
  obtain ⟨n, hn, hp⟩ := hla.2
  rw [h2.1] at hn
  cases hn
  have hml : m = l := sorted_price_inj (r.sorted x) (by rw [em]; simp) (by rw [hx]; simp) hp
  subst hml
  have hso := r.sorted x
  have : K1 = L1 ∧ K2 = L2 := by
    rw [hx] at em
    have s1 := sorted_mid (hx ▸ hso)
    have s2 := sorted_mid (em ▸ hx ▸ hso)
    clear hx hso h1 h3
    induction K1 generalizing L1 with
    | nil =>
      cases L1 with
      | nil => cases em; exact ⟨rfl, rfl⟩
      | cons y L1 => cases em; exact absurd rfl (s1.left_ne m List.mem_cons_self)
    | cons z K1 ih =>
      cases L1 with
      | nil => cases em; exact absurd rfl (s2.left_ne m List.mem_cons_self)
      | cons y L1 =>
        obtain ⟨e0, em'⟩ := List.cons.inj em
        obtain ⟨e1, e2⟩ := ih em' ⟨fun v hv => s1.left v (List.mem_cons_of_mem _ hv), s1.right⟩ ⟨fun v hv => s2.left v (List.mem_cons_of_mem _ hv), s2.right⟩
        exact ⟨by rw [e1, e0], e2⟩
  obtain ⟨e1, e2⟩ := this
  subst e1 e2
  exact ⟨A1, A2, e, h1, h2, h3⟩

theorem Rep.levelAt {h : Heap} {M lv out} (r : Rep h M lv out) {x : Col} {L1 L2 : List Level} {l : Level} (hx : lv x = L1 ++ l :: L2) :
    ∃ la, LAt h x la l.price ∧ ∃ A1 A2, h.tree x = A1 ++ la :: A2 ∧ Trees (LevelRep h x.2) A1 L1 ∧ LevelRep h x.2 la l ∧ Trees (LevelRep h x.2) A2 L2 := by
  have ht := r.trees x
  rw [hx] at ht
  obtain ⟨A1, la, A2, e, h1, h2, h3⟩ := ht.at
  exact ⟨la, ⟨by rw [e]; simp, _, h2.1, rfl⟩, A1, A2, e, h1, h2, h3⟩

theorem LAt.unique {h : Heap} {M lv out} (r : Rep h M lv out) {x : Col} {la lb p : Nat} (ha : LAt h x la p) (hb : LAt h x lb p) : la = lb := by
  obtain ⟨A1, A2, e⟩ := split_of_mem ha.1
  obtain ⟨L1, l, L2, el, _, h2, _⟩ := (r.trees x).left e
  obtain ⟨n, hn, hp⟩ := ha.2
  rw [h2.1] at hn; cases hn
  have hp' : l.price = p := hp
  have hb' : LAt h x lb l.price := hp' ▸ hb
  have ha' : LAt h x la l.price := hp' ▸ ha
  obtain ⟨B1, B2, e1, t1, _, _⟩ := r.lat el ha'
  obtain ⟨C1, C2, e2, t2, _, _⟩ := r.lat el hb'
  have hlen : B1.length = C1.length := t1.length.trans t2.length.symm
  rw [e1] at e2
  have := List.append_inj e2 hlen
  exact (List.cons.inj this.2).1

end Ptr
end CppTrader
