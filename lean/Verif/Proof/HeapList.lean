import Verif.Model.Heap
import Verif.Proof.Chain
/-
Neighbours in a list without duplicates, and the intrusive list operations `push_back` and `pop_current`.
-/

namespace CppTrader
namespace Ptr

/-- The element behind `i`. -/
def succId : List Nat → Nat → Option Nat
  | [], _ => none
  | a :: l, i => if a = i then l.head? else succId l i

/-- The element before `i`. -/
def predId (l : List Nat) (i : Nat) : Option Nat := succId l.reverse i

theorem succ_absent {l : List Nat} {i : Nat} (h : i ∉ l) : succId l i = none := by
  induction l with
  | nil => rfl
  | cons a l ih =>
    unfold succId
    rw [if_neg (fun e => h (by rw [e]; exact List.mem_cons_self)), ih (fun hm => h (List.mem_cons_of_mem _ hm))]

theorem succ_skip {xs : List Nat} {i : Nat} (h : i ∉ xs) (ys : List Nat) : succId (xs ++ ys) i = succId ys i := by
  induction xs with
  | nil => rfl
  | cons a l ih =>
    have h1 : a ≠ i := fun e => h (by rw [e]; exact List.mem_cons_self)
    show (if a = i then _ else succId (l ++ ys) i) = _
    rw [if_neg h1, ih (fun hm => h (List.mem_cons_of_mem _ hm))]

theorem succ_mid {xs ys : List Nat} {i : Nat} (h : (xs ++ i :: ys).Nodup) : succId (xs ++ i :: ys) i = ys.head? := by
  have h1 : i ∉ xs := fun hm => (List.nodup_append.mp h).2.2 i hm i List.mem_cons_self rfl
  rw [succ_skip h1]
  unfold succId
  rw [if_pos rfl]

theorem split_of_mem {l : List Nat} {i : Nat} (h : i ∈ l) : ∃ xs ys, l = xs ++ i :: ys := List.append_of_mem h

theorem succ_pair {l : List Nat} (hn : l.Nodup) {i j : Nat} (h : succId l j = some i) : ∃ xs ys, l = xs ++ j :: i :: ys := by
  by_cases hm : j ∈ l
  · obtain ⟨xs, ys, e⟩ := split_of_mem hm
    rw [e, succ_mid (e ▸ hn)] at h
    cases ys with
    | nil => cases h
    | cons y ys => cases h; exact ⟨xs, ys, e⟩
  · rw [succ_absent hm] at h; cases h

theorem succ_mem {l : List Nat} (hn : l.Nodup) {i j : Nat} (h : succId l j = some i) : i ∈ l := by
  obtain ⟨xs, ys, e⟩ := succ_pair hn h
  rw [e]; simp

theorem succ_ne {l : List Nat} (hn : l.Nodup) {i j : Nat} (h : succId l j = some i) : i ≠ j := by
  obtain ⟨xs, ys, e⟩ := succ_pair hn h
  rw [e] at hn
  intro he
  have := (List.nodup_append.mp hn).2.1
  rw [he] at this
  simp at this

theorem rev_nodup {l : List Nat} (hn : l.Nodup) : l.reverse.Nodup := by
  unfold List.Nodup at hn ⊢
  rw [List.pairwise_reverse]
  exact hn.imp (fun h e => h e.symm)

theorem succ_pred {l : List Nat} (hn : l.Nodup) {i j : Nat} : succId l j = some i ↔ predId l i = some j := by
  constructor
  · intro h
    obtain ⟨xs, ys, e⟩ := succ_pair hn h
    unfold predId
    have er : l.reverse = ys.reverse ++ i :: (j :: xs.reverse) := by rw [e]; simp
    have hr := rev_nodup hn
    rw [er] at hr ⊢
    rw [succ_mid hr]
    rfl
  · intro h
    obtain ⟨xs, ys, e⟩ := succ_pair (rev_nodup hn) h
    have er : l = ys.reverse ++ j :: (i :: xs.reverse) := by rw [← List.reverse_reverse l, e]; simp
    rw [er] at hn ⊢
    rw [succ_mid hn]
    rfl

theorem pred_mem {l : List Nat} (hn : l.Nodup) {i j : Nat} (h : predId l j = some i) : i ∈ l :=
  List.mem_reverse.mp (succ_mem (rev_nodup hn) h)

theorem pred_ne {l : List Nat} (hn : l.Nodup) {i j : Nat} (h : predId l j = some i) : i ≠ j := succ_ne (rev_nodup hn) h

theorem erase_rev {l : List Nat} (hn : l.Nodup) (i : Nat) : (l.erase i).reverse = l.reverse.erase i := by
  rw [hn.erase_eq_filter, (rev_nodup hn).erase_eq_filter, List.filter_reverse]

theorem erase_mid {xs ys : List Nat} {i : Nat} (h : (xs ++ i :: ys).Nodup) : (xs ++ i :: ys).erase i = xs ++ ys := by
  have h1 : i ∉ xs := fun hm => (List.nodup_append.mp h).2.2 i hm i List.mem_cons_self rfl
  rw [List.erase_append_right _ h1]
  simp

theorem succ_erase {l : List Nat} (hn : l.Nodup) {i j : Nat} (hi : i ∈ l) (hj : j ∈ l) (hji : j ≠ i) :
    succId (l.erase i) j = if succId l j = some i then succId l i else succId l j := by
  obtain ⟨xs, ys, e⟩ := split_of_mem hi
  rw [e] at hn hj ⊢
  have hx : i ∉ xs := fun hm => (List.nodup_append.mp hn).2.2 i hm i List.mem_cons_self rfl
  rw [erase_mid hn, succ_mid hn]
  have hn2 : (xs ++ ys).Nodup := by rw [← erase_mid hn]; exact hn.erase _
  rcases List.mem_append.mp hj with h | h
  · obtain ⟨us, vs, e2⟩ := split_of_mem h
    rw [e2] at hn hn2 ⊢
    have e3 : us ++ j :: vs ++ i :: ys = us ++ j :: (vs ++ i :: ys) := by simp
    have e4 : us ++ j :: vs ++ ys = us ++ j :: (vs ++ ys) := by simp
    rw [e3] at hn ⊢
    rw [e4] at hn2 ⊢
    rw [succ_mid hn, succ_mid hn2]
    cases vs with
    | nil => simp
    | cons v vs =>
      have : v ≠ i := by
        intro hv
        apply hx
        rw [e2, hv]; simp
      simp only [List.cons_append, List.head?_cons, Option.some.injEq]
      rw [if_neg this]
  · have hjy : j ∈ ys := by
      rcases List.mem_cons.mp h with h | h
      · exact absurd h hji
      · exact h
    have hjx : j ∉ xs := fun hm => (List.nodup_append.mp hn).2.2 j hm j h rfl
    have e5 : succId (i :: ys) j = succId ys j := by
      show (if i = j then _ else _) = _
      rw [if_neg (fun e => hji e.symm)]
    rw [succ_skip hjx, succ_skip hjx, e5]
    have hny : ys.Nodup := ((List.nodup_cons.mp (List.nodup_append.mp hn).2.1)).2
    have hiy : i ∉ ys := ((List.nodup_cons.mp (List.nodup_append.mp hn).2.1)).1
    rw [if_neg (fun h => hiy (succ_mem hny h))]

theorem pred_erase {l : List Nat} (hn : l.Nodup) {i j : Nat} (hi : i ∈ l) (hj : j ∈ l) (hji : j ≠ i) :
    predId (l.erase i) j = if predId l j = some i then predId l i else predId l j := by
  unfold predId
  rw [erase_rev hn]
  exact succ_erase (rev_nodup hn) (List.mem_reverse.mpr hi) (List.mem_reverse.mpr hj) hji

theorem head_erase {l : List Nat} (hn : l.Nodup) {i : Nat} (hi : i ∈ l) :
    (l.erase i).head? = if l.head? = some i then succId l i else l.head? := by
  cases l with
  | nil => cases hi
  | cons a l =>
    by_cases h : a = i
    · subst h
      simp [succId]
    · simp only [List.head?_cons, Option.some.injEq]
      rw [if_neg h, List.erase_cons_tail (by simpa using h)]
      rfl

theorem last_rev (l : List Nat) : l.getLast? = l.reverse.head? := by simp

theorem last_erase {l : List Nat} (hn : l.Nodup) {i : Nat} (hi : i ∈ l) :
    (l.erase i).getLast? = if l.getLast? = some i then predId l i else l.getLast? := by
  rw [last_rev, erase_rev hn, head_erase (rev_nodup hn) (List.mem_reverse.mpr hi), ← last_rev]
  rfl

theorem succ_snoc {l : List Nat} {i j : Nat} (hn : (l ++ [i]).Nodup) (hj : j ∈ l) :
    succId (l ++ [i]) j = if l.getLast? = some j then some i else succId l j := by
  obtain ⟨xs, ys, e⟩ := split_of_mem hj
  rw [e] at hn ⊢
  have e1 : xs ++ j :: ys ++ [i] = xs ++ j :: (ys ++ [i]) := by simp
  have hn2 : (xs ++ j :: ys).Nodup := (List.nodup_append.mp hn).1
  rw [e1] at hn ⊢
  rw [succ_mid hn, succ_mid hn2]
  rcases List.eq_nil_or_concat ys with h | ⟨zs, z, h⟩
  · subst h; simp
  · have hz : z ≠ j := by
      intro hzj
      rw [h, hzj] at hn2
      have := (List.nodup_cons.mp (List.nodup_append.mp hn2).2.1).1
      simp at this
    rw [h]
    have : (xs ++ j :: (zs.concat z)).getLast? = some z := by simp [List.concat_eq_append, List.getLast?_append, List.getLast?_cons]
    rw [this, if_neg (fun e => hz (Option.some.inj e))]
    cases zs <;> simp

theorem succ_snoc_self {l : List Nat} {i : Nat} (hn : (l ++ [i]).Nodup) : succId (l ++ [i]) i = none := by
  have := succ_mid (ys := []) hn
  simpa using this

theorem pred_snoc {l : List Nat} {i j : Nat} (hn : (l ++ [i]).Nodup) (hj : j ∈ l) : predId (l ++ [i]) j = predId l j := by
  have hij : i ≠ j := fun e => (List.nodup_append.mp hn).2.2 j hj i (by simp) e.symm
  unfold predId
  rw [List.reverse_append]
  show (if i = j then _ else _) = _
  rw [if_neg hij]
  rfl

theorem pred_snoc_self (l : List Nat) (i : Nat) : predId (l ++ [i]) i = l.getLast? := by
  unfold predId
  rw [List.reverse_append]
  show (if i = i then l.reverse.head? else _) = _
  rw [if_pos rfl, last_rev]

/-! ### Stores -/

/-- The parts of a heap that list operations leave alone. -/
structure Steady (h h' : Heap) : Prop where
  orders : h'.orders = h.orders
  tree : h'.tree = h.tree
  best : h'.best = h.best
  freshO : h'.freshO = h.freshO
  freshL : h'.freshL = h.freshL

theorem Steady.refl (h : Heap) : Steady h h := ⟨rfl, rfl, rfl, rfl, rfl⟩
theorem Steady.trans {a b c : Heap} (h : Steady a b) (h' : Steady b c) : Steady a c :=
  ⟨h'.orders.trans h.orders, h'.tree.trans h.tree, h'.best.trans h.best, h'.freshO.trans h.freshO, h'.freshL.trans h.freshL⟩

/-- A store through a pointer, as a function. -/
def upd (h : Heap) (p : Option Nat) (f : ONode → ONode) : Heap :=
  { h with onode := fun c => if p = some c then (h.onode c).map f else h.onode c }

theorem upd_steady (h : Heap) (p : Option Nat) (f : ONode → ONode) : Steady h (upd h p f) := ⟨rfl, rfl, rfl, rfl, rfl⟩

theorem modOrder_eq {h : Heap} {a : Nat} {n : ONode} (ha : h.onode a = some n) (f : ONode → ONode) :
    h.modOrder a f = .ok (upd h (some a) f) := by
  unfold Heap.modOrder
  rw [ha]
  dsimp only
  congr 1
  unfold upd
  congr 1
  funext c
  unfold setX
  by_cases hc : c = a
  · rw [if_pos hc, if_pos (by rw [hc]), hc, ha]; rfl
  · rw [if_neg hc, if_neg (fun e => hc (Option.some.inj e).symm)]

theorem modOrderIf_eq {h : Heap} {p : Option Nat} (hp : ∀ a, p = some a → ∃ n, h.onode a = some n) (f : ONode → ONode) :
    h.modOrderIf p f = .ok (upd h p f) := by
  cases p with
  | none =>
    show Except.ok h = _
    congr 1
  | some a =>
    obtain ⟨n, hn⟩ := hp a rfl
    exact modOrder_eq hn f

theorem upd_node {h : Heap} {p : Option Nat} {f : ONode → ONode} {b : Nat} {n : ONode} (hb : h.onode b = some n) :
    (upd h p f).onode b = some (if p = some b then f n else n) := by
  show (if p = some b then (h.onode b).map f else h.onode b) = _
  rw [hb]
  split <;> rfl

theorem upd_other {h : Heap} {p : Option Nat} {f : ONode → ONode} {b : Nat} (hb : p ≠ some b) :
    (upd h p f).onode b = h.onode b := by
  show (if p = some b then (h.onode b).map f else h.onode b) = _
  rw [if_neg hb]

theorem upd_order {h : Heap} {p : Option Nat} {f : ONode → ONode} (hf : ∀ n, (f n).order = n.order) (b : Nat) :
    ((upd h p f).onode b).map (·.order) = (h.onode b).map (·.order) := by
  show (if p = some b then (h.onode b).map f else h.onode b).map _ = _
  split
  · cases h.onode b with
    | none => rfl
    | some n => simp [hf]
  · rfl

theorem modLevel_eq {h : Heap} {a : Nat} {n : LNode} (ha : h.lnode a = some n) (f : LNode → LNode) :
    h.modLevel a f = .ok { h with lnode := setX h.lnode a (some (f n)) } := by
  unfold Heap.modLevel
  rw [ha]

theorem order_eq {h : Heap} {a : Nat} {n : ONode} (ha : h.onode a = some n) : h.order a = .ok n := by
  unfold Heap.order; rw [ha]

theorem level_eq {h : Heap} {a : Nat} {n : LNode} (ha : h.lnode a = some n) : h.level a = .ok n := by
  unfold Heap.level; rw [ha]

theorem setX_same {α β : Type} [DecidableEq α] (f : α → β) (x : α) (v : β) : setX f x v x = v := by
  unfold setX; rw [if_pos rfl]
theorem setX_other {α β : Type} [DecidableEq α] (f : α → β) {x y : α} (v : β) (h : y ≠ x) : setX f x v y = f y := by
  unfold setX; rw [if_neg h]
theorem setX_setX {α β : Type} [DecidableEq α] (f : α → β) (x : α) (v w : β) : setX (setX f x v) x w = setX f x w := by
  funext y; unfold setX; split <;> rfl

/-! ### Links -/

/-- The orders of a level are linked in the given order and point to the level. -/
def Links (h : Heap) (la : Nat) (L : List Nat) : Prop :=
  ∀ i ∈ L, ∃ a n, h.orders i = some a ∧ h.onode a = some n ∧ n.level = some la ∧
    n.next = (succId L i).bind h.orders ∧ n.prev = (predId L i).bind h.orders

/-- Different orders are at different addresses. -/
def Inj (h : Heap) (L : List Nat) : Prop := ∀ i ∈ L, ∀ j ∈ L, h.orders i = h.orders j → i = j

theorem Links.addr {h : Heap} {la : Nat} {L : List Nat} (hl : Links h la L) {i : Nat} (hi : i ∈ L) : ∃ a, h.orders i = some a := by
  obtain ⟨a, _, ha, _⟩ := hl i hi
  exact ⟨a, ha⟩

/-- Equality of addresses of listed orders is equality of the orders. -/
theorem bind_iff {h : Heap} {L : List Nat} (hinj : Inj h L) {x : Option Nat} (hx : ∀ j, x = some j → j ∈ L)
    (hd : ∀ j ∈ L, ∃ a, h.orders j = some a) {j b : Nat} (hj : j ∈ L) (hb : h.orders j = some b) : x.bind h.orders = some b ↔ x = some j := by
  cases x with
  | none => simp
  | some y =>
    have hy := hx y rfl
    constructor
    · intro h1
      rw [hinj y hy j hj (by rw [hb]; exact h1)]
    · intro h1; cases h1; exact hb

theorem ite_bind (c : Prop) [Decidable c] (x y : Option Nat) (f : Nat → Option Nat) :
    (if c then x else y).bind f = if c then x.bind f else y.bind f := by
  split <;> rfl

theorem popCurrent_spec {h : Heap} {la i a : Nat} {L : List Nat} {nl : LNode} (hl : Links h la L) (hn : L.Nodup) (hinj : Inj h L)
    (hi : i ∈ L) (ha : h.orders i = some a) (hla : h.lnode la = some nl) (hf : nl.front = L.head?.bind h.orders)
    (hb : nl.back = L.getLast?.bind h.orders) :
    ∃ h', h.popCurrent la a = .ok h' ∧ Steady h h' ∧
      h'.lnode = setX h.lnode la (some { nl with front := (L.erase i).head?.bind h.orders, back := (L.erase i).getLast?.bind h.orders }) ∧
      (∀ b, (∀ j ∈ L, h.orders j ≠ some b) → h'.onode b = h.onode b) ∧
      (∀ b, (h'.onode b).map (·.order) = (h.onode b).map (·.order)) ∧ Links h' la (L.erase i) := by
  obtain ⟨a', n, ha', hno, hlev, hnext, hprev⟩ := hl i hi
  rw [ha] at ha'; cases ha'
  have hd : ∀ j ∈ L, ∃ a, h.orders j = some a := fun j hj => hl.addr hj
  have hnd : ∀ j ∈ L, ∀ b, h.orders j = some b → ∃ n, h.onode b = some n := by
    intro j hj b hb
    obtain ⟨b', n', hb', hn', _⟩ := hl j hj
    rw [hb] at hb'; cases hb'
    exact ⟨n', hn'⟩
  have s1 : h.modOrderIf n.prev (fun m => { m with next := n.next }) = .ok (upd h n.prev (fun m => { m with next := n.next })) := by
    apply modOrderIf_eq
    intro b hb
    rw [hprev] at hb
    cases hp : predId L i with
    | none => rw [hp] at hb; cases hb
    | some j => rw [hp] at hb; exact hnd j (pred_mem hn hp) b hb
  let h1 := upd h n.prev (fun m => { m with next := n.next })
  have s2 : h1.modOrderIf n.next (fun m => { m with prev := n.prev }) = .ok (upd h1 n.next (fun m => { m with prev := n.prev })) := by
    apply modOrderIf_eq
    intro b hb
    rw [hnext] at hb
    cases hp : succId L i with
    | none => rw [hp] at hb; cases hb
    | some j =>
      rw [hp] at hb
      obtain ⟨m, hm⟩ := hnd j (succ_mem hn hp) b hb
      exact ⟨_, upd_node hm⟩
  let h2 := upd h1 n.next (fun m => { m with prev := n.prev })
  have s3 := modLevel_eq (h := h2) (a := la) (n := nl) hla
    (fun l => { l with front := if l.front = some a then n.next else l.front, back := if l.back = some a then n.prev else l.back })
  let h3 : Heap := { h2 with lnode := setX h2.lnode la (some { nl with front := if nl.front = some a then n.next else nl.front, back := if nl.back = some a then n.prev else nl.back }) }
  have e3 : ∀ b, h3.onode b = h2.onode b := fun _ => rfl
  have s4 : h3.modOrder a (fun m => { m with next := none, prev := none }) = .ok (upd h3 (some a) (fun m => { m with next := none, prev := none })) :=
    modOrder_eq (by rw [e3]; exact upd_node (upd_node hno)) _
  refine ⟨upd h3 (some a) (fun m => { m with next := none, prev := none }), ?_, ?_, ?_, ?_, ?_, ?_⟩
  · unfold Heap.popCurrent
    rw [order_eq hno, Except.bind_ok, s1, Except.bind_ok, s2, Except.bind_ok, s3, Except.bind_ok]
    exact s4
  · exact ⟨rfl, rfl, rfl, rfl, rfl⟩
  · show setX h.lnode la _ = _
    congr 2
    have f1 : (nl.front = some a) ↔ (L.head? = some i) := by
      rw [hf]
      exact bind_iff hinj (fun j hj => List.mem_of_head? hj) hd hi ha
    have f2 : (nl.back = some a) ↔ (L.getLast? = some i) := by
      rw [hb]
      exact bind_iff hinj (fun j hj => List.mem_of_getLast? hj) hd hi ha
    rw [head_erase hn hi, last_erase hn hi]
    congr 1
    · rw [ite_bind]
      by_cases hc : L.head? = some i
      · rw [if_pos hc, if_pos (f1.mpr hc), hnext]
      · rw [if_neg hc, if_neg (fun e => hc (f1.mp e)), hf]
    · rw [ite_bind]
      by_cases hc : L.getLast? = some i
      · rw [if_pos hc, if_pos (f2.mpr hc), hprev]
      · rw [if_neg hc, if_neg (fun e => hc (f2.mp e)), hb]
  · intro b hb
    have hp1 : n.prev ≠ some b := by
      rw [hprev]
      intro h0
      cases hp : predId L i with
      | none => rw [hp] at h0; cases h0
      | some j => rw [hp] at h0; exact hb j (pred_mem hn hp) h0
    have hp2 : n.next ≠ some b := by
      rw [hnext]
      intro h0
      cases hp : succId L i with
      | none => rw [hp] at h0; cases h0
      | some j => rw [hp] at h0; exact hb j (succ_mem hn hp) h0
    have hp3 : some a ≠ some b := fun e => hb i hi (by rw [ha, e])
    rw [upd_other hp3, e3, upd_other hp2, upd_other hp1]
  · intro b
    exact (upd_order (h := h3) (f := fun m => { m with next := none, prev := none }) (fun _ => rfl) b).trans
      ((upd_order (h := h1) (f := fun m => { m with prev := n.prev }) (fun _ => rfl) b).trans
        (upd_order (h := h) (f := fun m => { m with next := n.next }) (fun _ => rfl) b))
  · intro j hj
    have hjL : j ∈ L := List.mem_of_mem_erase hj
    have hji : j ≠ i := by
      intro e
      rw [e] at hj
      exact (List.Nodup.not_mem_erase hn) hj
    obtain ⟨b, m, hbo, hbn, hbl, hbx, hbp⟩ := hl j hjL
    have hab : some a ≠ some b := by
      intro e
      exact hji (hinj j hjL i hi (by rw [hbo, ha, e]))
    refine ⟨b, (if n.next = some b then { (if n.prev = some b then { m with next := n.next } else m) with prev := n.prev }
      else (if n.prev = some b then { m with next := n.next } else m)), hbo, ?_, ?_, ?_, ?_⟩
    · rw [upd_other hab, e3]
      exact upd_node (upd_node hbn)
    · have q1 : ∀ (c : Prop) [Decidable c] (x : ONode) (v : Option Nat), ((if c then { x with prev := v } else x) : ONode).level = x.level := by
        intro c _ x v; split <;> rfl
      have q2 : ∀ (c : Prop) [Decidable c] (x : ONode) (v : Option Nat), ((if c then { x with next := v } else x) : ONode).level = x.level := by
        intro c _ x v; split <;> rfl
      rw [q1, q2]; exact hbl
    · have q1 : ∀ (c : Prop) [Decidable c] (x : ONode) (v : Option Nat), ((if c then { x with prev := v } else x) : ONode).next = x.next := by
        intro c _ x v; split <;> rfl
      have q2 : ∀ (c : Prop) [Decidable c] (x : ONode) (v : Option Nat), ((if c then { x with next := v } else x) : ONode).next = if c then v else x.next := by
        intro c _ x v; split <;> rfl
      rw [q1, q2]
      show _ = (succId (L.erase i) j).bind h.orders
      rw [succ_erase hn hi hjL hji, hbx, hnext, hprev]
      have q3 : ((predId L i).bind h.orders = some b) ↔ succId L j = some i := by
        rw [bind_iff hinj (fun y hy => pred_mem hn hy) hd hjL hbo]
        exact (succ_pred hn).symm
      simp only [q3]
      split <;> rfl
    · have q1 : ∀ (c : Prop) [Decidable c] (x : ONode) (v : Option Nat), ((if c then { x with prev := v } else x) : ONode).prev = if c then v else x.prev := by
        intro c _ x v; split <;> rfl
      have q2 : ∀ (c : Prop) [Decidable c] (x : ONode) (v : Option Nat), ((if c then { x with next := v } else x) : ONode).prev = x.prev := by
        intro c _ x v; split <;> rfl
      rw [q1, q2]
      show _ = (predId (L.erase i) j).bind h.orders
      rw [pred_erase hn hi hjL hji, hbp, hprev, hnext]
      have q3 : ((succId L i).bind h.orders = some b) ↔ predId L j = some i := by
        rw [bind_iff hinj (fun y hy => succ_mem hn hy) hd hjL hbo]
        exact succ_pred hn
      simp only [q3]
      split <;> rfl

theorem pushBack_spec {h : Heap} {la i a : Nat} {L : List Nat} {nl : LNode} {n : ONode} (hl : Links h la L) (hn : (L ++ [i]).Nodup)
    (hinj : Inj h (L ++ [i])) (ha : h.orders i = some a) (hno : h.onode a = some n) (hla : h.lnode la = some nl)
    (hf : nl.front = L.head?.bind h.orders) (hb : nl.back = L.getLast?.bind h.orders) :
    ∃ h', h.pushBack la a = .ok h' ∧ Steady h h' ∧
      h'.lnode = setX h.lnode la (some { nl with front := (L ++ [i]).head?.bind h.orders, back := (L ++ [i]).getLast?.bind h.orders }) ∧
      (∀ b, (∀ j ∈ L ++ [i], h.orders j ≠ some b) → h'.onode b = h.onode b) ∧
      (∀ b, (h'.onode b).map (·.order) = (h.onode b).map (·.order)) ∧
      (∃ n', h'.onode a = some n') ∧ Links (upd h' (some a) (fun n => { n with level := some la })) la (L ++ [i]) := by
  have hnL : L.Nodup := (List.nodup_append.mp hn).1
  have hiL : i ∉ L := fun hm => (List.nodup_append.mp hn).2.2 i hm i (by simp) rfl
  have hd : ∀ j ∈ L ++ [i], ∃ a, h.orders j = some a := by
    intro j hj
    rcases List.mem_append.mp hj with hj | hj
    · exact hl.addr hj
    · rw [List.mem_singleton.mp hj]; exact ⟨a, ha⟩
  have hiM : i ∈ L ++ [i] := by simp
  have hlastM : ∀ j, L.getLast? = some j → j ∈ L := fun j hj => List.mem_of_getLast? hj
  let h1 := upd h (some a) (fun n => { n with next := none })
  have s1 : h.modOrder a (fun n => { n with next := none }) = .ok h1 := modOrder_eq hno _
  have s2 : h1.modOrderIf nl.back (fun n => { n with next := some a }) = .ok (upd h1 nl.back (fun n => { n with next := some a })) := by
    apply modOrderIf_eq
    intro b hbb
    rw [hb] at hbb
    cases hp : L.getLast? with
    | none => rw [hp] at hbb; cases hbb
    | some j =>
      rw [hp] at hbb
      obtain ⟨b', m, hb', hm, _⟩ := hl j (hlastM j hp)
      have : b' = b := Option.some.inj (hb'.symm.trans hbb)
      subst this
      exact ⟨_, upd_node hm⟩
  let h2 := upd h1 nl.back (fun n => { n with next := some a })
  have s3 : h2.modOrder a (fun n => { n with prev := nl.back }) = .ok (upd h2 (some a) (fun n => { n with prev := nl.back })) :=
    modOrder_eq (upd_node (upd_node hno)) _
  let h3 := upd h2 (some a) (fun n => { n with prev := nl.back })
  have s4 := modLevel_eq (h := h3) (a := la) (n := nl) hla (fun l => { l with back := some a, front := if l.front.isNone then some a else l.front })
  have hbe : ∀ {j b}, j ∈ L → h.orders j = some b → (nl.back = some b ↔ L.getLast? = some j) := by
    intro j b hj hbo
    rw [hb]
    exact bind_iff hinj (fun y hy => List.mem_append_left _ (hlastM y hy)) hd (List.mem_append_left _ hj) hbo
  have hba : nl.back ≠ some a := by
    rw [hb]
    intro h0
    cases hp : L.getLast? with
    | none => rw [hp] at h0; cases h0
    | some j =>
      rw [hp] at h0
      have := hinj j (List.mem_append_left _ (hlastM j hp)) i hiM (by rw [ha]; exact h0)
      exact hiL (this ▸ hlastM j hp)
  refine ⟨{ h3 with lnode := setX h3.lnode la (some { nl with back := some a, front := if nl.front.isNone then some a else nl.front }) }, ?_, ?_, ?_, ?_, ?_, ?_, ?_⟩
  · unfold Heap.pushBack
    rw [level_eq hla, Except.bind_ok, s1, Except.bind_ok, s2, Except.bind_ok, s3, Except.bind_ok]
    exact s4
  · exact ⟨rfl, rfl, rfl, rfl, rfl⟩
  · show setX h.lnode la _ = _
    congr 2
    rw [LNode.mk.injEq]
    refine ⟨rfl, rfl, rfl, rfl, rfl, rfl, ?_, ?_⟩
    · rw [hf]
      cases L with
      | nil => simp [ha]
      | cons y L =>
        obtain ⟨b, hb'⟩ := hl.addr (i := y) List.mem_cons_self
        simp [hb']
    · simp [ha]
  · intro b hbb
    have hp1 : nl.back ≠ some b := by
      rw [hb]
      intro h0
      cases hp : L.getLast? with
      | none => rw [hp] at h0; cases h0
      | some j => rw [hp] at h0; exact hbb j (List.mem_append_left _ (hlastM j hp)) h0
    have hp3 : some a ≠ some b := fun e => hbb i hiM (by rw [ha, e])
    show h3.onode b = _
    rw [upd_other hp3, upd_other hp1, upd_other hp3]
  · intro b
    show (h3.onode b).map _ = _
    exact (upd_order (h := h2) (f := fun n => { n with prev := nl.back }) (fun _ => rfl) b).trans
      ((upd_order (h := h1) (f := fun n => { n with next := some a }) (fun _ => rfl) b).trans
        (upd_order (h := h) (f := fun n => { n with next := none }) (fun _ => rfl) b))
  · exact ⟨_, upd_node (upd_node (upd_node hno))⟩
  · intro j hj
    rcases List.mem_append.mp hj with hj | hj
    · have hjM := hj
      obtain ⟨b, m, hbo, hbn, hbl, hbx, hbp⟩ := hl j hj
      have hji : j ≠ i := fun e => hiL (e ▸ hj)
      have hab : some a ≠ some b := by
        intro e
        exact hji (hinj j (List.mem_append_left _ hj) i hiM (by rw [hbo, ha, e]))
      refine ⟨b, (if nl.back = some b then { m with next := some a } else m), hbo, ?_, ?_, ?_, ?_⟩
      · rw [upd_other hab]
        show h3.onode b = _
        rw [upd_other hab]
        have : h1.onode b = some m := by
          show (upd h _ _).onode b = _
          rw [upd_other hab]; exact hbn
        exact upd_node this
      · split <;> exact hbl
      · have q2 : ((if nl.back = some b then { m with next := some a } else m) : ONode).next = if nl.back = some b then some a else m.next := by split <;> rfl
        rw [q2]
        show _ = (succId (L ++ [i]) j).bind h.orders
        rw [succ_snoc hn hj]
        simp only [hbe hj hbo]
        split
        · exact ha.symm
        · exact hbx
      · have q2 : ((if nl.back = some b then { m with next := some a } else m) : ONode).prev = m.prev := by split <;> rfl
        rw [q2, hbp]
        show _ = (predId (L ++ [i]) j).bind h.orders
        rw [pred_snoc hn hj]
    · have hj' := List.mem_singleton.mp hj
      subst hj'
      refine ⟨a, { n with next := none, prev := nl.back, level := some la }, ha, ?_, rfl, ?_, ?_⟩
      · rw [upd_node (n := { n with next := none, prev := nl.back }) ?_, if_pos rfl]
        show h3.onode a = _
        rw [upd_node (n := { n with next := none }) ?_, if_pos rfl]
        show h2.onode a = _
        rw [upd_other hba]
        show h1.onode a = _
        rw [upd_node hno, if_pos rfl]
      · rw [succ_snoc_self hn]; rfl
      · rw [pred_snoc_self]; exact hb

end Ptr
end CppTrader
