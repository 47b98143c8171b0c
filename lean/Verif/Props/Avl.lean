import Verif.Proof.Lists
/-
Property C35: choosing the new best level through the tree links of the deleted one.
-/

namespace CppTrader.Avl

/-- A search tree of levels (`CppCommon::BinTreeAVL<LevelNode>`; order_book.h:34). -/
inductive Tree (α : Type) where
  | nil
  | node (l : Tree α) (v : α) (r : Tree α)

variable {α : Type}

def Tree.root : Tree α → Option α
  | .nil => none
  | .node _ v _ => some v
def Tree.height : Tree α → Nat
  | .nil => 0
  | .node l _ r => max l.height r.height + 1
/-- The AVL balance condition (assumed of the dependency). -/
def Tree.Balanced : Tree α → Prop
  | .nil => True
  | .node l _ r => l.Balanced ∧ r.Balanced ∧ l.height ≤ r.height + 1 ∧ r.height ≤ l.height + 1
/-- In-order traversal: ascending prices. -/
def Tree.inorder : Tree α → List α
  | .nil => []
  | .node l v r => l.inorder ++ v :: r.inorder

/-- order_book.cpp:105-107: the new `_best_bid` picked from the links of the highest node (`parent` is that node's
parent link while descending): `left`, else `parent`, else `right`. -/
def pickMax : Option α → Tree α → Option α
  | parent, .nil => parent
  | parent, .node l _ .nil => l.root.or (parent.or none)
  | _, .node _ v (.node l' v' r') => pickMax (some v) (.node l' v' r')

/-- order_book.cpp:116-118: the new `_best_ask` from the links of the lowest node: `right`, else `parent`, else `left`. -/
def pickMin : Option α → Tree α → Option α
  | parent, .nil => parent
  | parent, .node .nil _ r => r.root.or (parent.or none)
  | _, .node (.node l' v' r') v _ => pickMin (some v) (.node l' v' r')

/-- order_book.cpp:265-267, 396-398: the same for sell-stop levels, without the last alternative. -/
def pickMaxStop : Option α → Tree α → Option α
  | parent, .nil => parent
  | parent, .node l _ .nil => l.root.or parent
  | _, .node _ v (.node l' v' r') => pickMaxStop (some v) (.node l' v' r')

/-- order_book.cpp:256-258, 387-389: the same for buy-stop levels. -/
def pickMinStop : Option α → Tree α → Option α
  | parent, .nil => parent
  | parent, .node .nil _ r => r.root.or parent
  | _, .node (.node l' v' r') v _ => pickMinStop (some v) (.node l' v' r')

theorem pickMaxStop_eq (p : Option α) (t : Tree α) : pickMaxStop p t = pickMax p t := by
  fun_induction pickMaxStop p t with
  | case1 => simp [pickMax]
  | case2 p l => simp [pickMax]
  | case3 _ _ _ _ _ _ ih => rw [ih]; simp [pickMax]

theorem pickMinStop_eq (p : Option α) (t : Tree α) : pickMinStop p t = pickMin p t := by
  fun_induction pickMinStop p t with
  | case1 => simp [pickMin]
  | case2 p l => simp [pickMin]
  | case3 _ _ _ _ _ _ ih => rw [ih]; simp [pickMin]

theorem height_le_one {t : Tree α} (h : t.height ≤ 1) : t.inorder = t.root.toList := by
  cases t with
  | nil => rfl
  | node l v r =>
    cases l with
    | nil =>
      cases r with
      | nil => rfl
      | node => simp [Tree.height] at h
    | node => simp [Tree.height] at h

theorem pickMax_spec (t : Tree α) (hb : t.Balanced) (hne : t.root ≠ none) (p : Option α) :
    pickMax p t = (t.inorder.reverse[1]?).or p := by
  fun_induction pickMax p t with
  | case1 p => simp [Tree.root] at hne
  | case2 p l v =>
    obtain ⟨_, _, h, _⟩ := hb
    simp only [Tree.height] at h
    simp only [Tree.inorder, height_le_one h]
    cases l.root <;> simp
  | case3 _ l v l' v' r' ih =>
    obtain ⟨_, h2, _, _⟩ := hb
    rw [ih h2 (by simp [Tree.root])]
    generalize hT : Tree.node l' v' r' = T
    have hT' : T.inorder ≠ [] := by rw [← hT]; simp [Tree.inorder]
    simp only [Tree.inorder, List.reverse_append, List.reverse_cons, List.append_assoc]
    have hlen : 0 < T.inorder.reverse.length := by simpa using List.length_pos_iff.2 hT'
    generalize T.inorder.reverse = x at hlen
    match x, hlen with
    | [a], _ => simp
    | a :: b :: x, _ => simp

theorem pickMin_spec (t : Tree α) (hb : t.Balanced) (hne : t.root ≠ none) (p : Option α) :
    pickMin p t = (t.inorder[1]?).or p := by
  fun_induction pickMin p t with
  | case1 p => simp [Tree.root] at hne
  | case2 p v r =>
    obtain ⟨_, _, _, h⟩ := hb
    simp only [Tree.height] at h
    simp only [Tree.inorder, height_le_one h]
    cases r.root <;> simp
  | case3 _ l' v' r' v r ih =>
    obtain ⟨h2, _, _, _⟩ := hb
    rw [ih h2 (by simp [Tree.root])]
    generalize hT : Tree.node l' v' r' = T
    have hT' : T.inorder ≠ [] := by rw [← hT]; simp [Tree.inorder]
    simp only [Tree.inorder]
    have hlen : 0 < T.inorder.length := List.length_pos_iff.2 hT'
    generalize T.inorder = x at hlen
    match x, hlen with
    | [a], _ => simp
    | a :: b :: x, _ => simp

/-- C35: in every balanced non-empty tree, the link chosen when the highest level is deleted is the second highest level
(and null when there is none). -/
theorem best_after_delete_max (t : Tree α) (hb : t.Balanced) (hne : t.inorder ≠ []) :
    pickMax none t = t.inorder.reverse[1]? ∧ pickMaxStop none t = t.inorder.reverse[1]? := by
  have hr : t.root ≠ none := by cases t <;> simp_all [Tree.root, Tree.inorder]
  rw [pickMaxStop_eq, pickMax_spec t hb hr none]; simp

/-- C35: the same for the lowest level. -/
theorem best_after_delete_min (t : Tree α) (hb : t.Balanced) (hne : t.inorder ≠ []) :
    pickMin none t = t.inorder[1]? ∧ pickMinStop none t = t.inorder[1]? := by
  have hr : t.root ≠ none := by cases t <;> simp_all [Tree.root, Tree.inorder]
  rw [pickMinStop_eq, pickMin_spec t hb hr none]; simp

/-- Connection with the book model: its `nextLevel` of the first level (used by `Book.deleteLevel`) is the second level of
the list, i.e. what the tree links give for the tree holding these levels in walking order. -/
theorem nextLevel_first (l : Level) (ls : List Level) : nextLevel (l :: ls) l.price = (l :: ls)[1]? := by
  cases ls <;> simp [nextLevel]

theorem deleteLevel_best_from_tree (b : Book) (k : Kind) (l : Level) (ls : List Level) (t : Tree Level)
    (hb : t.Balanced) (hlv : b.lv k = l :: ls) (hbest : b.best k = some l.price)
    (ht : t.inorder = if k.isBidType then (b.lv k).reverse else b.lv k) :
    (b.deleteLevel k l.price).best k =
      ((if k.isBidType then pickMax none t else pickMin none t)).map (·.price) := by
  have hne : t.inorder ≠ [] := by rw [ht, hlv]; split <;> simp
  have h1 := (best_after_delete_max t hb hne).1
  have h2 := (best_after_delete_min t hb hne).1
  simp only [Book.deleteLevel, setK_same, hbest, if_true, hlv, nextLevel_first]
  cases hk : k.isBidType with
  | true => simp only [if_true]; rw [h1, ht, hk]; simp [hlv]
  | false => simp only [Bool.false_eq_true, if_false]; rw [h2, ht, hk]; simp [hlv]

/-- The balance condition is needed: in an unbalanced search tree the picked link is not the next best level. -/
theorem unbalanced_counterexample :
    let t : Tree Nat := .node (.node .nil 1 (.node .nil 2 .nil)) 3 .nil
    pickMax none t = some 1 ∧ t.inorder.reverse[1]? = some 2 := by decide

-- a balanced, non-empty tree with several levels
example : let t : Tree Nat := .node (.node .nil 1 .nil) 2 (.node (.node .nil 3 .nil) 4 .nil)
    t.Balanced ∧ t.inorder = [1, 2, 3, 4] ∧ pickMax none t = some 3 ∧ pickMin none t = some 2 := by
  simp [Tree.Balanced, Tree.height, Tree.inorder, pickMax, pickMin, Tree.root]

end CppTrader.Avl
