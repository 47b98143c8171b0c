import Verif.Model.Book
/- Helper lemmas on level lists. -/

namespace CppTrader

/-- Levels strictly sorted, best first. -/
def Sorted (k : Kind) (ls : List Level) : Prop := ls.Pairwise (fun a b => k.better a.price b.price = true)

theorem better_irrefl (k : Kind) (p : Nat) : k.better p p = false := by
  unfold Kind.better; split <;> simp

theorem better_trans {k : Kind} {a b c : Nat} (h₁ : k.better a b = true) (h₂ : k.better b c = true) :
    k.better a c = true := by
  unfold Kind.better at *; split at h₁ <;> simp_all <;> omega

theorem better_ne {k : Kind} {a b : Nat} (h : k.better a b = true) : a ≠ b := by
  intro e; subst e; simp [better_irrefl] at h

theorem better_total {k : Kind} {a b : Nat} (h : k.better a b = false) (hne : a ≠ b) :
    k.better b a = true := by
  unfold Kind.better at *; split at h <;> simp_all <;> omega

theorem better_asymm {k : Kind} {a b : Nat} (h : k.better a b = true) : k.better b a = false := by
  unfold Kind.better at *; split at h <;> simp_all <;> omega

theorem findLevel_some {k : Kind} {ls : List Level} {p : Nat} {l : Level} (hs : Sorted k ls)
    (h : findLevel ls p = some l) :
    ∃ xs ys, ls = xs ++ l :: ys ∧ l.price = p ∧ (∀ x ∈ xs, k.better x.price p = true) ∧
      (∀ y ∈ ys, k.better p y.price = true) := by
  induction ls with
  | nil => simp [findLevel] at h
  | cons a ls ih =>
    unfold Sorted at hs
    rw [List.pairwise_cons] at hs
    unfold findLevel at h
    rw [List.find?_cons] at h
    by_cases hp : a.price = p
    · simp [hp] at h
      subst h
      exact ⟨[], ls, by simp, hp, by simp, by simpa [hp] using hs.1⟩
    · simp [hp] at h
      obtain ⟨xs, ys, he, hl, hx, hy⟩ := ih hs.2 (by simpa [findLevel] using h)
      refine ⟨a :: xs, ys, by simp [he], hl, ?_, hy⟩
      intro x hx'
      rcases List.mem_cons.1 hx' with rfl | hx'
      · have := hs.1 l (by simp [he]); rwa [hl] at this
      · exact hx x hx'

theorem findLevel_none {ls : List Level} {p : Nat} :
    findLevel ls p = none ↔ ∀ l ∈ ls, l.price ≠ p := by
  simp [findLevel, List.find?_eq_none]

/-- The decomposition facts for a level with price `p` inside a sorted list. -/
structure Split (k : Kind) (xs : List Level) (p : Nat) (ys : List Level) : Prop where
  left : ∀ x ∈ xs, k.better x.price p = true
  right : ∀ y ∈ ys, k.better p y.price = true

theorem Split.left_ne {k xs p ys} (h : Split k xs p ys) : ∀ x ∈ xs, x.price ≠ p :=
  fun x hx => better_ne (h.left x hx)
theorem Split.right_ne {k xs p ys} (h : Split k xs p ys) : ∀ y ∈ ys, y.price ≠ p :=
  fun y hy => (better_ne (h.right y hy)).symm

theorem sorted_mid {k : Kind} {xs ys : List Level} {l : Level} (hs : Sorted k (xs ++ l :: ys)) :
    Split k xs l.price ys := by
  unfold Sorted at hs
  rw [List.pairwise_append] at hs
  obtain ⟨_, h2, h3⟩ := hs
  rw [List.pairwise_cons] at h2
  exact ⟨fun x hx => h3 x hx l (by simp), h2.1⟩

theorem findLevel_mid {k : Kind} {xs ys : List Level} {l : Level} (h : Split k xs l.price ys) :
    findLevel (xs ++ l :: ys) l.price = some l := by
  unfold findLevel
  rw [List.find?_append]
  have : xs.find? (fun x => decide (x.price = l.price)) = none := by
    rw [List.find?_eq_none]; intro x hx; simpa using h.left_ne x hx
  rw [this]; simp

theorem map_eq_self {α : Type} {f : α → α} {xs : List α} (h : ∀ x ∈ xs, f x = x) : xs.map f = xs := by
  induction xs with
  | nil => rfl
  | cons a xs ih => simp [h a (by simp), ih (fun x hx => h x (by simp [hx]))]

theorem replaceLevel_mid {k : Kind} {xs ys : List Level} {l n : Level} (h : Split k xs l.price ys)
    (hn : n.price = l.price) : replaceLevel n (xs ++ l :: ys) = xs ++ n :: ys := by
  unfold replaceLevel
  rw [List.map_append, List.map_cons]
  rw [map_eq_self (fun x hx => by have := h.left_ne x hx; simp [hn, this]),
    map_eq_self (fun x hx => by have := h.right_ne x hx; simp [hn, this])]
  simp [hn]

theorem eraseLevel_mid {k : Kind} {xs ys : List Level} {l : Level} (h : Split k xs l.price ys) :
    eraseLevel l.price (xs ++ l :: ys) = xs ++ ys := by
  unfold eraseLevel
  rw [List.filter_append, List.filter_cons]
  simp only [ne_eq, not_true_eq_false, decide_false, Bool.false_eq_true, if_false]
  congr 1
  · rw [List.filter_eq_self]; intro x hx; simpa using h.left_ne x hx
  · rw [List.filter_eq_self]; intro x hx; simpa using h.right_ne x hx

theorem nextLevel_mid {k : Kind} {xs ys : List Level} {l : Level} (h : Split k xs l.price ys) :
    nextLevel (xs ++ l :: ys) l.price = ys.head? := by
  have hl := h.left_ne
  clear h
  induction xs with
  | nil => simp [nextLevel]
  | cons a xs ih =>
    have := hl a (by simp)
    simp only [List.cons_append, nextLevel, this, if_false]
    exact ih (fun x hx => hl x (by simp [hx]))

theorem levelsFrom_mid {k : Kind} {xs ys : List Level} {l : Level} (h : Split k xs l.price ys) :
    levelsFrom (xs ++ l :: ys) l.price = l :: ys := by
  have hl := h.left_ne
  clear h
  induction xs with
  | nil => simp [levelsFrom]
  | cons a xs ih =>
    have := hl a (by simp)
    simp only [List.cons_append, levelsFrom, this, if_false]
    exact ih (fun x hx => hl x (by simp [hx]))

theorem insertLevel_split {k : Kind} {ls : List Level} {n : Level} (hs : Sorted k ls)
    (hn : ∀ l ∈ ls, l.price ≠ n.price) :
    ∃ xs ys, ls = xs ++ ys ∧ insertLevel k n ls = xs ++ n :: ys ∧ Split k xs n.price ys := by
  induction ls with
  | nil => exact ⟨[], [], rfl, rfl, by simp, by simp⟩
  | cons a ls ih =>
    unfold Sorted at hs
    rw [List.pairwise_cons] at hs
    by_cases hb : k.better n.price a.price = true
    · refine ⟨[], a :: ls, rfl, by simp [insertLevel, hb], by simp, ?_⟩
      intro y hy
      rcases List.mem_cons.1 hy with rfl | hy
      · exact hb
      · exact better_trans hb (hs.1 y hy)
    · obtain ⟨xs, ys, he, hi, hsp⟩ := ih hs.2 (fun l hl => hn l (by simp [hl]))
      refine ⟨a :: xs, ys, by simp [he], by simp [insertLevel, hb, hi], ?_, hsp.right⟩
      intro x hx
      rcases List.mem_cons.1 hx with rfl | hx
      · exact better_total (by simpa using hb) (fun e => hn x (by simp) e.symm)
      · exact hsp.left x hx

theorem sorted_insert {k : Kind} {xs ys : List Level} {n : Level} (hs : Sorted k (xs ++ ys))
    (h : Split k xs n.price ys) : Sorted k (xs ++ n :: ys) := by
  unfold Sorted at *
  rw [List.pairwise_append] at *
  refine ⟨hs.1, List.pairwise_cons.2 ⟨h.right, hs.2.1⟩, ?_⟩
  intro a ha b hb
  rcases List.mem_cons.1 hb with rfl | hb
  · exact h.left a ha
  · exact hs.2.2 a ha b hb

theorem sorted_remove {k : Kind} {xs ys : List Level} {n : Level} (hs : Sorted k (xs ++ n :: ys)) :
    Sorted k (xs ++ ys) := by
  unfold Sorted at *
  rw [List.pairwise_append] at *
  rw [List.pairwise_cons] at hs
  exact ⟨hs.1, hs.2.1.2, fun a ha b hb => hs.2.2 a ha b (by simp [hb])⟩

theorem sorted_replace {k : Kind} {xs ys : List Level} {l n : Level} (hs : Sorted k (xs ++ l :: ys))
    (hn : n.price = l.price) : Sorted k (xs ++ n :: ys) :=
  sorted_insert (sorted_remove hs) (hn ▸ sorted_mid hs)

theorem mem_split {ls : List Level} {l : Level} (h : l ∈ ls) : ∃ xs ys, ls = xs ++ l :: ys :=
  List.append_of_mem h

theorem findLevel_mem {ls : List Level} {p : Nat} {l : Level} (h : findLevel ls p = some l) :
    l ∈ ls ∧ l.price = p := by
  unfold findLevel at h
  exact ⟨List.mem_of_find?_eq_some h, by simpa using List.find?_some h⟩

@[simp] theorem setK_same {α} (f : Kind → α) (k v) : setK f k v k = v := by simp [setK]
theorem setK_other {α} (f : Kind → α) {k k'} (v) (h : k' ≠ k) : setK f k v k' = f k' := by simp [setK, h]

theorem add64_eq {a b : Nat} (h : a + b < W64) : add64 a b = a + b := by
  unfold add64; exact Nat.mod_eq_of_lt h
theorem sub64_eq {a b : Nat} (hb : b ≤ a) (ha : a < W64) : sub64 a b = a - b := by
  unfold sub64; omega
theorem add64_lt (a b : Nat) : add64 a b < W64 := by unfold add64; omega
theorem sub64_lt (a b : Nat) : sub64 a b < W64 := by unfold sub64; omega

end CppTrader
