import Verif.Proof.Index
/-
The number of buckets of the hash map (proofs for C88).
-/

namespace CppTrader.Index

variable {α : Type} {hash : Nat → Nat}

theorem grow_le (c : Nat) : ∀ f r, grow c f r ≤ max r (2 * c) := by
  intro f
  induction f with
  | zero => intro r; exact Nat.le_max_left _ _
  | succ f ih =>
    intro r
    unfold grow
    split
    · have := ih (r * 2); omega
    · exact Nat.le_max_left _ _

theorem new_cap_le (c : Nat) : (Table.new c : Table α).cap ≤ max 1 (2 * c) := grow_le c c 1

theorem place_cap {t t' : Table α} {k : Nat} {v : α} {b : Bool} (h : t.place hash k v = .ok (t', b)) : t'.cap = t.cap := by
  unfold Table.place at h
  cases hp : t.probe k t.cap (t.home hash k) with
  | error e => simp [hp, bind, Except.bind] at h
  | ok x =>
    obtain ⟨i, hit⟩ := x
    cases hit <;> simp [hp, bind, Except.bind, pure, Except.pure] at h <;> rw [← h.1] <;> rfl

theorem fill_cap (l : List (Nat × α)) : ∀ {t t' : Table α}, (l.foldlM (init := t) fun other x =>
    if other.cap < (other.size + 1) * 2 then .error .loop
    else do
      let (other, _) ← other.place hash x.1 x.2
      return other : Except Stuck (Table α)) = .ok t' → t'.cap = t.cap := by
  induction l with
  | nil => intro t t' h; cases h; rfl
  | cons x l ih =>
    intro t t' h
    rw [List.foldlM_cons] at h
    split at h
    · cases h
    · cases hp : t.place hash x.1 x.2 with
      | error e => simp [hp, bind, Except.bind] at h
      | ok y =>
        obtain ⟨t1, b⟩ := y
        rw [hp] at h
        exact (ih h).trans (place_cap hp)

theorem rehash_cap {t t' : Table α} {count : Nat} (h : t.rehash hash count = .ok t') :
    t'.cap = (Table.new (max count (t.size * 2)) : Table α).cap := fill_cap _ h

theorem shift_cap : ∀ (f : Nat) {t t' : Table α} {b i : Nat}, t.shift hash f b i = .ok t' → t'.cap = t.cap := by
  intro f
  induction f with
  | zero => intro t t' b i h; cases h
  | succ f ih =>
    intro t t' b i h
    unfold Table.shift at h
    split at h
    · cases h; rfl
    · dsimp only at h
      split at h
      · have e := ih h
        exact e
      · exact ih h

theorem erase_cap {t t' : Table α} {k : Nat} {b : Bool} (h : t.erase hash k = .ok (t', b)) : t'.cap = t.cap := by
  unfold Table.erase at h
  cases hf : t.find hash k with
  | error e => simp [hf, bind, Except.bind] at h
  | ok x =>
    cases x with
    | none => simp [hf, bind, Except.bind, pure, Except.pure] at h; rw [← h.1]
    | some i =>
      cases he : t.eraseAt hash i with
      | error e => simp [hf, he, bind, Except.bind] at h
      | ok t1 =>
        simp [hf, he, bind, Except.bind, pure, Except.pure] at h
        rw [← h.1]
        exact shift_cap _ he

theorem insert_cap {t t' : Table α} {k : Nat} {v : α} {b : Bool} (h : t.insert hash k v = .ok (t', b)) :
    t'.cap = t.cap ∨ t.cap < 2 * (t.size + 1) ∧ t.cap ≤ t'.cap ∧ t'.cap ≤ 4 * (t.size + 1) := by
  unfold Table.insert Table.reserve at h
  split at h
  · rename_i hc
    cases hr : t.rehash hash ((t.size + 1) * 2) with
    | error e => simp [hr, bind, Except.bind] at h
    | ok t1 =>
      rw [hr] at h
      have h1 := rehash_cap hr
      have h2 := place_cap (show t1.place hash k v = .ok (t', b) from h)
      have h3 := new_cap_le (α := α) (max ((t.size + 1) * 2) (t.size * 2))
      have h4 := new_cap (α := α) (max ((t.size + 1) * 2) (t.size * 2))
      refine .inr ⟨by omega, ?_, ?_⟩ <;> rw [h2, h1] <;> omega
  · exact .inl (place_cap (show t.place hash k v = .ok (t', b) from h))

end CppTrader.Index
