import Verif.Model.Index
import Verif.Dict
/-
The hash map keeps its entries reachable: every bucket between the home of a key and the bucket of its entry is in use.
-/

namespace CppTrader.Index

variable {α : Type} {hash : Nat → Nat}

/-! ### Walking round the table -/

/-- How many steps it takes from bucket `b` to bucket `i` of `cap`. -/
def off (cap b i : Nat) : Nat := if b ≤ i then i - b else cap + i - b

/-- A power of two of buckets. -/
structure Table.Wide (t : Table α) : Prop where
  pow : ∃ n, t.cap = 2 ^ n

theorem Table.Wide.pos {t : Table α} (w : t.Wide) : 0 < t.cap := by
  obtain ⟨n, h⟩ := w.pow; rw [h]; exact Nat.two_pow_pos n

theorem Table.Wide.and {t : Table α} (w : t.Wide) (x : Nat) : x &&& (t.cap - 1) = x % t.cap := by
  obtain ⟨n, h⟩ := w.pow; rw [h]; exact Nat.and_two_pow_sub_one_eq_mod x n

theorem Table.Wide.home {t : Table α} (w : t.Wide) (k : Nat) : t.home hash k < t.cap := by
  rw [Table.home, w.and]; exact Nat.mod_lt _ w.pos

theorem Table.Wide.after {t : Table α} (w : t.Wide) {i : Nat} (hi : i < t.cap) :
    t.after i = if i + 1 = t.cap then 0 else i + 1 := by
  rw [Table.after, w.and]
  split
  · next h => rw [h, Nat.mod_self]
  · exact Nat.mod_eq_of_lt (by omega)

theorem Table.Wide.diff {t : Table α} (w : t.Wide) {i j : Nat} (hi : i < t.cap) (hj : j < t.cap) :
    t.diff i j = off t.cap j i := by
  rw [Table.diff, w.and, off]
  split
  · next h =>
    rw [show t.cap + i - j = (i - j) + t.cap by omega, Nat.add_mod_right]; exact Nat.mod_eq_of_lt (by omega)
  · exact Nat.mod_eq_of_lt (by omega)

theorem grow_spec (c : Nat) : ∀ f r, (∃ n, r = 2 ^ n) → (∃ n, grow c f r = 2 ^ n) ∧ (c ≤ r * 2 ^ f → c ≤ grow c f r) := by
  intro f
  induction f with
  | zero => intro r h; exact ⟨h, fun h => by simpa [grow] using h⟩
  | succ f ih =>
    intro r h
    unfold grow
    split
    · have h2 : ∃ n, r * 2 = 2 ^ n := by
        obtain ⟨n, h⟩ := h; exact ⟨n + 1, by rw [h, Nat.pow_succ]⟩
      refine ⟨(ih _ h2).1, fun h => (ih _ h2).2 ?_⟩
      rw [Nat.mul_assoc, Nat.mul_comm 2, ← Nat.pow_succ]; exact h
    · exact ⟨h, fun _ => by omega⟩

theorem new_wide (c : Nat) : (Table.new c : Table α).Wide := ⟨(grow_spec c c 1 ⟨0, rfl⟩).1⟩

theorem new_cap (c : Nat) : c ≤ (Table.new c : Table α).cap :=
  (grow_spec c c 1 ⟨0, rfl⟩).2 (by rw [Nat.one_mul]; exact Nat.le_of_lt Nat.lt_two_pow_self)

/-! ### Counting the buckets in use -/

def occ (s : Nat → Option (Nat × α)) : Nat → Nat
  | 0 => 0
  | n + 1 => occ s n + if (s n).isSome then 1 else 0

theorem occ_le (s : Nat → Option (Nat × α)) (n : Nat) : occ s n ≤ n := by
  induction n with
  | zero => simp [occ]
  | succ n ih => unfold occ; split <;> omega

theorem occ_blank {s : Nat → Option (Nat × α)} {n : Nat} (h : occ s n < n) : ∃ z, z < n ∧ s z = none := by
  induction n with
  | zero => omega
  | succ n ih =>
    unfold occ at h
    cases hs : s n with
    | none => exact ⟨n, by omega, hs⟩
    | some x =>
      rw [hs] at h
      simp at h
      obtain ⟨z, h1, h2⟩ := ih h
      exact ⟨z, by omega, h2⟩

theorem occ_congr {s s' : Nat → Option (Nat × α)} {n : Nat} (h : ∀ i, i < n → s i = s' i) : occ s n = occ s' n := by
  induction n with
  | zero => rfl
  | succ n ih => unfold occ; rw [ih (fun i hi => h i (by omega)), h n (by omega)]

theorem occ_set {s : Nat → Option (Nat × α)} {n i : Nat} (hi : i < n) (hs : s i = none) (x : Nat × α) :
    occ (fun j => if j = i then some x else s j) n = occ s n + 1 := by
  induction n with
  | zero => omega
  | succ n ih =>
    unfold occ
    by_cases h : i = n
    · subst h
      rw [occ_congr (s' := s) (fun j hj => by simp; omega)]
      simp [hs]
    · rw [ih (by omega)]
      have : n ≠ i := fun e => h e.symm
      simp only [this, if_false]; omega

/-! ### The invariant -/

/-- Looking for a key from its home on finds it. -/
structure Table.Fine (hash : Nat → Nat) (t : Table α) : Prop where
  wide : t.Wide
  lt : ∀ i x, t.slot i = some x → i < t.cap
  uniq : ∀ i j k v w, t.slot i = some (k, v) → t.slot j = some (k, w) → i = j
  path : ∀ i k v, t.slot i = some (k, v) → ∀ j, j < t.cap → off t.cap (t.home hash k) j < off t.cap (t.home hash k) i →
    t.slot j ≠ none
  size : t.size = occ t.slot t.cap
  half : t.size * 2 ≤ t.cap

/-- The pair is in the table. -/
def Table.Holds (t : Table α) (k : Nat) (v : α) : Prop := ∃ i, t.slot i = some (k, v)

theorem Table.Fine.blank {t : Table α} (f : t.Fine hash) : ∃ z, z < t.cap ∧ t.slot z = none :=
  occ_blank (by have := f.wide.pos; have := f.half; have := f.size; omega)

theorem Table.Fine.same {t : Table α} (f : t.Fine hash) {k v w} (h : t.Holds k v) (h' : t.Holds k w) : v = w := by
  obtain ⟨i, h⟩ := h
  obtain ⟨j, h'⟩ := h'
  have := f.uniq i j k v w h h'
  subst this
  rw [h] at h'; injection h' with h'; injection h'

theorem new_fine (c : Nat) : (Table.new c : Table α).Fine hash where
  wide := new_wide c
  lt := fun i x h => by cases h
  uniq := fun i j k v w h => by cases h
  path := fun i k v h => by cases h
  size := by
    have : ∀ n, occ (fun _ => (none : Option (Nat × α))) n = 0 := by
      intro n; induction n with
      | zero => rfl
      | succ n ih => simp [occ, ih]
    exact (this _).symm
  half := by simp [Table.new]

theorem new_holds (c k : Nat) (v : α) : ¬ (Table.new c : Table α).Holds k v := fun ⟨_, h⟩ => by cases h

/-! ### Looking for a key -/

/-- What `probe` comes to. -/
inductive Table.Probed (hash : Nat → Nat) (t : Table α) (k : Nat) : Nat × Bool → Prop
  | hit (i : Nat) (v : α) (h : t.slot i = some (k, v)) : Probed hash t k (i, true)
  | miss (i : Nat) (lt : i < t.cap) (h : t.slot i = none)
      (before : ∀ j, j < t.cap → off t.cap (t.home hash k) j < off t.cap (t.home hash k) i →
        ∃ x, t.slot j = some x ∧ x.1 ≠ k) : Probed hash t k (i, false)

theorem probe_spec {t : Table α} (w : t.Wide) (hz : ∃ z, z < t.cap ∧ t.slot z = none) (k : Nat) :
    ∀ f i, i < t.cap → t.cap ≤ off t.cap (t.home hash k) i + f →
      (∀ j, j < t.cap → off t.cap (t.home hash k) j < off t.cap (t.home hash k) i → ∃ x, t.slot j = some x ∧ x.1 ≠ k) →
      ∃ r, t.probe k f i = .ok r ∧ t.Probed hash k r := by
  have hh := w.home (hash := hash) k
  obtain ⟨z, hz, hzn⟩ := hz
  intro f
  induction f with
  | zero =>
    intro i hi hf _
    unfold off at hf; split at hf <;> omega
  | succ f ih =>
    intro i hi hf hb
    unfold Table.probe
    cases hs : t.slot i with
    | none => exact ⟨_, rfl, .miss i hi hs hb⟩
    | some x =>
      obtain ⟨k', v⟩ := x
      dsimp only
      split
      · next e => subst e; exact ⟨_, rfl, .hit i v hs⟩
      · next ne =>
        have hzi : off t.cap (t.home hash k) i < off t.cap (t.home hash k) z := by
          refine Classical.byContradiction fun hn => ?_
          by_cases e : z = i
          · subst e; rw [hs] at hzn; cases hzn
          · have : off t.cap (t.home hash k) z < off t.cap (t.home hash k) i := by
              unfold off at hn ⊢; split at hn <;> split at hn <;> split <;> omega
            obtain ⟨x, hx, _⟩ := hb z hz this
            rw [hzn] at hx; cases hx
        have hn : t.after i < t.cap ∧ off t.cap (t.home hash k) (t.after i) = off t.cap (t.home hash k) i + 1 := by
          rw [w.after hi]
          unfold off at hzi ⊢
          split <;> (repeat' split) <;> (try split at hzi) <;> (try split at hzi) <;> omega
        refine ih _ hn.1 (by omega) fun j hj hlt => ?_
        rw [hn.2] at hlt
        by_cases e : j = i
        · subst e; exact ⟨_, hs, ne⟩
        · refine hb j hj ?_
          unfold off at hlt ⊢
          repeat' split at hlt
          all_goals (repeat' split)
          all_goals omega

theorem Table.Fine.probed {t : Table α} (f : t.Fine hash) (k : Nat) :
    ∃ r, t.probe k t.cap (t.home hash k) = .ok r ∧ t.Probed hash k r :=
  probe_spec f.wide f.blank k _ _ (f.wide.home k) (by omega) fun j _ h => by simp [off] at h

/-- A probe that ends on a blank bucket: the key is not there. -/
theorem Table.Fine.missed {t : Table α} (f : t.Fine hash) {k i : Nat} (h : t.Probed hash k (i, false)) (v : α) : ¬ t.Holds k v := by
  cases h with
  | miss _ lt hs before =>
    intro ⟨j, hj⟩
    have hjl := f.lt j _ hj
    have := f.wide.home (hash := hash) k
    by_cases e : j = i
    · subst e; rw [hs] at hj; cases hj
    · by_cases hlt : off t.cap (t.home hash k) j < off t.cap (t.home hash k) i
      · obtain ⟨x, hx, ne⟩ := before j hjl hlt
        rw [hj] at hx; injection hx with hx; subst hx; exact ne rfl
      · refine f.path j k v hj i lt ?_ hs
        unfold off at hlt ⊢
        repeat' split at hlt
        all_goals (repeat' split)
        all_goals omega

theorem Table.Fine.find {t : Table α} (f : t.Fine hash) (k : Nat) :
    (∃ i v, t.find hash k = .ok (some i) ∧ t.slot i = some (k, v)) ∨ (t.find hash k = .ok none ∧ ∀ v, ¬ t.Holds k v) := by
  obtain ⟨⟨i, b⟩, h1, h2⟩ := f.probed k
  cases b with
  | true =>
    cases h2 with
    | hit _ v h => exact .inl ⟨i, v, by simp [Table.find, h1, bind, Except.bind, pure, Except.pure], h⟩
  | false => exact .inr ⟨by simp [Table.find, h1, bind, Except.bind, pure, Except.pure], f.missed h2⟩

/-! ### Inserting -/

theorem Table.Fine.place {t : Table α} (f : t.Fine hash) (k : Nat) (v : α) (room : (t.size + 1) * 2 ≤ t.cap) :
    ∃ t' b, t.place hash k v = .ok (t', b) ∧ t'.Fine hash ∧ t'.cap = t.cap ∧
      (b = true → (∀ w, ¬ t.Holds k w) ∧ t'.size = t.size + 1 ∧ ∀ k' w, t'.Holds k' w ↔ t.Holds k' w ∨ k' = k ∧ w = v) ∧
      (b = false → t' = t ∧ ∃ w, t.Holds k w) := by
  obtain ⟨⟨i, b⟩, h1, h2⟩ := f.probed k
  cases b with
  | true =>
    cases h2 with
    | hit _ w h =>
      exact ⟨t, false, by simp [Table.place, h1, bind, Except.bind, pure, Except.pure], f, rfl, by simp, fun _ => ⟨rfl, w, i, h⟩⟩
  | false =>
    have miss := f.missed h2
    cases h2 with
    | miss _ lt hs before =>
      refine ⟨{ t.put i (some (k, v)) with size := t.size + 1 }, true,
        by simp [Table.place, h1, bind, Except.bind, pure, Except.pure], ?_, rfl, fun _ => ⟨miss, rfl, ?_⟩, by simp⟩
      · refine ⟨⟨f.wide.pow⟩, ?_, ?_, ?_, ?_, room⟩
        · intro j x hx
          simp only [Table.put] at hx ⊢
          split at hx
          · next e => exact e ▸ lt
          · exact f.lt j x hx
        · intro a b k' v' w' ha hb
          simp only [Table.put] at ha hb
          split at ha <;> split at hb
          · next e e' => rw [e, e']
          · cases ha; exact absurd ⟨b, hb⟩ (miss w')
          · cases hb; exact absurd ⟨a, ha⟩ (miss v')
          · exact f.uniq a b k' v' w' ha hb
        · intro a k' v' ha j hj hlt
          simp only [Table.put] at ha hj hlt ⊢
          split
          · simp
          · split at ha
            · next e =>
              cases ha; subst e
              obtain ⟨x, hx, _⟩ := before j hj hlt
              rw [hx]; simp
            · exact f.path a k' v' ha j hj hlt
        · simp only [Table.put]; rw [occ_set lt hs, f.size]
      · intro k' w
        constructor
        · rintro ⟨j, hj⟩
          simp only [Table.put] at hj
          split at hj
          · cases hj; exact .inr ⟨rfl, rfl⟩
          · exact .inl ⟨j, hj⟩
        · rintro (⟨j, hj⟩ | ⟨rfl, rfl⟩)
          · refine ⟨j, ?_⟩
            simp only [Table.put]
            rw [if_neg]; exact hj
            rintro rfl; rw [hs] at hj; cases hj
          · exact ⟨i, by simp [Table.put]⟩

/-! ### Growing -/

theorem mem_entries {t : Table α} (f : t.Fine hash) (k : Nat) (v : α) : (k, v) ∈ t.entries ↔ t.Holds k v := by
  rw [Table.entries, List.mem_filterMap]
  constructor
  · rintro ⟨i, _, h⟩; exact ⟨i, h⟩
  · rintro ⟨i, h⟩; exact ⟨i, List.mem_range.2 (f.lt i _ h), h⟩

theorem entries_length (s : Nat → Option (Nat × α)) (n : Nat) : ((List.range n).filterMap s).length = occ s n := by
  induction n with
  | zero => rfl
  | succ n ih =>
    rw [List.range_succ, List.filterMap_append, List.length_append, ih, occ]
    cases h : s n <;> simp [h]

theorem Table.Fine.entries_size {t : Table α} (f : t.Fine hash) : t.entries.length = t.size := by
  rw [Table.entries, entries_length, f.size]

theorem entries_keys {t : Table α} (f : t.Fine hash) : t.entries.Pairwise (fun x y => x.1 ≠ y.1) := by
  unfold Table.entries
  refine List.Pairwise.filterMap (R := fun i j => i ≠ j) t.slot ?_ List.nodup_range
  intro i j ne x hx y hy e
  obtain ⟨k, v⟩ := x
  obtain ⟨k', w⟩ := y
  dsimp only at e
  subst e
  exact ne (f.uniq i j _ _ _ hx hy)

/-- Insertion of a list of pairs with different keys into a table with room for them. -/
theorem refill (l : List (Nat × α)) (hl : l.Pairwise (fun x y => x.1 ≠ y.1)) :
    ∀ t : Table α, t.Fine hash → (∀ x ∈ l, ∀ w, ¬ t.Holds x.1 w) → (t.size + l.length) * 2 ≤ t.cap →
      ∃ t', (l.foldlM (init := t) fun other x =>
        if other.cap < (other.size + 1) * 2 then .error .loop
        else do
          let (other, _) ← other.place hash x.1 x.2
          return other) = .ok t' ∧ t'.Fine hash ∧ t'.cap = t.cap ∧ t'.size = t.size + l.length ∧
        ∀ k v, t'.Holds k v ↔ t.Holds k v ∨ (k, v) ∈ l := by
  induction l with
  | nil => intro t f _ _; exact ⟨t, rfl, f, rfl, rfl, by simp⟩
  | cons x l ih =>
    obtain ⟨k, v⟩ := x
    intro t f hn hr
    rw [List.length_cons] at hr
    rw [List.pairwise_cons] at hl
    obtain ⟨t1, b, h1, f1, hc, ht, hf⟩ := f.place k v (by omega)
    cases b with
    | false => exact absurd (hf rfl).2.choose_spec (hn (k, v) List.mem_cons_self _)
    | true =>
      obtain ⟨_, hs, hh⟩ := ht rfl
      obtain ⟨t', h2, f2, hc2, hs2, hh2⟩ := ih hl.2 t1 f1 (by
        intro y hy w hw
        rcases (hh _ _).1 hw with h | ⟨h, _⟩
        · exact hn y (List.mem_cons_of_mem _ hy) w h
        · exact hl.1 y hy h.symm) (by rw [hs, hc]; omega)
      refine ⟨t', ?_, f2, by rw [hc2, hc], by rw [hs2, hs, List.length_cons]; omega, ?_⟩
      · rw [List.foldlM_cons, if_neg (by omega), h1]
        exact h2
      · intro k' w
        rw [hh2, hh, List.mem_cons, or_assoc]
        simp [Prod.mk.injEq]

theorem Table.Fine.rehash {t : Table α} (f : t.Fine hash) (count : Nat) :
    ∃ t', t.rehash hash count = .ok t' ∧ t'.Fine hash ∧ count ≤ t'.cap ∧ t'.size = t.size ∧ ∀ k v, t'.Holds k v ↔ t.Holds k v := by
  have hc := new_cap (α := α) (max count (t.size * 2))
  obtain ⟨t', h, f', hc', hs, hh⟩ := refill t.entries (entries_keys f) (Table.new (max count (t.size * 2))) (new_fine _)
    (fun x _ w => new_holds _ _ _) (by rw [f.entries_size]; simp only [Table.new] at hc ⊢; omega)
  refine ⟨t', h, f', by rw [hc']; omega, by rw [hs, f.entries_size]; simp [Table.new], fun k v => ?_⟩
  rw [hh, mem_entries f]
  exact ⟨fun h => h.resolve_left (new_holds _ _ _), .inr⟩

theorem Table.Fine.reserve {t : Table α} (f : t.Fine hash) (count : Nat) :
    ∃ t', t.reserve hash count = .ok t' ∧ t'.Fine hash ∧ count * 2 ≤ t'.cap ∧ t'.size = t.size ∧ ∀ k v, t'.Holds k v ↔ t.Holds k v := by
  unfold Table.reserve
  split
  · exact f.rehash _
  · exact ⟨t, rfl, f, by omega, rfl, fun _ _ => .rfl⟩

theorem Table.Fine.insert {t : Table α} (f : t.Fine hash) (k : Nat) (v : α) :
    ∃ t' b, t.insert hash k v = .ok (t', b) ∧ t'.Fine hash ∧
      (b = true → (∀ w, ¬ t.Holds k w) ∧ t'.size = t.size + 1 ∧ ∀ k' w, t'.Holds k' w ↔ t.Holds k' w ∨ k' = k ∧ w = v) ∧
      (b = false → t'.size = t.size ∧ (∀ k' w, t'.Holds k' w ↔ t.Holds k' w) ∧ ∃ w, t.Holds k w) := by
  obtain ⟨t1, h1, f1, hc, hs, hh⟩ := f.reserve (t.size + 1)
  obtain ⟨t', b, h2, f2, _, ht, hf⟩ := f1.place k v (by omega)
  refine ⟨t', b, by simp [Table.insert, h1, h2, bind, Except.bind], f2, fun hb => ?_, fun hb => ?_⟩
  · obtain ⟨a, b, c⟩ := ht hb
    exact ⟨fun w hw => a w ((hh _ _).2 hw), by omega, fun k' w => by rw [c, hh]⟩
  · obtain ⟨rfl, w, hw⟩ := hf hb
    exact ⟨hs, hh, w, (hh _ _).1 hw⟩

/-! ### Erasing -/

/-- The table while the hole in bucket `h` is on its way: `t` is what it would be with the hole empty, and the buckets between the hole
and `i` are in use by entries that do not need the hole. -/
structure Table.Holed (hash : Nat → Nat) (t : Table α) (h i : Nat) : Prop where
  wide : t.Wide
  hole : h < t.cap
  here : i < t.cap
  ne : i ≠ h
  lt : ∀ a x, t.slot a = some x → a < t.cap
  uniq : ∀ a b k v w, a ≠ h → b ≠ h → t.slot a = some (k, v) → t.slot b = some (k, w) → a = b
  path : ∀ a k v, a ≠ h → t.slot a = some (k, v) → ∀ j, j < t.cap → j ≠ h →
    off t.cap (t.home hash k) j < off t.cap (t.home hash k) a → t.slot j ≠ none
  kept : ∀ a, a < t.cap → a ≠ h → off t.cap h a < off t.cap h i →
    ∃ k v, t.slot a = some (k, v) ∧ ¬ off t.cap (t.home hash k) h < off t.cap (t.home hash k) a
  size : t.size = occ (fun j => if j = h then none else t.slot j) t.cap + 1
  half : t.size * 2 ≤ t.cap

/-- The pair is in the table, and not in the hole. -/
def Table.Spares (t : Table α) (h k : Nat) (v : α) : Prop := ∃ i, i ≠ h ∧ t.slot i = some (k, v)

theorem shift_spec : ∀ (f : Nat) (t : Table α) (h i z : Nat), t.Holed hash h i → z < t.cap → z ≠ h → t.slot z = none →
    off t.cap i z < f →
    ∃ t', t.shift hash f h i = .ok t' ∧ t'.Fine hash ∧ t'.size = t.size - 1 ∧ ∀ k v, t'.Holds k v ↔ t.Spares h k v := by
  intro f
  induction f with
  | zero => intro t h i z _ _ _ _ hf; omega
  | succ f ih =>
    intro t h i z H hz hzh hzn hf
    unfold Table.shift
    have hi := H.here
    have hh := H.hole
    have hne := H.ne
    cases hs : t.slot i with
    | none =>
      refine ⟨_, rfl, ⟨⟨H.wide.pow⟩, ?_, ?_, ?_, ?_, ?_⟩, rfl, ?_⟩
      · intro a x hx
        simp only [Table.put] at hx ⊢
        split at hx
        · cases hx
        · exact H.lt a x hx
      · intro a b k v w ha hb
        simp only [Table.put] at ha hb
        split at ha
        · cases ha
        · split at hb
          · cases hb
          · next n1 n2 => exact H.uniq a b k v w n1 n2 ha hb
      · intro a k v ha j hj hlt
        simp only [Table.put] at ha hj hlt ⊢
        split at ha
        · cases ha
        · next na =>
          have hal := H.lt a _ ha
          have hb := H.wide.home (hash := hash) k
          change off t.cap (t.home hash k) j < off t.cap (t.home hash k) a at hlt
          split
          · next e =>
            subst e
            exfalso
            have hai : a ≠ i := by rintro rfl; rw [hs] at ha; cases ha
            by_cases hk : off t.cap j a < off t.cap j i
            · obtain ⟨k', v', h1, h2⟩ := H.kept a hal na hk
              rw [ha] at h1; cases h1
              exact h2 hlt
            · refine H.path a k v na ha i hi hne ?_ hs
              unfold off at hk hlt ⊢
              repeat' split at hk
              all_goals (repeat' split at hlt)
              all_goals (repeat' split)
              all_goals omega
          · next nj => exact H.path a k v na ha j hj nj hlt
      · simp only [Table.put]; rw [H.size]; rfl
      · simp only [Table.put]; have := H.half; omega
      · intro k v
        constructor
        · rintro ⟨a, ha⟩
          simp only [Table.put] at ha
          split at ha
          · cases ha
          · next n => exact ⟨a, n, ha⟩
        · rintro ⟨a, n, ha⟩
          exact ⟨a, by simp only [Table.put]; rw [if_neg n]; exact ha⟩
    | some x =>
      obtain ⟨k, v⟩ := x
      dsimp only
      have hb := H.wide.home (hash := hash) k
      rw [H.wide.diff hh hb, H.wide.diff hi hb]
      have hiz : z ≠ i := by rintro rfl; rw [hs] at hzn; cases hzn
      -- the blank bucket is not between the hole and `i`
      have hzo : off t.cap h i < off t.cap h z := by
        refine Classical.byContradiction fun hn => ?_
        have : off t.cap h z < off t.cap h i := by
          unfold off at hn ⊢; repeat' split at hn
          all_goals (repeat' split)
          all_goals omega
        obtain ⟨_, _, h1, _⟩ := H.kept z hz hzh this
        rw [hzn] at h1; cases h1
      have haft : t.after i < t.cap ∧ off t.cap (t.after i) z < f ∧ t.after i ≠ h ∧ t.after i ≠ i ∧
          off t.cap h (t.after i) = off t.cap h i + 1 ∧ off t.cap i (t.after i) = 1 := by
        rw [H.wide.after hi]
        unfold off at hf hzo ⊢
        split <;> (repeat' split at hf) <;> (repeat' split at hzo) <;> (repeat' split) <;> omega
      obtain ⟨ha1, ha2, ha3, ha4, ha5, ha6⟩ := haft
      split
      · next hmv =>
        have hc : (t.put h (some (k, v))).cap = t.cap := rfl
        have hslot : ∀ j, (t.put h (some (k, v))).slot j = if j = h then some (k, v) else t.slot j := fun _ => rfl
        have hhome : ∀ k', (t.put h (some (k, v))).home hash k' = t.home hash k' := fun _ => rfl
        have H' : (t.put h (some (k, v))).Holed hash i (t.after i) := by
          refine ⟨⟨H.wide.pow⟩, hi, ha1, ha4, ?_, ?_, ?_, ?_, ?_, H.half⟩
          · intro a x hx
            rw [hslot] at hx
            split at hx
            · next e => exact e ▸ hh
            · exact H.lt a x hx
          · intro a b k' w w' na nb h1 h2
            rw [hslot] at h1 h2
            split at h1 <;> split at h2
            · next e e' => rw [e, e']
            · next e n => cases h1; exact absurd (H.uniq i b _ _ _ hne n hs h2).symm nb
            · next n e => cases h2; exact absurd (H.uniq i a _ _ _ hne n hs h1).symm na
            · next n n' => exact H.uniq a b _ _ _ n n' h1 h2
          · intro a k' w na h1 j hj nj hlt
            rw [hslot] at h1 ⊢
            rw [hhome, hc] at hlt
            rw [hc] at hj
            split
            · simp
            · next njh =>
              split at h1
              · next e =>
                cases h1; subst e
                exact H.path i k v hne hs j hj njh (by omega)
              · next n => exact H.path a k' w n h1 j hj njh hlt
          · intro a hal nai hlt
            rw [hc] at hal hlt ⊢
            rw [ha6] at hlt
            exfalso
            unfold off at hlt
            split at hlt <;> omega
          · change t.size = _
            rw [H.size, hc]
            congr 1
            have e1 := occ_set (s := fun j => if j = h ∨ j = i then none else t.slot j) hi (by simp) (k, v)
            have e2 := occ_set (s := fun j => if j = h ∨ j = i then none else t.slot j) hh (by simp) (k, v)
            rw [occ_congr (s' := fun j => if j = h then none else t.slot j)] at e1
            · rw [occ_congr (s' := fun j => if j = i then none else (t.put h (some (k, v))).slot j)] at e2
              · rw [e1, e2]
              · intro j _
                rw [hslot]
                by_cases e : j = h
                · subst e; simp [Ne.symm hne]
                · simp [e]
            · intro j _
              by_cases e : j = i
              · subst e; simp [hne, hs]
              · simp [e]
        obtain ⟨t', h1, h2, h3, h4⟩ := ih (t.put h (some (k, v))) i (t.after i) z H' hz hiz (by rw [hslot, if_neg hzh]; exact hzn) ha2
        refine ⟨t', h1, h2, h3, fun k' w => ?_⟩
        rw [h4]
        constructor
        · rintro ⟨a, na, ha⟩
          rw [hslot] at ha
          split at ha
          · cases ha; exact ⟨i, hne, hs⟩
          · next n => exact ⟨a, n, ha⟩
        · rintro ⟨a, na, ha⟩
          by_cases e : a = i
          · subst e; rw [hs] at ha; cases ha
            exact ⟨h, fun e => hne e.symm, by rw [hslot, if_pos rfl]⟩
          · exact ⟨a, e, by rw [hslot, if_neg na]; exact ha⟩
      · next hst =>
        refine ih t h (t.after i) z ⟨H.wide, hh, ha1, ha3, H.lt, H.uniq, H.path, ?_, H.size, H.half⟩ hz hzh hzn ha2
        intro a hal nah hlt
        rw [ha5] at hlt
        by_cases e : a = i
        · subst e; exact ⟨k, v, hs, hst⟩
        · refine H.kept a hal nah ?_
          unfold off at hlt ⊢
          repeat' split at hlt
          all_goals (repeat' split)
          all_goals omega

/-- Erasing a bucket in use takes the entry in it out of the table, and nothing else. -/
theorem Table.Fine.eraseAt {t : Table α} (f : t.Fine hash) {i k : Nat} {v : α} (hi : t.slot i = some (k, v)) :
    ∃ t', t.eraseAt hash i = .ok t' ∧ t'.Fine hash ∧ t'.size + 1 = t.size ∧ ∀ k' w, t'.Holds k' w ↔ t.Holds k' w ∧ k' ≠ k := by
  obtain ⟨z, hz, hzn⟩ := f.blank
  have hil := f.lt i _ hi
  have hzi : z ≠ i := by rintro rfl; rw [hi] at hzn; cases hzn
  have ha : t.after i < t.cap ∧ t.after i ≠ i ∧ off t.cap i (t.after i) = 1 ∧ off t.cap (t.after i) z < t.cap := by
    rw [f.wide.after hil]
    unfold off
    split <;> (repeat' split) <;> omega
  have hsz : t.size = occ (fun j => if j = i then none else t.slot j) t.cap + 1 := by
    rw [f.size]
    have := occ_set (s := fun j => if j = i then none else t.slot j) hil (by simp) (k, v)
    rw [← this]
    refine occ_congr fun j _ => ?_
    by_cases e : j = i
    · subst e; simp [hi]
    · simp [e]
  obtain ⟨t', h1, h2, h3, h4⟩ := shift_spec t.cap t i (t.after i) z
    ⟨f.wide, hil, ha.1, ha.2.1, f.lt, fun a b k v w _ _ => f.uniq a b k v w, fun a k v _ h j hj _ => f.path a k v h j hj,
      fun a hal na hlt => by
        exfalso
        rw [ha.2.2.1] at hlt
        unfold off at hlt
        split at hlt <;> omega, hsz, f.half⟩ hz hzi hzn ha.2.2.2
  refine ⟨t', h1, h2, by omega, fun k' w => ?_⟩
  rw [h4]
  constructor
  · rintro ⟨a, na, h⟩
    exact ⟨⟨a, h⟩, by rintro rfl; exact na (f.uniq a i _ _ _ h hi)⟩
  · rintro ⟨⟨a, h⟩, ne⟩
    exact ⟨a, by rintro rfl; rw [hi] at h; cases h; exact ne rfl, h⟩

/-- A deletion does not move an entry that is in the home bucket of its key. -/
theorem shift_home {k : Nat} {v : α} : ∀ (f : Nat) (t t' : Table α) (h i : Nat), t.Wide → t.shift hash f h i = .ok t' →
    t.home hash k ≠ h → t.slot (t.home hash k) = some (k, v) →
    t'.slot (t.home hash k) = some (k, v) ∧ t'.cap = t.cap := by
  intro f
  induction f with
  | zero => intro t t' h i _ e; cases e
  | succ f ih =>
    intro t t' h i w e ne hk
    unfold Table.shift at e
    split at e
    · cases e
      exact ⟨by simp only [Table.put]; rw [if_neg ne]; exact hk, rfl⟩
    · next k' v' hs =>
      dsimp only at e
      split at e
      · next hm =>
        have hi : t.home hash k ≠ i := by
          rintro rfl
          rw [hk] at hs
          cases hs
          rw [w.diff (w.home k) (w.home k)] at hm
          simp [off] at hm
        obtain ⟨h1, h2⟩ := ih (t.put h (some (k', v'))) t' i _ ⟨w.pow⟩ e hi
          (by simp only [Table.put]; exact (if_neg ne).trans hk)
        exact ⟨h1, h2⟩
      · exact ih _ _ _ _ w e ne hk

end CppTrader.Index
