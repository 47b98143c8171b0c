import Verif.Proof.Buckets
import Verif.Props.Index
/-
C88, continued: the memory of the hash map of the orders.
-/

namespace CppTrader.Index

variable {α : Type} {hash : Nat → Nat}

theorem step_cap {t t' : Table α} {r : Dict.Request α} {a} (h : t.step hash r = .ok (t', a)) :
    t'.cap = t.cap ∨ t.cap < 2 * (t.size + 1) ∧ t.cap ≤ t'.cap ∧ t'.cap ≤ 4 * (t.size + 1) := by
  unfold Table.step at h
  cases r with
  | insert k v =>
    cases hi : t.insert hash k v with
    | error e => simp [hi, bind, Except.bind] at h
    | ok x =>
      simp [hi, bind, Except.bind, pure, Except.pure] at h
      rw [← h.1]
      exact insert_cap (b := x.2) hi
  | erase k =>
    cases hi : t.erase hash k with
    | error e => simp [hi, bind, Except.bind] at h
    | ok x =>
      simp [hi, bind, Except.bind, pure, Except.pure] at h
      rw [← h.1]
      exact .inl (erase_cap (b := x.2) hi)
  | get k =>
    cases hi : t.get hash k with
    | error e => simp [hi, bind, Except.bind] at h
    | ok x => simp [hi, bind, Except.bind, pure, Except.pure] at h; rw [h.1]; exact .inl rfl
  | size => cases h; exact .inl rfl

theorem run_grows (rs : List (Dict.Request α)) : ∀ {t t' : Table α} {d : Dict α} {as}, t.Agrees hash d → t.run hash rs = .ok (t', as) →
    t.cap ≤ t'.cap := by
  induction rs with
  | nil => intro t t' d as a h; cases h; exact Nat.le_refl _
  | cons r rs ih =>
    intro t t' d as a h
    obtain ⟨t1, h1, a1⟩ := a.step r
    obtain ⟨t2, h2, a2⟩ := Table.Agrees.run rs a1
    simp [Table.run, h1, h2, bind, Except.bind, pure, Except.pure] at h
    have := ih a1 h2
    rw [← h.1]
    rcases step_cap h1 with c | ⟨c1, c2, c3⟩ <;> omega

theorem run_cap (rs : List (Dict.Request α)) : ∀ {t t' : Table α} {d : Dict α} {as}, t.Agrees hash d → t.run hash rs = .ok (t', as) →
    ∀ {peak : Nat}, (∀ n, (d.run (rs.take n)).1.length < peak) →
    t.cap ≤ t'.cap ∧ t'.cap ≤ max t.cap (4 * peak) ∧ (2 * peak ≤ t.cap → t'.cap = t.cap) := by
  induction rs with
  | nil => intro t t' d as a h peak hp; cases h; exact ⟨Nat.le_refl _, Nat.le_max_left _ _, fun _ => rfl⟩
  | cons r rs ih =>
    intro t t' d as a h peak hp
    obtain ⟨t1, h1, a1⟩ := a.step r
    obtain ⟨t2, h2, a2⟩ := Table.Agrees.run rs a1
    simp [Table.run, h1, h2, bind, Except.bind, pure, Except.pure] at h
    obtain ⟨e1, e2, e3⟩ := ih a1 h2 (peak := peak) (fun n => hp (n + 1))
    have h0 : d.length < peak := hp 0
    rw [← a.size] at h0
    rw [← h.1]
    rcases step_cap h1 with c | ⟨c1, c2, c3⟩
    · exact ⟨by omega, by omega, fun q => by have := e3 (by omega); omega⟩
    · exact ⟨by omega, by omega, fun q => by omega⟩

/-- C88, memory: if there are fewer than `peak` entries at any time, then the number of buckets, a power of two, is at least twice the
number of entries, never falls, and exceeds neither the initial one nor `4 * peak` at the same time; while `2 * peak` is within the
initial one the table does not grow at all. -/
theorem C88_memory (hash : Nat → Nat) (capacity : Nat) (rs : List (Dict.Request α)) {t : Table α} {as}
    (h : (Table.new capacity).run hash rs = .ok (t, as)) {peak : Nat} (hp : ∀ n, (Dict.run [] (rs.take n)).1.length < peak) :
    (∃ n, t.cap = 2 ^ n) ∧ 2 * (Dict.run [] rs).1.length ≤ t.cap ∧
    (∀ n t1 as1, (Table.new capacity).run hash (rs.take n) = .ok (t1, as1) → t1.cap ≤ t.cap) ∧
    t.cap ≤ max (Table.new capacity : Table α).cap (4 * peak) ∧
    (2 * peak ≤ capacity → t.cap = (Table.new capacity : Table α).cap) := by
  have a0 := agrees_new (α := α) (hash := hash) capacity
  obtain ⟨t', h', a⟩ := a0.run rs
  obtain ⟨q1, q2, q3⟩ := run_cap rs a0 h hp
  rw [h] at h'
  cases h'
  have n1 := new_cap (α := α) capacity
  have n2 := new_cap_le (α := α) capacity
  refine ⟨a.fine.wide.pow, by have := a.fine.half; rw [a.size] at this; omega, fun n t1 as1 h1 => ?_, by omega, fun q => q3 (by omega)⟩
  obtain ⟨t1', h1', a1⟩ := a0.run (rs.take n)
  rw [h1] at h1'
  cases h1'
  obtain ⟨t2, h2, a2⟩ := a1.run (rs.drop n)
  have key : ∀ (xs ys : List (Dict.Request α)) (u v : Table α) (bs : List _), u.run hash xs = .ok (v, bs) →
      u.run hash (xs ++ ys) = (v.run hash ys).map (fun z => (z.1, bs ++ z.2)) := by
    intro xs ys
    induction xs with
    | nil => intro u v bs e; cases e; rw [List.nil_append]; cases u.run hash ys <;> rfl
    | cons x xs ih =>
      intro u v bs e
      rw [List.cons_append]
      simp only [Table.run] at e ⊢
      cases hx : u.step hash x with
      | error e' => simp [hx, bind, Except.bind] at e
      | ok z =>
        cases hy : z.1.run hash xs with
        | error e' => simp [hx, hy, bind, Except.bind] at e
        | ok w =>
          simp only [hx, hy, bind, Except.bind, pure, Except.pure, Except.ok.injEq, Prod.mk.injEq] at e
          obtain ⟨rfl, rfl⟩ := e
          simp only [bind, Except.bind, pure, Except.pure]
          rw [ih z.1 w.1 w.2 hy]
          cases w.1.run hash ys <;> rfl
  have := key (rs.take n) (rs.drop n) _ _ _ h1
  rw [List.take_append_drop, h, h2] at this
  simp only [Except.map, Except.ok.injEq, Prod.mk.injEq] at this
  rw [this.1]
  exact run_grows (rs.drop n) a1 h2

/-- The table of the order ids does not grow while fewer than 8192 orders are stored. -/
theorem C88_no_growth (hash : Nat → Nat) (rs : List (Dict.Request α)) {t : Table α} {as} (h : (orders : Table α).run hash rs = .ok (t, as))
    (hp : ∀ n, (Dict.run [] (rs.take n)).1.length < 8192) : t.cap = 16384 := by
  have := (C88_memory hash 16384 rs h hp).2.2.2.2 (by omega)
  rw [this]
  rfl

/-- Concretely: the table that starts with one bucket has four after two insertions, and keeps them when both are erased. -/
example : ((Table.new 1 : Table Nat).run fast [.insert 3 30, .insert 51 510, .erase 3, .erase 51]).toOption.map (fun x => (x.1.cap, x.1.size)) =
    some (4, 0) := by decide

end CppTrader.Index
