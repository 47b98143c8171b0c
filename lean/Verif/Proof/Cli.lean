import Verif.Cli
/-
The parser of the command language.
-/

namespace CppTrader.Cli

theorem lit_iff : ∀ (w l r : List Char), lit w l = some r ↔ l = w ++ r
  | [], l, r => by simp [lit]
  | c :: w, [], r => by simp [lit]
  | c :: w, d :: l, r => by
    by_cases h : c = d
    · subst h; simp [lit, lit_iff w l r]
    · simp [lit, h]; intro h'; exact absurd h'.symm h

/-- The text does not begin with a digit. -/
def Stops (r : List Char) : Prop := ∀ c t, r = c :: t → digit c = false

/-- A non-empty string of digits. -/
def Digits (d : List Char) : Prop := d ≠ [] ∧ d.all digit = true

theorem takeWhile_all {p : Char → Bool} : ∀ {d r : List Char}, d.all p = true → (∀ c t, r = c :: t → p c = false) →
    (d ++ r).takeWhile p = d ∧ (d ++ r).dropWhile p = r
  | [], [], _, _ => by simp
  | [], c :: t, _, h => by simp [h c t rfl]
  | c :: d, r, h1, h2 => by
    simp only [List.all_cons, Bool.and_eq_true] at h1
    have := takeWhile_all h1.2 h2
    simp [h1.1, this]

theorem number_iff {l d r : List Char} : number l = some (d, r) ↔ l = ' ' :: d ++ r ∧ Digits d ∧ Stops r := by
  unfold number
  constructor
  · intro h
    cases hl : lit [' '] l with
    | none => rw [hl] at h; cases h
    | some m =>
      rw [hl] at h
      simp only at h
      have hm := (lit_iff _ _ _).1 hl
      by_cases he : (m.takeWhile digit).isEmpty
      · rw [if_pos he] at h; cases h
      · rw [if_neg he] at h
        cases h
        refine ⟨?_, ⟨?_, ?_⟩, ?_⟩
        · rw [hm]; simp
        · simpa using he
        · exact List.all_takeWhile
        · intro c t hc
          have := List.head?_dropWhile_not digit m
          rw [hc] at this
          simpa using this
  · rintro ⟨rfl, ⟨h1, h2⟩, h3⟩
    have := takeWhile_all (p := digit) h2 h3
    have h4 : lit [' '] (' ' :: d ++ r) = some (d ++ r) := (lit_iff _ _ _).2 rfl
    rw [h4]
    simp only [this.1, this.2]
    rw [if_neg (by simpa using h1)]

/-- Blanks and digit strings. -/
def blanked : List (List Char) → List Char
  | [] => []
  | d :: ds => ' ' :: d ++ blanked ds

theorem stops_blanked {ds : List (List Char)} {r : List Char} (h : Stops r) : Stops (blanked ds ++ r) := by
  cases ds with
  | nil => simpa [blanked] using h
  | cons d ds =>
    intro c t hc
    simp only [blanked, List.cons_append, List.cons.injEq] at hc
    rw [← hc.1]; rfl

theorem numbers_iff : ∀ (n : Nat) (l : List Char) (ds : List (List Char)) (r : List Char), Stops r →
    (numbers n l = some (ds, r) ↔ ds.length = n ∧ l = blanked ds ++ r ∧ ∀ d ∈ ds, Digits d)
  | 0, l, ds, r, hr => by
    simp only [numbers, Option.some.injEq, Prod.mk.injEq]
    constructor
    · rintro ⟨rfl, rfl⟩; simp [blanked]
    · rintro ⟨h1, h2, _⟩
      rw [List.length_eq_zero_iff] at h1
      subst h1
      simp [h2, blanked]
  | n + 1, l, ds, r, hr => by
    unfold numbers
    constructor
    · intro h
      cases h1 : number l with
      | none => rw [h1] at h; cases h
      | some x =>
        obtain ⟨d, l'⟩ := x
        rw [h1] at h
        simp only at h
        cases h2 : numbers n l' with
        | none => rw [h2] at h; cases h
        | some y =>
          obtain ⟨ds', l2⟩ := y
          rw [h2] at h
          cases h
          obtain ⟨a1, a2, a3⟩ := number_iff.1 h1
          obtain ⟨b1, b2, b3⟩ := (numbers_iff n _ _ _ hr).1 h2
          refine ⟨by simp [b1], by rw [a1, b2]; simp [blanked], ?_⟩
          intro x hx
          rcases List.mem_cons.1 hx with rfl | hx
          · exact a2
          · exact b3 x hx
    · rintro ⟨h1, rfl, h3⟩
      cases ds with
      | nil => cases h1
      | cons d ds =>
        have a : number (blanked (d :: ds) ++ r) = some (d, blanked ds ++ r) :=
          number_iff.2 ⟨by simp [blanked], h3 d (by simp), stops_blanked hr⟩
        have b := (numbers_iff n (blanked ds ++ r) ds r hr).2 ⟨by simpa using h1, rfl, fun x hx => h3 x (by simp [hx])⟩
        rw [a]; simp only [b]

theorem stops_nil : Stops [] := by rintro c t ⟨⟩

theorem plain_iff {w : List Char} {n : Nat} {line : List Char} {ds : List (List Char)} :
    plain w n line = some ds ↔ line = w ++ blanked ds ∧ ds.length = n ∧ ∀ d ∈ ds, Digits d := by
  unfold plain
  constructor
  · intro h
    cases h1 : lit w line with
    | none => rw [h1] at h; cases h
    | some l =>
      rw [h1] at h
      simp only at h
      split at h
      · rename_i ds' h2
        cases h
        obtain ⟨b1, b2, b3⟩ := (numbers_iff n _ _ _ stops_nil).1 h2
        refine ⟨?_, b1, b3⟩
        rw [(lit_iff _ _ _).1 h1, b2]; simp
      · cases h
  · rintro ⟨rfl, h2, h3⟩
    have a : lit w (w ++ blanked ds) = some (blanked ds) := (lit_iff _ _ _).2 rfl
    have b := (numbers_iff n (blanked ds) ds [] stops_nil).2 ⟨h2, by simp, h3⟩
    rw [a]; simp only [b]

theorem side_iff {l r : List Char} {s : Side} : side l = some (s, r) ↔ l = sideText (some s) ++ r := by
  unfold side
  constructor
  · intro h
    cases h1 : lit " buy".toList l with
    | some m => rw [h1] at h; cases h; exact (lit_iff _ _ _).1 h1
    | none =>
      rw [h1] at h
      simp only at h
      cases h2 : lit " sell".toList l with
      | some m => rw [h2] at h; cases h; exact (lit_iff _ _ _).1 h2
      | none => rw [h2] at h; cases h
  · rintro rfl
    cases s
    · have : lit " buy".toList (sideText (some .buy) ++ r) = some r := (lit_iff _ _ _).2 rfl
      rw [this]
    · have h1 : lit " buy".toList (sideText (some .sell) ++ r) = none := by
        simp [lit, sideText]
      have : lit " sell".toList (sideText (some .sell) ++ r) = some r := (lit_iff _ _ _).2 rfl
      rw [h1, this]

theorem sided_iff {w : List Char} {n : Nat} {line : List Char} {s : Side} {ds : List (List Char)} :
    sided w n line = some (s, ds) ↔ line = w ++ sideText (some s) ++ blanked ds ∧ ds.length = n ∧ ∀ d ∈ ds, Digits d := by
  unfold sided
  constructor
  · intro h
    cases h1 : lit w line with
    | none => rw [h1] at h; cases h
    | some l =>
      rw [h1] at h
      simp only at h
      cases h2 : side l with
      | none => rw [h2] at h; cases h
      | some x =>
        obtain ⟨s', l'⟩ := x
        rw [h2] at h
        simp only at h
        split at h
        · rename_i ds' h3
          cases h
          obtain ⟨b1, b2, b3⟩ := (numbers_iff n _ _ _ stops_nil).1 h3
          refine ⟨?_, b1, b3⟩
          rw [(lit_iff _ _ _).1 h1, side_iff.1 h2, b2]; simp
        · cases h
  · rintro ⟨rfl, h2, h3⟩
    have a : lit w (w ++ sideText (some s) ++ blanked ds) = some (sideText (some s) ++ blanked ds) :=
      (lit_iff _ _ _).2 (by simp)
    have a2 : side (sideText (some s) ++ blanked ds) = some (s, blanked ds) := side_iff.2 rfl
    have b := (numbers_iff n (blanked ds) ds [] stops_nil).2 ⟨h2, by simp, h3⟩
    rw [a]; simp only [a2, b]

/-! Numerals. -/

theorem digitChar_digit {d : Nat} (h : d < 10) : digit d.digitChar = true ∧ d.digitChar.toNat - '0'.toNat = d := by
  have : ∀ d < 10, digit (Nat.digitChar d) = true ∧ (Nat.digitChar d).toNat - '0'.toNat = d := by decide
  exact this d h

theorem digit_digitChar {c : Char} (h : digit c = true) : ∃ d, d < 10 ∧ c = d.digitChar := by
  simp only [digit, Bool.and_eq_true, decide_eq_true_eq] at h
  have h1 : 48 ≤ c.toNat := h.1
  have h2 : c.toNat ≤ 57 := h.2
  refine ⟨c.toNat - 48, by omega, ?_⟩
  have : ∀ k < 10, Char.ofNat (48 + k) = Nat.digitChar k := by decide
  rw [← this _ (by omega), show 48 + (c.toNat - 48) = c.toNat by omega, Char.ofNat_toNat]

theorem value_snoc (ds : List Char) (c : Char) : value (ds ++ [c]) = 10 * value ds + (c.toNat - '0'.toNat) := by
  simp [value]

theorem Numeral.facts {n : Nat} {ds : List Char} (h : Numeral n ds) : Digits ds ∧ value ds = n := by
  induction h with
  | digit hd => exact ⟨⟨by simp, by simpa using (digitChar_digit hd).1⟩, by
      simpa [value] using (digitChar_digit hd).2⟩
  | more _ hd ih =>
    refine ⟨⟨by simp, ?_⟩, ?_⟩
    · rw [List.all_append, ih.1.2]; simpa using (digitChar_digit hd).1
    · rw [value_snoc, ih.2, (digitChar_digit hd).2]

theorem snoc_induction {P : List Char → Prop} (h0 : P []) (h1 : ∀ l c, P l → P (l ++ [c])) (l : List Char) : P l := by
  have : ∀ l : List Char, P l.reverse := by
    intro l
    induction l with
    | nil => exact h0
    | cons c l ih => rw [List.reverse_cons]; exact h1 _ _ ih
  simpa using this l.reverse

theorem numeral_of : ∀ (ds : List Char), Digits ds → Numeral (value ds) ds := by
  refine snoc_induction (fun h => absurd rfl h.1) ?_
  intro l c ih h
  have h2 := h.2
  rw [List.all_append, Bool.and_eq_true] at h2
  obtain ⟨d, hd, rfl⟩ := digit_digitChar (c := c) (by simpa using h2.2)
  by_cases hl : l = []
  · subst hl
    have h3 : value ([] ++ [d.digitChar]) = d := by rw [value_snoc, (digitChar_digit hd).2]; simp [value]
    rw [h3]
    exact Numeral.digit hd
  · have := Numeral.more (ih ⟨hl, h2.1⟩) hd
    rw [value_snoc, (digitChar_digit hd).2]
    exact this

theorem written_iff {ns : List Nat} {l : List Char} :
    Written ns l ↔ ∃ ds, l = blanked ds ∧ (∀ d ∈ ds, Digits d) ∧ ns = ds.map value := by
  constructor
  · intro h
    induction h with
    | nil => exact ⟨[], rfl, by simp, rfl⟩
    | cons hn _ ih =>
      obtain ⟨ds, rfl, h2, rfl⟩ := ih
      rename_i _ d _
      refine ⟨d :: ds, rfl, ?_, by simp [hn.facts.2]⟩
      intro x hx
      rcases List.mem_cons.1 hx with rfl | hx
      · exact hn.facts.1
      · exact h2 x hx
  · rintro ⟨ds, rfl, h, rfl⟩
    induction ds with
    | nil => exact .nil
    | cons d ds ih => exact .cons (numeral_of d (h d (by simp))) (ih fun x hx => h x (by simp [hx]))

theorem convert_eq (ds : List (List Char)) (f : List Nat → Action) :
    convert ds f = if ∀ n ∈ ds.map value, n ≤ 2147483647 then f (ds.map value) else .abort := by
  have : ds.mapM stoi = if ∀ n ∈ ds.map value, n ≤ 2147483647 then some (ds.map value) else none := by
    induction ds with
    | nil => simp
    | cons d ds ih =>
      rw [List.mapM_cons, ih]
      by_cases h1 : value d ≤ 2147483647
      · by_cases h2 : ∀ n ∈ ds.map value, n ≤ 2147483647
        · rw [if_pos h2, if_pos (by
            intro n hn
            rcases List.mem_cons.1 hn with rfl | hn
            · exact h1
            · exact h2 n hn)]
          simp [stoi, h1]
        · rw [if_neg h2, if_neg (by intro h; exact h2 fun n hn => h n (by simp at hn ⊢; exact .inr hn))]
          simp [stoi, h1]
      · have h3 : ¬ ∀ n ∈ (d :: ds).map value, n ≤ 2147483647 := fun h => h1 (h _ (by simp))
        have : stoi d = none := if_neg h1
        rw [if_neg h3, this]; rfl
  unfold convert
  rw [this]
  by_cases h : ∀ n ∈ ds.map value, n ≤ 2147483647
  · rw [if_pos h, if_pos h]
  · rw [if_neg h, if_neg h]

/-! The search for the words of a command. -/

/-- Only digits and blanks. -/
def Quiet (r : List Char) : Prop := ∀ c ∈ r, c = ' ' ∨ digit c = true

/-- `w` does not begin inside `p`, whatever digits and blanks follow `p`. -/
def noStart (w : List Char) : List Char → Bool
  | [] => true
  | c :: p => !w.isPrefixOf (c :: p) && (match lit (c :: p) w with | some (x :: _) => x != ' ' && !digit x | _ => true) &&
    noStart w p

theorem isPrefixOf_append {w p r : List Char} (h : w.isPrefixOf (p ++ r) = true) :
    w.isPrefixOf p = true ∨ ∃ t, w = p ++ t ∧ t.isPrefixOf r = true := by
  simp only [List.isPrefixOf_iff_prefix] at *
  rcases List.prefix_or_prefix_of_prefix h (List.prefix_append p r) with h' | ⟨t, rfl⟩
  · exact .inl h'
  · exact .inr ⟨t, rfl, (List.prefix_append_right_inj p).1 h⟩

theorem contains_append {w r : List Char} (hq : Quiet r) (hr : contains w r = false) :
    ∀ p : List Char, noStart w p = true → contains w (p ++ r) = false
  | [], _ => hr
  | c :: p, h => by
    simp only [noStart, Bool.and_eq_true, Bool.not_eq_true'] at h
    have : w.isPrefixOf (c :: p ++ r) = false := by
      cases e : w.isPrefixOf (c :: p ++ r) with
      | false => rfl
      | true =>
        rcases isPrefixOf_append e with h' | ⟨t, rfl, ht⟩
        · rw [h.1.1] at h'; cases h'
        · have h2 := h.1.2
          rw [(lit_iff _ _ _).2 rfl] at h2
          cases t with
          | nil =>
            have h3 := h.1.1
            have : (c :: p ++ []).isPrefixOf (c :: p) = true := by simp [List.isPrefixOf_iff_prefix]
            rw [this] at h3; cases h3
          | cons x t =>
            cases r with
            | nil => cases ht
            | cons y r =>
              simp only [List.isPrefixOf, Bool.and_eq_true, beq_iff_eq] at ht
              simp only [Bool.and_eq_true, bne_iff_ne, Bool.not_eq_true'] at h2
              rcases hq x (by simp [ht.1]) with h4 | h4
              · exact absurd h4 h2.1
              · rw [h2.2] at h4; cases h4
    simp only [List.cons_append, contains, Bool.or_eq_false_iff] at this ⊢
    exact ⟨this, contains_append hq hr p h.2⟩

theorem contains_self (w r : List Char) : contains w (w ++ r) = true := by
  have : w.isPrefixOf (w ++ r) = true := by simp [List.isPrefixOf_iff_prefix]
  cases h : w ++ r with
  | nil => rw [h] at this; exact this
  | cons c l => rw [h] at this; simp [contains, this]

theorem quiet_blanked {ds : List (List Char)} (h : ∀ d ∈ ds, Digits d) : Quiet (blanked ds) := by
  induction ds with
  | nil => intro c hc; cases hc
  | cons d ds ih =>
    intro c hc
    simp only [blanked, List.cons_append, List.mem_cons, List.mem_append] at hc
    rcases hc with hc | hc | hc
    · exact .inl hc
    · exact .inr (List.all_eq_true.1 (h d (by simp)).2 c hc)
    · exact ih (fun x hx => h x (by simp [hx])) c hc

theorem contains_quiet {w : Char} {ws : List Char} (hw : w ≠ ' ' ∧ digit w = false) : ∀ {r : List Char}, Quiet r →
    contains (w :: ws) r = false
  | [], _ => rfl
  | c :: r, h => by
    have hc : w ≠ c := by
      rintro rfl
      rcases h w (by simp) with h' | h'
      · exact hw.1 h'
      · rw [hw.2] at h'; cases h'
    simp only [contains, List.isPrefixOf, Bool.or_eq_false_iff, Bool.and_eq_false_iff]
    exact ⟨.inl (by simpa using hc), contains_quiet hw fun x hx => h x (by simp [hx])⟩

end CppTrader.Cli
