import Verif.Model.Aggressive
import Verif.Tape
import Verif.Proof.LandOps
/-
The level-only manager: its sorted vectors and its pool.
-/

namespace CppTrader.Aggr

/-- Best first: prices go down strictly. -/
def Sorted (l : List PriceLevel) : Prop := l.Pairwise fun a b => b.price < a.price

theorem search_some {k : Int} : ∀ {l : List PriceLevel} {i : Nat}, search k l = some i → (⟨k, i⟩ : PriceLevel) ∈ l
  | [], i, h => by cases h
  | x :: l, i, h => by
    unfold search at h
    by_cases h1 : x.price = k
    · rw [if_pos h1] at h; cases h; subst h1; simp
    · rw [if_neg h1] at h
      by_cases h2 : x.price < k
      · rw [if_pos h2] at h; cases h
      · rw [if_neg h2] at h; exact List.mem_cons_of_mem _ (search_some h)

theorem search_none {k : Int} : ∀ {l : List PriceLevel}, Sorted l → search k l = none → ∀ e ∈ l, e.price ≠ k
  | [], _, _, e, he => by cases he
  | x :: l, hs, h, e, he => by
    have hs' := List.pairwise_cons.1 hs
    unfold search at h
    by_cases h1 : x.price = k
    · rw [if_pos h1] at h; cases h
    · rw [if_neg h1] at h
      rcases List.mem_cons.1 he with rfl | he
      · exact h1
      · by_cases h2 : x.price < k
        · have := hs'.1 e he; omega
        · rw [if_neg h2] at h; exact search_none hs'.2 h e he

theorem mem_insert {k : Int} {i : Nat} {e : PriceLevel} : ∀ {l : List PriceLevel}, e ∈ insert k i l ↔ e = ⟨k, i⟩ ∨ e ∈ l
  | [] => by simp [insert]
  | x :: l => by
    unfold insert
    by_cases h : x.price < k
    · rw [if_pos h]; simp
    · rw [if_neg h]
      simp only [List.mem_cons, mem_insert (l := l)]
      constructor
      · rintro (h | h | h)
        · exact .inr (.inl h)
        · exact .inl h
        · exact .inr (.inr h)
      · rintro (h | h | h)
        · exact .inr (.inl h)
        · exact .inl h
        · exact .inr (.inr h)

theorem insert_sorted {k : Int} {i : Nat} : ∀ {l : List PriceLevel}, Sorted l → (∀ e ∈ l, e.price ≠ k) → Sorted (insert k i l)
  | [], _, _ => by simp [insert, Sorted]
  | x :: l, hs, h => by
    have hs' := List.pairwise_cons.1 hs
    unfold insert
    by_cases h1 : x.price < k
    · rw [if_pos h1]
      refine List.pairwise_cons.2 ⟨fun e he => ?_, hs⟩
      show e.price < k
      rcases List.mem_cons.1 he with rfl | he
      · exact h1
      · have := hs'.1 e he; omega
    · rw [if_neg h1]
      refine List.pairwise_cons.2 ⟨fun e he => ?_, insert_sorted hs'.2 fun e he => h e (by simp [he])⟩
      rcases mem_insert.1 he with rfl | he
      · have := h x (by simp); show k < x.price; omega
      · exact hs'.1 e he

theorem mem_erase {k : Int} {e : PriceLevel} : ∀ {l : List PriceLevel}, Sorted l → (e ∈ erase k l ↔ e ∈ l ∧ e.price ≠ k)
  | [], _ => by simp [erase]
  | x :: l, hs => by
    have hs' := List.pairwise_cons.1 hs
    unfold erase
    by_cases h1 : x.price = k
    · rw [if_pos h1]
      constructor
      · intro he
        have := hs'.1 e he
        exact ⟨by simp [he], by omega⟩
      · rintro ⟨he, hk⟩
        rcases List.mem_cons.1 he with rfl | he
        · exact absurd h1 hk
        · exact he
    · rw [if_neg h1, List.mem_cons, mem_erase hs'.2, List.mem_cons]
      constructor
      · rintro (rfl | ⟨h, h'⟩)
        · exact ⟨.inl rfl, h1⟩
        · exact ⟨.inr h, h'⟩
      · rintro ⟨rfl | h, h'⟩
        · exact .inl rfl
        · exact .inr ⟨h, h'⟩

theorem erase_sorted {k : Int} : ∀ {l : List PriceLevel}, Sorted l → Sorted (erase k l)
  | [], _ => by simp [erase, Sorted]
  | x :: l, hs => by
    have hs' := List.pairwise_cons.1 hs
    unfold erase
    by_cases h1 : x.price = k
    · rw [if_pos h1]; exact hs'.2
    · rw [if_neg h1]
      exact List.pairwise_cons.2 ⟨fun e he => hs'.1 e ((mem_erase hs'.2).1 he).1, erase_sorted hs'.2⟩

/-- The book of `sym` has the price level `e`. -/
def Has (s : St) (sym : Nat) (e : PriceLevel) : Prop := e ∈ (s.books sym).side e.price

/-- The books and the pool represent the volumes `V`. -/
structure Struct (s : St) (V : Nat → Int → Nat) : Prop where
  sorted : ∀ sym k, Sorted ((s.books sym).side k)
  signs : ∀ sym k, ∀ e ∈ (s.books sym).side k, (0 < e.price ↔ 0 < k)
  level : ∀ sym e, Has s sym e → s.alloc[e.level]? = some ⟨e.price, V sym e.price⟩ ∧ 0 < V sym e.price ∧ e.level ∉ s.free
  known : ∀ sym k, 0 < V sym k → ∃ i, Has s sym ⟨k, i⟩
  apart : ∀ sym e sym' e', Has s sym e → Has s sym' e' → e.level = e'.level → sym = sym' ∧ e = e'
  free_lt : ∀ i ∈ s.free, i < s.alloc.length
  free_nodup : s.free.Nodup
  used : ∀ i < s.alloc.length, i ∈ s.free ∨ ∃ sym e, Has s sym e ∧ e.level = i

/-- One entry of the table of volumes changed. -/
def chg (V : Nat → Int → Nat) (sym : Nat) (k : Int) (v : Nat) : Nat → Int → Nat :=
  fun a b => if a = sym ∧ b = k then v else V a b

theorem chg_same {V : Nat → Int → Nat} {sym : Nat} {k : Int} {v : Nat} : chg V sym k v sym k = v := if_pos ⟨rfl, rfl⟩

theorem chg_other {V : Nat → Int → Nat} {sym a : Nat} {k b : Int} {v : Nat} (h : ¬ (a = sym ∧ b = k)) :
    chg V sym k v a b = V a b := if_neg h

theorem side_setSide_same {b : Book} {k k' : Int} {l : List PriceLevel} (h : 0 < k ↔ 0 < k') : (b.setSide k l).side k' = l := by
  unfold Book.setSide Book.side
  by_cases hk : k > 0
  · rw [if_pos hk, if_pos (h.1 hk)]
  · rw [if_neg hk, if_neg (fun h' => hk (h.2 h'))]

theorem side_setSide_other {b : Book} {k k' : Int} {l : List PriceLevel} (h : ¬ (0 < k ↔ 0 < k')) :
    (b.setSide k l).side k' = b.side k' := by
  unfold Book.setSide Book.side
  by_cases hk : k > 0
  · rw [if_pos hk]
    by_cases hk' : k' > 0
    · exact absurd ⟨fun _ => hk', fun _ => hk⟩ h
    · rw [if_neg hk', if_neg hk']
  · rw [if_neg hk]
    by_cases hk' : k' > 0
    · rw [if_pos hk', if_pos hk']
    · exact absurd ⟨fun h' => absurd h' hk, fun h' => absurd h' hk'⟩ h

theorem side_congr {b : Book} {k k' : Int} (h : 0 < k ↔ 0 < k') : b.side k = b.side k' := by
  unfold Book.side
  by_cases hk : k > 0
  · rw [if_pos hk, if_pos (h.1 hk)]
  · rw [if_neg hk, if_neg (fun h' => hk (h.2 h'))]

/-- A price level is found where it is looked for. -/
theorem Struct.unique {s : St} {V} (h : Struct s V) {sym : Nat} {k : Int} {i j : Nat} (h1 : Has s sym ⟨k, i⟩) (h2 : Has s sym ⟨k, j⟩) :
    i = j := by
  have hs := h.sorted sym k
  have h1 : (⟨k, i⟩ : PriceLevel) ∈ (s.books sym).side k := h1
  have h2 : (⟨k, j⟩ : PriceLevel) ∈ (s.books sym).side k := h2
  revert hs h1 h2
  generalize (s.books sym).side k = l
  intro hs h1 h2
  induction l with
  | nil => cases h1
  | cons x l ih =>
    have hs' := List.pairwise_cons.1 hs
    rcases List.mem_cons.1 h1 with e1 | m1
    · rcases List.mem_cons.1 h2 with e2 | m2
      · rw [← e1] at e2; cases e2; rfl
      · have := hs'.1 _ m2; rw [← e1] at this; exact absurd this (Int.lt_irrefl k)
    · rcases List.mem_cons.1 h2 with e2 | m2
      · have := hs'.1 _ m1; rw [← e2] at this; exact absurd this (Int.lt_irrefl k)
      · exact ih hs'.2 m1 m2

theorem getLevel_ok {s : St} {i : Nat} {l : Level} (h : s.alloc[i]? = some l) : getLevel s i = .ok l := by
  unfold getLevel; rw [h]

theorem getBook_ok {s : St} {i : Nat} (h : i < 10000) : getBook s i = .ok (s.books i) := if_pos h
theorem getOrd_ok {s : St} {i : Nat} (h : i < 300000000) : getOrd s i = .ok (s.orders i) := if_pos h

/-- The volume of one used level is changed. -/
theorem Struct.setVol {s : St} {V} (h : Struct s V) {sym : Nat} {k : Int} {i v : Nat} (hh : Has s sym ⟨k, i⟩) (hv : 0 < v) :
    Struct (setLevel s i ⟨k, v⟩) (chg V sym k v) where
  sorted := h.sorted
  signs := h.signs
  level := by
    intro sym' e he
    have he' : Has s sym' e := he
    obtain ⟨a1, a2, a3⟩ := h.level sym' e he'
    by_cases hl : i = e.level
    · obtain ⟨rfl, rfl⟩ := h.apart _ _ _ _ hh he' hl
      have hlt : i < s.alloc.length := (List.getElem?_eq_some_iff.1 a1).1
      refine ⟨?_, by rw [chg_same]; exact hv, a3⟩
      rw [chg_same]
      show (s.alloc.set i _)[i]? = _
      rw [List.getElem?_set_self hlt]
    · have hne : ¬ (sym' = sym ∧ e.price = k) := by
        rintro ⟨rfl, rfl⟩
        exact hl (h.unique hh (j := e.level) he')
      rw [chg_other hne]
      refine ⟨?_, a2, a3⟩
      show (s.alloc.set i _)[e.level]? = _
      rw [List.getElem?_set_ne hl, a1]
  known := by
    intro sym' k' hk
    by_cases he : sym' = sym ∧ k' = k
    · obtain ⟨rfl, rfl⟩ := he; exact ⟨i, hh⟩
    · rw [chg_other he] at hk; exact h.known _ _ hk
  apart := h.apart
  free_lt := by intro j hj; show j < (s.alloc.set i _).length; rw [List.length_set]; exact h.free_lt j hj
  free_nodup := h.free_nodup
  used := by intro j hj; exact h.used j (by have : j < (s.alloc.set i _).length := hj; rwa [List.length_set] at this)

/-- `FindLevel` and the update of the volume that follows it. -/
theorem Struct.add {s : St} {V} (h : Struct s V) {sym : Nat} {k : Int} {q : Nat} (hs : sym < 10000) (hk : k ≠ 0) (hq : 0 < q)
    (hv : V sym k + q < W32) : ∃ i s1 l, findLevel s sym k = .ok (i, s1) ∧ getLevel s1 i = .ok l ∧ s1.orders = s.orders ∧
      Struct (setLevel s1 i { l with volume := add32 l.volume q }) (chg V sym k (V sym k + q)) ∧ Has s1 sym ⟨k, i⟩ ∧
      ∀ a e, Has s a e → Has s1 a e := by
  unfold findLevel
  rw [getBook_ok hs, Except.bind_ok]
  cases hf : search k ((s.books sym).side k) with
  | some i =>
    have hh : Has s sym ⟨k, i⟩ := search_some hf
    obtain ⟨a1, a2, a3⟩ := h.level _ _ hh
    refine ⟨i, s, _, rfl, getLevel_ok a1, rfl, ?_, hh, fun _ _ h => h⟩
    have : add32 (V sym k) q = V sym k + q := Nat.mod_eq_of_lt hv
    show Struct (setLevel s i ⟨k, add32 (V sym k) q⟩) _
    rw [this]
    exact h.setVol hh (by omega)
  | none =>
    have hno := search_none (h.sorted sym k) hf
    have hV : V sym k = 0 := by
      rcases Nat.eq_zero_or_pos (V sym k) with h0 | h0
      · exact h0
      · obtain ⟨i, hi⟩ := h.known _ _ h0
        exact absurd rfl (hno _ hi)
    -- the state after the allocation
    have hal : ∃ i al fr, allocate s = (i, { s with alloc := al, free := fr }) ∧ i < al.length ∧ i ∉ fr ∧
        (∀ j, j ≠ i → al[j]? = s.alloc[j]?) ∧ (∀ j ∈ fr, j ∈ s.free) ∧ fr.Nodup ∧ s.alloc.length ≤ al.length ∧
        (∀ j < al.length, j ≠ i → j < s.alloc.length) ∧ (∀ j ∈ s.free, j = i ∨ j ∈ fr) ∧ (i < s.alloc.length → i ∈ s.free) := by
      unfold allocate
      cases hfr : s.free with
      | nil =>
        refine ⟨s.alloc.length, s.alloc ++ [default], [], by simp [hfr], by simp, by simp, ?_, by simp, by simp, by simp, ?_, by simp, ?_⟩
        · intro j hj
          by_cases hlt : j < s.alloc.length
          · rw [List.getElem?_append_left hlt]
          · rw [List.getElem?_eq_none (by simp; omega), List.getElem?_eq_none (by omega)]
        · intro j hj hne; simp at hj; omega
        · intro hlt; omega
      | cons i fr =>
        have hnd := h.free_nodup
        rw [hfr] at hnd
        have hnd := List.nodup_cons.1 hnd
        refine ⟨i, s.alloc, fr, by simp, h.free_lt i (by rw [hfr]; simp), hnd.1, fun _ _ => rfl, fun j hj => by simp [hj],
          hnd.2, Nat.le_refl _, fun j hj _ => hj, ?_, fun _ => by simp⟩
        intro j hj
        exact List.mem_cons.1 hj
    obtain ⟨i, al, fr, e0, e1, e2, e3, e4, e5, e6, e7, e8, e9⟩ := hal
    simp only [e0]
    have hunused : ∀ a e, Has s a e → e.level ≠ i := by
      rintro a e he rfl
      obtain ⟨b1, _, b3⟩ := h.level a e he
      exact b3 (e9 (List.getElem?_eq_some_iff.1 b1).1)
    refine ⟨i, _, ⟨k, 0⟩, rfl, ?_, rfl, ?_, ?_, ?_⟩
    · apply getLevel_ok
      show (al.set i _)[i]? = _
      rw [List.getElem?_set_self e1]
    · -- the new state
      have hb : ∀ a e, Has (setLevel (setBook (setLevel { s with alloc := al, free := fr } i ⟨k, 0⟩) sym
          ((s.books sym).setSide k (insert k i ((s.books sym).side k)))) i ⟨k, q⟩) a e ↔ (a = sym ∧ e = ⟨k, i⟩) ∨ Has s a e := by
        intro a e
        unfold Has
        show e ∈ ((if a = sym then _ else s.books a) : Book).side e.price ↔ _
        by_cases ha : a = sym
        · subst ha
          rw [if_pos rfl]
          by_cases hsg : 0 < k ↔ 0 < e.price
          · rw [side_setSide_same hsg, mem_insert, side_congr hsg]
            simp
          · rw [side_setSide_other hsg]
            constructor
            · exact .inr
            · rintro (⟨_, rfl⟩ | h')
              · exact absurd Iff.rfl hsg
              · exact h'
        · rw [if_neg ha]; simp [ha]
      have hz : add32 0 q = q := by
        unfold add32; rw [Nat.zero_add]; exact Nat.mod_eq_of_lt (by omega)
      show Struct (setLevel _ i ⟨k, add32 0 q⟩) _
      rw [hz, hV, Nat.zero_add]
      refine ⟨?_, ?_, ?_, ?_, ?_, ?_, ?_, ?_⟩
      · intro a k'
        show Sorted (((if a = sym then _ else s.books a) : Book).side k')
        by_cases ha : a = sym
        · subst ha
          rw [if_pos rfl]
          by_cases hsg : 0 < k ↔ 0 < k'
          · rw [side_setSide_same hsg]; exact insert_sorted (h.sorted a k) hno
          · rw [side_setSide_other hsg]; exact h.sorted a k'
        · rw [if_neg ha]; exact h.sorted a k'
      · intro a k'
        show ∀ e ∈ ((if a = sym then _ else s.books a) : Book).side k', _
        intro e he
        by_cases ha : a = sym
        · subst ha
          rw [if_pos rfl] at he
          by_cases hsg : 0 < k ↔ 0 < k'
          · rw [side_setSide_same hsg] at he
            rcases mem_insert.1 he with rfl | he
            · exact hsg
            · exact (h.signs a k e he).trans hsg
          · rw [side_setSide_other hsg] at he; exact h.signs a k' e he
        · rw [if_neg ha] at he; exact h.signs a k' e he
      · intro a e he
        rcases (hb a e).1 he with ⟨rfl, rfl⟩ | hs0
        · refine ⟨?_, by rw [chg_same]; exact hq, e2⟩
          rw [chg_same]
          show ((al.set i _).set i _)[i]? = _
          rw [List.getElem?_set_self (by rw [List.length_set]; exact e1)]
        · obtain ⟨b1, b2, b3⟩ := h.level a e hs0
          have hne : ¬ (a = sym ∧ e.price = k) := by
            rintro ⟨rfl, rfl⟩; exact hno e hs0 rfl
          have hni := hunused a e hs0
          rw [chg_other hne]
          refine ⟨?_, b2, fun hc => b3 (e4 _ hc)⟩
          show ((al.set i _).set i _)[e.level]? = _
          rw [List.getElem?_set_ne (Ne.symm hni), List.getElem?_set_ne (Ne.symm hni), e3 _ hni, b1]
      · intro a k' hp
        by_cases ha : a = sym ∧ k' = k
        · obtain ⟨rfl, rfl⟩ := ha
          exact ⟨i, (hb _ _).2 (.inl ⟨rfl, rfl⟩)⟩
        · rw [chg_other ha] at hp
          obtain ⟨j, hj⟩ := h.known _ _ hp
          exact ⟨j, (hb _ _).2 (.inr hj)⟩
      · intro a e a' e' he he' hl
        rcases (hb a e).1 he with ⟨rfl, rfl⟩ | h1
        · rcases (hb a' e').1 he' with ⟨rfl, rfl⟩ | h2
          · exact ⟨rfl, rfl⟩
          · exact absurd hl.symm (hunused _ _ h2)
        · rcases (hb a' e').1 he' with ⟨rfl, rfl⟩ | h2
          · exact absurd hl (hunused _ _ h1)
          · exact h.apart _ _ _ _ h1 h2 hl
      · intro j hj
        have := h.free_lt j (e4 j hj)
        show j < ((al.set i _).set i _).length
        rw [List.length_set, List.length_set]; omega
      · exact e5
      · intro j hj
        have hj : j < ((al.set i _).set i _).length := hj
        rw [List.length_set, List.length_set] at hj
        by_cases hji : j = i
        · subst hji; exact .inr ⟨sym, ⟨k, j⟩, (hb _ _).2 (.inl ⟨rfl, rfl⟩), rfl⟩
        · rcases h.used j (e7 j hj hji) with hfree | ⟨a, e, he, hl⟩
          · rcases e8 j hfree with rfl | hfr
            · exact absurd rfl hji
            · exact .inl hfr
          · exact .inr ⟨a, e, (hb _ _).2 (.inr he), hl⟩
    · unfold Has
      show (⟨k, i⟩ : PriceLevel) ∈ ((if sym = sym then _ else s.books sym) : Book).side k
      rw [if_pos rfl, side_setSide_same Iff.rfl, mem_insert]; exact .inl rfl
    · intro a e he
      unfold Has
      show e ∈ ((if a = sym then _ else s.books a) : Book).side e.price
      by_cases ha : a = sym
      · subst ha
        rw [if_pos rfl]
        by_cases hsg : 0 < k ↔ 0 < e.price
        · rw [side_setSide_same hsg, mem_insert, side_congr hsg]; exact .inr he
        · rw [side_setSide_other hsg]; exact he
      · rw [if_neg ha]; exact he

/-- `ReduceOrder`/`DeleteOrder` of the book. -/
theorem Struct.sub {s : St} {V} (h : Struct s V) {sym : Nat} {k : Int} {o : Ord} {q : Nat} (hs : sym < 10000)
    (hh : Has s sym ⟨k, o.level⟩) (hq : q ≤ V sym k) (hw : V sym k < W32) : ∃ s', bookSub s sym o q = .ok s' ∧ s'.orders = s.orders ∧
      Struct s' (chg V sym k (V sym k - q)) ∧ ∀ a e, Has s a e → (a = sym → e.price = k → q < V sym k) → Has s' a e := by
  obtain ⟨a1, a2, a3⟩ := h.level _ _ hh
  have hsub : sub32 (V sym k) q = V sym k - q := by
    unfold sub32
    have : q % W32 = q := Nat.mod_eq_of_lt (by omega)
    rw [this, show V sym k + W32 - q = (V sym k - q) + W32 by omega, Nat.add_mod_right, Nat.mod_eq_of_lt (by omega)]
  have hlt : o.level < s.alloc.length := (List.getElem?_eq_some_iff.1 a1).1
  unfold bookSub
  rw [getBook_ok hs, Except.bind_ok, getLevel_ok a1, Except.bind_ok]
  simp only [hsub]
  by_cases hz : V sym k - q = 0
  · rw [if_pos hz]
    unfold deleteLevel
    rw [getBook_ok hs, Except.bind_ok, getLevel_ok (l := ⟨k, V sym k - q⟩) (by
      show (s.alloc.set _ _)[o.level]? = _
      rw [List.getElem?_set_self hlt]), Except.bind_ok]
    have hb : ∀ a e, Has (release (setBook (setLevel s o.level ⟨k, V sym k - q⟩) sym
        ((s.books sym).setSide k (erase k ((s.books sym).side k)))) o.level) a e ↔ Has s a e ∧ ¬ (a = sym ∧ e.price = k) := by
      intro a e
      unfold Has
      show e ∈ ((if a = sym then _ else s.books a) : Book).side e.price ↔ _
      by_cases ha : a = sym
      · subst ha
        rw [if_pos rfl]
        by_cases hsg : 0 < k ↔ 0 < e.price
        · rw [side_setSide_same hsg, mem_erase (h.sorted a k), side_congr hsg]; simp
        · rw [side_setSide_other hsg]
          constructor
          · exact fun h' => ⟨h', fun h2 => hsg (by rw [h2.2])⟩
          · exact fun h' => h'.1
      · rw [if_neg ha]; simp [ha]
    refine ⟨_, rfl, rfl, ?_, ?_⟩
    · refine ⟨?_, ?_, ?_, ?_, ?_, ?_, ?_, ?_⟩
      · intro a k'
        show Sorted (((if a = sym then _ else s.books a) : Book).side k')
        by_cases ha : a = sym
        · subst ha
          rw [if_pos rfl]
          by_cases hsg : 0 < k ↔ 0 < k'
          · rw [side_setSide_same hsg]; exact erase_sorted (h.sorted a k)
          · rw [side_setSide_other hsg]; exact h.sorted a k'
        · rw [if_neg ha]; exact h.sorted a k'
      · intro a k'
        show ∀ e ∈ ((if a = sym then _ else s.books a) : Book).side k', _
        intro e he
        by_cases ha : a = sym
        · subst ha
          rw [if_pos rfl] at he
          by_cases hsg : 0 < k ↔ 0 < k'
          · rw [side_setSide_same hsg] at he
            have : e ∈ (s.books a).side k := ((mem_erase (h.sorted a k)).1 he).1
            exact (h.signs a k e this).trans hsg
          · rw [side_setSide_other hsg] at he; exact h.signs a k' e he
        · rw [if_neg ha] at he; exact h.signs a k' e he
      · intro a e he
        obtain ⟨he, hne⟩ := (hb a e).1 he
        obtain ⟨b1, b2, b3⟩ := h.level a e he
        have hl : o.level ≠ e.level := by
          intro hl
          obtain ⟨rfl, rfl⟩ := h.apart _ _ _ _ hh he hl
          exact hne ⟨rfl, rfl⟩
        rw [chg_other hne]
        refine ⟨?_, b2, ?_⟩
        · show (s.alloc.set _ _)[e.level]? = _
          rw [List.getElem?_set_ne hl, b1]
        · intro hc
          have hc : e.level ∈ o.level :: s.free := hc
          rcases List.mem_cons.1 hc with h1 | h1
          · exact hl h1.symm
          · exact b3 h1
      · intro a k' hp
        by_cases ha : a = sym ∧ k' = k
        · obtain ⟨rfl, rfl⟩ := ha
          rw [chg_same] at hp; omega
        · rw [chg_other ha] at hp
          obtain ⟨j, hj⟩ := h.known _ _ hp
          exact ⟨j, (hb _ _).2 ⟨hj, ha⟩⟩
      · intro a e a' e' he he' hl
        exact h.apart _ _ _ _ ((hb a e).1 he).1 ((hb a' e').1 he').1 hl
      · intro j hj
        have hj : j ∈ o.level :: s.free := hj
        show j < (s.alloc.set _ _).length
        rw [List.length_set]
        rcases List.mem_cons.1 hj with rfl | hj
        · exact hlt
        · exact h.free_lt j hj
      · exact List.nodup_cons.2 ⟨a3, h.free_nodup⟩
      · intro j hj
        have hj : j < (s.alloc.set _ _).length := hj
        rw [List.length_set] at hj
        show j ∈ o.level :: s.free ∨ _
        rcases h.used j hj with hf | ⟨a, e, he, hl⟩
        · exact .inl (List.mem_cons_of_mem _ hf)
        · by_cases hne : a = sym ∧ e.price = k
          · obtain ⟨rfl, rfl⟩ := hne
            have : e.level = o.level := h.unique (i := e.level) (j := o.level) he hh
            rw [← hl, this]; exact .inl (by simp)
          · exact .inr ⟨a, e, (hb _ _).2 ⟨he, hne⟩, hl⟩
    · intro a e he hc
      refine (hb a e).2 ⟨he, fun hne => ?_⟩
      have := hc hne.1 hne.2
      omega
  · rw [if_neg hz]
    exact ⟨_, rfl, rfl, h.setVol hh (by omega), fun a e he _ => he⟩

end CppTrader.Aggr
