import Verif.Model.Stats
import Verif.Seen
import Verif.Proof.LandOps
/-
The optimised manager: its sorted vectors and its pool.
-/

namespace CppTrader.Opt

/-- Best first: prices get worse strictly. -/
def Sorted (sd : Side) (l : List PriceLevel) : Prop := l.Pairwise fun a b => behind sd b.price a.price = true

theorem behind_trans {sd : Side} {a b c : Nat} (h : behind sd a b = true) (h' : behind sd b c = true) : behind sd a c = true := by
  cases sd <;> simp only [behind, decide_eq_true_eq] at * <;> omega

theorem behind_ne {sd : Side} {a b : Nat} (h : behind sd a b = true) : a ≠ b := by
  cases sd <;> simp only [behind, decide_eq_true_eq] at * <;> omega

theorem behind_total {sd : Side} {a b : Nat} (h : ¬ behind sd a b = true) (h' : a ≠ b) : behind sd b a = true := by
  cases sd <;> simp only [behind, decide_eq_true_eq] at * <;> omega

theorem search_some {sd : Side} {k : Nat} : ∀ {l : List PriceLevel} {i : Nat}, search sd k l = some i → (⟨k, i⟩ : PriceLevel) ∈ l
  | [], i, h => by cases h
  | x :: l, i, h => by
    unfold search at h
    by_cases h1 : x.price = k
    · rw [if_pos h1] at h; cases h; subst h1; simp
    · rw [if_neg h1] at h
      by_cases h2 : behind sd x.price k = true
      · rw [if_pos h2] at h; cases h
      · rw [if_neg h2] at h; exact List.mem_cons_of_mem _ (search_some h)

theorem search_none {sd : Side} {k : Nat} : ∀ {l : List PriceLevel}, Sorted sd l → search sd k l = none → ∀ e ∈ l, e.price ≠ k
  | [], _, _, e, he => by cases he
  | x :: l, hs, h, e, he => by
    have hs' := List.pairwise_cons.1 hs
    unfold search at h
    by_cases h1 : x.price = k
    · rw [if_pos h1] at h; cases h
    · rw [if_neg h1] at h
      rcases List.mem_cons.1 he with rfl | he
      · exact h1
      · by_cases h2 : behind sd x.price k = true
        · exact behind_ne (behind_trans (hs'.1 e he) h2)
        · rw [if_neg h2] at h; exact search_none hs'.2 h e he

theorem mem_insert {sd : Side} {k i : Nat} {e : PriceLevel} : ∀ {l : List PriceLevel}, e ∈ insert sd k i l ↔ e = ⟨k, i⟩ ∨ e ∈ l
  | [] => by simp [insert]
  | x :: l => by
    unfold insert
    by_cases h : behind sd x.price k = true
    · rw [if_pos h]; simp
    · rw [if_neg h]
      simp only [List.mem_cons, mem_insert (l := l)]
      constructor
      · rintro (h | h | h)
        · exact .inr (.inl h)
        · exact .inl h
        · exact .inr (.inr h)
      · rintro (h | h | h)
        · exact .inr (.inl h)
        · exact .inl h
        · exact .inr (.inr h)

theorem insert_sorted {sd : Side} {k i : Nat} : ∀ {l : List PriceLevel}, Sorted sd l → (∀ e ∈ l, e.price ≠ k) → Sorted sd (insert sd k i l)
  | [], _, _ => by simp [insert, Sorted]
  | x :: l, hs, h => by
    have hs' := List.pairwise_cons.1 hs
    unfold insert
    by_cases h1 : behind sd x.price k = true
    · rw [if_pos h1]
      refine List.pairwise_cons.2 ⟨fun e he => ?_, hs⟩
      rcases List.mem_cons.1 he with rfl | he
      · exact h1
      · exact behind_trans (hs'.1 e he) h1
    · rw [if_neg h1]
      refine List.pairwise_cons.2 ⟨fun e he => ?_, insert_sorted hs'.2 fun e he => h e (by simp [he])⟩
      rcases mem_insert.1 he with rfl | he
      · exact behind_total h1 (h x (by simp))
      · exact hs'.1 e he

theorem mem_erase {sd : Side} {k : Nat} {e : PriceLevel} : ∀ {l : List PriceLevel}, Sorted sd l → (e ∈ erase sd k l ↔ e ∈ l ∧ e.price ≠ k)
  | [], _ => by simp [erase]
  | x :: l, hs => by
    have hs' := List.pairwise_cons.1 hs
    unfold erase
    by_cases h1 : x.price = k
    · rw [if_pos h1]
      constructor
      · intro he
        exact ⟨by simp [he], by rw [← h1]; exact behind_ne (hs'.1 e he)⟩
      · rintro ⟨he, hk⟩
        rcases List.mem_cons.1 he with rfl | he
        · exact absurd h1 hk
        · exact he
    · rw [if_neg h1]
      by_cases h2 : behind sd x.price k = true
      · rw [if_pos h2]
        constructor
        · intro he
          refine ⟨he, ?_⟩
          rcases List.mem_cons.1 he with rfl | he
          · exact h1
          · exact behind_ne (behind_trans (hs'.1 e he) h2)
        · exact fun h => h.1
      · rw [if_neg h2, List.mem_cons, mem_erase hs'.2, List.mem_cons]
        constructor
        · rintro (rfl | ⟨h, h'⟩)
          · exact ⟨.inl rfl, h1⟩
          · exact ⟨.inr h, h'⟩
        · rintro ⟨rfl | h, h'⟩
          · exact .inl rfl
          · exact .inr ⟨h, h'⟩

theorem erase_sorted {sd : Side} {k : Nat} : ∀ {l : List PriceLevel}, Sorted sd l → Sorted sd (erase sd k l)
  | [], _ => by simp [erase, Sorted]
  | x :: l, hs => by
    have hs' := List.pairwise_cons.1 hs
    unfold erase
    by_cases h1 : x.price = k
    · rw [if_pos h1]; exact hs'.2
    · rw [if_neg h1]
      by_cases h2 : behind sd x.price k = true
      · rw [if_pos h2]; exact hs
      · rw [if_neg h2]
        exact List.pairwise_cons.2 ⟨fun e he => hs'.1 e ((mem_erase hs'.2).1 he).1, erase_sorted hs'.2⟩

/-- The book of `sym` has the price level `e` on the side `sd`. -/
def Has (s : St) (sym : Nat) (sd : Side) (e : PriceLevel) : Prop := e ∈ (s.books sym).half sd

abbrev Table := Nat → Side → Nat → Nat

/-- The books and the pool represent the volumes `V` and numbers of orders `N`. -/
structure Struct (s : St) (V N : Table) : Prop where
  sorted : ∀ sym sd, Sorted sd ((s.books sym).half sd)
  level : ∀ sym sd e, Has s sym sd e →
    s.alloc[e.level]? = some ⟨sd, e.price, V sym sd e.price, N sym sd e.price⟩ ∧ 0 < V sym sd e.price ∧ e.level ∉ s.free
  known : ∀ sym sd k, 0 < V sym sd k → ∃ i, Has s sym sd ⟨k, i⟩
  apart : ∀ sym sd e sym' sd' e', Has s sym sd e → Has s sym' sd' e' → e.level = e'.level → sym = sym' ∧ sd = sd' ∧ e = e'
  free_lt : ∀ i ∈ s.free, i < s.alloc.length
  free_nodup : s.free.Nodup
  used : ∀ i < s.alloc.length, i ∈ s.free ∨ ∃ sym sd e, Has s sym sd e ∧ e.level = i

/-- One entry of a table changed. -/
def chg (V : Table) (sym : Nat) (sd : Side) (k v : Nat) : Table := fun a c b => if a = sym ∧ c = sd ∧ b = k then v else V a c b

theorem chg_same {V : Table} {sym : Nat} {sd : Side} {k v : Nat} : chg V sym sd k v sym sd k = v := if_pos ⟨rfl, rfl, rfl⟩

theorem chg_other {V : Table} {sym a : Nat} {sd c : Side} {k b v : Nat} (h : ¬ (a = sym ∧ c = sd ∧ b = k)) :
    chg V sym sd k v a c b = V a c b := if_neg h

theorem half_setHalf_same {b : Book} {sd : Side} {l : List PriceLevel} : (b.setHalf sd l).half sd = l := by cases sd <;> rfl

theorem half_setHalf_other {b : Book} {sd c : Side} {l : List PriceLevel} (h : c ≠ sd) : (b.setHalf sd l).half c = b.half c := by
  cases sd <;> cases c <;> first | rfl | exact absurd rfl h

/-- A price level is found where it is looked for. -/
theorem Struct.unique {s : St} {V N} (h : Struct s V N) {sym : Nat} {sd : Side} {k i j : Nat} (h1 : Has s sym sd ⟨k, i⟩)
    (h2 : Has s sym sd ⟨k, j⟩) : i = j := by
  have hs := h.sorted sym sd
  unfold Has at h1 h2
  revert hs h1 h2
  generalize (s.books sym).half sd = l
  intro h1 h2 hs
  induction l with
  | nil => cases h1
  | cons x l ih =>
    have hs' := List.pairwise_cons.1 hs
    rcases List.mem_cons.1 h1 with e1 | m1
    · rcases List.mem_cons.1 h2 with e2 | m2
      · rw [← e1] at e2; cases e2; rfl
      · have := hs'.1 _ m2; rw [← e1] at this; exact absurd rfl (behind_ne this)
    · rcases List.mem_cons.1 h2 with e2 | m2
      · have := hs'.1 _ m1; rw [← e2] at this; exact absurd rfl (behind_ne this)
      · exact ih m1 m2 hs'.2

theorem getLevel_ok {s : St} {i : Nat} {l : Level} (h : s.alloc[i]? = some l) : getLevel s i = .ok l := by
  unfold getLevel; rw [h]

theorem getBook_ok {s : St} {i : Nat} (h : i < 10000) : getBook s i = .ok (s.books i) := if_pos h
theorem getOrd_ok {s : St} {i : Nat} (h : i < 300000000) : getOrd s i = .ok (s.orders i) := if_pos h

theorem Struct.congr {s s' : St} {V N} (h : Struct s V N) (h1 : s'.books = s.books) (h2 : s'.alloc = s.alloc) (h3 : s'.free = s.free) :
    Struct s' V N := by
  obtain ⟨y, b, o, a, f, e⟩ := s
  obtain ⟨y', b', o', a', f', e'⟩ := s'
  simp only at h1 h2 h3
  subst h1 h2 h3
  exact ⟨h.sorted, h.level, h.known, h.apart, h.free_lt, h.free_nodup, h.used⟩

/-- The volume and number of orders of one used level are changed. -/
theorem Struct.setVol {s : St} {V N} (h : Struct s V N) {sym : Nat} {sd : Side} {k i v n : Nat} (hh : Has s sym sd ⟨k, i⟩) (hv : 0 < v) :
    Struct (setLevel s i ⟨sd, k, v, n⟩) (chg V sym sd k v) (chg N sym sd k n) where
  sorted := h.sorted
  level := by
    intro sym' sd' e he
    have he' : Has s sym' sd' e := he
    obtain ⟨a1, a2, a3⟩ := h.level sym' sd' e he'
    by_cases hl : i = e.level
    · obtain ⟨rfl, rfl, rfl⟩ := h.apart _ _ _ _ _ _ hh he' hl
      have hlt : i < s.alloc.length := (List.getElem?_eq_some_iff.1 a1).1
      refine ⟨?_, by rw [chg_same]; exact hv, a3⟩
      rw [chg_same, chg_same]
      show (s.alloc.set i _)[i]? = _
      rw [List.getElem?_set_self hlt]
    · have hne : ¬ (sym' = sym ∧ sd' = sd ∧ e.price = k) := by
        rintro ⟨rfl, rfl, rfl⟩
        exact hl (h.unique hh (j := e.level) he')
      rw [chg_other hne, chg_other hne]
      refine ⟨?_, a2, a3⟩
      show (s.alloc.set i _)[e.level]? = _
      rw [List.getElem?_set_ne hl, a1]
  known := by
    intro sym' sd' k' hk
    by_cases he : sym' = sym ∧ sd' = sd ∧ k' = k
    · obtain ⟨rfl, rfl, rfl⟩ := he; exact ⟨i, hh⟩
    · rw [chg_other he] at hk; exact h.known _ _ _ hk
  apart := h.apart
  free_lt := by intro j hj; show j < (s.alloc.set i _).length; rw [List.length_set]; exact h.free_lt j hj
  free_nodup := h.free_nodup
  used := by intro j hj; exact h.used j (by have : j < (s.alloc.set i _).length := hj; rwa [List.length_set] at this)

theorem sub32_le {a b : Nat} (h : b ≤ a) (ha : a < W32) : sub32 a b = a - b := by
  unfold sub32
  rw [Nat.mod_eq_of_lt (show b < W32 by omega), show a + (W32 - b) = (a - b) + W32 by omega, Nat.add_mod_right,
    Nat.mod_eq_of_lt (by omega)]

/-- `FindLevel` and the update of the level that follows it. -/
theorem Struct.add {s : St} {V N} (h : Struct s V N) {sym : Nat} {o : Ord} (hs : sym < 10000) (hq : 0 < o.quantity)
    (hv : V sym o.side o.price + o.quantity < W32) (hn : N sym o.side o.price ≤ V sym o.side o.price) :
    ∃ i c s1 l, findLevel s sym o = .ok (i, c, s1) ∧ getLevel s1 i = .ok l ∧ s1.orders = s.orders ∧ s1.ev = s.ev ∧
      Struct (setLevel s1 i { l with volume := add32 l.volume o.quantity, orders := add64 l.orders 1 })
        (chg V sym o.side o.price (V sym o.side o.price + o.quantity)) (chg N sym o.side o.price (N sym o.side o.price + 1)) ∧
      Has s1 sym o.side ⟨o.price, i⟩ ∧ ∀ a c e, Has s a c e → Has s1 a c e := by
  obtain ⟨oid, osym, sd, k, q, lv⟩ := o
  simp only at hq hv hn ⊢
  unfold findLevel
  rw [getBook_ok hs, Except.bind_ok]
  simp only
  have hn64 : ∀ n, n ≤ V sym sd k → add64 n 1 = n + 1 := by
    intro n hn; unfold add64; exact Nat.mod_eq_of_lt (by have := hv; simp only [W32] at this; omega)
  cases hf : search sd k ((s.books sym).half sd) with
  | some i =>
    have hh : Has s sym sd ⟨k, i⟩ := search_some hf
    obtain ⟨a1, a2, a3⟩ := h.level _ _ _ hh
    refine ⟨i, .update, s, _, rfl, getLevel_ok a1, rfl, rfl, ?_, hh, fun _ _ _ h => h⟩
    have : add32 (V sym sd k) q = V sym sd k + q := Nat.mod_eq_of_lt hv
    show Struct (setLevel s i ⟨sd, k, add32 (V sym sd k) q, add64 (N sym sd k) 1⟩) _ _
    rw [this, hn64 _ hn]
    exact h.setVol hh (by omega)
  | none =>
    have hno := search_none (h.sorted sym sd) hf
    have hV : V sym sd k = 0 := by
      rcases Nat.eq_zero_or_pos (V sym sd k) with h0 | h0
      · exact h0
      · obtain ⟨i, hi⟩ := h.known _ _ _ h0
        exact absurd rfl (hno _ hi)
    have hN : N sym sd k = 0 := by omega
    -- the state after the allocation
    have hal : ∃ i al fr, allocate s = (i, { s with alloc := al, free := fr }) ∧ i < al.length ∧ i ∉ fr ∧
        (∀ j, j ≠ i → al[j]? = s.alloc[j]?) ∧ (∀ j ∈ fr, j ∈ s.free) ∧ fr.Nodup ∧ s.alloc.length ≤ al.length ∧
        (∀ j < al.length, j ≠ i → j < s.alloc.length) ∧ (∀ j ∈ s.free, j = i ∨ j ∈ fr) ∧ (i < s.alloc.length → i ∈ s.free) := by
      unfold allocate
      cases hfr : s.free with
      | nil =>
        refine ⟨s.alloc.length, s.alloc ++ [default], [], by simp [hfr], by simp, by simp, ?_, by simp, by simp, by simp, ?_, by simp, ?_⟩
        · intro j hj
          by_cases hlt : j < s.alloc.length
          · rw [List.getElem?_append_left hlt]
          · rw [List.getElem?_eq_none (by simp; omega), List.getElem?_eq_none (by omega)]
        · intro j hj hne; simp at hj; omega
        · intro hlt; omega
      | cons i fr =>
        have hnd := h.free_nodup
        rw [hfr] at hnd
        have hnd := List.nodup_cons.1 hnd
        refine ⟨i, s.alloc, fr, by simp, h.free_lt i (by rw [hfr]; simp), hnd.1, fun _ _ => rfl, fun j hj => by simp [hj],
          hnd.2, Nat.le_refl _, fun j hj _ => hj, ?_, fun _ => by simp⟩
        intro j hj
        exact List.mem_cons.1 hj
    obtain ⟨i, al, fr, e0, e1, e2, e3, e4, e5, e6, e7, e8, e9⟩ := hal
    simp only [e0]
    have hunused : ∀ a c e, Has s a c e → e.level ≠ i := by
      rintro a c e he rfl
      obtain ⟨b1, _, b3⟩ := h.level a c e he
      exact b3 (e9 (List.getElem?_eq_some_iff.1 b1).1)
    refine ⟨i, .add, _, ⟨sd, k, 0, 0⟩, rfl, ?_, rfl, rfl, ?_, ?_, ?_⟩
    · apply getLevel_ok
      show (al.set i _)[i]? = _
      rw [List.getElem?_set_self e1]
    · have hb : ∀ a c e, Has (setLevel (setBook (setLevel { s with alloc := al, free := fr } i ⟨sd, k, 0, 0⟩) sym
          ((s.books sym).setHalf sd (insert sd k i ((s.books sym).half sd)))) i ⟨sd, k, q, 1⟩) a c e ↔
            (a = sym ∧ c = sd ∧ e = ⟨k, i⟩) ∨ Has s a c e := by
        intro a c e
        unfold Has
        show e ∈ ((if a = sym then _ else s.books a) : Book).half c ↔ _
        by_cases ha : a = sym
        · subst ha
          rw [if_pos rfl]
          by_cases hc : c = sd
          · subst hc; rw [half_setHalf_same, mem_insert]; simp
          · rw [half_setHalf_other hc]; simp [hc]
        · rw [if_neg ha]; simp [ha]
      have hz : add32 0 q = q := by
        unfold add32; rw [Nat.zero_add]; exact Nat.mod_eq_of_lt (by omega)
      show Struct (setLevel _ i ⟨sd, k, add32 0 q, add64 0 1⟩) _ _
      rw [hz, hV, hN, Nat.zero_add, Nat.zero_add, show add64 0 1 = 1 from rfl]
      refine ⟨?_, ?_, ?_, ?_, ?_, ?_, ?_⟩
      · intro a c
        show Sorted c (((if a = sym then _ else s.books a) : Book).half c)
        by_cases ha : a = sym
        · subst ha
          rw [if_pos rfl]
          by_cases hc : c = sd
          · subst hc; rw [half_setHalf_same]; exact insert_sorted (h.sorted a c) hno
          · rw [half_setHalf_other hc]; exact h.sorted a c
        · rw [if_neg ha]; exact h.sorted a c
      · intro a c e he
        rcases (hb a c e).1 he with ⟨rfl, rfl, rfl⟩ | hs0
        · refine ⟨?_, by rw [chg_same]; exact hq, e2⟩
          rw [chg_same, chg_same]
          show ((al.set i _).set i _)[i]? = _
          rw [List.getElem?_set_self (by rw [List.length_set]; exact e1)]
        · obtain ⟨b1, b2, b3⟩ := h.level a c e hs0
          have hne : ¬ (a = sym ∧ c = sd ∧ e.price = k) := by
            rintro ⟨rfl, rfl, rfl⟩; exact hno e hs0 rfl
          have hni := hunused a c e hs0
          rw [chg_other hne, chg_other hne]
          refine ⟨?_, b2, fun hc => b3 (e4 _ hc)⟩
          show ((al.set i _).set i _)[e.level]? = _
          rw [List.getElem?_set_ne (Ne.symm hni), List.getElem?_set_ne (Ne.symm hni), e3 _ hni, b1]
      · intro a c k' hp
        by_cases ha : a = sym ∧ c = sd ∧ k' = k
        · obtain ⟨rfl, rfl, rfl⟩ := ha
          exact ⟨i, (hb _ _ _).2 (.inl ⟨rfl, rfl, rfl⟩)⟩
        · rw [chg_other ha] at hp
          obtain ⟨j, hj⟩ := h.known _ _ _ hp
          exact ⟨j, (hb _ _ _).2 (.inr hj)⟩
      · intro a c e a' c' e' he he' hl
        rcases (hb a c e).1 he with ⟨rfl, rfl, rfl⟩ | h1
        · rcases (hb a' c' e').1 he' with ⟨rfl, rfl, rfl⟩ | h2
          · exact ⟨rfl, rfl, rfl⟩
          · exact absurd hl.symm (hunused _ _ _ h2)
        · rcases (hb a' c' e').1 he' with ⟨rfl, rfl, rfl⟩ | h2
          · exact absurd hl (hunused _ _ _ h1)
          · exact h.apart _ _ _ _ _ _ h1 h2 hl
      · intro j hj
        have := h.free_lt j (e4 j hj)
        show j < ((al.set i _).set i _).length
        rw [List.length_set, List.length_set]; omega
      · exact e5
      · intro j hj
        have hj : j < ((al.set i _).set i _).length := hj
        rw [List.length_set, List.length_set] at hj
        by_cases hji : j = i
        · subst hji; exact .inr ⟨sym, sd, ⟨k, j⟩, (hb _ _ _).2 (.inl ⟨rfl, rfl, rfl⟩), rfl⟩
        · rcases h.used j (e7 j hj hji) with hfree | ⟨a, c, e, he, hl⟩
          · rcases e8 j hfree with rfl | hfr
            · exact absurd rfl hji
            · exact .inl hfr
          · exact .inr ⟨a, c, e, (hb _ _ _).2 (.inr he), hl⟩
    · unfold Has
      show (⟨k, i⟩ : PriceLevel) ∈ ((if sym = sym then _ else s.books sym) : Book).half sd
      rw [if_pos rfl, half_setHalf_same, mem_insert]; exact .inl rfl
    · intro a c e he
      unfold Has
      show e ∈ ((if a = sym then _ else s.books a) : Book).half c
      by_cases ha : a = sym
      · subst ha
        rw [if_pos rfl]
        by_cases hc : c = sd
        · subst hc; rw [half_setHalf_same, mem_insert]; exact .inr he
        · rw [half_setHalf_other hc]; exact he
      · rw [if_neg ha]; exact he

/-- The callbacks for one change of a price level. -/
def Notes (s s' : St) : Prop := ∃ c l top bids asks, s'.ev = s.ev ++ [.level c l top, .updateBook bids asks top]

/-- The end of `ReduceOrder`/`DeleteOrder` of the book. -/
theorem Struct.ends {s : St} {V N} (h : Struct s V N) {sym : Nat} {o : Ord} {v n : Nat} (hs : sym < 10000)
    (hh : Has s sym o.side ⟨o.price, o.level⟩) : ∃ s', bookEnd s sym o ⟨o.side, o.price, v, n⟩ = .ok s' ∧ s'.orders = s.orders ∧
      Notes s s' ∧ Struct s' (chg V sym o.side o.price v) (chg N sym o.side o.price n) ∧
      ∀ a c e, Has s a c e → (a = sym → c = o.side → e.price = o.price → 0 < v) → Has s' a c e := by
  obtain ⟨oid, osym, sd, k, oq, lv⟩ := o
  simp only at hh ⊢
  obtain ⟨a1, a2, a3⟩ := h.level _ _ _ hh
  simp only at a1 a2 a3
  have hlt : lv < s.alloc.length := (List.getElem?_eq_some_iff.1 a1).1
  unfold bookEnd
  rw [getBook_ok hs, Except.bind_ok]
  by_cases hz : v = 0
  · simp only
    rw [if_pos hz]
    unfold deleteLevel
    rw [getBook_ok hs, Except.bind_ok]
    simp only [Except.bind_ok]
    have hb : ∀ a c e, Has (release (setBook (setLevel s lv ⟨sd, k, v, n⟩) sym
        ((s.books sym).setHalf sd (erase sd k ((s.books sym).half sd)))) lv) a c e ↔ Has s a c e ∧ ¬ (a = sym ∧ c = sd ∧ e.price = k) := by
      intro a c e
      unfold Has
      show e ∈ ((if a = sym then _ else s.books a) : Book).half c ↔ _
      by_cases ha : a = sym
      · subst ha
        rw [if_pos rfl]
        by_cases hc : c = sd
        · subst hc; rw [half_setHalf_same, mem_erase (h.sorted a c)]; simp
        · rw [half_setHalf_other hc]; simp [hc]
      · rw [if_neg ha]; simp [ha]
    refine ⟨_, rfl, rfl, ⟨_, _, _, _, _, by show (s.ev ++ [_]) ++ [_] = _; rw [List.append_assoc]; rfl⟩, ?_, ?_⟩
    · refine Struct.congr (s := release (setBook (setLevel s lv ⟨sd, k, v, n⟩) sym
        ((s.books sym).setHalf sd (erase sd k ((s.books sym).half sd)))) lv) ?_ rfl rfl rfl
      refine ⟨?_, ?_, ?_, ?_, ?_, ?_, ?_⟩
      · intro a c
        show Sorted c (((if a = sym then _ else s.books a) : Book).half c)
        by_cases ha : a = sym
        · subst ha
          rw [if_pos rfl]
          by_cases hc : c = sd
          · subst hc; rw [half_setHalf_same]; exact erase_sorted (h.sorted a c)
          · rw [half_setHalf_other hc]; exact h.sorted a c
        · rw [if_neg ha]; exact h.sorted a c
      · intro a c e he
        obtain ⟨he, hne⟩ := (hb a c e).1 he
        obtain ⟨b1, b2, b3⟩ := h.level a c e he
        have hl : lv ≠ e.level := by
          intro hl
          obtain ⟨rfl, rfl, rfl⟩ := h.apart _ _ _ _ _ _ hh he hl
          exact hne ⟨rfl, rfl, rfl⟩
        rw [chg_other hne, chg_other hne]
        refine ⟨?_, b2, ?_⟩
        · show (s.alloc.set _ _)[e.level]? = _
          rw [List.getElem?_set_ne hl, b1]
        · intro hc
          have hc : e.level ∈ lv :: s.free := hc
          rcases List.mem_cons.1 hc with h1 | h1
          · exact hl h1.symm
          · exact b3 h1
      · intro a c k' hp
        by_cases ha : a = sym ∧ c = sd ∧ k' = k
        · obtain ⟨rfl, rfl, rfl⟩ := ha
          rw [chg_same] at hp; omega
        · rw [chg_other ha] at hp
          obtain ⟨j, hj⟩ := h.known _ _ _ hp
          exact ⟨j, (hb _ _ _).2 ⟨hj, ha⟩⟩
      · intro a c e a' c' e' he he' hl
        exact h.apart _ _ _ _ _ _ ((hb a c e).1 he).1 ((hb a' c' e').1 he').1 hl
      · intro j hj
        have hj : j ∈ lv :: s.free := hj
        show j < (s.alloc.set _ _).length
        rw [List.length_set]
        rcases List.mem_cons.1 hj with rfl | hj
        · exact hlt
        · exact h.free_lt j hj
      · exact List.nodup_cons.2 ⟨a3, h.free_nodup⟩
      · intro j hj
        have hj : j < (s.alloc.set _ _).length := hj
        rw [List.length_set] at hj
        show j ∈ lv :: s.free ∨ _
        rcases h.used j hj with hf | ⟨a, c, e, he, hl⟩
        · exact .inl (List.mem_cons_of_mem _ hf)
        · by_cases hne : a = sym ∧ c = sd ∧ e.price = k
          · obtain ⟨rfl, rfl, rfl⟩ := hne
            have : e.level = lv := h.unique (i := e.level) (j := lv) he hh
            rw [← hl, this]; exact .inl (by simp)
          · exact .inr ⟨a, c, e, (hb _ _ _).2 ⟨he, hne⟩, hl⟩
    · intro a c e he hc
      refine (hb a c e).2 ⟨he, fun hne => ?_⟩
      have := hc hne.1 hne.2.1 hne.2.2
      omega
  · simp only
    rw [if_neg hz]
    exact ⟨_, rfl, rfl, ⟨_, _, _, _, _, by show (s.ev ++ [_]) ++ [_] = _; rw [List.append_assoc]; rfl⟩, (h.setVol hh (by omega)).congr rfl rfl rfl, fun a c e he _ => he⟩

end CppTrader.Opt
