import Verif.Model.Live
import Verif.Moments
import Verif.Props.Glimpse
/-
What the watching handler has counted.
-/

namespace CppTrader
namespace Moment

/-! ### Numbers of levels -/

/-- There are at most `n` levels on this side. -/
def AtMost (w : BookView) (sd : Bool) (n : Nat) : Prop := ∀ ps : List Nat, ps.Nodup → (∀ p ∈ ps, w sd p ≠ none) → ps.length ≤ n

theorem AtMost.mono {w : BookView} {sd : Bool} {n m : Nat} (h : AtMost w sd n) (hm : n ≤ m) : AtMost w sd m :=
  fun ps h1 h2 => Nat.le_trans (h ps h1 h2) hm

theorem view_some (b : Book) (sd : Bool) (p : Nat) : b.view sd p ≠ none ↔ ∃ l ∈ b.lv (sideKind sd), l.price = p := by
  rw [view_at]
  cases hf : findLevel (b.lv (sideKind sd)) p with
  | none =>
    refine ⟨fun h => absurd rfl h, ?_⟩
    rintro ⟨l, hl, hp⟩
    exact absurd hp (findLevel_none.1 hf l hl)
  | some l =>
    have hlm := List.mem_of_find?_eq_some (show List.find? _ _ = some l from hf)
    refine ⟨fun _ => ⟨l, hlm, Watch.find_price hf⟩, fun _ => by simp⟩

theorem nodup_prices {k : Kind} {ls : List Level} (h : Sorted k ls) : (ls.map (·.price)).Nodup := by
  unfold List.Nodup
  rw [List.pairwise_map]
  refine h.imp ?_
  intro a b hab e
  rw [e] at hab
  cases k <;> simp [Kind.better] at hab

theorem short_of_nodup : ∀ {l l' : List Nat}, l.Nodup → (∀ x ∈ l, x ∈ l') → l.length ≤ l'.length := by
  intro l
  induction l with
  | nil => intro l' _ _; exact Nat.zero_le _
  | cons a l ih =>
    intro l' hn hm
    have h1 := List.nodup_cons.1 hn
    have := ih (l' := l'.erase a) h1.2 (fun x hx => by
      have hne : x ≠ a := fun e => h1.1 (by rw [← e]; exact hx)
      exact (List.mem_erase_of_ne hne).2 (hm x (by simp [hx])))
    have hpos := List.length_pos_of_mem (hm a (by simp))
    rw [List.length_erase_of_mem (hm a (by simp))] at this
    rw [List.length_cons]; omega

theorem atMost_book {b : Book} (sd : Bool) {n : Nat} (h : (b.lv (sideKind sd)).length ≤ n) : AtMost b.view sd n := by
  intro ps hn hp
  have := short_of_nodup (l' := (b.lv (sideKind sd)).map (·.price)) hn (fun x hx => by
    obtain ⟨l, hl, e⟩ := (view_some b sd x).1 (hp x hx)
    exact List.mem_map.2 ⟨l, hl, e⟩)
  rw [List.length_map] at this
  exact Nat.le_trans this h

theorem book_atMost {b : Book} {sd : Bool} (hs : Sorted (sideKind sd) (b.lv (sideKind sd))) {n : Nat} (h : AtMost b.view sd n) :
    (b.lv (sideKind sd)).length ≤ n := by
  have := h ((b.lv (sideKind sd)).map (·.price)) (nodup_prices hs) (fun p hp => by
    obtain ⟨l, hl, e⟩ := List.mem_map.1 hp
    exact (view_some b sd p).2 ⟨l, hl, e⟩)
  rwa [List.length_map] at this

/-! ### Bounds -/

/-- The counters bound the view. -/
structure Bounds (c : Live) (v : LevelView) : Prop where
  levels : ∀ s sd, AtMost (v s) sd c.stats.maxLevels
  queue : ∀ s sd p i, v s sd p = some i → i.count ≤ max 1 c.maxQueue

/-- The counters have not fallen. -/
def Above (c c' : Live) : Prop := c.stats.maxLevels ≤ c'.stats.maxLevels ∧ c.maxQueue ≤ c'.maxQueue

theorem Above.refl (c : Live) : Above c c := ⟨Nat.le_refl _, Nat.le_refl _⟩
theorem Above.trans {a b c : Live} (h : Above a b) (h' : Above b c) : Above a c := ⟨Nat.le_trans h.1 h'.1, Nat.le_trans h.2 h'.2⟩

theorem Bounds.mono {c c' : Live} {v : LevelView} (h : Bounds c v) (ha : Above c c') : Bounds c' v :=
  ⟨fun s sd => (h.levels s sd).mono ha.1, fun s sd p i hi => Nat.le_trans (h.queue s sd p i hi) (by have := ha.2; omega)⟩

theorem see_of {c : Live} {x : Mgr} {e : Event} (h : x.ev.getLast? = some e) : c.see x = c.count x e := by
  unfold Live.see; rw [h]

theorem see_above (c : Live) (x : Mgr) : Above c (c.see x) := by
  cases h : x.ev.getLast? with
  | none => unfold Live.see; rw [h]; exact .refl c
  | some e =>
    rw [see_of h]
    cases e with
    | updateBook sym t =>
      unfold Live.count
      dsimp only
      cases x.getBook sym with
      | none => exact .refl c
      | some b => exact ⟨Nat.le_max_right _ _, Nat.le_refl _⟩
    | updateLevel sym l t => exact ⟨Nat.le_refl _, Nat.le_max_right _ _⟩
    | _ => exact .refl _

theorem fold_above : ∀ (xs : List Mgr) (c : Live), Above c (xs.foldl Live.see c) := by
  intro xs
  induction xs with
  | nil => exact .refl
  | cons x xs ih => intro c; exact (see_above c x).trans (ih _)

/-- Moments that follow a view. -/
inductive Trail : LevelView → List Event → List Mgr → Prop
  | nil {v} : Trail v [] []
  | cons {v e es x xs} (last : x.ev.getLast? = some e) (levels : x.levels = v.next e)
      (sorted : ∀ s b sd, x.getBook s = some b → Sorted (sideKind sd) (b.lv (sideKind sd)))
      (first : ∀ s l t, e = .addLevel s l t → l.count = 1)
      (tl : Trail (v.next e) es xs) : Trail v (e :: es) (x :: xs)

theorem getBook_levels {x : Mgr} {s : Nat} {b : Book} (h : x.getBook s = some b) : x.levels s = b.view := by
  unfold Mgr.levels; rw [h]

theorem getBook_levels_none {x : Mgr} {s : Nat} (h : x.getBook s = none) : x.levels s = fun _ _ => none := by
  unfold Mgr.levels; rw [h]

/-- A level is reported, then its book. -/
theorem pair_bounds {c : Live} {v v1 : LevelView} (h : Bounds c v) {x1 x2 : Mgr} {e : Event} {sym : Nat} {t : Bool} {l : LevelInfo}
    (ho : ∀ s, s ≠ sym → v1 s = v s)
    (hl : ∀ sd p i, v1 sym sd p = some i → i = l ∨ v sym sd p = some i) (h1 : x1.ev.getLast? = some e)
    (hc : l.count ≤ max 1 (c.see x1).maxQueue ∨ ∀ sd p, v1 sym sd p ≠ some l)
    (h2 : x2.ev.getLast? = some (.updateBook sym t)) (hv : x2.levels = v1) : Bounds ((c.see x1).see x2) v1 := by
  have a1 := see_above c x1
  have a2 := see_above (c.see x1) x2
  constructor
  · intro s sd
    by_cases es : s = sym
    · subst es
      cases hb : x2.getBook s with
      | none =>
        rw [← hv, getBook_levels_none hb]
        intro ps _ hp
        cases ps with
        | nil => exact Nat.zero_le _
        | cons p ps => exact absurd rfl (hp p (by simp))
      | some b =>
        rw [← hv, getBook_levels hb]
        refine atMost_book sd ?_
        rw [see_of h2]
        unfold Live.count
        dsimp only
        rw [hb]
        dsimp only [Stats.updateBook]
        cases sd
        · show (b.lv .ask).length ≤ _
          omega
        · show (b.lv .bid).length ≤ _
          omega
    · rw [ho s es]
      exact (h.levels s sd).mono (a1.trans a2).1
  · intro s sd p i hi
    by_cases es : s = sym
    · subst es
      rcases hl sd p i hi with e' | e'
      · rcases hc with hc | hc
        · rw [e']; have := a2.2; omega
        · exact absurd (e' ▸ hi) (hc sd p)
      · exact Nat.le_trans (h.queue s sd p i e') (by have := (a1.trans a2).2; omega)
    · rw [ho s es] at hi
      exact Nat.le_trans (h.queue s sd p i hi) (by have := (a1.trans a2).2; omega)

theorem trail_bounds {es : List Event} (hf : BookFeed es) : ∀ {v : LevelView} {xs : List Mgr} {c : Live}, Trail v es xs → Bounds c v →
    Bounds (xs.foldl Live.see c) (es.foldl LevelView.next v) ∧ ∀ x ∈ xs, Bounds (xs.foldl Live.see c) x.levels := by
  induction hf with
  | nil =>
    intro v xs c ht hb
    cases ht
    exact ⟨hb, fun x hx => by cases hx⟩
  | order e es he _ ih =>
    intro v xs c ht hb
    cases ht with
    | @cons _ _ _ x xs last lev sorted first tl =>
      have hv : v.next e = v := by cases e <;> first | rfl | cases he
      have hc : Above c (c.see x) := see_above c x
      rw [hv] at tl lev
      obtain ⟨r1, r2⟩ := ih tl (hb.mono hc)
      refine ⟨?_, ?_⟩
      · rw [List.foldl_cons, List.foldl_cons, hv]; exact r1
      · intro y hy
        rcases List.mem_cons.1 hy with hy | hy
        · rw [hy, lev]; exact hb.mono (hc.trans (fold_above xs _))
        · exact r2 y hy
  | addLevel sym l top es _ ih =>
    intro v xs c ht hb
    cases ht with
    | @cons _ _ _ x1 xs last1 lev1 _ first tl =>
    cases tl with
    | @cons _ _ _ x2 xs last2 lev2 _ _ tl =>
      have hq : Bounds ((c.see x1).see x2) (v.next (.addLevel sym l top)) := by
        refine pair_bounds (l := l) hb ?_ ?_ last1 (.inl (by have := first sym l top rfl; omega)) last2 lev2
        · intro s hs; show LevelView.set _ _ _ s = _; unfold LevelView.set; rw [if_neg hs]
        · intro sd p i hi
          change LevelView.set _ _ _ sym sd p = some i at hi
          unfold LevelView.set at hi
          rw [if_pos rfl] at hi
          unfold BookView.set at hi
          split at hi
          · exact .inl (Option.some.inj hi).symm
          · exact .inr hi
      obtain ⟨r1, r2⟩ := ih tl hq
      refine ⟨r1, ?_⟩
      intro y hy
      have hm := fold_above xs ((c.see x1).see x2)
      rcases List.mem_cons.1 hy with hy | hy
      · rw [hy, lev1]; exact hq.mono hm
      · rcases List.mem_cons.1 hy with hy | hy
        · rw [hy, lev2]; exact hq.mono hm
        · exact r2 y hy
  | updateLevel sym l top es _ ih =>
    intro v xs c ht hb
    cases ht with
    | @cons _ _ _ x1 xs last1 lev1 _ first tl =>
    cases tl with
    | @cons _ _ _ x2 xs last2 lev2 _ _ tl =>
      have hq : Bounds ((c.see x1).see x2) (v.next (.updateLevel sym l top)) := by
        refine pair_bounds (l := l) hb ?_ ?_ last1 (.inl (by rw [see_of last1]; show l.count ≤ max 1 (max l.count _); omega)) last2 lev2
        · intro s hs; show LevelView.set _ _ _ s = _; unfold LevelView.set; rw [if_neg hs]
        · intro sd p i hi
          change LevelView.set _ _ _ sym sd p = some i at hi
          unfold LevelView.set at hi
          rw [if_pos rfl] at hi
          unfold BookView.set at hi
          split at hi
          · exact .inl (Option.some.inj hi).symm
          · exact .inr hi
      obtain ⟨r1, r2⟩ := ih tl hq
      refine ⟨r1, ?_⟩
      intro y hy
      have hm := fold_above xs ((c.see x1).see x2)
      rcases List.mem_cons.1 hy with hy | hy
      · rw [hy, lev1]; exact hq.mono hm
      · rcases List.mem_cons.1 hy with hy | hy
        · rw [hy, lev2]; exact hq.mono hm
        · exact r2 y hy
  | deleteLevel sym l top es _ ih =>
    intro v xs c ht hb
    cases ht with
    | @cons _ _ _ x1 xs last1 lev1 _ first tl =>
    cases tl with
    | @cons _ _ _ x2 xs last2 lev2 _ _ tl =>
      have hq : Bounds ((c.see x1).see x2) (v.next (.deleteLevel sym l top)) := by
        have hb' : Bounds c (v.next (.deleteLevel sym l top)) := by
          have sub : ∀ s sd p i, v.next (.deleteLevel sym l top) s sd p = some i → v s sd p = some i := by
            intro s sd p i hi
            change LevelView.set _ _ _ s sd p = some i at hi
            unfold LevelView.set at hi
            split at hi
            · rename_i e; subst e
              unfold BookView.set at hi
              split at hi
              · cases hi
              · exact hi
            · exact hi
          refine ⟨fun s sd ps hn hp => hb.levels s sd ps hn (fun p h => ?_), fun s sd p i hi => hb.queue s sd p i (sub s sd p i hi)⟩
          cases hx : v.next (.deleteLevel sym l top) s sd p with
          | none => exact absurd hx (hp p h)
          | some i => rw [sub s sd p i hx]; simp
        exact hb'.mono ((see_above c x1).trans (see_above _ x2))
      obtain ⟨r1, r2⟩ := ih tl hq
      refine ⟨r1, ?_⟩
      intro y hy
      have hm := fold_above xs ((c.see x1).see x2)
      rcases List.mem_cons.1 hy with hy | hy
      · rw [hy, lev1]; exact hq.mono hm
      · rcases List.mem_cons.1 hy with hy | hy
        · rw [hy, lev2]; exact hq.mono hm
        · exact r2 y hy

end Moment
end CppTrader
