import Verif.Feed
import Verif.Proof.Mgr
/-
The events raised by elementary steps.
-/

namespace CppTrader
open Core

theorem Replays.append {σ ok next} {v v1 v2 : σ} {xs ys : List Event} (h : Replays ok next v xs v1)
    (h' : Replays ok next v1 ys v2) : Replays ok next v (xs ++ ys) v2 := by
  induction xs generalizing v with
  | nil => cases h; exact h'
  | cons e es ih => exact ⟨h.1, ih h.2⟩

theorem Replays.split {σ ok next} {v v2 : σ} {xs ys : List Event} (h : Replays ok next v (xs ++ ys) v2) :
    ∃ v1, Replays ok next v xs v1 ∧ Replays ok next v1 ys v2 := by
  induction xs generalizing v with
  | nil => exact ⟨v, rfl, h⟩
  | cons e es ih => obtain ⟨v1, a, b⟩ := ih h.2; exact ⟨v1, ⟨h.1, a⟩, b⟩

theorem execsOf_append (xs ys) : execsOf (xs ++ ys) = execsOf xs ++ execsOf ys := by
  induction xs with
  | nil => rfl
  | cons e es ih => cases e <;> simp [execsOf, ih]

/-- Level and book updates only. -/
def Event.isLevel : Event → Prop
  | .updateBook _ _ => True
  | .addLevel _ _ _ => True
  | .updateLevel _ _ _ => True
  | .deleteLevel _ _ _ => True
  | _ => False

theorem execsOf_levels {es : List Event} (h : ∀ e ∈ es, e.isLevel) : execsOf es = [] := by
  induction es with
  | nil => rfl
  | cons e es ih =>
    have := h e (by simp)
    cases e <;> first | exact ih (fun e he => h e (by simp [he])) | cases this

theorem addsOf_append (xs ys) : addsOf (xs ++ ys) = addsOf xs ++ addsOf ys := by
  induction xs with
  | nil => rfl
  | cons e es ih => cases e <;> simp [addsOf, ih]

theorem addsOf_levels {es : List Event} (h : ∀ e ∈ es, e.isLevel) : addsOf es = [] := by
  induction es with
  | nil => rfl
  | cons e es ih =>
    have := h e (by simp)
    cases e <;> first | exact ih (fun e he => h e (by simp [he])) | cases this

theorem orders_levels {sc : Scope} {es : List Event} (h : ∀ e ∈ es, e.isLevel) (v : OrderView) :
    Replays (OrderView.ok sc) OrderView.next v es v := by
  induction es with
  | nil => rfl
  | cons e es ih =>
    have := h e (by simp)
    have ih := ih (fun e he => h e (by simp [he]))
    cases e <;> first | exact ⟨trivial, ih⟩ | cases this

theorem LevelView.set_set (v : LevelView) (sym w w') : (v.set sym w).set sym w' = v.set sym w' := by
  funext s; unfold LevelView.set; split <;> rfl
theorem LevelView.set_same (v : LevelView) (sym) : v.set sym (v sym) = v := by
  funext s; unfold LevelView.set; split <;> simp_all
@[simp] theorem LevelView.set_at (v : LevelView) (sym w) : (v.set sym w) sym = w := by simp [LevelView.set]

/-- The level events turn the view of `b` into the view of `b'`. -/
def LvEv (b b' : Book) (evs : List Event) : Prop :=
  ∀ v : LevelView, v b.symbol.id = b.view →
    Replays LevelView.ok LevelView.next v evs (v.set b.symbol.id b'.view)

theorem LvEv.trans {b b1 b2 xs ys} (h : LvEv b b1 xs) (h' : LvEv b1 b2 ys) (hs : b1.symbol = b.symbol) : LvEv b b2 (xs ++ ys) := by
  intro v hv
  refine (h v hv).append ?_
  have := h' (v.set b.symbol.id b1.view) (by rw [hs]; simp)
  rw [hs, LevelView.set_set] at this
  exact this

theorem LvEv.nil {b b' : Book} (h : b'.lv = b.lv) : LvEv b b' [] := by
  intro v hv
  have : b'.view = b.view := by unfold Book.view; rw [h]
  show v = _
  rw [this, ← hv, LevelView.set_same]

/-- An event that is not about levels. -/
def Event.notLevel : Event → Prop
  | .addLevel _ _ _ => False
  | .updateLevel _ _ _ => False
  | .deleteLevel _ _ _ => False
  | .deleteBook _ => False
  | _ => True

theorem LvEv.other {b b' : Book} {e : Event} (he : e.notLevel) (h : b'.lv = b.lv) : LvEv b b' [e] := by
  intro v hv
  have h1 := LvEv.nil h v hv
  cases e <;> first | exact ⟨trivial, h1⟩ | cases he

/-! ### Primitive changes -/

theorem findLevel_eq (ls : List Level) (p) : ls.find? (fun l => l.price = p) = findLevel ls p := rfl

theorem find_replace {ls : List Level} {n : Level} (h : ∃ l ∈ ls, l.price = n.price) (p : Nat) :
    findLevel (replaceLevel n ls) p = if p = n.price then some n else findLevel ls p := by
  induction ls with
  | nil => obtain ⟨l, h, _⟩ := h; cases h
  | cons a ls ih =>
    unfold replaceLevel findLevel at *
    rw [List.map_cons, List.find?_cons, List.find?_cons]
    by_cases ha : a.price = n.price
    · simp only [ha, if_true]
      by_cases hp : n.price = p
      · simp [hp]
      · simp only [hp, decide_false]
        have hp' : ¬ p = n.price := fun e => hp e.symm
        simp only [hp', if_false]
        by_cases hex : ∃ l ∈ ls, l.price = n.price
        · rw [ih hex]; simp [hp']
        · have : List.map (fun l => if l.price = n.price then n else l) ls = ls := by
            rw [List.map_congr_left (g := id)]
            · simp
            · intro x hx
              have : ¬ x.price = n.price := fun e => hex ⟨x, hx, e⟩
              simp [this]
          rw [this]
    · simp only [ha, if_false]
      obtain ⟨l, hl, hlp⟩ := h
      have hex : ∃ l ∈ ls, l.price = n.price := by
        rcases List.mem_cons.1 hl with rfl | hl
        · exact absurd hlp ha
        · exact ⟨l, hl, hlp⟩
      by_cases hp : a.price = p
      · have : ¬ p = n.price := fun e => ha (hp.trans e)
        simp [hp, this]
      · simp only [hp, decide_false]
        exact ih hex

theorem find_insert {k : Kind} {ls : List Level} {n : Level} (p : Nat) (h : ∀ l ∈ ls, l.price ≠ n.price) :
    findLevel (insertLevel k n ls) p = if p = n.price then some n else findLevel ls p := by
  induction ls with
  | nil =>
    unfold insertLevel findLevel
    rw [List.find?_cons]
    by_cases hp : n.price = p
    · simp [hp]
    · have : ¬ p = n.price := fun e => hp e.symm
      simp [hp, this]
  | cons a ls ih =>
    have ha := h a (by simp)
    have ih := ih (fun l hl => h l (by simp [hl]))
    unfold insertLevel
    unfold findLevel at *
    split
    · rw [List.find?_cons]
      by_cases hp : n.price = p
      · simp [hp]
      · have : ¬ p = n.price := fun e => hp e.symm
        simp [hp, this]
    · rw [List.find?_cons, List.find?_cons]
      by_cases hp : a.price = p
      · have : ¬ p = n.price := fun e => ha (hp.trans e)
        simp [hp, this]
      · simp only [hp, decide_false]
        exact ih

theorem find_erase {ls : List Level} (q p : Nat) :
    findLevel (eraseLevel q ls) p = if p = q then none else findLevel ls p := by
  induction ls with
  | nil => simp [eraseLevel, findLevel]
  | cons a ls ih =>
    unfold eraseLevel findLevel at *
    rw [List.filter_cons]
    by_cases ha : a.price = q
    · simp only [ha, ne_eq, not_true, decide_false, Bool.false_eq_true, if_false]
      rw [ih, List.find?_cons, ha]
      by_cases hp : p = q
      · simp [hp]
      · have : ¬ q = p := fun e => hp e.symm
        simp [hp, this]
    · simp only [ha, ne_eq, not_false_eq_true, decide_true, if_true]
      rw [List.find?_cons, List.find?_cons]
      by_cases hp : a.price = p
      · have : ¬ p = q := fun e => ha (hp.trans e)
        simp [hp, this]
      · simp only [hp, decide_false]
        exact ih

/-- The limit kind of a side. -/
def sideKind (isBid : Bool) : Kind := if isBid then .bid else .ask

theorem sideKind_type {k : Kind} (h : k.isLimit = true) : sideKind k.isBidType = k := by
  cases k <;> simp [Kind.isLimit] at h <;> rfl

theorem view_at (b : Book) (s p) : b.view s p = (findLevel (b.lv (sideKind s)) p).map (Level.info (sideKind s)) := by
  unfold Book.view sideKind findLevel
  cases s <;> rfl

/-- The view after the collection `k` changed at one price. -/
theorem view_change {b b' : Book} {k : Kind} (hk : k.isLimit = true) (hs : Book.SameBut k b b') {p : Nat} {x : Option Level}
    (h : ∀ q, findLevel (b'.lv k) q = if q = p then x else findLevel (b.lv k) q) :
    b'.view = b.view.set k.isBidType p (x.map (Level.info k)) := by
  funext s q
  rw [view_at]
  unfold BookView.set
  by_cases e : s = k.isBidType
  · subst e
    rw [sideKind_type hk, h q]
    by_cases hq : q = p
    · simp [hq]
    · simp only [hq, and_false, if_false]; rw [view_at, sideKind_type hk]
  · have : sideKind s ≠ k := by
      intro e'; apply e; rw [← e']; cases s <;> rfl
    rw [hs.lv _ this]
    simp only [e, false_and, if_false]
    rw [view_at]

/-- The cached best price is the best price of the view. -/
theorem isTop_sorted {b : Book} {k : Kind} (hk : k.isLimit = true) (hso : Sorted k (b.lv k))
    (hbe : b.best k = (b.lv k).head?.map (·.price)) (p : Nat) : b.best k = some p ↔ b.view.isTop k.isBidType p := by
  have hmem : ∀ q, b.view k.isBidType q ≠ none ↔ ∃ l ∈ b.lv k, l.price = q := by
    intro q
    rw [view_at, sideKind_type hk]
    cases hf : findLevel (b.lv k) q with
    | none =>
      simp only [Option.map_none, ne_eq, not_true, false_iff]
      rintro ⟨l, hl, hp⟩
      exact findLevel_none.1 hf l hl hp
    | some l =>
      obtain ⟨xs, ys, e, hp, _⟩ := findLevel_some hso hf
      simp only [Option.map_some, ne_eq, reduceCtorEq, not_false_eq_true, true_iff]
      exact ⟨l, by rw [e]; simp, hp⟩
  unfold BookView.isTop
  rw [hbe]
  cases hl : b.lv k with
  | nil =>
    simp only [List.head?_nil, Option.map_none, reduceCtorEq, false_iff, not_and]
    intro h1
    obtain ⟨l, h2, _⟩ := (hmem p).1 h1
    rw [hl] at h2; cases h2
  | cons x xs =>
    have hs := hso
    rw [hl] at hs
    have hb : ∀ y ∈ xs, if k.isBidType = true then y.price < x.price else x.price < y.price := by
      intro y hy
      have := List.rel_of_pairwise_cons hs hy
      unfold Kind.better at this
      cases k <;> simp_all [Kind.isLimit, Kind.isBidType]
    simp only [List.head?_cons, Option.map_some, Option.some.injEq]
    constructor
    · rintro rfl
      refine ⟨(hmem _).2 ⟨x, by simp [hl], rfl⟩, ?_⟩
      intro p' hp'
      obtain ⟨l, h2, h3⟩ := (hmem p').1 hp'
      rw [hl] at h2
      rcases List.mem_cons.1 h2 with rfl | h2
      · split <;> omega
      · have := hb l h2
        rw [← h3]
        cases hc : k.isBidType <;> rw [hc] at this <;> simp at this ⊢ <;> omega
    · rintro ⟨h1, h2⟩
      have h3 := h2 x.price ((hmem _).2 ⟨x, by simp [hl], rfl⟩)
      obtain ⟨l, h4, h5⟩ := (hmem p).1 h1
      rw [hl] at h4
      rcases List.mem_cons.1 h4 with rfl | h4
      · exact h5
      · have := hb l h4
        rw [← h5] at h3
        cases hc : k.isBidType <;> rw [hc] at this h3 <;> simp at this h3 <;> omega

theorem best_isTop {b : Book} {m sym} {k : Kind} (hk : k.isLimit = true) (h : KindOK m sym k (b.lv k) (b.best k)) (p : Nat) :
    b.best k = some p ↔ b.view.isTop k.isBidType p :=
  isTop_sorted hk h.sorted h.best p

/-- Events of a primitive change of the book. -/
structure PrimEv (s s' : Core) (evs : List Event) : Prop where
  ev : s'.ev = s.ev ++ evs
  level : ∀ e ∈ evs, e.isLevel ∧ e.symbol = s.book.symbol.id
  lv : LvEv s.book s'.book evs
  feed : BookFeed evs

theorem PrimEv.pass {s s1 s' : Core} (h1 : s1.ev = s.ev) (h2 : s1.book = s.book) {evs} (h : PrimEv s1 s' evs) : PrimEv s s' evs :=
  ⟨h1 ▸ h.ev, h2 ▸ h.level, h2 ▸ h.lv, h.feed⟩

theorem BookFeed.append {xs ys} (h : BookFeed xs) (h' : BookFeed ys) : BookFeed (xs ++ ys) := by
  induction h with
  | nil => exact h'
  | order e es he _ ih => exact .order e _ he ih
  | addLevel sym l top es _ ih => exact .addLevel sym l top _ ih
  | updateLevel sym l top es _ ih => exact .updateLevel sym l top _ ih
  | deleteLevel sym l top es _ ih => exact .deleteLevel sym l top _ ih

theorem updateLevel_ev (s : Core) (u : LevelUpdate) : ∃ e, (s.updateLevel u).ev = s.ev ++ [e, .updateBook s.book.symbol.id u.top] ∧
    e = (match u.type with
      | .add => Event.addLevel s.book.symbol.id u.level u.top
      | .update => Event.updateLevel s.book.symbol.id u.level u.top
      | .delete => Event.deleteLevel s.book.symbol.id u.level u.top) :=
  ⟨_, by simp only [Core.updateLevel, emit_ev, List.append_assoc, List.cons_append, List.nil_append]; rfl, rfl⟩

/-- Common form of the primitive changes: collection `k` changed at price `p` to `x`. -/
theorem prim_ev {s : Core} {b' : Book} {m : Nat → Option Order} {k : Kind} {u : LevelUpdate}
    (hs : Book.SameBut k s.book b') {p : Nat} {x : Option Level}
    (hf : ∀ q, findLevel (b'.lv k) q = if q = p then x else findLevel (s.book.lv k) q)
    (hlv : u.level.isBid = k.isBidType ∧ u.level.price = p)
    (hu : (u.type = .add ∧ findLevel (s.book.lv k) p = none ∨ u.type = .update ∧ findLevel (s.book.lv k) p ≠ none) ∧
        x.map (Level.info k) = some u.level ∧ (k.isLimit = true → (u.top = true ↔ b'.view.isTop k.isBidType p)) ∨
      u.type = .delete ∧ x = none ∧ findLevel (s.book.lv k) p ≠ none ∧ u.level.total = 0 ∧ u.top = true) :
    ∃ evs, PrimEv s (if k.isLimit then ({ s with book := b', orders := m } : Core).updateLevel u
      else { s with book := b', orders := m }) evs := by
  by_cases hk : k.isLimit = true
  · simp only [hk, if_true]
    obtain ⟨e, h1, h2⟩ := updateLevel_ev { s with book := b', orders := m } u
    have hsym : b'.symbol = s.book.symbol := hs.symbol
    have hv := view_change hk hs hf
    have hat : s.book.view k.isBidType p = (findLevel (s.book.lv k) p).map (Level.info k) := by rw [view_at, sideKind_type hk]
    refine ⟨_, h1, ?_, ?_, by
      rw [h2]
      cases u.type
      · exact .addLevel _ _ _ _ .nil
      · exact .updateLevel _ _ _ _ .nil
      · exact .deleteLevel _ _ _ _ .nil⟩
    · intro e' he'
      simp only [hsym] at he' h2
      simp only [List.mem_cons, List.not_mem_nil, or_false] at he'
      rcases he' with rfl | rfl
      · rw [h2]; cases u.type <;> exact ⟨trivial, rfl⟩
      · exact ⟨trivial, rfl⟩
    · intro v hvv
      have hnext : v.next e = v.set s.book.symbol.id b'.view := by
        rw [h2, hsym]
        rcases hu with ⟨⟨h3, _⟩ | ⟨h3, _⟩, h5, _⟩ | ⟨h3, h4, _⟩
        · rw [h3]; simp only [LevelView.next, hvv, hv, hlv.1, hlv.2, h5]
        · rw [h3]; simp only [LevelView.next, hvv, hv, hlv.1, hlv.2, h5]
        · rw [h3]; simp only [LevelView.next, hvv, hv, hlv.1, hlv.2, h4, Option.map_none]
      refine ⟨?_, trivial, ?_⟩
      · rcases hu with ⟨⟨h3, h4⟩ | ⟨h3, h4⟩, h5, h6⟩ | ⟨h3, h4, h5, h6, h7⟩
        · rw [h3] at h2
          rw [h2] at hnext ⊢
          refine ⟨?_, ?_⟩
          · simp only [hsym, hvv, hlv.1, hlv.2, hat, h4, Option.map_none]
          · rw [hnext]; simp only [hsym, LevelView.set_at, hlv.1, hlv.2]; exact h6 hk
        · rw [h3] at h2
          rw [h2] at hnext ⊢
          refine ⟨?_, ?_⟩
          · simp only [hsym, hvv, hlv.1, hlv.2, hat]
            cases hf' : findLevel (s.book.lv k) p with
            | none => exact absurd hf' h4
            | some l => simp
          · rw [hnext]; simp only [hsym, LevelView.set_at, hlv.1, hlv.2]; exact h6 hk
        · rw [h3] at h2
          rw [h2]
          refine ⟨?_, h6, h7⟩
          simp only [hsym, hvv, hlv.1, hlv.2, hat]
          cases hf' : findLevel (s.book.lv k) p with
          | none => exact absurd hf' h5
          | some l => simp
      · show _ = _
        rw [hnext]; rfl
  · simp only [hk, Bool.false_eq_true, if_false]
    refine ⟨[], by simp, by simp, ?_, .nil⟩
    intro v hvv
    have : b'.view = s.book.view := by
      funext sd q
      rw [view_at, view_at, hs.lv]
      intro e; rw [← e] at hk; cases sd <;> exact hk rfl
    show v = _
    rw [this, ← hvv, LevelView.set_same]

theorem link_ev {s s' : Core} {t : Order} (hi : Inv s') (run : s.link t = .ok s') : ∃ evs, PrimEv s s' evs := by
  unfold Core.link at run
  cases hk : t.kind with
  | none => rw [hk] at run; cases run
  | some k =>
    rw [hk] at run
    simp only [Except.ok.injEq] at run
    have hbook : s'.book = (s.book.addOrder k t).1 := by rw [← run]; split <;> rfl
    rw [← run]
    have hKO := hi.book.kinds k
    rw [hbook] at hKO
    refine prim_ev (p := t.key) (x := findLevel ((s.book.addOrder k t).1.lv k) t.key) (addOrder_same ..) ?_ ?_ (.inl ?_)
    · intro q
      by_cases hq : q = t.key
      · simp [hq]
      · simp only [hq, if_false]
        unfold Book.addOrder Book.addLevel
        cases hf : findLevel (s.book.lv k) t.key with
        | some l =>
          simp only [setK_same]
          have hlp : l.price = t.key := by
            have := List.find?_some (show List.find? _ _ = some l from hf); simpa using this
          have hlm := List.mem_of_find?_eq_some (show List.find? _ _ = some l from hf)
          rw [find_replace (n := l.push t) ⟨l, hlm, rfl⟩]
          have : ¬ q = (l.push t).price := by show ¬ q = l.price; rw [hlp]; exact hq
          simp [this]
        | none =>
          simp only [setK_same]
          rw [find_insert _ (fun l hl => findLevel_none.1 hf l hl)]
          have : ¬ q = ((Level.new t.key).push t).price := hq
          simp [this]
    · unfold Book.addOrder
      cases hf : findLevel (s.book.lv k) t.key with
      | some l =>
        have hlp : l.price = t.key := by
          have := List.find?_some (show List.find? _ _ = some l from hf); simpa using this
        exact ⟨rfl, hlp⟩
      | none => exact ⟨rfl, rfl⟩
    · refine ⟨?_, ?_, ?_⟩
      · unfold Book.addOrder
        cases hf : findLevel (s.book.lv k) t.key with
        | some l => exact .inr ⟨rfl, by simp⟩
        | none => exact .inl ⟨rfl, rfl⟩
      · unfold Book.addOrder Book.addLevel
        cases hf : findLevel (s.book.lv k) t.key with
        | some l =>
          simp only [setK_same]
          have hlp : l.price = t.key := by
            have := List.find?_some (show List.find? _ _ = some l from hf); simpa using this
          have hlm := List.mem_of_find?_eq_some (show List.find? _ _ = some l from hf)
          rw [find_replace (n := l.push t) ⟨l, hlm, rfl⟩]
          have : t.key = (l.push t).price := hlp.symm
          simp [this]
        | none =>
          simp only [setK_same]
          rw [find_insert _ (fun l hl => findLevel_none.1 hf l hl)]
          have : t.key = ((Level.new t.key).push t).price := rfl
          simp [← this]
      · intro hlim
        rw [← best_isTop hlim hKO]
        unfold Book.addOrder
        cases hf : findLevel (s.book.lv k) t.key with
        | some l => simp
        | none => simp

theorem settle_ev {s s' : Core} {k : Kind} {l l' : Level} {m : Nat → Option Order} (hi : Inv s')
    (hf : findLevel (s.book.lv k) l.price = some l) (hp : l'.price = l.price)
    (run : s' = if k.isLimit then ({ s with book := (s.book.settle k l').1, orders := m } : Core).updateLevel (s.book.settle k l').2
      else { s with book := (s.book.settle k l').1, orders := m }) : ∃ evs, PrimEv s s' evs := by
  have hbook : s'.book = (s.book.settle k l').1 := by rw [run]; split <;> rfl
  have hKO := hi.book.kinds k
  rw [hbook] at hKO
  have hlm := List.mem_of_find?_eq_some (show List.find? _ _ = some l from hf)
  rw [run]
  by_cases h0 : l'.total = 0
  · refine prim_ev (p := l'.price) (x := none) (settle_same ..) ?_ ?_ (.inr ?_)
    · intro q
      unfold Book.settle Book.deleteLevel
      simp only [h0, if_true, setK_same]
      exact find_erase _ _
    · unfold Book.settle; simp only [h0, if_true]; exact ⟨rfl, rfl⟩
    · unfold Book.settle; simp only [h0, if_true]
      refine ⟨trivial, trivial, ?_, ?_, trivial⟩
      · rw [hp, hf]; simp
      · show l'.total = 0; exact h0
  · refine prim_ev (p := l'.price) (x := some l') (settle_same ..) ?_ ?_ (.inl ?_)
    · intro q
      unfold Book.settle
      simp only [h0, if_false, setK_same]
      exact find_replace ⟨l, hlm, hp.symm⟩ _
    · unfold Book.settle; simp only [h0, if_false]; exact ⟨rfl, rfl⟩
    · refine ⟨.inr ⟨by unfold Book.settle; simp only [h0, if_false], by rw [hp, hf]; simp⟩, by
        unfold Book.settle; simp only [h0, if_false]; rfl, ?_⟩
      intro hlim
      rw [← best_isTop hlim hKO]
      unfold Book.settle
      simp [h0]

theorem unlink_ev {s s' : Core} {o : Order} (hi : Inv s') (run : s.unlink o = .ok s') : ∃ evs, PrimEv s s' evs := by
  unfold Core.unlink at run
  cases hk : o.kind with
  | none => rw [hk] at run; cases run
  | some k =>
    rw [hk] at run
    simp only at run
    unfold Book.deleteOrder at run
    cases hf : findLevel (s.book.lv k) o.key with
    | none => rw [hf] at run; cases run
    | some l =>
      rw [hf] at run
      simp only at run
      by_cases hm : o.id ∈ l.ids
      · simp only [hm, if_true, Except.ok.injEq] at run
        have hlp : l.price = o.key := by
          have := List.find?_some (show List.find? _ _ = some l from hf); simpa using this
        exact settle_ev (l := l) (l' := l.remove o) hi (by rw [hlp]; exact hf) rfl run.symm
      · simp [hm] at run

theorem shrink_ev {s s' : Core} {o : Order} {q h v : Nat} (hi : Inv s') (run : s.shrink o q h v = .ok s') :
    ∃ evs, PrimEv s s' evs := by
  unfold Core.shrink at run
  cases hk : o.kind with
  | none => rw [hk] at run; cases run
  | some k =>
    rw [hk] at run
    simp only at run
    unfold Book.reduceOrder at run
    cases hf : findLevel (s.book.lv k) o.key with
    | none => rw [hf] at run; cases run
    | some l =>
      rw [hf] at run
      simp only at run
      by_cases hm : o.id ∈ l.ids
      · simp only [hm, if_true, Except.ok.injEq] at run
        have hlp : l.price = o.key := by
          have := List.find?_some (show List.find? _ _ = some l from hf); simpa using this
        exact settle_ev (l := l) (l' := l.reduce o q h v) hi (by rw [hlp]; exact hf) rfl run.symm
      · simp [hm] at run

end CppTrader
