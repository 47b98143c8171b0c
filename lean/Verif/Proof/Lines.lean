import Verif.Proof.Greedy
import Verif.Proof.Prices
/-
The orders in line, and how elementary changes affect them.
-/

namespace CppTrader
open Core

theorem restOf_mem {s : Core} {ids : List Nat} {r : Order} : r ∈ restOf s ids ↔ ∃ i ∈ ids, s.orders i = some r := by
  unfold restOf; simp [List.mem_filterMap]

theorem restOf_append (s : Core) (xs ys : List Nat) : restOf s (xs ++ ys) = restOf s xs ++ restOf s ys := by
  unfold restOf; exact List.filterMap_append

theorem key_rank {o : Order} (h : o.type ≠ .market) : o.key = o.rank := by
  unfold Order.key Order.rank
  cases ht : o.type <;> simp_all

theorem better_beats {k : Kind} {t r : Order} (h1 : t.type ≠ .market) (h2 : r.type ≠ .market) :
    k.better t.key r.key = true ↔ t.beats k r := by
  rw [key_rank h1, key_rank h2]
  unfold Order.beats
  cases k <;> simp [Kind.better, Kind.isBidType, Kind.highestFirst]

theorem home_kind {o : Order} : o.home.map (·.1) = o.kind := by
  unfold Order.home Order.kind Order.isBuy
  cases ht : o.type <;> cases hs : o.side <;> rfl

theorem enqueue_mid {k : Kind} {t : Order} {xs ys : List Order} (h1 : ∀ r ∈ xs, ¬ t.beats k r) (h2 : ∀ r ∈ ys, t.beats k r) :
    enqueue k t (xs ++ ys) = xs ++ t :: ys := by
  induction xs with
  | nil =>
    cases ys with
    | nil => rfl
    | cons y ys => simp [enqueue, h2 y (by simp)]
  | cons x xs ih =>
    have hx := h1 x (by simp)
    simp only [List.cons_append, enqueue, if_neg hx]
    rw [ih fun r hr => h1 r (by simp [hr])]

/-- `id` changes to `v` in a line. -/
def chg (id : Nat) (v : Option Order) (rs : List Order) : List Order := rs.filterMap (fun r => if r.id = id then v else some r)

theorem chg_id {id v rs} (h : ∀ r ∈ rs, r.id ≠ id) : chg id v rs = rs := by
  unfold chg
  induction rs with
  | nil => rfl
  | cons r rs ih =>
    rw [List.filterMap_cons, if_neg (h r (by simp))]
    simp [ih fun r hr => h r (by simp [hr])]

/-- One order changes in place. -/
theorem restOf_set {s s' : Core} (hi : Inv s) {id : Nat} {v : Option Order} (ho : s'.orders = setO s.orders id v) {ids : List Nat}
    (hmem : s.orders id ≠ none) : restOf s' ids = chg id v (restOf s ids) := by
  unfold restOf chg
  rw [List.filterMap_filterMap]
  induction ids with
  | nil => rfl
  | cons i is ih =>
    rw [List.filterMap_cons, List.filterMap_cons, ih, ho]
    by_cases e : i = id
    · subst e
      cases hx : s.orders i with
      | none => exact absurd hx hmem
      | some o =>
        have hid := (hi.orders i o hx).1
        simp [setO, hid]
    · rw [setO_other _ _ e]
      cases hx : s.orders i with
      | none => simp
      | some o =>
        have hid := (hi.orders i o hx).1
        have : ¬ o.id = id := by rw [hid]; exact e
        simp [this]

theorem restOf_erase {s' : Core} {id : Nat} {ids : List Nat} (h : s'.orders id = none) : restOf s' (ids.erase id) = restOf s' ids := by
  unfold restOf
  induction ids with
  | nil => rfl
  | cons i is ih =>
    rw [List.erase_cons]
    by_cases e : i = id
    · subst e; simp [h]
    · have : (i == id) = false := by simp [e]
      rw [this]
      simp only [Bool.false_eq_true, if_false]
      rw [List.filterMap_cons, List.filterMap_cons, ih]

theorem queue_congr' {b b' : Book} {k} (h : b'.lv k = b.lv k) : queue b' k = queue b k := by unfold queue; rw [h]

/-- Lines of a core. -/
def Core.line (s : Core) (k : Kind) : List Order := restOf s (queue s.book k)

theorem line_set {s s' : Core} (hi : Inv s) {k id v} (e : Eff k id v s s') (hmem : s.orders id ≠ none)
    (hq : queue s'.book k = if v = none then (queue s.book k).erase id else queue s.book k) (k' : Kind) :
    s'.line k' = chg id v (s.line k') := by
  unfold Core.line
  rw [← restOf_set hi e.orders hmem]
  by_cases h : k' = k
  · subst h
    rw [hq]
    split
    · rename_i hv
      exact restOf_erase (by rw [e.orders, hv]; simp)
    · rfl
  · rw [queue_congr' (e.same.lv k' h)]

theorem line_put {s : Core} {t : Order} {s'} (h : Inv s) (hf : Fly s t) (fresh : s.orders t.id = none) (pos : 0 < t.leaves)
    (nm : t.type ≠ .market) (tif : t.type = .limit → t.tif = .gtc ∨ t.tif = .aon) (run : s.link t = .ok s') (k' : Kind) :
    s'.line k' = if t.kind = some k' then enqueue k' t (s.line k') else s.line k' := by
  obtain ⟨k, a1, a2, a3, a4, a5, _⟩ := h.put hf fresh pos nm tif run
  have hle := volOf_le_volume s.book k
  have hv := hf.vol
  obtain ⟨_, _, pre, post, b3, b4, b5, b6⟩ :=
    addOrder_ok (h.book.kinds k) a1 hf.sym fresh (by omega)
  have hb : s'.book = (s.book.addOrder k t).1 := by
    unfold Core.link at run
    rw [a1] at run
    simp only at run
    cases run
    split <;> rfl
  have hother : ∀ ids : List Nat, t.id ∉ ids → restOf s' ids = restOf s ids := fun ids hn =>
    restOf_congr fun i hi' => by rw [a3.orders, setO_other _ _ (fun e : i = t.id => hn (e ▸ hi'))]
  unfold Core.line
  by_cases hk : t.kind = some k'
  · rw [if_pos hk]
    rw [a1] at hk; cases hk
    have q1 : queue s.book k' = pre ++ post := b3
    have q2 : queue s'.book k' = pre ++ t.id :: post := by unfold queue; rw [hb]; exact b4
    have hnq := h.book.queue_none fresh k'
    rw [q1] at hnq
    rw [q1, q2, restOf_append, restOf_append, hother pre (fun hm => hnq (by simp [hm]))]
    have hcons : restOf s' (t.id :: post) = t :: restOf s post := by
      rw [← hother post (fun hm => hnq (by simp [hm]))]
      unfold restOf
      rw [List.filterMap_cons, a3.orders]
      simp
    rw [hcons]
    refine (enqueue_mid ?_ ?_).symm
    · intro r hr
      obtain ⟨i, hi', hr⟩ := restOf_mem.1 hr
      have := b5 i r hi' hr
      rw [← better_beats nm (h.orders i r hr).2.notMarket]
      simp [this]
    · intro r hr
      obtain ⟨i, hi', hr⟩ := restOf_mem.1 hr
      rw [← better_beats nm (h.orders i r hr).2.notMarket]
      exact b6 i r hi' hr
  · rw [if_neg hk]
    have hne : k' ≠ k := fun e => hk (e ▸ a1)
    rw [queue_congr' (a3.same.lv k' hne)]
    exact hother _ (h.book.queue_none fresh k')

/-! ### The manager -/

theorem filterMap_getOrder {g : Mgr} (hi : MInv g) (ids : List Nat) : ids.filterMap g.getOrder = ids.filterMap g.orders := by
  congr 1; funext i; exact hi.getOrder i

theorem lines_core {g : Mgr} (hi : MInv g) {sym b} (hb : slot g.books sym = some b) (k : Kind) : g.lines sym k = (g.core b).line k := by
  unfold Mgr.lines Mgr.getBook
  rw [hb]
  exact filterMap_getOrder hi _

theorem lines_none {g : Mgr} {sym} (hb : slot g.books sym = none) (k : Kind) : g.lines sym k = [] := by
  unfold Mgr.lines Mgr.getBook; rw [hb]

/-- The lines of other symbols are untouched by steps on a book. -/
theorem lines_other {g : Mgr} (hi : MInv g) {sym b s' A} (hb : slot g.books sym = some b) (hs : Steps A (g.core b) none s' none)
    {n : Nat} (hn : n ≠ sym) (k : Kind) : (g.put sym s').lines n k = g.lines n k := by
  have hi' := hi.put hb hs
  obtain ⟨hI, hid⟩ := hi.inv hb
  obtain ⟨iso, hsym⟩ := hs.iso (CInv.none_iff.2 hI)
  have hb' : slot (g.put sym s').books n = slot g.books n := put_getBook_other hn
  cases hx : slot g.books n with
  | none => rw [lines_none hx, lines_none (by rw [hb', hx])]
  | some b' =>
    rw [lines_core hi hx, lines_core hi' (by rw [hb', hx])]
    unfold Core.line
    refine restOf_congr ?_
    intro i hq
    obtain ⟨o, h1, h2, _⟩ := (hi.inv hx).1.book.queue_mem hq
    have hid' := (hi.inv hx).2
    have : o.symbolId ≠ b.symbol.id := by
      rw [hid]
      intro e
      have h2' : o.symbolId = b'.symbol.id := h2
      rw [hid', e] at h2'
      exact hn h2'.symm
    have h3 := iso.keep i o h1 this
    show s'.orders i = _
    rw [h3]; exact h1.symm

theorem lines_same {g : Mgr} {sym s' b} (hi' : MInv (g.put sym s')) (hb : slot g.books sym = some b) (k : Kind) :
    (g.put sym s').lines sym k = s'.line k := lines_core hi' (put_getBook_same hb) k

/-- The order `id` of symbol `sym` is in no line of another symbol. -/
theorem lines_sym {g : Mgr} (hi : MInv g) {n k} {r : Order} (h : r ∈ g.lines n k) :
    g.orders r.id = some r ∧ r.symbolId = n ∧ r.kind = some k := by
  cases hb : slot g.books n with
  | none => rw [lines_none hb] at h; cases h
  | some b =>
    rw [lines_core hi hb] at h
    obtain ⟨i, hq, hr⟩ := restOf_mem.1 h
    obtain ⟨hI, hid⟩ := hi.inv hb
    obtain ⟨o, h1, h2, h3⟩ := hI.book.queue_mem hq
    rw [hr] at h1; cases h1
    have := (hi.orders i r hr).1
    exact ⟨by rw [this]; exact hr, h2.trans hid, h3⟩

/-- The lines after steps on one book. -/
theorem lines_put {g : Mgr} (hi : MInv g) {sym b s' A} (hb : slot g.books sym = some b) (hs : Steps A (g.core b) none s' none) :
    (g.put sym s').lines = g.lines.set sym s'.line := by
  funext n k
  unfold Lines.set
  by_cases e : n = sym
  · subst e
    rw [lines_same (hi.put hb hs) hb, if_pos rfl]
  · rw [lines_other hi hb hs e, if_neg e]

end CppTrader
