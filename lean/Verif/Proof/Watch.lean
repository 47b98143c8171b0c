import Verif.Glimpse
import Verif.Proof.Events
import Verif.Proof.LandOps
import Verif.Proof.Lines
/-
The watched engine does what the engine does, and what it records is in order.
-/

namespace CppTrader
namespace Watch

/-! ### Changes of the book -/

/-- The callback of a level update. -/
def levelEvent (sym : Nat) (u : LevelUpdate) : Event :=
  match u.type with
  | .add => Event.addLevel sym u.level u.top
  | .update => Event.updateLevel sym u.level u.top
  | .delete => Event.deleteLevel sym u.level u.top

/-- Sorted levels, and the best pointer points to the first. -/
def Shape (b : Book) : Prop := ∀ k, Sorted k (b.lv k) ∧ b.best k = (b.lv k).head?.map (·.price)

/-- The book changed from `b` to `b'` in collection `k`, as told by `u`. -/
structure Change (b b' : Book) (k : Kind) (u : LevelUpdate) : Prop where
  same : Book.SameBut k b b'
  shape : Shape b → Shape b'
  tell : k.isLimit = true → b'.view = b.view.set u.level.isBid u.level.price
    (if u.type = .delete then none else some u.level)
  first : u.type = .add → u.level.count = 1

theorem find_price {ls : List Level} {p : Nat} {l : Level} (h : findLevel ls p = some l) : l.price = p := by
  have := List.find?_some (show List.find? _ _ = some l from h); simpa using this

theorem shape_kind {b b' : Book} {k : Kind} (hs : Book.SameBut k b b') (h : Shape b)
    (hk : Sorted k (b'.lv k) ∧ b'.best k = (b'.lv k).head?.map (·.price)) : Shape b' := by
  intro k'
  by_cases e : k' = k
  · rw [e]; exact hk
  · rw [hs.lv k' e, hs.best k' e]; exact h k'

theorem add_change (b : Book) (k : Kind) (o : Order) : Change b (b.addOrder k o).1 k (b.addOrder k o).2 := by
  refine ⟨addOrder_same b k o, ?_, ?_, ?_⟩
  · intro h
    refine shape_kind (addOrder_same b k o) h ?_
    obtain ⟨h1, h2⟩ := h k
    unfold Book.addOrder
    cases hf : findLevel (b.lv k) o.key with
    | some l =>
      simp only [setK_same]
      have hp := find_price hf
      obtain ⟨xs, ys, e, _, hl, hr⟩ := findLevel_some h1 hf
      rw [← hp] at hl hr
      have hsp : Split k xs l.price ys := ⟨hl, hr⟩
      rw [h2, e, replaceLevel_mid (n := l.push o) hsp rfl]
      refine ⟨sorted_insert (sorted_remove (e ▸ h1)) hsp, ?_⟩
      cases xs <;> rfl
    | none =>
      simp only [Book.addLevel, setK_same]
      obtain ⟨xs, ys, e, hi, hsp⟩ := insertLevel_split (n := (Level.new o.key).push o) h1 (fun l hl => findLevel_none.1 hf l hl)
      rw [hi, h2, e]
      refine ⟨sorted_insert (e ▸ h1) hsp, ?_⟩
      cases xs with
      | nil =>
        cases ys with
        | nil => rfl
        | cons y ys =>
          have := hsp.right y (by simp)
          simp [this]
      | cons x xs =>
        have := better_asymm (hsp.left x (by simp))
        simp [this]
  · intro hk
    have key : ∀ q, findLevel ((b.addOrder k o).1.lv k) q =
        if q = (b.addOrder k o).2.level.price then findLevel ((b.addOrder k o).1.lv k) (b.addOrder k o).2.level.price
        else findLevel (b.lv k) q := by
      intro q
      unfold Book.addOrder
      cases hf : findLevel (b.lv k) o.key with
      | some l =>
        simp only [setK_same]
        have hlm := List.mem_of_find?_eq_some (show List.find? _ _ = some l from hf)
        rw [find_replace (n := l.push o) ⟨l, hlm, rfl⟩, find_replace (n := l.push o) ⟨l, hlm, rfl⟩]
        show (if q = l.price then _ else _) = if q = l.price then _ else _
        split
        · show _ = if l.price = l.price then _ else _
          rw [if_pos rfl]
        · rfl
      | none =>
        simp only [Book.addLevel, setK_same]
        have hne : ∀ l ∈ b.lv k, l.price ≠ ((Level.new o.key).push o).price := fun l hl => findLevel_none.1 hf l hl
        rw [find_insert _ hne, find_insert _ hne]
        show (if q = o.key then _ else _) = if q = o.key then _ else _
        split
        · show _ = if o.key = o.key then _ else _
          rw [if_pos rfl]
        · rfl
    rw [view_change hk (addOrder_same b k o) key]
    unfold Book.addOrder
    cases hf : findLevel (b.lv k) o.key with
    | some l =>
      simp only [setK_same]
      have hlm := List.mem_of_find?_eq_some (show List.find? _ _ = some l from hf)
      rw [find_replace (n := l.push o) ⟨l, hlm, rfl⟩]
      show BookView.set _ _ _ ((if l.price = l.price then _ else _ : Option Level).map _) = _
      rw [if_pos rfl]; rfl
    | none =>
      simp only [Book.addLevel, setK_same]
      have hne : ∀ l ∈ b.lv k, l.price ≠ ((Level.new o.key).push o).price := fun l hl => findLevel_none.1 hf l hl
      rw [find_insert _ hne]
      show BookView.set _ _ _ ((if o.key = o.key then _ else _ : Option Level).map _) = _
      rw [if_pos rfl]; rfl
  · unfold Book.addOrder
    cases hf : findLevel (b.lv k) o.key with
    | some l => intro h; cases h
    | none => intro _; rfl

theorem settle_change {b : Book} {k : Kind} {l l' : Level} (hf : findLevel (b.lv k) l.price = some l) (hp : l'.price = l.price) :
    Change b (b.settle k l').1 k (b.settle k l').2 := by
  have hlm := List.mem_of_find?_eq_some (show List.find? _ _ = some l from hf)
  refine ⟨settle_same b k l', ?_, ?_, ?_⟩
  · intro h
    refine shape_kind (settle_same b k l') h ?_
    obtain ⟨h1, h2⟩ := h k
    obtain ⟨xs, ys, e, _, hl, hr⟩ := findLevel_some h1 hf
    have hsp : Split k xs l.price ys := ⟨hl, hr⟩
    have hsp' : Split k xs l'.price ys := hp ▸ hsp
    unfold Book.settle Book.deleteLevel
    split
    · simp only [setK_same]
      rw [h2, e, hp, eraseLevel_mid hsp, nextLevel_mid hsp]
      refine ⟨sorted_remove (e ▸ h1), ?_⟩
      cases xs with
      | nil => simp
      | cons x xs =>
        have := hsp.left_ne x (by simp)
        simp [this]
    · simp only [setK_same]
      rw [h2, e, replaceLevel_mid hsp hp]
      refine ⟨sorted_insert (sorted_remove (e ▸ h1)) hsp', ?_⟩
      cases xs with
      | nil => simp [hp]
      | cons x xs => rfl
  · intro hk
    by_cases h0 : l'.total = 0
    · have key : ∀ q, findLevel ((b.settle k l').1.lv k) q = if q = l'.price then none else findLevel (b.lv k) q := by
        intro q
        unfold Book.settle Book.deleteLevel
        simp only [h0, if_true, setK_same]
        exact find_erase _ _
      rw [view_change hk (settle_same b k l') key]
      unfold Book.settle
      simp only [h0, if_true]
      rfl
    · have key : ∀ q, findLevel ((b.settle k l').1.lv k) q = if q = l'.price then some l' else findLevel (b.lv k) q := by
        intro q
        unfold Book.settle
        simp only [h0, if_false, setK_same]
        exact find_replace ⟨l, hlm, hp.symm⟩ _
      rw [view_change hk (settle_same b k l') key]
      unfold Book.settle
      simp only [h0, if_false]
      rfl
  · unfold Book.settle
    split <;> intro h <;> cases h

theorem delete_change {b b' : Book} {k : Kind} {o : Order} {u} (h : b.deleteOrder k o = .ok (b', u)) : Change b b' k u := by
  unfold Book.deleteOrder at h
  cases hf : findLevel (b.lv k) o.key with
  | none => rw [hf] at h; cases h
  | some l =>
    rw [hf] at h
    dsimp only at h
    split at h
    · have hp := find_price hf
      have hc := settle_change (l := l) (l' := l.remove o) (by rw [hp]; exact hf) rfl
      rw [Except.ok.inj h] at hc
      exact hc
    · cases h

theorem reduce_change {b b' : Book} {k : Kind} {o : Order} {q hd v : Nat} {u} (h : b.reduceOrder k o q hd v = .ok (b', u)) :
    Change b b' k u := by
  unfold Book.reduceOrder at h
  cases hf : findLevel (b.lv k) o.key with
  | none => rw [hf] at h; cases h
  | some l =>
    rw [hf] at h
    dsimp only at h
    split at h
    · have hp := find_price hf
      have hc := settle_change (l := l) (l' := l.reduce o q hd v) (by rw [hp]; exact hf) rfl
      rw [Except.ok.inj h] at hc
      exact hc
    · cases h

theorem Change.next {b b' : Book} {k : Kind} {u : LevelUpdate} (h : Change b b' k u) (hk : k.isLimit = true) {v : LevelView} {sym : Nat}
    {v0 : LevelView} (hv : v = v0.set sym b.view) : v.next (levelEvent sym u) = v0.set sym b'.view := by
  have ht := h.tell hk
  subst hv
  unfold levelEvent
  cases ht' : u.type <;> rw [ht'] at ht <;>
    simp only [LevelView.next, LevelView.set_at, LevelView.set_set, ht, reduceCtorEq, if_true, if_false]

theorem Change.keeps {b b' : Book} {k : Kind} {u : LevelUpdate} (h : Change b b' k u) (hk : k.isLimit = false) : b'.view = b.view := by
  funext sd q
  rw [view_at, view_at, h.same.lv]
  intro e; rw [← e] at hk; cases sd <;> cases hk

/-! ### The queues -/

/-- Every queued order is in the map, at home in its queue. -/
def Lined (m : Nat → Option Order) (b : Book) : Prop :=
  ∀ k l, l ∈ b.lv k → l.ids.Nodup ∧ ∀ id ∈ l.ids, ∃ o, m id = some o ∧ o.home = some (k, l.price)

/-- The order is in no queue. -/
def Free (b : Book) (id : Nat) : Prop := ∀ k l, l ∈ b.lv k → id ∉ l.ids

theorem home_eq {o : Order} {k : Kind} (h : o.kind = some k) : o.home = some (k, o.key) := by
  unfold Order.home Order.key
  unfold Order.kind Order.isBuy at h
  cases ht : o.type <;> cases hs : o.side <;> rw [ht] at h <;> simp_all

theorem Lined.free {m : Nat → Option Order} {b : Book} (h : Lined m b) {id : Nat} (hn : m id = none) : Free b id := by
  intro k l hl hm
  obtain ⟨o, ho, _⟩ := (h k l hl).2 id hm
  rw [hn] at ho; cases ho

theorem Lined.set {m : Nat → Option Order} {b : Book} (h : Lined m b) {id : Nat} {v : Option Order}
    (hq : Free b id ∨ ∃ o o', m id = some o ∧ v = some o' ∧ o'.home = o.home) : Lined (setO m id v) b := by
  intro k l hl
  refine ⟨(h k l hl).1, ?_⟩
  intro j hj
  obtain ⟨o, ho, hh⟩ := (h k l hl).2 j hj
  by_cases e : j = id
  · rcases hq with hq | ⟨o1, o2, h1, h2, h3⟩
    · exact absurd (e ▸ hj) (hq k l hl)
    · refine ⟨o2, ?_, ?_⟩
      · unfold setO; rw [if_pos e, h2]
      · rw [e, h1] at ho
        rw [h3, Option.some.inj ho]; exact hh
  · exact ⟨o, by unfold setO; rw [if_neg e]; exact ho, hh⟩

theorem Lined.sub {m : Nat → Option Order} {b b' : Book} (h : Lined m b)
    (hs : ∀ k l, l ∈ b'.lv k → ∃ l0 ∈ b.lv k, l0.price = l.price ∧ l.ids.Sublist l0.ids) : Lined m b' := by
  intro k l hl
  obtain ⟨l0, h0, hp, hsub⟩ := hs k l hl
  refine ⟨hsub.nodup (h k l0 h0).1, fun id hid => ?_⟩
  rw [← hp]
  exact (h k l0 h0).2 id (hsub.subset hid)

theorem add_levels {b : Book} {k : Kind} {o : Order} {k' : Kind} {l : Level} (h : l ∈ (b.addOrder k o).1.lv k') :
    l ∈ b.lv k' ∨ k' = k ∧ l.price = o.key ∧ (l.ids = [o.id] ∨ ∃ l0 ∈ b.lv k, l0.price = o.key ∧ l.ids = l0.ids ++ [o.id]) := by
  by_cases e : k' = k
  · subst e
    unfold Book.addOrder at h
    cases hf : findLevel (b.lv k') o.key with
    | some l0 =>
      rw [hf] at h
      simp only [setK_same] at h
      have hp := find_price hf
      have hlm := List.mem_of_find?_eq_some (show List.find? _ _ = some l0 from hf)
      obtain ⟨x, hx, e⟩ := List.mem_map.1 h
      split at e
      · right
        refine ⟨rfl, by rw [← e]; exact hp, .inr ⟨l0, hlm, hp, by rw [← e]; rfl⟩⟩
      · left; rw [← e]; exact hx
    | none =>
      rw [hf] at h
      simp only [Book.addLevel, setK_same] at h
      have key : ∀ (ls : List Level) (n : Level), l ∈ insertLevel k' n ls → l = n ∨ l ∈ ls := by
        intro ls n
        induction ls with
        | nil => intro h; exact .inl (by simpa [insertLevel] using h)
        | cons y ys ih =>
          intro h
          unfold insertLevel at h
          split at h
          · rcases List.mem_cons.1 h with h | h
            · exact .inl h
            · exact .inr h
          · rcases List.mem_cons.1 h with h | h
            · exact .inr (by rw [h]; simp)
            · rcases ih h with h | h
              · exact .inl h
              · exact .inr (by simp [h])
      rcases key _ _ h with h | h
      · right
        exact ⟨rfl, by rw [h]; rfl, .inl (by rw [h]; rfl)⟩
      · exact .inl h
  · rw [(addOrder_same b k o).lv k' e] at h
    exact .inl h

theorem add_lined {m m' : Nat → Option Order} {b : Book} {k : Kind} {o : Order} (h : Lined m b) (hf : Free b o.id) (hk : o.kind = some k)
    (ho : m' o.id = some o) (hm : ∀ i, i ≠ o.id → m' i = m i) : Lined m' (b.addOrder k o).1 := by
  have old : ∀ k' l id, l ∈ b.lv k' → id ∈ l.ids → ∃ x, m' id = some x ∧ x.home = some (k', l.price) := by
    intro k' l id hl hid
    have hne : id ≠ o.id := fun e => hf k' l hl (e ▸ hid)
    rw [hm id hne]
    exact (h k' l hl).2 id hid
  intro k' l hl
  rcases add_levels hl with hl | ⟨e, hp, hl⟩
  · exact ⟨(h k' l hl).1, fun id hid => old k' l id hl hid⟩
  · subst e
    have new : ∃ x, m' o.id = some x ∧ x.home = some (k', l.price) := ⟨o, ho, by rw [hp]; exact home_eq hk⟩
    rcases hl with hl | ⟨l0, hl0, hp0, hl⟩
    · rw [hl]
      refine ⟨by simp, fun id hid => ?_⟩
      rw [List.mem_singleton.1 hid]; exact new
    · rw [hl]
      refine ⟨?_, fun id hid => ?_⟩
      · rw [List.nodup_append]
        refine ⟨(h k' l0 hl0).1, by simp, ?_⟩
        intro a ha b hb e
        rw [List.mem_singleton.1 hb] at e
        exact hf k' l0 hl0 (e ▸ ha)
      · rcases List.mem_append.1 hid with hid | hid
        · rw [hp, ← hp0]; exact old k' l0 id hl0 hid
        · rw [List.mem_singleton.1 hid]; exact new

theorem settle_levels {b : Book} {k : Kind} {l' : Level} {k' : Kind} {x : Level} (h : x ∈ (b.settle k l').1.lv k') :
    x ∈ b.lv k' ∧ (k' = k → x.price ≠ l'.price) ∨ k' = k ∧ x = l' := by
  by_cases e : k' = k
  · subst e
    unfold Book.settle Book.deleteLevel at h
    split at h
    · simp only [setK_same] at h
      obtain ⟨h1, h2⟩ := List.mem_filter.1 h
      exact .inl ⟨h1, fun _ => by simpa using h2⟩
    · simp only [setK_same] at h
      obtain ⟨y, hy, e⟩ := List.mem_map.1 h
      split at e
      · exact .inr ⟨rfl, e.symm⟩
      · rename_i hne; rw [← e]; exact .inl ⟨hy, fun _ => hne⟩
  · rw [(settle_same b k l').lv k' e] at h
    exact .inl ⟨h, fun e' => absurd e' e⟩

/-- What happens to the queues when an order is taken out or reduced. -/
structure Drop (b b' : Book) (id : Nat) (gone : Prop) : Prop where
  sub : ∀ k l, l ∈ b'.lv k → ∃ l0 ∈ b.lv k, l0.price = l.price ∧ l.ids.Sublist l0.ids
  out : gone → ∀ m, Lined m b → Free b' id

theorem settle_drop {b : Book} {k : Kind} {l l' : Level} {id : Nat} {gone : Prop} (hl : l ∈ b.lv k) (hp : l'.price = l.price)
    (hs : l'.ids.Sublist l.ids) (hg : gone → l'.ids = l.ids.erase id) (hid : id ∈ l.ids) : Drop b (b.settle k l').1 id gone := by
  constructor
  · intro k' x hx
    rcases settle_levels hx with ⟨h, _⟩ | ⟨e, h⟩
    · exact ⟨x, h, rfl, .refl _⟩
    · subst e; rw [h]; exact ⟨l, hl, hp.symm, hs⟩
  · intro hgone m hm k' x hx hin
    rcases settle_levels hx with ⟨h, hne⟩ | ⟨e, h⟩
    · obtain ⟨o1, h1, h2⟩ := (hm k' x h).2 id hin
      obtain ⟨o2, h3, h4⟩ := (hm k l hl).2 id hid
      rw [h1] at h3
      rw [Option.some.inj h3, h4] at h2
      obtain ⟨e1, e2⟩ := Prod.mk.inj (Option.some.inj h2)
      exact hne e1.symm (e2.symm.trans hp.symm)
    · subst e
      rw [h, hg hgone] at hin
      exact (hm k' l hl).1.not_mem_erase hin

theorem delete_drop {b b' : Book} {k : Kind} {o : Order} {u} (h : b.deleteOrder k o = .ok (b', u)) : Drop b b' o.id True := by
  unfold Book.deleteOrder at h
  cases hf : findLevel (b.lv k) o.key with
  | none => rw [hf] at h; cases h
  | some l =>
    rw [hf] at h
    dsimp only at h
    split at h
    · rename_i hid
      have hlm := List.mem_of_find?_eq_some (show List.find? _ _ = some l from hf)
      have hc := settle_drop (l' := l.remove o) (gone := True) hlm rfl List.erase_sublist (fun _ => rfl) hid
      rw [Except.ok.inj h] at hc
      exact hc
    · cases h

theorem reduce_drop {b b' : Book} {k : Kind} {o : Order} {q hd v : Nat} {u} (h : b.reduceOrder k o q hd v = .ok (b', u)) :
    Drop b b' o.id (o.leaves = 0) := by
  unfold Book.reduceOrder at h
  cases hf : findLevel (b.lv k) o.key with
  | none => rw [hf] at h; cases h
  | some l =>
    rw [hf] at h
    dsimp only at h
    split at h
    · rename_i hid
      have hlm := List.mem_of_find?_eq_some (show List.find? _ _ = some l from hf)
      have hc := settle_drop (l' := l.reduce o q hd v) (gone := o.leaves = 0) hlm rfl
        (by unfold Level.reduce; dsimp only; split <;> first | exact List.erase_sublist | exact .refl _)
        (fun h0 => by unfold Level.reduce; dsimp only; rw [if_pos h0]) hid
      rw [Except.ok.inj h] at hc
      exact hc
    · cases h

theorem Lined.mono {m m' : Nat → Option Order} {b : Book} (h : Lined m b) (hm : ∀ i o, m i = some o → m' i = some o) : Lined m' b := by
  intro k l hl
  refine ⟨(h k l hl).1, fun id hid => ?_⟩
  obtain ⟨o, ho, hh⟩ := (h k l hl).2 id hid
  exact ⟨o, hm id o ho, hh⟩

theorem Lined.same {m : Nat → Option Order} {b b' : Book} (h : Lined m b) (hl : b'.lv = b.lv) : Lined m b' := by
  intro k l hm
  rw [hl] at hm
  exact h k l hm

/-! ### What is recorded -/

/-- What the records are compared with: the number of callbacks before the call, the levels and the orders then, the id of
the order being added, the callbacks before the call, the symbol of the book. -/
structure Base where
  n : Nat
  view : LevelView
  held : Nat → Option Order
  new : Option Nat
  pre : List Event
  sym : Symbol

namespace Base

variable (K : Base)

/-- The callbacks of the call. -/
def news (c : Core) : List Event := c.ev.drop K.n

/-- The levels are those told. -/
def Levels (c : Core) : Prop := (K.news c).foldl LevelView.next K.view = K.view.set c.book.symbol.id c.book.view

/-- Orders not reported on are as before. -/
def Others (c : Core) : Prop := ∀ j, some j ≠ K.new → Silent (K.news c) j → c.orders j = K.held j

/-- Orders do not come into being. -/
def Absent (c : Core) : Prop := ∀ j, some j ≠ K.new → K.held j = none → c.orders j = none

/-- A working order which is not in the map. -/
def Loose (m : Nat → Option Order) (o : Order) : Prop := some o.id = K.new ∧ (K.held o.id = none → m o.id = none)

/-- A callback about the order `o` while the map is `m`. -/
def Fit (m : Nat → Option Order) (o : Order) : Prop := m o.id = some o ∨ K.Loose m o

/-- A record is in order. -/
structure Fine (x : Core) : Prop where
  levels : K.Levels x
  others : K.Others x
  absent : K.Absent x
  shape : Shape x.book
  told : ∀ e o, x.ev.getLast? = some e → e.about = some o → K.Fit x.orders o
  queue : ∀ e s, x.ev.getLast? = some e → e.onBook = some s → s = K.sym.id ∧ Lined x.orders x.book ∧
    ∀ l t, e = .addLevel s l t → l.count = 1

/-- The state of the watch is in order. -/
structure Good (w : Watch) : Prop where
  len : K.n ≤ w.now.ev.length
  levels : K.Levels w.now
  others : K.Others w.now
  absent : K.Absent w.now
  shape : Shape w.now.book
  count : w.log.length + K.n = w.now.ev.length
  ticks : ∀ i x, w.log[i]? = some x → x.ev = w.now.ev.take (K.n + i + 1)
  fine : ∀ x ∈ w.log, K.Fine x
  symbol : ∀ x ∈ w.log, x.book.symbol = w.now.book.symbol
  pre : w.now.ev.take K.n = K.pre
  sym : w.now.book.symbol = K.sym

end Base

variable {K : Base}

theorem news_emit (c : Core) (e : Event) (h : K.n ≤ c.ev.length) : K.news (c.emit e) = K.news c ++ [e] := by
  show (c.ev ++ [e]).drop K.n = c.ev.drop K.n ++ [e]
  rw [List.drop_append_of_le_length h]

theorem silent_append {xs : List Event} {e : Event} {j : Nat} (h : Silent (xs ++ [e]) j) : Silent xs j :=
  fun e' he' => h e' (by simp [he'])

/-- The general callback: the book may have been changed just before, and one order may have been changed in place. -/
theorem Base.Good.call {w : Watch} (g : K.Good w) {c : Core} (hev : c.ev = w.now.ev) (hsym : c.book.symbol = w.now.book.symbol)
    (e : Event) (hl : K.Levels (c.emit e)) (ho : K.Others (c.emit e)) (ha : K.Absent c) (hs : Shape c.book)
    (ht : ∀ o, e.about = some o → K.Fit c.orders o)
    (hq : ∀ s, e.onBook = some s → s = K.sym.id ∧ Lined c.orders c.book ∧ ∀ l t, e = .addLevel s l t → l.count = 1) : K.Good (Watch.emit ⟨c, w.log⟩ e) := by
  have hcnt : w.log.length + K.n = c.ev.length := by rw [hev]; exact g.count
  refine ⟨?_, hl, ho, ha, hs, ?_, ?_, ?_, ?_, ?_, hsym.trans g.sym⟩
  · show K.n ≤ (c.ev ++ [e]).length
    rw [List.length_append]; omega
  · show (w.log ++ [_]).length + K.n = (c.ev ++ [e]).length
    rw [List.length_append, List.length_append, List.length_singleton, List.length_singleton]; omega
  · intro i x hx
    change (w.log ++ [c.emit e])[i]? = some x at hx
    show x.ev = (c.ev ++ [e]).take (K.n + i + 1)
    rw [List.getElem?_append] at hx
    split at hx
    · rename_i hi
      rw [g.ticks i x hx, ← hev, List.take_append_of_le_length (by omega)]
    · rename_i hi
      have : i - w.log.length = 0 := by
        cases hd : i - w.log.length with
        | zero => rfl
        | succ d => rw [hd] at hx; simp at hx
      rw [this] at hx
      cases hx
      show c.ev ++ [e] = _
      rw [List.take_of_length_le (by rw [List.length_append, List.length_singleton]; omega)]
  · intro x hx
    rcases List.mem_append.1 hx with hx | hx
    · exact g.fine x hx
    · rw [List.mem_singleton.1 hx]
      have hlast : ∀ e', (c.emit e).ev.getLast? = some e' → e' = e := by
        intro e' he'
        change (c.ev ++ [e]).getLast? = some e' at he'
        rw [List.getLast?_concat] at he'
        exact (Option.some.inj he').symm
      refine ⟨hl, ho, ha, hs, ?_, ?_⟩
      · intro e' o he' hab
        rw [hlast e' he'] at hab
        exact ht o hab
      · intro e' s he' hab
        rw [hlast e' he'] at hab ⊢
        exact hq s hab
  · intro x hx
    rcases List.mem_append.1 hx with hx | hx
    · exact (g.symbol x hx).trans hsym.symm
    · rw [List.mem_singleton.1 hx]; rfl
  · show (c.ev ++ [e]).take K.n = K.pre
    rw [List.take_append_of_le_length (by omega), hev]
    exact g.pre

theorem next_notLevel {v : LevelView} {e : Event} (h : e.notLevel) : v.next e = v := by
  cases e <;> first | rfl | cases h

theorem levels_emit {c : Core} {e : Event} (h : K.n ≤ c.ev.length) (he : e.notLevel) (hl : K.Levels c) : K.Levels (c.emit e) := by
  unfold Base.Levels
  rw [news_emit c e h, List.foldl_append, hl]
  show LevelView.next _ e = _
  rw [next_notLevel he]; rfl

theorem off_book {e : Event} {o : Order} (h : e.about = some o) : e.onBook = none := by
  cases e <;> first | rfl | cases h

theorem Base.Good.emit_any {w : Watch} (g : K.Good w) (e : Event) (he : e.notLevel)
    (ht : ∀ o, e.about = some o → K.Fit w.now.orders o)
    (hq : ∀ s, e.onBook = some s → s = K.sym.id ∧ Lined w.now.orders w.now.book ∧ ∀ l t, e = .addLevel s l t → l.count = 1) : K.Good (w.emit e) := by
  refine g.call (c := w.now) rfl rfl e (levels_emit g.len he g.levels) ?_ g.absent g.shape ht hq
  intro j hj hs
  rw [news_emit _ _ g.len] at hs
  exact g.others j hj (silent_append hs)

theorem Base.Good.emit {w : Watch} (g : K.Good w) (e : Event) (he : e.notLevel)
    (ht : ∀ o, e.about = some o → K.Fit w.now.orders o) (hq : e.onBook = none := by rfl) : K.Good (w.emit e) :=
  g.emit_any e he ht (fun s hs => by rw [hq] at hs; cases hs)

/-- Report an order that has just been changed in place. -/
theorem Base.Good.say {w : Watch} (g : K.Good w) (o : Order) (e : Event) (he : e.notLevel) (hab : e.about = some o)
    (hh : w.now.orders o.id ≠ none) : K.Good ((w.store o).emit e) := by
  refine g.call (c := (w.store o).now) rfl rfl e (levels_emit (c := (w.store o).now) g.len he g.levels) ?_ ?_ g.shape ?_
    (fun s hs => by rw [off_book hab] at hs; cases hs)
  · intro j hj hs
    rw [news_emit (w.store o).now e g.len] at hs
    have hne : j ≠ o.id := fun e' => hs e (by simp) o hab e'.symm
    show setO w.now.orders o.id (some o) j = _
    unfold setO
    rw [if_neg hne]
    exact g.others j hj (silent_append hs)
  · intro j hj hn
    show setO w.now.orders o.id (some o) j = none
    unfold setO
    by_cases hne : j = o.id
    · exact absurd (g.absent j hj hn) (hne ▸ hh)
    · rw [if_neg hne]; exact g.absent j hj hn
  · intro o' ho'
    have : o' = o := by rw [hab] at ho'; exact (Option.some.inj ho').symm
    rw [this]
    exact .inl (by show setO _ _ _ _ = _; unfold setO; rw [if_pos rfl])

/-- A change of the map at an order that was reported on, or at the order being added. -/
theorem Base.Good.put {w : Watch} (g : K.Good w) (id : Nat) (v : Option Order) (hm : ¬ Silent (K.news w.now) id ∨ some id = K.new)
    (hh : v = none ∨ w.now.orders id ≠ none ∨ some id = K.new) :
    K.Good { w with now := { w.now with orders := setO w.now.orders id v } } := by
  refine ⟨g.len, g.levels, ?_, ?_, g.shape, g.count, g.ticks, g.fine, g.symbol, g.pre, g.sym⟩
  · intro j hj hs
    have hne : j ≠ id := by
      intro e
      rcases hm with hm | hm
      · exact hm (e ▸ hs)
      · exact hj (e ▸ hm)
    show setO w.now.orders id v j = _
    unfold setO
    rw [if_neg hne]
    exact g.others j hj hs
  · intro j hj hn
    show setO w.now.orders id v j = none
    unfold setO
    by_cases hne : j = id
    · rw [if_pos hne]
      rcases hh with hh | hh | hh
      · exact hh
      · exact absurd (g.absent j hj hn) (hne ▸ hh)
      · exact absurd (hne ▸ hh) hj
    · rw [if_neg hne]; exact g.absent j hj hn

/-- A change of the book that does not concern its levels. -/
theorem Base.Good.book {w : Watch} (g : K.Good w) {b : Book} (hs : b.symbol = w.now.book.symbol) (hl : b.lv = w.now.book.lv)
    (hb : b.best = w.now.book.best) : K.Good (w.setBook b) := by
  refine ⟨g.len, ?_, g.others, g.absent, ?_, g.count, g.ticks, g.fine, fun x hx => (g.symbol x hx).trans hs.symm, g.pre, hs.trans g.sym⟩
  · show (K.news w.now).foldl _ _ = _
    rw [g.levels]
    show _ = K.view.set b.symbol.id b.view
    rw [hs]
    have : b.view = w.now.book.view := by unfold Book.view; rw [hl]
    rw [this]
  · intro k
    show Sorted k (b.lv k) ∧ b.best k = (b.lv k).head?.map _
    rw [hl, hb]; exact g.shape k

theorem Base.Good.prices {w : Watch} (g : K.Good w) (side : Side) (p : Nat) : K.Good (w.setPrices side p) := by
  cases side <;> exact g.book rfl rfl rfl
theorem Base.Good.reset {w : Watch} (g : K.Good w) : K.Good w.reset := g.book rfl rfl rfl

/-- A change of the levels, with its callbacks. -/
theorem Base.Good.change {w : Watch} (g : K.Good w) {b : Book} {k : Kind} {u : LevelUpdate} (hc : Change w.now.book b k u)
    (hq : Lined w.now.orders b) : K.Good (if k.isLimit then (w.setBook b).updateLevel u else w.setBook b) := by
  cases hk : k.isLimit with
  | false =>
    simp only [Bool.false_eq_true, if_false]
    refine ⟨g.len, ?_, g.others, g.absent, hc.shape g.shape, g.count, g.ticks, g.fine, fun x hx => (g.symbol x hx).trans hc.same.symbol.symm, g.pre, hc.same.symbol.trans g.sym⟩
    show (K.news w.now).foldl _ _ = K.view.set b.symbol.id b.view
    rw [g.levels, hc.same.symbol, hc.keeps hk]
  | true =>
    simp only [if_true]
    have h1 : K.Good ((w.setBook b).emit (levelEvent b.symbol.id u)) := by
      refine g.call (c := (w.setBook b).now) rfl hc.same.symbol _ ?_ ?_ g.absent (hc.shape g.shape) ?_ ?_
      · unfold Base.Levels
        rw [news_emit (w.setBook b).now _ g.len, List.foldl_append]
        show LevelView.next ((K.news w.now).foldl _ _) _ = K.view.set b.symbol.id b.view
        rw [hc.same.symbol]
        exact hc.next hk g.levels
      · intro j hj hs
        rw [news_emit (w.setBook b).now _ g.len] at hs
        exact g.others j hj (silent_append hs)
      · intro o ho
        unfold levelEvent at ho
        cases hu : u.type <;> rw [hu] at ho <;> cases ho
      · intro s hs
        refine ⟨?_, hq, ?_⟩
        · have hsym : b.symbol = K.sym := hc.same.symbol.trans g.sym
          unfold levelEvent at hs
          cases hu : u.type <;> rw [hu] at hs <;> rw [← hsym] <;> exact (Option.some.inj hs).symm
        · intro l t he
          unfold levelEvent at he
          cases hu : u.type with
          | add => rw [hu] at he; injection he with _ h2 _; rw [← h2]; exact hc.first hu
          | update => rw [hu] at he; cases he
          | delete => rw [hu] at he; cases he
    refine h1.emit_any (.updateBook b.symbol.id u.top) trivial (fun o ho => by cases ho) ?_
    intro s hs
    refine ⟨?_, hq, fun l t he => by cases he⟩
    have hsym : b.symbol = K.sym := hc.same.symbol.trans g.sym
    rw [← hsym]; exact (Option.some.inj hs).symm

/-! ### The map of orders -/

/-- The map `m'` of the watched engine compared with the map `m` of the engine, which takes a working order out: no working
order, one that stays in the map, one that is not in the map. -/
def Ord (K : Base) : Option (Bool × Order) → (Nat → Option Order) → (Nat → Option Order) → Prop
  | none, m, m' => m' = m
  | some (true, t), m, m' => m' = setO m t.id (some t) ∧ m t.id = none
  | some (false, t), m, m' => m' = m ∧ K.Loose m t

theorem setO_at (m : Nat → Option Order) (i v) : setO m i v i = v := by unfold setO; rw [if_pos rfl]
theorem setO_ne (m : Nat → Option Order) {i j : Nat} (v) (h : j ≠ i) : setO m i v j = m j := by unfold setO; rw [if_neg h]
theorem setO_comm (m : Nat → Option Order) {i j : Nat} (v v') (h : i ≠ j) : setO (setO m i v) j v' = setO (setO m j v') i v := by
  funext x
  unfold setO
  by_cases h1 : x = j
  · rw [if_pos h1, if_neg (fun e => h (e.symm.trans h1)), if_pos h1]
  · rw [if_neg h1]
    by_cases h2 : x = i
    · rw [if_pos h2, if_pos h2]
    · rw [if_neg h2, if_neg h2, if_neg h1]
theorem setO_setO (m : Nat → Option Order) (i : Nat) (v v') : setO (setO m i v) i v' = setO m i v' := by
  funext x
  unfold setO
  split <;> rfl
theorem setO_self {m : Nat → Option Order} {i : Nat} {v} (h : m i = v) : setO m i v = m := by
  funext x
  unfold setO
  split
  · rename_i e; rw [e, h]
  · rfl

theorem Ord.get {h : Option (Bool × Order)} {m m' : Nat → Option Order} (o : Ord K h m m') {i : Nat} {x : Order} (hx : m i = some x) :
    m' i = some x := by
  cases h with
  | none => rw [show m' = m from o]; exact hx
  | some p =>
    obtain ⟨own, t⟩ := p
    cases own with
    | false => rw [o.1]; exact hx
    | true =>
      obtain ⟨e, hn⟩ := o
      rw [e, setO_ne]
      · exact hx
      · intro e'; rw [e'] at hx; rw [hn] at hx; cases hx

theorem Ord.set {h : Option (Bool × Order)} {m m' : Nat → Option Order} (o : Ord K h m m') {i : Nat} {x : Order} (hx : m i = some x)
    (v : Option Order) : Ord K h (setO m i v) (setO m' i v) := by
  cases h with
  | none => rw [show m' = m from o]; rfl
  | some p =>
    obtain ⟨own, t⟩ := p
    cases own with
    | false =>
      obtain ⟨e, h1, h2⟩ := o
      refine ⟨by rw [e], h1, ?_⟩
      intro hf
      have := h2 hf
      rw [setO_ne _ _ (fun e' => by rw [e'] at this; rw [hx] at this; cases this)]
      exact this
    | true =>
      obtain ⟨e, hn⟩ := o
      have hne : t.id ≠ i := fun e' => by rw [e'] at hn; rw [hx] at hn; cases hn
      refine ⟨?_, by rw [setO_ne _ _ hne]; exact hn⟩
      rw [e, setO_comm _ _ _ hne]

/-- A working order is in order. -/
theorem Ord.fit {own : Bool} {t : Order} {m m' : Nat → Option Order} (o : Ord K (some (own, t)) m m') : K.Fit m' t := by
  cases own with
  | true => exact .inl (by rw [o.1, setO_at])
  | false => exact .inr (by rw [o.1]; exact o.2)

/-- The watched engine against the engine. -/
structure Rel (K : Base) (h : Option (Bool × Order)) (c : Core) (w : Watch) : Prop where
  good : K.Good w
  book : w.now.book = c.book
  ev : w.now.ev = c.ev
  orders : Ord K h c.orders w.now.orders
  keyed : ∀ i o, c.orders i = some o → o.id = i
  lined : Lined c.orders c.book

end Watch
end CppTrader
