import Verif.Model.Manager
/-
The engine under another name for every order, and beside other orders: if it runs in one state, it runs in every state that has
the same book, the same orders (under their other names) and possibly more orders, and calls the handler alike.
-/

namespace CppTrader

/-- An order, a level, a book and a callback with other order ids. -/
def renO (f : Nat → Nat) (o : Order) : Order := { o with id := f o.id }
def renL (f : Nat → Nat) (l : Level) : Level := { l with ids := l.ids.map f }
def renB (f : Nat → Nat) (b : Book) : Book := { b with lv := fun k => (b.lv k).map (renL f) }
def renE (f : Nat → Nat) : Event → Event
  | .addOrder o => .addOrder (renO f o)
  | .updateOrder o => .updateOrder (renO f o)
  | .deleteOrder o => .deleteOrder (renO f o)
  | .exec o p q => .exec (renO f o) p q
  | e => e

variable {f : Nat → Nat}

/-! Levels and books. -/

theorem findLevel_ren (ls : List Level) (p : Nat) : findLevel (ls.map (renL f)) p = (findLevel ls p).map (renL f) := by
  unfold findLevel
  rw [List.find?_map]
  rfl

theorem nextLevel_ren : ∀ (ls : List Level) (p : Nat), nextLevel (ls.map (renL f)) p = (nextLevel ls p).map (renL f)
  | [], _ => rfl
  | l :: ls, p => by
    show (if l.price = p then (ls.map (renL f)).head? else nextLevel (ls.map (renL f)) p) = Option.map (renL f) (if l.price = p then ls.head? else nextLevel ls p)
    by_cases h : l.price = p
    · rw [if_pos h, if_pos h, List.head?_map]
    · rw [if_neg h, if_neg h, nextLevel_ren]

theorem levelsFrom_ren : ∀ (ls : List Level) (p : Nat), levelsFrom (ls.map (renL f)) p = (levelsFrom ls p).map (renL f)
  | [], _ => rfl
  | l :: ls, p => by
    show (if l.price = p then renL f l :: ls.map (renL f) else levelsFrom (ls.map (renL f)) p) = List.map (renL f) (if l.price = p then l :: ls else levelsFrom ls p)
    by_cases h : l.price = p
    · rw [if_pos h, if_pos h]; rfl
    · rw [if_neg h, if_neg h, levelsFrom_ren]

theorem insertLevel_ren (k : Kind) (n : Level) : ∀ ls : List Level, insertLevel k (renL f n) (ls.map (renL f)) = (insertLevel k n ls).map (renL f)
  | [] => rfl
  | l :: ls => by
    show (if k.better n.price l.price then renL f n :: renL f l :: ls.map (renL f) else renL f l :: insertLevel k (renL f n) (ls.map (renL f))) =
      List.map (renL f) (if k.better n.price l.price then n :: l :: ls else l :: insertLevel k n ls)
    by_cases h : k.better n.price l.price = true
    · rw [if_pos h, if_pos h]; rfl
    · rw [if_neg h, if_neg h, insertLevel_ren]; rfl

theorem replaceLevel_ren (n : Level) (ls : List Level) : replaceLevel (renL f n) (ls.map (renL f)) = (replaceLevel n ls).map (renL f) := by
  unfold replaceLevel
  rw [List.map_map, List.map_map]
  congr 1
  funext l
  show (if l.price = n.price then renL f n else renL f l) = renL f (if l.price = n.price then n else l)
  split <;> rfl

theorem eraseLevel_ren (p : Nat) (ls : List Level) : eraseLevel p (ls.map (renL f)) = (eraseLevel p ls).map (renL f) := by
  unfold eraseLevel
  rw [List.filter_map]
  rfl

theorem erase_ren (hf : ∀ a b, f a = f b → a = b) (id : Nat) : ∀ l : List Nat, (l.map f).erase (f id) = (l.erase id).map f
  | [] => rfl
  | a :: l => by
    rw [List.map_cons, List.erase_cons, List.erase_cons]
    by_cases h : a = id
    · subst h; simp
    · have : f a ≠ f id := fun e => h (hf _ _ e)
      simp [h, this, erase_ren hf id l]

theorem mem_ren (hf : ∀ a b, f a = f b → a = b) (id : Nat) (l : List Nat) : f id ∈ l.map f ↔ id ∈ l := by
  constructor
  · intro h
    obtain ⟨a, h1, h2⟩ := List.mem_map.1 h
    rw [← hf _ _ h2]; exact h1
  · exact List.mem_map_of_mem

theorem push_ren (l : Level) (o : Order) : (renL f l).push (renO f o) = renL f (l.push o) := by
  unfold Level.push renL
  simp only [List.map_append]
  rfl

theorem reduce_ren (hf : ∀ a b, f a = f b → a = b) (l : Level) (o : Order) (q h v : Nat) : (renL f l).reduce (renO f o) q h v = renL f (l.reduce o q h v) := by
  have : (if o.leaves = 0 then (l.ids.map f).erase (f o.id) else l.ids.map f) = (if o.leaves = 0 then l.ids.erase o.id else l.ids).map f := by
    split
    · exact erase_ren hf _ _
    · rfl
  unfold Level.reduce renL
  simp only
  rw [← this]
  rfl

theorem remove_ren (hf : ∀ a b, f a = f b → a = b) (l : Level) (o : Order) : (renL f l).remove (renO f o) = renL f (l.remove o) := by
  unfold Level.remove renL
  simp only
  rw [← erase_ren hf]
  rfl

theorem setK_ren (g : Kind → List Level) (k : Kind) (v : List Level) :
    setK (fun k => (g k).map (renL f)) k (v.map (renL f)) = fun k' => (setK g k v k').map (renL f) := by
  funext k'
  unfold setK
  split <;> rfl

theorem bookAdd_ren (b : Book) (k : Kind) (o : Order) : (renB f b).addOrder k (renO f o) = (renB f (b.addOrder k o).1, (b.addOrder k o).2) := by
  unfold Book.addOrder
  rw [show (renB f b).lv k = (b.lv k).map (renL f) from rfl, show (renO f o).key = o.key from rfl, findLevel_ren]
  cases findLevel (b.lv k) o.key with
  | some l =>
    simp only [Option.map_some]
    rw [push_ren, replaceLevel_ren, show (renB f b).lv = fun k => (b.lv k).map (renL f) from rfl, setK_ren]
    rfl
  | none =>
    simp only [Option.map_none]
    rw [show Level.new o.key = renL f (Level.new o.key) from rfl, push_ren]
    unfold Book.addLevel
    rw [show (renB f b).lv = fun k => (b.lv k).map (renL f) from rfl]
    simp only
    rw [insertLevel_ren, setK_ren]
    rfl

theorem bookSettle_ren (b : Book) (k : Kind) (l : Level) : (renB f b).settle k (renL f l) = (renB f (b.settle k l).1, (b.settle k l).2) := by
  unfold Book.settle
  by_cases h : l.total = 0
  · rw [if_pos h, if_pos (show (renL f l).total = 0 from h)]
    unfold Book.deleteLevel
    rw [show (renB f b).lv = fun k => (b.lv k).map (renL f) from rfl]
    simp only
    rw [nextLevel_ren, eraseLevel_ren, setK_ren, Option.map_map]
    rfl
  · rw [if_neg h, if_neg (show ¬ (renL f l).total = 0 from h)]
    rw [show (renB f b).lv = fun k => (b.lv k).map (renL f) from rfl]
    simp only
    rw [replaceLevel_ren, setK_ren]
    rfl

theorem bookReduce_ren (hf : ∀ a b, f a = f b → a = b) (b : Book) (k : Kind) (o : Order) (q h v : Nat) :
    (renB f b).reduceOrder k (renO f o) q h v = (b.reduceOrder k o q h v).map (fun r => (renB f r.1, r.2)) := by
  unfold Book.reduceOrder
  rw [show (renB f b).lv k = (b.lv k).map (renL f) from rfl, show (renO f o).key = o.key from rfl, findLevel_ren]
  cases findLevel (b.lv k) o.key with
  | none => rfl
  | some l =>
    simp only [Option.map_some]
    by_cases hm : o.id ∈ l.ids
    · rw [if_pos hm, if_pos (show (renO f o).id ∈ (renL f l).ids from (mem_ren hf _ _).2 hm), reduce_ren hf, bookSettle_ren]; rfl
    · rw [if_neg hm, if_neg (show ¬ (renO f o).id ∈ (renL f l).ids from fun h => hm ((mem_ren hf _ _).1 h))]; rfl

theorem bookDelete_ren (hf : ∀ a b, f a = f b → a = b) (b : Book) (k : Kind) (o : Order) :
    (renB f b).deleteOrder k (renO f o) = (b.deleteOrder k o).map (fun r => (renB f r.1, r.2)) := by
  unfold Book.deleteOrder
  rw [show (renB f b).lv k = (b.lv k).map (renL f) from rfl, show (renO f o).key = o.key from rfl, findLevel_ren]
  cases findLevel (b.lv k) o.key with
  | none => rfl
  | some l =>
    simp only [Option.map_some]
    by_cases hm : o.id ∈ l.ids
    · rw [if_pos hm, if_pos (show (renO f o).id ∈ (renL f l).ids from (mem_ren hf _ _).2 hm), remove_ren hf, bookSettle_ren]; rfl
    · rw [if_neg hm, if_neg (show ¬ (renO f o).id ∈ (renL f l).ids from fun h => hm ((mem_ren hf _ _).1 h))]; rfl

/-! Programs that go on alike. -/

/-- If the first ends normally, so does the second, with a related result. -/
def Ensues {α β : Type} (R : α → β → Prop) (x : Except Err α) (y : Except Err β) : Prop := ∀ v, x = .ok v → ∃ w, y = .ok w ∧ R v w

theorem Ensues.ok {α β : Type} {R : α → β → Prop} {v : α} {w : β} (h : R v w) : Ensues R (.ok v) (.ok w) := by
  intro v' e; cases e; exact ⟨w, rfl, h⟩

theorem Ensues.error {α β : Type} {R : α → β → Prop} {e : Err} {y : Except Err β} : Ensues R (.error e) y := by
  intro v' h; cases h

theorem Ensues.bind {α β γ δ : Type} {R : α → β → Prop} {Q : γ → δ → Prop} {x : Except Err α} {y : Except Err β} {F : α → Except Err γ} {G : β → Except Err δ}
    (h : Ensues R x y) (k : ∀ v w, R v w → Ensues Q (F v) (G w)) : Ensues Q (x >>= F) (y >>= G) := by
  intro v hv
  cases x with
  | error e => cases hv
  | ok a =>
    obtain ⟨w, rfl, hr⟩ := h a rfl
    exact k a w hr v hv

theorem Ensues.mono {α β : Type} {R Q : α → β → Prop} {x : Except Err α} {y : Except Err β} (h : Ensues R x y) (k : ∀ v w, R v w → Q v w) : Ensues Q x y := by
  intro v hv
  obtain ⟨w, e, r⟩ := h v hv
  exact ⟨w, e, k _ _ r⟩

theorem Ensues.ite {α β : Type} {R : α → β → Prop} {c c' : Prop} [Decidable c] [Decidable c'] {x x' : Except Err α} {y y' : Except Err β} (e : c' ↔ c)
    (h : c → Ensues R x y) (h' : ¬ c → Ensues R x' y') : Ensues R (if c then x else x') (if c' then y else y') := by
  by_cases hc : c
  · rw [if_pos hc, if_pos (e.2 hc)]; exact h hc
  · rw [if_neg hc, if_neg (fun k => hc (e.1 k))]; exact h' hc

/-- The second state has the book and the orders of the first, under their other ids, and possibly more orders; but it has no order under
the other name of an id in `P` that is free in the first. After `a` and `b` the same callbacks have been made. -/
structure Twin (f : Nat → Nat) (P : Nat → Prop) (a b : List Event) (t s : Core) : Prop where
  book : s.book = renB f t.book
  sub : ∀ id o, t.orders id = some o → s.orders (f id) = some (renO f o)
  back : ∀ id, P id → t.orders id = none → s.orders (f id) = none
  ev : ∃ w, t.ev = a ++ w ∧ s.ev = b ++ w.map (renE f)

namespace Twin
variable {P : Nat → Prop} {a b : List Event} {t s : Core}

theorem emit (h : Twin f P a b t s) (e : Event) : Twin f P a b (t.emit e) (s.emit (renE f e)) := by
  obtain ⟨h1, h2, h3, w, h4, h5⟩ := h
  refine ⟨h1, h2, h3, w ++ [e], ?_, ?_⟩
  · show t.ev ++ [e] = _; rw [h4, List.append_assoc]
  · show s.ev ++ [renE f e] = _; rw [h5, List.append_assoc, List.map_append]; rfl

theorem setBook (h : Twin f P a b t s) (B : Book) : Twin f P a b { t with book := B } { s with book := renB f B } :=
  ⟨rfl, h.sub, h.back, h.ev⟩

theorem setOrders (hf : ∀ a b, f a = f b → a = b) (h : Twin f P a b t s) (id : Nat) (v : Option Order) :
    Twin f P a b { t with orders := setO t.orders id v } { s with orders := setO s.orders (f id) (v.map (renO f)) } := by
  refine ⟨h.book, ?_, ?_, h.ev⟩
  · intro i o hi
    show (if f i = f id then v.map (renO f) else s.orders (f i)) = _
    have hi : (if i = id then v else t.orders i) = some o := hi
    by_cases e : i = id
    · subst e
      rw [if_pos rfl] at hi
      rw [if_pos rfl, hi]; rfl
    · rw [if_neg e] at hi
      rw [if_neg (fun x => e (hf _ _ x)), h.sub _ _ hi]
  · intro i hp hi
    show (if f i = f id then v.map (renO f) else s.orders (f i)) = _
    have hi : (if i = id then v else t.orders i) = none := hi
    by_cases e : i = id
    · subst e
      rw [if_pos rfl] at hi
      rw [if_pos rfl, hi]; rfl
    · rw [if_neg e] at hi
      rw [if_neg (fun x => e (hf _ _ x)), h.back _ hp hi]

theorem symbol (h : Twin f P a b t s) : s.book.symbol = t.book.symbol := by rw [h.book]; rfl
theorem best (h : Twin f P a b t s) : s.book.best = t.book.best := by rw [h.book]; rfl
theorem lv (h : Twin f P a b t s) (k : Kind) : s.book.lv k = (t.book.lv k).map (renL f) := by rw [h.book]; rfl

theorem updateLevel (h : Twin f P a b t s) (u : LevelUpdate) : Twin f P a b (t.updateLevel u) (s.updateLevel u) := by
  unfold Core.updateLevel
  simp only
  rw [h.symbol]
  cases u with
  | mk ty l tp =>
    cases ty
    · exact (h.emit (.addLevel _ _ _)).emit (.updateBook _ _)
    · exact (h.emit (.updateLevel _ _ _)).emit (.updateBook _ _)
    · exact (h.emit (.deleteLevel _ _ _)).emit (.updateBook _ _)

theorem link (hf : ∀ a b, f a = f b → a = b) (h : Twin f P a b t s) (o : Order) : Ensues (Twin f P a b) (t.link o) (s.link (renO f o)) := by
  unfold Core.link
  rw [show (renO f o).kind = o.kind from rfl]
  cases o.kind with
  | none => exact .error
  | some k =>
    simp only
    rw [h.book, bookAdd_ren]
    have h1 := (h.setBook (t.book.addOrder k o).1).setOrders hf o.id (some o)
    by_cases hk : k.isLimit = true
    · rw [if_pos hk, if_pos hk]
      exact .ok (h1.updateLevel _)
    · rw [if_neg hk, if_neg hk]
      exact .ok h1

theorem unlink (hf : ∀ a b, f a = f b → a = b) (h : Twin f P a b t s) (o : Order) : Ensues (Twin f P a b) (t.unlink o) (s.unlink (renO f o)) := by
  unfold Core.unlink
  rw [show (renO f o).kind = o.kind from rfl]
  cases o.kind with
  | none => exact .error
  | some k =>
    simp only
    rw [h.book, bookDelete_ren hf]
    cases t.book.deleteOrder k o with
    | error e => exact .error
    | ok r =>
      obtain ⟨B, u⟩ := r
      simp only [Except.map]
      have h1 := (h.setBook B).setOrders hf o.id none
      by_cases hk : k.isLimit = true
      · rw [if_pos hk, if_pos hk]
        exact .ok (h1.updateLevel _)
      · rw [if_neg hk, if_neg hk]
        exact .ok h1

theorem shrink (hf : ∀ a b, f a = f b → a = b) (h : Twin f P a b t s) (o : Order) (q x y : Nat) :
    Ensues (Twin f P a b) (t.shrink o q x y) (s.shrink (renO f o) q x y) := by
  unfold Core.shrink
  rw [show (renO f o).kind = o.kind from rfl]
  cases o.kind with
  | none => exact .error
  | some k =>
    simp only
    rw [h.book, bookReduce_ren hf]
    cases t.book.reduceOrder k o q x y with
    | error e => exact .error
    | ok r =>
      obtain ⟨B, u⟩ := r
      simp only [Except.map]
      have h1 := (h.setBook B).setOrders hf o.id (if o.leaves = 0 then none else some o)
      have e : (if o.leaves = 0 then none else some o).map (renO f) = (if (renO f o).leaves = 0 then none else some (renO f o)) := by
        show _ = (if o.leaves = 0 then none else some (renO f o))
        split <;> rfl
      rw [e] at h1
      by_cases hk : k.isLimit = true
      · rw [if_pos hk, if_pos hk]
        exact .ok (h1.updateLevel _)
      · rw [if_neg hk, if_neg hk]
        exact .ok h1

theorem setPrices (h : Twin f P a b t s) (sd : Side) (p : Nat) : Twin f P a b (t.setPrices sd p) (s.setPrices sd p) := by
  unfold Core.setPrices
  have := h.setBook (t.book.updatePrices sd p)
  rw [h.book]
  cases sd <;> exact this

theorem reset (h : Twin f P a b t s) : Twin f P a b t.reset s.reset := by
  have := h.setBook t.book.resetMatching
  unfold Core.reset
  rw [h.book]
  exact this

theorem reduceBody (hf : ∀ a b, f a = f b → a = b) (h : Twin f P a b t s) (o : Order) (q : Nat) :
    Ensues (Twin f P a b) (t.reduceBody o q) (s.reduceBody (renO f o) q) := by
  unfold Core.reduceBody
  simp only
  have h1 := h.emit (if o.leaves - min q o.leaves > 0 then .updateOrder { o with leaves := o.leaves - min q o.leaves } else
    .deleteOrder { o with leaves := o.leaves - min q o.leaves })
  have e : renE f (if o.leaves - min q o.leaves > 0 then .updateOrder { o with leaves := o.leaves - min q o.leaves } else
      .deleteOrder { o with leaves := o.leaves - min q o.leaves }) = (if o.leaves - min q o.leaves > 0 then
        .updateOrder (renO f { o with leaves := o.leaves - min q o.leaves }) else .deleteOrder (renO f { o with leaves := o.leaves - min q o.leaves })) := by
    split <;> rfl
  rw [e] at h1
  exact h1.shrink hf { o with leaves := o.leaves - min q o.leaves } _ _ _

theorem reduceRec (hf : ∀ a b, f a = f b → a = b) (hz : ∀ i, f i = 0 ↔ i = 0) (h : Twin f P a b t s) {id q : Nat} (hp : t.orders id ≠ none) :
    Ensues (Twin f P a b) (t.reduceRec id q) (s.reduceRec (f id) q) := by
  obtain ⟨o, ho⟩ := Option.ne_none_iff_exists'.1 hp
  unfold Core.reduceRec
  rw [ho, h.sub _ _ ho]
  by_cases h1 : id = 0 ∨ q = 0
  · rw [if_pos h1, if_pos (show f id = 0 ∨ q = 0 from h1.imp (hz id).2 fun y => y)]; exact .ok h
  · rw [if_neg h1, if_neg (show ¬ (f id = 0 ∨ q = 0) from fun x => h1 (x.imp (hz id).1 fun y => y))]
    simp only
    rw [h.symbol]
    by_cases h2 : o.symbolId ≠ t.book.symbol.id
    · rw [if_pos h2]; exact .error
    · rw [if_neg h2, if_neg (show ¬ (renO f o).symbolId ≠ _ from h2)]
      exact .bind (h.reduceBody hf o q) fun v w h' => .ok h'.reset

theorem deleteBody (hf : ∀ a b, f a = f b → a = b) (h : Twin f P a b t s) (o : Order) : Ensues (Twin f P a b) (t.deleteBody o) (s.deleteBody (renO f o)) :=
  .bind (h.unlink hf o) fun _ _ h' => .ok (h'.emit (.deleteOrder o))

theorem deleteRec (hf : ∀ a b, f a = f b → a = b) (hz : ∀ i, f i = 0 ↔ i = 0) (h : Twin f P a b t s) {id : Nat} (hp : t.orders id ≠ none) :
    Ensues (Twin f P a b) (t.deleteRec id) (s.deleteRec (f id)) := by
  obtain ⟨o, ho⟩ := Option.ne_none_iff_exists'.1 hp
  unfold Core.deleteRec
  rw [ho, h.sub _ _ ho]
  by_cases h1 : id = 0
  · rw [if_pos h1, if_pos ((hz id).2 h1)]; exact .ok h
  · rw [if_neg h1, if_neg (show ¬ f id = 0 from fun x => h1 ((hz id).1 x))]
    simp only
    rw [h.symbol]
    by_cases h2 : o.symbolId ≠ t.book.symbol.id
    · rw [if_pos h2]; exact .error
    · rw [if_neg h2, if_neg (show ¬ (renO f o).symbolId ≠ _ from h2)]
      exact .bind (h.deleteBody hf o) fun v w h' => .ok h'.reset

theorem execResting (hf : ∀ a b, f a = f b → a = b) (h : Twin f P a b t s) (id p q : Nat) :
    Ensues (fun v w => Twin f P a b v w ∧ v.orders id ≠ none) (t.execResting id p q) (s.execResting (f id) p q) := by
  unfold Core.execResting
  cases ho : t.orders id with
  | none => exact .error
  | some o =>
    rw [h.sub _ _ ho]
    refine .ok ⟨((h.emit (.exec o p q)).setPrices o.side p).setOrders hf id (some { o with executed := add64 o.executed q }), ?_⟩
    show (if id = id then _ else _) ≠ none
    rw [if_pos rfl]; exact Option.some_ne_none _

theorem get (h : Twin f P a b t s) (id : Nat) : Ensues (fun o o' => o' = renO f o) (t.get id) (s.get (f id)) := by
  unfold Core.get
  cases ho : t.orders id with
  | none => exact .error
  | some o => rw [h.sub _ _ ho]; exact .ok rfl

/-- The state and the incoming order. -/
def Both (f : Nat → Nat) (P : Nat → Prop) (a b : List Event) (i : Nat) (v w : Core × Order) : Prop := Twin f P a b v.1 w.1 ∧ w.2 = renO f v.2 ∧ v.2.id = i

theorem execTaker (h : Twin f P a b t s) (o : Order) (p q : Nat) : Both f P a b o.id (t.execTaker o p q) (s.execTaker (renO f o) p q) :=
  ⟨(h.emit (.exec o p q)).setPrices o.side p, rfl, rfl⟩

/-! Chains. -/

theorem chainOrders (h : Twin f P a b t s) (volume : Nat) : ∀ (ids : List Nat) (av : Nat),
    Ensues (fun x y => y = x) (t.chainOrders volume ids av) (s.chainOrders volume (ids.map f) av)
  | [], av => .ok rfl
  | id :: ids, av => by
    refine .bind (h.get id) fun o o' e => ?_
    subst e
    exact .ite Iff.rfl (fun _ => .ok rfl) fun _ => .ite Iff.rfl (fun _ => .ok rfl) fun _ => chainOrders h volume ids _

theorem chainLevels (h : Twin f P a b t s) (k : Kind) (p volume : Nat) : ∀ (ls : List Level) (av : Nat),
    Ensues (fun x y => y = x) (t.chainLevels k p volume ls av) (s.chainLevels k p volume (ls.map (renL f)) av)
  | [], av => .ok rfl
  | l :: ls, av => by
    unfold Core.chainLevels
    show Ensues _ (if (if k.isBidType then p ≤ l.price else l.price ≤ p) then _ else _) (if (if k.isBidType then p ≤ l.price else l.price ≤ p) then _ else _)
    by_cases h1 : (if k.isBidType then p ≤ l.price else l.price ≤ p)
    · rw [if_pos h1, if_pos h1]
      refine .bind (h.chainOrders volume l.ids av) fun x y e => ?_
      subst e
      cases y with
      | inr r => exact .ok rfl
      | inl r => exact chainLevels h k p volume ls r
    · rw [if_neg h1, if_neg h1]; exact .ok rfl

theorem frontIds_ren (ls : List Level) : Core.frontIds (ls.map (renL f)) = (Core.frontIds ls).map f := by cases ls <;> rfl

theorem chainPair (h : Twin f P a b t s) : ∀ (n : Nat) (ll sl : List Level) (lo so : List Nat) (req av : Nat),
    Ensues (fun x y => y = x) (t.chainPair n ll sl lo so req av) (s.chainPair n (ll.map (renL f)) (sl.map (renL f)) (lo.map f) (so.map f) req av)
  | 0, _, _, _, _, _, _ => .error
  | n + 1, [], _, _, _, _, _ => by simp only [Core.chainPair, List.map_nil]; exact .ok rfl
  | n + 1, _ :: _, [], _, _, _, _ => by simp only [Core.chainPair, List.map_cons, List.map_nil]; exact .ok rfl
  | n + 1, l :: ll, m :: sl, lid :: lo, sid :: so, req, av => by
    simp only [Core.chainPair, List.map_cons]
    refine .bind (h.get sid) fun o o' e => ?_
    subst e
    exact .ite Iff.rfl (fun _ => .ok rfl) fun _ => .ite Iff.rfl (fun _ => chainPair h n (l :: ll) (m :: sl) (sid :: so) lo _ req)
      fun _ => chainPair h n (l :: ll) (m :: sl) (lid :: lo) so req _
  | n + 1, l :: ll, m :: sl, [], [], req, av => by
    simp only [Core.chainPair, List.map_cons, List.map_nil]
    have := chainPair h n ll sl (Core.frontIds ll) (Core.frontIds sl) req av
    rw [← frontIds_ren, ← frontIds_ren] at this
    exact this
  | n + 1, l :: ll, m :: sl, [], sid :: so, req, av => by
    simp only [Core.chainPair, List.map_cons, List.map_nil]
    have := chainPair h n ll (m :: sl) (Core.frontIds ll) (sid :: so) req av
    rw [← frontIds_ren] at this
    exact this
  | n + 1, l :: ll, m :: sl, lid :: lo, [], req, av => by
    simp only [Core.chainPair, List.map_cons, List.map_nil]
    have := chainPair h n (l :: ll) sl (lid :: lo) (Core.frontIds sl) req av
    rw [← frontIds_ren] at this
    exact this

theorem levelsSize_ren (ls : List Level) : Core.levelsSize (ls.map (renL f)) = Core.levelsSize ls := by
  unfold Core.levelsSize
  rw [List.map_map]
  congr 2
  funext l
  show (l.ids.map f).length + 1 = _
  rw [List.length_map]

theorem chainCross (h : Twin f P a b t s) (bids asks : List Level) :
    Ensues (fun x y => y = x) (t.chainCross bids asks) (s.chainCross (bids.map (renL f)) (asks.map (renL f))) := by
  unfold Core.chainCross
  rw [frontIds_ren, frontIds_ren, levelsSize_ren, levelsSize_ren]
  cases hb : Core.frontIds bids with
  | nil => exact .error
  | cons bid bs =>
    cases ha : Core.frontIds asks with
    | nil => exact .error
    | cons ask as =>
      simp only [List.map_cons]
      refine .bind (h.get bid) fun x x' e => ?_
      subst e
      refine .bind (h.get ask) fun y y' e => ?_
      subst e
      have c1 := h.chainPair (Core.levelsSize bids + Core.levelsSize asks + 1) asks bids (ask :: as) (bid :: bs) y.leaves 0
      have c2 := h.chainPair (Core.levelsSize bids + Core.levelsSize asks + 1) bids asks (bid :: bs) (ask :: as) x.leaves 0
      show Ensues _ (if (x.isAON && y.isAON) = true then _ else _) (if (x.isAON && y.isAON) = true then _ else _)
      by_cases h1 : (x.isAON && y.isAON) = true
      · rw [if_pos h1, if_pos h1]
        show Ensues _ (if y.leaves > x.leaves then _ else _) (if y.leaves > x.leaves then _ else _)
        by_cases h2 : y.leaves > x.leaves
        · rw [if_pos h2, if_pos h2]; exact c1
        · rw [if_neg h2, if_neg h2]; exact c2
      · rw [if_neg h1, if_neg h1]
        show Ensues _ (if y.isAON = true then _ else _) (if y.isAON = true then _ else _)
        by_cases h2 : y.isAON = true
        · rw [if_pos h2, if_pos h2]; exact c1
        · rw [if_neg h2, if_neg h2]; exact c2

/-- The state and a value. -/
def With {α : Type} (f : Nat → Nat) (P : Nat → Prop) (a b : List Event) (v w : Core × α) : Prop := Twin f P a b v.1 w.1 ∧ w.2 = v.2

theorem execChainOrder (hf : ∀ a b, f a = f b → a = b) (hz : ∀ i, f i = 0 ↔ i = 0) (h : Twin f P a b t s) (id p volume : Nat) :
    Ensues (With f P a b) (t.execChainOrder id p volume) (s.execChainOrder (f id) p volume) := by
  unfold Core.execChainOrder
  refine .bind (h.get id) fun o o' e => ?_
  subst e
  show Ensues _ (if o.isAON = true then _ else _) (if o.isAON = true then _ else _)
  by_cases h1 : o.isAON = true
  · rw [if_pos h1, if_pos h1]
    refine .bind (h.execResting hf id p o.leaves) fun v w hv => ?_
    exact .bind (hv.1.deleteRec hf hz hv.2) fun v w hv => .ok ⟨hv, rfl⟩
  · rw [if_neg h1, if_neg h1]
    refine .bind (h.execResting hf id p (min o.leaves volume)) fun v w hv => ?_
    exact .bind (hv.1.reduceRec hf hz hv.2) fun v w hv => .ok ⟨hv, rfl⟩

theorem execChainIds (hf : ∀ a b, f a = f b → a = b) (hz : ∀ i, f i = 0 ↔ i = 0) (p : Nat) : ∀ (ids : List Nat) {t s : Core} (_ : Twin f P a b t s) (volume : Nat),
    Ensues (With f P a b) (Core.execChainIds p ids t volume) (Core.execChainIds p (ids.map f) s volume)
  | [], _, _, h, _ => .ok ⟨h, rfl⟩
  | id :: ids, t, s, h, volume => by
    rw [List.map_cons]
    unfold Core.execChainIds
    by_cases h1 : volume = 0
    · rw [if_pos h1, if_pos h1]; exact .ok ⟨h, rfl⟩
    · rw [if_neg h1, if_neg h1]
      refine .bind (h.execChainOrder hf hz id p volume) fun v w hv => ?_
      obtain ⟨v, q⟩ := v
      obtain ⟨w, q'⟩ := w
      obtain ⟨hv, e⟩ := hv
      cases e
      exact execChainIds hf hz p ids hv _

theorem execChain (hf : ∀ a b, f a = f b → a = b) (hz : ∀ i, f i = 0 ↔ i = 0) (p : Nat) : ∀ (ls : List Level) {t s : Core} (_ : Twin f P a b t s) (volume : Nat),
    Ensues (Twin f P a b) (Core.execChain p ls t volume) (Core.execChain p (ls.map (renL f)) s volume)
  | [], _, _, h, _ => .ok h
  | l :: ls, t, s, h, volume => by
    rw [List.map_cons]
    unfold Core.execChain
    by_cases h1 : volume = 0
    · rw [if_pos h1, if_pos h1]; exact .ok h
    · rw [if_neg h1, if_neg h1]
      refine .bind (execChainIds hf hz p l.ids h volume) fun v w hv => ?_
      obtain ⟨v, q⟩ := v
      obtain ⟨w, q'⟩ := w
      obtain ⟨hv, e⟩ := hv
      cases e
      exact execChain hf hz p ls hv _

/-! An incoming order. -/

theorem matchLevel (hf : ∀ a b, f a = f b → a = b) (hz : ∀ i, f i = 0 ↔ i = 0) : ∀ (ids : List Nat) {t s : Core} (_ : Twin f P a b t s) (o : Order),
    Ensues (fun v w => Both f P a b o.id (v.1, v.2.1) (w.1, w.2.1) ∧ w.2.2 = v.2.2) (Core.matchLevel ids t o) (Core.matchLevel (ids.map f) s (renO f o))
  | [], _, _, h, _ => .ok ⟨⟨h, rfl, rfl⟩, rfl⟩
  | id :: ids, t, s, h, o => by
    rw [List.map_cons]
    unfold Core.matchLevel
    refine .bind (h.get id) fun r r' e => ?_
    subst e
    refine .ite Iff.rfl (fun _ => .ok ⟨⟨h, rfl, rfl⟩, rfl⟩) fun _ => ?_
    refine .bind (h.execResting hf id r.price (min r.leaves o.leaves)) fun v w hv => ?_
    refine .bind (hv.1.reduceRec hf hz hv.2) fun v w hv => ?_
    have h1 := hv.execTaker o r.price (min r.leaves o.leaves)
    refine .ite Iff.rfl (fun _ => .ok ⟨h1, rfl⟩) fun _ => ?_
    exact matchLevel hf hz ids h1.1 _

theorem matchOrderN (hf : ∀ a b, f a = f b → a = b) (hz : ∀ i, f i = 0 ↔ i = 0) : ∀ (n : Nat) {t s : Core} (_ : Twin f P a b t s) (o : Order),
    Ensues (Both f P a b o.id) (Core.matchOrderN n t o) (Core.matchOrderN n s (renO f o))
  | 0, _, _, _, _ => .error
  | n + 1, t, s, h, o => by
    unfold Core.matchOrderN
    simp only
    rw [h.best, show Core.oppKind (renO f o) = Core.oppKind o from rfl, h.lv]
    cases t.book.best (Core.oppKind o) with
    | none => exact .ok ⟨h, rfl, rfl⟩
    | some p =>
      refine .ite Iff.rfl (fun _ => ?_) fun _ => .ok ⟨h, rfl, rfl⟩
      rw [levelsFrom_ren]
      cases levelsFrom (t.book.lv (Core.oppKind o)) p with
      | nil => exact .error
      | cons l ls =>
        refine .ite Iff.rfl (fun _ => ?_) fun _ => ?_
        · refine .bind (h.chainLevels _ o.price o.leaves (l :: ls) 0) fun x y e => ?_
          subst e
          refine .ite Iff.rfl (fun _ => .ok ⟨h, rfl, rfl⟩) fun _ => ?_
          exact .bind (execChain hf hz o.price (l :: ls) h y) fun v w hv => .ok (hv.execTaker o _ _)
        · refine .bind (matchLevel hf hz l.ids h o) fun v w hv => ?_
          obtain ⟨v, v1, v2⟩ := v
          obtain ⟨w, w1, w2⟩ := w
          obtain ⟨⟨hv, e1, e2⟩, e3⟩ := hv
          simp only at hv e1 e2 e3
          subst e1 e3
          refine .ite Iff.rfl (fun _ => .ok ⟨hv, rfl, e2⟩) fun _ => ?_
          rw [← e2]
          exact matchOrderN hf hz n hv v1

theorem kindCount_ren (B : Book) (k : Kind) : Core.kindCount (renB f B) k = Core.kindCount B k := by
  unfold Core.kindCount
  rw [show (renB f B).lv k = (B.lv k).map (renL f) from rfl, List.map_map]
  congr 2
  funext l
  show (l.ids.map f).length = _
  rw [List.length_map]

theorem matchOrder (hf : ∀ a b, f a = f b → a = b) (hz : ∀ i, f i = 0 ↔ i = 0) (h : Twin f P a b t s) (o : Order) :
    Ensues (Both f P a b o.id) (t.matchOrder o) (s.matchOrder (renO f o)) := by
  unfold Core.matchOrder
  rw [h.book, kindCount_ren]
  exact matchOrderN hf hz _ h o

theorem marketLimit_ren (B : Book) (o : Order) : Core.marketLimit (renB f B) (renO f o) = Core.marketLimit B o := rfl

theorem matchMarket (hf : ∀ a b, f a = f b → a = b) (hz : ∀ i, f i = 0 ↔ i = 0) (h : Twin f P a b t s) (o : Order) :
    Ensues (Both f P a b o.id) (t.matchMarket o) (s.matchMarket (renO f o)) := by
  unfold Core.matchMarket
  rw [h.book, marketLimit_ren]
  cases Core.marketLimit t.book o with
  | none => exact .ok ⟨h, rfl, rfl⟩
  | some p => exact h.matchOrder hf hz { o with price := p }

/-! Stop orders. -/

theorem activateStop (hf : ∀ a b, f a = f b → a = b) (hz : ∀ i, f i = 0 ↔ i = 0) (h : Twin f P a b t s) (o : Order) :
    Ensues (Twin f P a b) (t.activateStop o) (s.activateStop (renO f o)) := by
  unfold Core.activateStop
  refine .bind (h.unlink hf o) fun v w hv => ?_
  refine .bind ((hv.emit (.updateOrder (Core.toMarket o))).matchMarket hf hz (Core.toMarket o)) fun v w hv => ?_
  obtain ⟨v, v1⟩ := v
  obtain ⟨w, w1⟩ := w
  obtain ⟨hv, e1, _⟩ := hv
  simp only at hv e1
  subst e1
  exact .ok (hv.emit (.deleteOrder v1))

theorem activateStopLimit (hf : ∀ a b, f a = f b → a = b) (hz : ∀ i, f i = 0 ↔ i = 0) (h : Twin f P a b t s) (o : Order) :
    Ensues (Twin f P a b) (t.activateStopLimit o) (s.activateStopLimit (renO f o)) := by
  unfold Core.activateStopLimit
  refine .bind (h.unlink hf o) fun v w hv => ?_
  refine .bind ((hv.emit (.updateOrder (Core.toLimit o))).matchOrder hf hz (Core.toLimit o)) fun v w hv => ?_
  obtain ⟨v, v1⟩ := v
  obtain ⟨w, w1⟩ := w
  obtain ⟨hv, e1, _⟩ := hv
  simp only at hv e1
  subst e1
  exact .ite Iff.rfl (fun _ => hv.link hf v1) fun _ => .ok (hv.emit (.deleteOrder v1))

theorem activateOrder (hf : ∀ a b, f a = f b → a = b) (hz : ∀ i, f i = 0 ↔ i = 0) (h : Twin f P a b t s) (id : Nat) :
    Ensues (Twin f P a b) (t.activateOrder id) (s.activateOrder (f id)) := by
  unfold Core.activateOrder
  refine .bind (h.get id) fun o o' e => ?_
  subst e
  rw [show (renO f o).type = o.type from rfl]
  cases o.type
  · exact .error
  · exact .error
  · exact h.activateStop hf hz o
  · exact h.activateStopLimit hf hz o
  · exact h.activateStop hf hz o
  · exact h.activateStopLimit hf hz o

theorem activateIds (hf : ∀ a b, f a = f b → a = b) (hz : ∀ i, f i = 0 ↔ i = 0) : ∀ (ids : List Nat) {t s : Core} (_ : Twin f P a b t s) (r : Bool),
    Ensues (With f P a b) (Core.activateIds ids t r) (Core.activateIds (ids.map f) s r)
  | [], _, _, h, _ => .ok ⟨h, rfl⟩
  | id :: ids, t, s, h, r => by
    rw [List.map_cons]
    unfold Core.activateIds
    exact .bind (h.activateOrder hf hz id) fun v w hv => activateIds hf hz ids hv true

theorem activateLevel (hf : ∀ a b, f a = f b → a = b) (hz : ∀ i, f i = 0 ↔ i = 0) (h : Twin f P a b t s) (k : Kind) (p : Nat) :
    Ensues (With f P a b) (t.activateLevel k p) (s.activateLevel k p) := by
  unfold Core.activateLevel
  rw [h.best, h.lv]
  cases t.book.best k with
  | none => exact .ok ⟨h, rfl⟩
  | some q =>
    refine .ite Iff.rfl (fun _ => ?_) fun _ => .ok ⟨h, rfl⟩
    rw [findLevel_ren]
    cases findLevel (t.book.lv k) q with
    | none => exact .error
    | some l => exact activateIds hf hz l.ids h false

theorem retrail_ren (o : Order) (p : Nat) : Core.retrail (renO f o) p = renO f (Core.retrail o p) := by
  unfold Core.retrail
  rw [show (renO f o).type = o.type from rfl]
  cases o.type <;> rfl

theorem calcTrailing_ren (B : Book) (o : Order) : (renB f B).calcTrailing (renO f o) = B.calcTrailing o := rfl

theorem recalcIds (hf : ∀ a b, f a = f b → a = b) (hz : ∀ i, f i = 0 ↔ i = 0) : ∀ (ids : List Nat) {t s : Core} (_ : Twin f P a b t s) (r : Bool),
    Ensues (With f P a b) (Core.recalcIds ids t r) (Core.recalcIds (ids.map f) s r)
  | [], _, _, h, _ => .ok ⟨h, rfl⟩
  | id :: ids, t, s, h, r => by
    rw [List.map_cons]
    unfold Core.recalcIds
    refine .bind (h.get id) fun o o' e => ?_
    subst e
    simp only
    rw [h.book, calcTrailing_ren, retrail_ren]
    refine .ite Iff.rfl (fun _ => ?_) fun _ => recalcIds hf hz ids h r
    refine .bind (h.unlink hf o) fun v w hv => ?_
    refine .bind ((hv.emit (.updateOrder (Core.retrail o (t.book.calcTrailing o)))).link hf (Core.retrail o (t.book.calcTrailing o))) fun v w hv => ?_
    exact recalcIds hf hz ids hv true

theorem recalcLoop (hf : ∀ a b, f a = f b → a = b) (hz : ∀ i, f i = 0 ↔ i = 0) (k : Kind) : ∀ (n : Nat) {t s : Core} (_ : Twin f P a b t s) (prev cur : Option Nat),
    Ensues (Twin f P a b) (Core.recalcLoop k n t prev cur) (Core.recalcLoop k n s prev cur)
  | 0, _, _, _, _, _ => .error
  | n + 1, _, _, h, _, none => .ok h
  | n + 1, t, s, h, prev, some c => by
    unfold Core.recalcLoop
    rw [h.lv, findLevel_ren]
    cases findLevel (t.book.lv k) c with
    | none => exact .error
    | some l =>
      refine .bind (recalcIds hf hz l.ids h false) fun v w hv => ?_
      obtain ⟨v, v1⟩ := v
      obtain ⟨w, w1⟩ := w
      obtain ⟨hv, e1⟩ := hv
      simp only at hv e1
      subst e1
      refine .ite Iff.rfl (fun _ => ?_) fun _ => ?_
      · rw [hv.best]
        exact recalcLoop hf hz k n hv _ _
      · rw [hv.lv, nextLevel_ren, Option.map_map]
        exact recalcLoop hf hz k n hv _ _

theorem recalcFrom (hf : ∀ a b, f a = f b → a = b) (hz : ∀ i, f i = 0 ↔ i = 0) (k : Kind) {n m : Nat} (e : m = n) (h : Twin f P a b t s) (prev cur : Option Nat) :
    Ensues (Twin f P a b) (Core.recalcLoop k n t prev cur) (Core.recalcLoop k m s prev cur) := by
  subst e
  exact recalcLoop hf hz k _ h prev cur

theorem recalcBuy (hf : ∀ a b, f a = f b → a = b) (hz : ∀ i, f i = 0 ↔ i = 0) (h : Twin f P a b t s) : Ensues (Twin f P a b) t.recalcBuy s.recalcBuy := by
  unfold Core.recalcBuy
  rw [h.best]
  cases t.book.best .ask with
  | none => exact .ok h
  | some q =>
    obtain ⟨so, sb, se⟩ := s
    have hb : sb = renB f t.book := h.book
    subst hb
    have h1 := h.setBook { t.book with trailAsk := t.book.marketTrailAsk }
    refine .ite Iff.rfl (fun _ => .ok h1) fun _ => ?_
    exact recalcFrom hf hz .tBuyStop (by unfold Core.recalcFuel; rw [show Core.kindCount { renB f t.book with trailAsk := (renB f t.book).marketTrailAsk } .tBuyStop = _ from
      kindCount_ren (f := f) { t.book with trailAsk := t.book.marketTrailAsk } .tBuyStop]) h1 none (t.book.best .tBuyStop)

theorem recalcSell (hf : ∀ a b, f a = f b → a = b) (hz : ∀ i, f i = 0 ↔ i = 0) (h : Twin f P a b t s) : Ensues (Twin f P a b) t.recalcSell s.recalcSell := by
  unfold Core.recalcSell
  rw [h.best]
  cases t.book.best .bid with
  | none => exact .ok h
  | some q =>
    obtain ⟨so, sb, se⟩ := s
    have hb : sb = renB f t.book := h.book
    subst hb
    have h1 := h.setBook { t.book with trailBid := t.book.marketTrailBid }
    refine .ite Iff.rfl (fun _ => .ok h1) fun _ => ?_
    exact recalcFrom hf hz .tSellStop (by unfold Core.recalcFuel; rw [show Core.kindCount { renB f t.book with trailBid := (renB f t.book).marketTrailBid } .tSellStop = _ from
      kindCount_ren (f := f) { t.book with trailBid := t.book.marketTrailBid } .tSellStop]) h1 none (t.book.best .tSellStop)

theorem activateEither (hf : ∀ a b, f a = f b → a = b) (hz : ∀ i, f i = 0 ↔ i = 0) (h : Twin f P a b t s) (k l : Kind) (p : Book → Nat)
    (hp : ∀ B, p (renB f B) = p B) : Ensues (With f P a b) (t.activateEither k l p) (s.activateEither k l p) := by
  unfold Core.activateEither
  rw [h.book, hp]
  refine .bind (h.activateLevel hf hz k _) fun v w hv => ?_
  obtain ⟨v, v1⟩ := v
  obtain ⟨w, w1⟩ := w
  obtain ⟨hv, e1⟩ := hv
  simp only at hv e1
  subst e1
  refine .ite Iff.rfl (fun _ => .ok ⟨hv, rfl⟩) fun _ => ?_
  rw [hv.book, hp]
  exact hv.activateLevel hf hz l _

theorem activateLoop (hf : ∀ a b, f a = f b → a = b) (hz : ∀ i, f i = 0 ↔ i = 0) : ∀ (n : Nat) {t s : Core} (_ : Twin f P a b t s) (r : Bool),
    Ensues (With f P a b) (Core.activateLoop n t r) (Core.activateLoop n s r)
  | 0, _, _, _, _ => .error
  | n + 1, t, s, h, r => by
    unfold Core.activateLoop
    refine .bind (h.activateEither hf hz _ _ Book.marketAsk fun _ => rfl) fun v w hv => ?_
    obtain ⟨v, v1⟩ := v
    obtain ⟨w, w1⟩ := w
    obtain ⟨hv, e1⟩ := hv
    simp only at hv e1
    subst e1
    refine .bind (hv.recalcBuy hf hz) fun v w hv => ?_
    refine .bind (hv.activateEither hf hz _ _ Book.marketBid fun _ => rfl) fun v w hv => ?_
    obtain ⟨v, v2⟩ := v
    obtain ⟨w, w2⟩ := w
    obtain ⟨hv, e1⟩ := hv
    simp only at hv e1
    subst e1
    refine .bind (hv.recalcSell hf hz) fun v w hv => ?_
    exact .ite Iff.rfl (fun _ => activateLoop hf hz n hv true) fun _ => .ok ⟨hv, rfl⟩

theorem stopCount_ren (B : Book) : Core.stopCount (renB f B) = Core.stopCount B := by
  unfold Core.stopCount
  rw [kindCount_ren, kindCount_ren, kindCount_ren, kindCount_ren]

theorem activateAll (hf : ∀ a b, f a = f b → a = b) (hz : ∀ i, f i = 0 ↔ i = 0) (h : Twin f P a b t s) : Ensues (With f P a b) t.activateAll s.activateAll := by
  unfold Core.activateAll
  rw [h.book, stopCount_ren]
  exact activateLoop hf hz _ h false

/-! Matching the book. -/

theorem matchPair (hf : ∀ a b, f a = f b → a = b) (hz : ∀ i, f i = 0 ↔ i = 0) (h : Twin f P a b t s) (x y : Nat) :
    Ensues (Twin f P a b) (t.matchPair x y) (s.matchPair (f x) (f y)) := by
  unfold Core.matchPair
  refine .bind (h.get x) fun o o' e => ?_
  subst e
  refine .bind (h.get y) fun r r' e => ?_
  subst e
  have key : ∀ u v : Order, Ensues (Twin f P a b)
      (do let s ← t.execResting u.id u.price u.leaves
          let s ← s.deleteRec u.id
          let s ← s.execResting v.id u.price u.leaves
          s.reduceRec v.id u.leaves)
      (do let s ← s.execResting (f u.id) u.price u.leaves
          let s ← s.deleteRec (f u.id)
          let s ← s.execResting (f v.id) u.price u.leaves
          s.reduceRec (f v.id) u.leaves) := by
    intro u v
    refine .bind (h.execResting hf _ _ _) fun _ _ hv => ?_
    refine .bind (hv.1.deleteRec hf hz hv.2) fun _ _ hv => ?_
    refine .bind (hv.execResting hf _ _ _) fun _ _ hv => ?_
    exact hv.1.reduceRec hf hz hv.2
  by_cases hc : o.leaves > r.leaves
  · rw [if_pos hc, if_pos (show (renO f o).leaves > (renO f r).leaves from hc)]
    exact key r o
  · rw [if_neg hc, if_neg (show ¬ (renO f o).leaves > (renO f r).leaves from hc)]
    exact key o r

theorem matchPairs (hf : ∀ a b, f a = f b → a = b) (hz : ∀ i, f i = 0 ↔ i = 0) (bp ap : Nat) : ∀ (bs as : List Nat) {t s : Core} (_ : Twin f P a b t s),
    Ensues (With f P a b) (Core.matchPairs bp ap bs as t) (Core.matchPairs bp ap (bs.map f) (as.map f) s)
  | [], _, _, _, h => by unfold Core.matchPairs; exact .ok ⟨h, rfl⟩
  | _ :: _, [], _, _, h => by unfold Core.matchPairs; exact .ok ⟨h, rfl⟩
  | bid :: bs, ask :: as, t, s, h => by
    simp only [List.map_cons]
    unfold Core.matchPairs
    refine .bind (h.get bid) fun x x' e => ?_
    subst e
    refine .bind (h.get ask) fun y y' e => ?_
    subst e
    refine .ite Iff.rfl (fun _ => ?_) fun _ => .bind (h.matchPair hf hz bid ask) fun v w hv => matchPairs hf hz bp ap bs as hv
    simp only
    rw [h.lv, h.lv, levelsFrom_ren, levelsFrom_ren]
    refine .bind (h.chainCross _ _) fun c c' e => ?_
    subst e
    refine .ite Iff.rfl (fun _ => .ok ⟨h, rfl⟩) fun _ => .ite Iff.rfl (fun _ => ?_) fun _ => ?_
    · exact .bind (execChain hf hz x.price _ h _) fun v w hv => .bind (execChain hf hz x.price _ hv _) fun v w hv => .ok ⟨hv, rfl⟩
    · exact .bind (execChain hf hz y.price _ h _) fun v w hv => .bind (execChain hf hz y.price _ hv _) fun v w hv => .ok ⟨hv, rfl⟩

theorem matchBookN (hf : ∀ a b, f a = f b → a = b) (hz : ∀ i, f i = 0 ↔ i = 0) : ∀ (n : Nat) {t s : Core} (_ : Twin f P a b t s),
    Ensues (Twin f P a b) (Core.matchBookN n t) (Core.matchBookN n s)
  | 0, _, _, _ => .error
  | n + 1, t, s, h => by
    unfold Core.matchBookN
    rw [h.lv, h.lv, show Core.crossed s.book = Core.crossed t.book by rw [h.book]; rfl]
    cases Core.crossed t.book with
    | none =>
      refine .bind (h.activateAll hf hz) fun v w hv => ?_
      obtain ⟨v, v1⟩ := v
      obtain ⟨w, w1⟩ := w
      obtain ⟨hv, e1⟩ := hv
      simp only at hv e1
      subst e1
      exact .ite Iff.rfl (fun _ => matchBookN hf hz n hv) fun _ => .ok hv
    | some c =>
      obtain ⟨bp, ap⟩ := c
      simp only
      rw [findLevel_ren, findLevel_ren]
      cases findLevel (t.book.lv .bid) bp with
      | none => exact .error
      | some bl =>
        cases findLevel (t.book.lv .ask) ap with
        | none => exact .error
        | some al =>
          refine .bind (matchPairs hf hz bp ap bl.ids al.ids h) fun v w hv => ?_
          obtain ⟨v, v1⟩ := v
          obtain ⟨w, w1⟩ := w
          obtain ⟨hv, e1⟩ := hv
          simp only at hv e1
          subst e1
          refine .ite Iff.rfl (fun _ => .ok hv) fun _ => ?_
          have m1 : w.book.marketAsk = v.book.marketAsk := by rw [hv.book]; rfl
          rw [m1]
          refine .bind (hv.activateLevel hf hz _ _) fun v w hv => ?_
          have m2 : w.1.book.marketBid = v.1.book.marketBid := by rw [hv.1.book]; rfl
          rw [m2]
          refine .bind (hv.1.activateLevel hf hz _ _) fun v w hv => ?_
          exact matchBookN hf hz n hv.1

theorem kindVolume_ren (B : Book) (k : Kind) : Core.kindVolume (renB f B) k = Core.kindVolume B k := by
  unfold Core.kindVolume
  rw [show (renB f B).lv k = (B.lv k).map (renL f) from rfl, List.map_map]
  rfl

theorem matchBook (hf : ∀ a b, f a = f b → a = b) (hz : ∀ i, f i = 0 ↔ i = 0) (h : Twin f P a b t s) : Ensues (Twin f P a b) t.matchBook s.matchBook := by
  unfold Core.matchBook Core.matchFuel Core.volume
  rw [h.book]
  simp only [kindVolume_ren, stopCount_ren]
  exact matchBookN hf hz _ h

/-! Calls. -/

theorem finish (hf : ∀ a b, f a = f b → a = b) (hz : ∀ i, f i = 0 ↔ i = 0) (m : Bool) (h : Twin f P a b t s) : Ensues (With f P a b) (t.finish m) (s.finish m) := by
  unfold Core.finish
  cases m with
  | true => exact .bind (h.matchBook hf hz) fun v w hv => .ok ⟨hv.reset, rfl⟩
  | false => exact .ok ⟨h.reset, rfl⟩

theorem insertNew (hf : ∀ a b, f a = f b → a = b) (hz : ∀ i, f i = 0 ↔ i = 0) (m : Bool) (h : Twin f P a b t s) {o : Order} (hp : P o.id) :
    Ensues (With f P a b) (t.insertNew m o) (s.insertNew m (renO f o)) := by
  unfold Core.insertNew
  rw [show (renO f o).id = f o.id from rfl]
  cases ho : t.orders o.id with
  | some r => rw [h.sub _ _ ho]; exact .ok ⟨h.emit (.deleteOrder o), rfl⟩
  | none =>
    rw [h.back _ hp ho]
    exact .bind (h.link hf o) fun v w hv => hv.finish hf hz m

theorem gone (hf : ∀ a b, f a = f b → a = b) (hz : ∀ i, f i = 0 ↔ i = 0) (m : Bool) (h : Twin f P a b t s) (o : Order) :
    Ensues (With f P a b) ((t.emit (.deleteOrder o)).finish m) ((s.emit (.deleteOrder (renO f o))).finish m) := (h.emit (.deleteOrder o)).finish hf hz m

theorem matchIf (hf : ∀ a b, f a = f b → a = b) (hz : ∀ i, f i = 0 ↔ i = 0) (m : Bool) (h : Twin f P a b t s) (o : Order) :
    Ensues (Both f P a b o.id) (t.matchIf m o) (s.matchIf m (renO f o)) := by
  unfold Core.matchIf
  cases m with
  | true => exact h.matchOrder hf hz o
  | false => exact .ok ⟨h, rfl, rfl⟩

theorem addMarket (hf : ∀ a b, f a = f b → a = b) (hz : ∀ i, f i = 0 ↔ i = 0) (m : Bool) (h : Twin f P a b t s) (o : Order) :
    Ensues (With f P a b) (t.addMarket m o) (s.addMarket m (renO f o)) := by
  unfold Core.addMarket
  have h1 := h.emit (.addOrder o)
  cases m with
  | true =>
    refine .bind (h1.matchMarket hf hz o) fun v w hv => ?_
    obtain ⟨v, v1⟩ := v
    obtain ⟨w, w1⟩ := w
    obtain ⟨hv, e1, _⟩ := hv
    simp only at hv e1
    subst e1
    exact hv.gone hf hz true v1
  | false => exact h1.gone hf hz false o

theorem restOrCancel (hf : ∀ a b, f a = f b → a = b) (hz : ∀ i, f i = 0 ↔ i = 0) (m : Bool) (h : Twin f P a b t s) {o : Order} (hp : P o.id) :
    Ensues (With f P a b) (t.restOrCancel m o) (s.restOrCancel m (renO f o)) := by
  unfold Core.restOrCancel
  exact .ite Iff.rfl (fun _ => h.insertNew hf hz m hp) fun _ => h.gone hf hz m o

theorem addLimit (hf : ∀ a b, f a = f b → a = b) (hz : ∀ i, f i = 0 ↔ i = 0) (m : Bool) (h : Twin f P a b t s) {o : Order} (hp : P o.id) :
    Ensues (With f P a b) (t.addLimit m o) (s.addLimit m (renO f o)) := by
  unfold Core.addLimit
  refine .bind ((h.emit (.addOrder o)).matchIf hf hz m o) fun v w hv => ?_
  obtain ⟨v, v1⟩ := v
  obtain ⟨w, w1⟩ := w
  obtain ⟨hv, e1, e2⟩ := hv
  simp only at hv e1 e2
  subst e1
  exact hv.restOrCancel hf hz m (e2 ▸ hp)

theorem initTrailing_ren (B : Book) (o : Order) : Core.initTrailing (renB f B) (renO f o) = renO f (Core.initTrailing B o) := by
  unfold Core.initTrailing
  rw [calcTrailing_ren, retrail_ren, show (renO f o).isTrailing = o.isTrailing from rfl]
  split <;> rfl

theorem initTrailing_id (B : Book) (o : Order) : (Core.initTrailing B o).id = o.id := by
  unfold Core.initTrailing Core.retrail
  split
  · split <;> rfl
  · rfl

theorem addStop (hf : ∀ a b, f a = f b → a = b) (hz : ∀ i, f i = 0 ↔ i = 0) (m : Bool) (h : Twin f P a b t s) {o : Order} (hp : P o.id) :
    Ensues (With f P a b) (t.addStop m o) (s.addStop m (renO f o)) := by
  unfold Core.addStop
  simp only
  have e : Core.initTrailing s.book (renO f o) = renO f (Core.initTrailing t.book o) := by rw [h.book, initTrailing_ren]
  have hp : P (Core.initTrailing t.book o).id := by rw [initTrailing_id]; exact hp
  rw [e]
  generalize Core.initTrailing t.book o = o at *
  have h1 := h.emit (.addOrder o)
  have et : Core.triggered (s.emit (.addOrder (renO f o))).book (renO f o) = Core.triggered (t.emit (.addOrder o)).book o := by
    rw [show (s.emit (.addOrder (renO f o))).book = renB f t.book from h.book]; rfl
  rw [et]
  refine .ite Iff.rfl (fun _ => ?_) fun _ => .ite Iff.rfl (fun _ => h1.insertNew hf hz m hp) fun _ => h1.gone hf hz m o
  refine .bind ((h1.emit (.updateOrder (Core.toMarket o))).matchMarket hf hz (Core.toMarket o)) fun v w hv => ?_
  obtain ⟨v, v1⟩ := v
  obtain ⟨w, w1⟩ := w
  obtain ⟨hv, e1, _⟩ := hv
  simp only at hv e1
  subst e1
  exact hv.gone hf hz m v1

theorem addStopLimit (hf : ∀ a b, f a = f b → a = b) (hz : ∀ i, f i = 0 ↔ i = 0) (m : Bool) (h : Twin f P a b t s) {o : Order} (hp : P o.id) :
    Ensues (With f P a b) (t.addStopLimit m o) (s.addStopLimit m (renO f o)) := by
  unfold Core.addStopLimit
  simp only
  have e : Core.initTrailing s.book (renO f o) = renO f (Core.initTrailing t.book o) := by rw [h.book, initTrailing_ren]
  have hp : P (Core.initTrailing t.book o).id := by rw [initTrailing_id]; exact hp
  rw [e]
  generalize Core.initTrailing t.book o = o at *
  have h1 := h.emit (.addOrder o)
  have et : Core.triggered (s.emit (.addOrder (renO f o))).book (renO f o) = Core.triggered (t.emit (.addOrder o)).book o := by
    rw [show (s.emit (.addOrder (renO f o))).book = renB f t.book from h.book]; rfl
  rw [et]
  refine .ite Iff.rfl (fun _ => ?_) fun _ => .ite Iff.rfl (fun _ => h1.insertNew hf hz m hp) fun _ => h1.gone hf hz m o
  refine .bind ((h1.emit (.updateOrder (Core.toLimit o))).matchOrder hf hz (Core.toLimit o)) fun v w hv => ?_
  obtain ⟨v, v1⟩ := v
  obtain ⟨w, w1⟩ := w
  obtain ⟨hv, e1, e2⟩ := hv
  simp only at hv e1 e2
  subst e1
  exact hv.restOrCancel hf hz m (show P v1.id from e2 ▸ hp)

theorem addAny (hf : ∀ a b, f a = f b → a = b) (hz : ∀ i, f i = 0 ↔ i = 0) (m : Bool) (h : Twin f P a b t s) {o : Order} (hp : P o.id) :
    Ensues (With f P a b) (t.addAny m o) (s.addAny m (renO f o)) := by
  unfold Core.addAny
  rw [show (renO f o).type = o.type from rfl]
  cases o.type
  · exact h.addMarket hf hz m o
  · exact h.addLimit hf hz m hp
  · exact h.addStop hf hz m hp
  · exact h.addStopLimit hf hz m hp
  · exact h.addStop hf hz m hp
  · exact h.addStopLimit hf hz m hp

theorem reduceOp (hf : ∀ a b, f a = f b → a = b) (hz : ∀ i, f i = 0 ↔ i = 0) (m : Bool) (h : Twin f P a b t s) (o : Order) (q : Nat) :
    Ensues (With f P a b) (t.reduceOp m o q) (s.reduceOp m (renO f o) q) :=
  .bind (h.reduceBody hf o q) fun _ _ hv => hv.finish hf hz m

theorem modifyOp (hf : ∀ a b, f a = f b → a = b) (hz : ∀ i, f i = 0 ↔ i = 0) (m : Bool) (h : Twin f P a b t s) (o : Order) (p q : Nat) (mit : Bool) :
    Ensues (With f P a b) (t.modifyOp m o p q mit) (s.modifyOp m (renO f o) p q mit) := by
  unfold Core.modifyOp
  refine .bind (h.unlink hf o) fun v w hv => ?_
  simp only
  rw [show Core.modified (renO f o) p q mit = renO f (Core.modified o p q mit) from rfl]
  generalize Core.modified o p q mit = o
  refine .ite Iff.rfl (fun _ => ?_) fun _ => hv.gone hf hz m o
  refine .bind ((hv.emit (.updateOrder o)).matchIf hf hz m o) fun v w hv => ?_
  obtain ⟨v, v1⟩ := v
  obtain ⟨w, w1⟩ := w
  obtain ⟨hv, e1, e2⟩ := hv
  simp only at hv e1 e2
  subst e1
  exact .ite Iff.rfl (fun _ => .bind (hv.link hf v1) fun _ _ hv => hv.finish hf hz m) fun _ => hv.gone hf hz m v1

theorem replaceOp (hf : ∀ a b, f a = f b → a = b) (hz : ∀ i, f i = 0 ↔ i = 0) (m : Bool) (h : Twin f P a b t s) (o : Order) {n : Nat} (hp : P n) (p q : Nat) :
    Ensues (With f P a b) (t.replaceOp m o n p q) (s.replaceOp m (renO f o) (f n) p q) := by
  unfold Core.replaceOp
  refine .bind (h.unlink hf o) fun v w hv => ?_
  have h1 := (hv.emit (.deleteOrder o)).emit (.addOrder { o with id := n, price := p, quantity := q, executed := 0, leaves := q })
  refine .bind (h1.matchIf hf hz m _) fun v w hv => ?_
  obtain ⟨v, v1⟩ := v
  obtain ⟨w, w1⟩ := w
  obtain ⟨hv, e1, e2⟩ := hv
  simp only at hv e1 e2
  subst e1
  exact .ite Iff.rfl (fun _ => hv.insertNew hf hz m (e2 ▸ hp)) fun _ => hv.gone hf hz m v1

theorem deleteOp (hf : ∀ a b, f a = f b → a = b) (hz : ∀ i, f i = 0 ↔ i = 0) (m : Bool) (h : Twin f P a b t s) (o : Order) :
    Ensues (With f P a b) (t.deleteOp m o) (s.deleteOp m (renO f o)) :=
  .bind (h.deleteBody hf o) fun _ _ hv => hv.finish hf hz m

theorem executeOp (hf : ∀ a b, f a = f b → a = b) (hz : ∀ i, f i = 0 ↔ i = 0) (m : Bool) (h : Twin f P a b t s) (o : Order) (p q : Nat) :
    Ensues (With f P a b) (t.executeOp m o p q) (s.executeOp m (renO f o) p q) := by
  unfold Core.executeOp
  have h1 := (h.emit (.exec o p (min q o.leaves))).setPrices o.side p
  refine .bind (h1.shrink hf { o with executed := add64 o.executed (min q o.leaves), leaves := o.leaves - min q o.leaves } _ _ _) fun v w hv => ?_
  have e : renE f (if o.leaves - min q o.leaves > 0 then .updateOrder { o with executed := add64 o.executed (min q o.leaves), leaves := o.leaves - min q o.leaves } else
      .deleteOrder { o with executed := add64 o.executed (min q o.leaves), leaves := o.leaves - min q o.leaves }) = (if o.leaves - min q o.leaves > 0 then
        .updateOrder (renO f { o with executed := add64 o.executed (min q o.leaves), leaves := o.leaves - min q o.leaves }) else
        .deleteOrder (renO f { o with executed := add64 o.executed (min q o.leaves), leaves := o.leaves - min q o.leaves })) := by
    split <;> rfl
  have h2 := hv.emit (if o.leaves - min q o.leaves > 0 then .updateOrder { o with executed := add64 o.executed (min q o.leaves), leaves := o.leaves - min q o.leaves } else
      .deleteOrder { o with executed := add64 o.executed (min q o.leaves), leaves := o.leaves - min q o.leaves })
  rw [e] at h2
  exact h2.finish hf hz m

end Twin
end CppTrader
