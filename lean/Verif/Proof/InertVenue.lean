import Verif.Proof.Inert
/-
The reference exchange: calls that give matching nothing to do have the same answer with and without matching.
-/

namespace CppTrader
namespace Inert

open Core Budget

/-- No book is crossed, and there are no stop orders. -/
def Still (x : Venue) : Prop := ∀ s ∈ x.books, (x.pits s).board.quiet

/-- The same answer, up to what cannot be seen. -/
def Near (a b : Venue.Answer) : Prop := a.1 = b.1 ∧ a.2.1 = b.2.1 ∧ blind a.2.2 = blind b.2.2

theorem Near.symm {a b : Venue.Answer} (h : Near a b) : Near b a := ⟨h.1.symm, h.2.1.symm, h.2.2.symm⟩
theorem Near.trans {a b c : Venue.Answer} (h : Near a b) (h' : Near b c) : Near a c :=
  ⟨h.1.trans h'.1, h.2.1.trans h'.2.1, h.2.2.trans h'.2.2⟩

theorem blind_blind (x : Venue) : blind (blind x) = blind x := rfl

theorem blind_books {x y : Venue} (h : blind x = blind y) : x.books = y.books := by
  have := congrArg Venue.books h; exact this
theorem blind_symbols {x y : Venue} (h : blind x = blind y) : x.symbols = y.symbols := by
  have := congrArg Venue.symbols h; exact this
theorem blind_ghosts {x y : Venue} (h : blind x = blind y) : x.ghosts = y.ghosts := by
  have := congrArg Venue.ghosts h; exact this
theorem blind_pit {x y : Venue} (h : blind x = blind y) (s : Nat) : blindP (x.pits s) = blindP (y.pits s) := by
  have := congrFun (congrArg Venue.pits h) s; exact this
theorem blind_board {x y : Venue} (h : blind x = blind y) (s : Nat) : (x.pits s).board = (y.pits s).board := by
  have := congrArg Pit.board (blind_pit h s); exact this
theorem blind_find {x y : Venue} (h : blind x = blind y) : x.find = y.find := by
  have := congrArg Venue.find h; exact this

theorem blind_set (x : Venue) (s : Nat) (p : Pit) : blind (x.setPit s p) = (blind x).setPit s (blindP p) := by
  unfold blind Venue.setPit
  simp only [Venue.mk.injEq, true_and, and_true]
  funext i
  by_cases h : i = s
  · rw [if_pos h, if_pos h]
  · rw [if_neg h, if_neg h]

theorem Still.near {x y : Venue} (h : Still x) (e : blind x = blind y) : Still y := by
  intro s hs
  rw [← blind_board e]
  exact h s (by rw [blind_books e]; exact hs)

theorem still_set {x : Venue} (h : Still x) {s : Nat} {p : Pit} (hp : p.board.quiet) : Still (x.setPit s p) := by
  intro i hi
  unfold Venue.setPit
  simp only []
  by_cases e : i = s
  · rw [if_pos e]; exact hp
  · rw [if_neg e]; exact h i hi

/-- What a call does here: the same as without matching, and the market stays still. -/
structure Tame (a b : Venue.Answer) : Prop where
  near : Near a b
  still : Still a.2.2

theorem Tame.refuse {x : Venue} (h : Still x) (e : ErrorCode) : Tame (x.refuse e) ((blind x).refuse e) := ⟨⟨rfl, rfl, rfl⟩, h⟩

theorem Tame.done {x : Venue} (h : Still x) (s : Nat) {r : List Execution × Pit} (hq : r.2.board.quiet) :
    Tame (x.done s r) ((blind x).done s (r.1, blindP r.2)) := by
  obtain ⟨v, hv⟩ := close_quiet x.matching hq
  unfold Venue.done
  simp only []
  rw [hv]
  refine ⟨⟨rfl, rfl, ?_⟩, still_set h hq⟩
  rw [blind_set, blind_set]
  rfl

theorem Tame.land {x : Venue} (h : Still x) (s : Nat) {p : Pit} {t : Order} (hq : p.board.quiet) (ht : t.idle (p.board t.side.other.limits)) :
    Tame (x.land s ([], t, p)) ((blind x).land s ([], t, blindP p)) := by
  unfold Venue.land
  simp only []
  have hf : (x.setPit s p).find = ((blind x).setPit s (blindP p)).find := blind_find (by rw [blind_set, blind_set]; rfl)
  rw [hf]
  by_cases d : t.rests ∧ ((blind x).setPit s (blindP p)).find t.id ≠ none
  · rw [if_pos d, if_pos d]
    refine ⟨⟨rfl, rfl, ?_⟩, still_set h hq⟩
    rw [blind_set, blind_set]
    rfl
  · rw [if_neg d, if_neg d]
    have := Tame.done h s (r := ([], p.land t)) (land_quiet hq ht)
    have e : blindP (p.land t) = (blindP p).land t := by
      unfold Pit.land
      by_cases c : t.rests
      · rw [if_pos c, if_pos c]; rfl
      · rw [if_neg c, if_neg c]
    rw [← e]
    exact this

theorem enter_idle (m : Bool) {p : Pit} {o : Order} (h : o.idle (p.board o.side.other.limits)) : p.enter m o = ([], o, p) := by
  have ht : o.type = .limit ∨ o.type = .market := by
    rcases h with h | h
    · exact .inl h.1
    · exact .inr h.1
  have h1 : ∀ v, o.retrailed v = o := fun v => by
    unfold Order.retrailed
    rw [if_neg]
    rintro ⟨c, _⟩
    unfold Order.trails at c
    rcases ht with e | e <;> rw [e] at c <;> rcases c with c | c <;> cases c
  have h2 : ¬ o.waits := by
    unfold Order.waits
    rintro ⟨c1, c2⟩
    rcases ht with e | e
    · exact c1 e
    · exact c2 e
  have h3 : o.released = o := by
    unfold Order.released
    rcases ht with e | e <;> rw [e]
  unfold Pit.enter
  simp only []
  rw [h1, if_neg (fun c => h2 c.1), h3]
  exact strike_idle m h

theorem Tame.add {x : Venue} (h : Still x) {o : Order} (ho : o.symbolId ∈ x.books → o.idle ((x.pits o.symbolId).board o.side.other.limits)) :
    Tame (x.add o) ((blind x).add o) := by
  unfold Venue.add
  by_cases hv : o.validate ≠ .ok
  · rw [if_pos hv, if_pos hv]; exact .refuse h _
  · rw [if_neg hv, if_neg hv]
    by_cases hb : o.symbolId ∈ x.books
    · rw [if_neg (fun c => c hb), if_neg (fun c => c (show o.symbolId ∈ (blind x).books from hb))]
      rw [enter_idle _ (ho hb), enter_idle (p := (blind x).pits o.symbolId) _ (ho hb)]
      exact .land h _ (h _ hb) (ho hb)
    · rw [if_pos hb, if_pos (show o.symbolId ∉ (blind x).books from hb)]
      exact .refuse h _

theorem Tame.onOrder {x : Venue} (h : Still x) {id : Nat} {f f' : Order → Pit → Venue.Answer}
    (hf : ∀ o, x.find id = some o → o.symbolId ∈ x.books → Tame (f o (x.pits o.symbolId)) (f' o (blindP (x.pits o.symbolId)))) :
    Tame (x.onOrder id f) ((blind x).onOrder id f') := by
  unfold Venue.onOrder
  have e : (blind x).find id = x.find id := rfl
  rw [e]
  cases ho : x.find id with
  | none => exact .refuse h _
  | some o =>
    simp only []
    by_cases hb : o.symbolId ∈ x.books
    · rw [if_pos hb, if_pos (show o.symbolId ∈ (blind x).books from hb)]
      exact hf o ho hb
    · rw [if_neg hb, if_neg (show o.symbolId ∉ (blind x).books from hb)]
      exact .refuse h _

theorem Tame.withQty {x : Venue} (h : Still x) {id q : Nat} {a b : Venue.Answer} (hr : Tame a b) : Tame (x.withQty id q a) ((blind x).withQty id q b) := by
  unfold Venue.withQty
  by_cases c : id = 0
  · rw [if_pos c, if_pos c]; exact .refuse h _
  · rw [if_neg c, if_neg c]
    by_cases c : q = 0
    · rw [if_pos c, if_pos c]; exact .refuse h _
    · rw [if_neg c, if_neg c]; exact hr

theorem Tame.delete {x : Venue} (h : Still x) (id : Nat) : Tame (x.delete id) ((blind x).delete id) := by
  unfold Venue.delete
  by_cases c : id = 0
  · rw [if_pos c, if_pos c]; exact .refuse h _
  · rw [if_neg c, if_neg c]
    refine Tame.onOrder h (fun o _ hb => ?_)
    exact Tame.done h _ (r := ([], (x.pits o.symbolId).change id none)) (gone_quiet (h _ hb) id)

/-- A deletion only takes orders away. -/
theorem delete_sub {x : Venue} (h : Still x) (id : Nat) : (x.delete id).2.2.books = x.books ∧
    ∀ s k, ∀ r ∈ ((x.delete id).2.2.pits s).board k, r ∈ (x.pits s).board k := by
  unfold Venue.delete
  by_cases c : id = 0
  · rw [if_pos c]; exact ⟨rfl, fun _ _ _ h => h⟩
  · rw [if_neg c]
    unfold Venue.onOrder
    cases ho : x.find id with
    | none => exact ⟨rfl, fun _ _ _ h => h⟩
    | some o =>
      simp only []
      by_cases hb : o.symbolId ∈ x.books
      · rw [if_pos hb]
        obtain ⟨v, hv⟩ := close_quiet x.matching (p := (x.pits o.symbolId).change id none) (gone_quiet (h _ hb) id)
        unfold Venue.done
        simp only []
        rw [hv]
        refine ⟨rfl, fun s k r hr => ?_⟩
        unfold Venue.setPit at hr
        simp only [] at hr
        by_cases e : s = o.symbolId
        · rw [if_pos e] at hr
          rcases change_mem (l := (x.pits o.symbolId).board) hr with h | ⟨_, _, _, h⟩
          · rw [e]; exact h
          · cases h
        · rw [if_neg e] at hr; exact hr
      · rw [if_neg hb]; exact ⟨rfl, fun _ _ _ h => h⟩

/-- The orders and the prices of a call do not meet the opposite side. -/
def Tranquil (x : Venue) : Op → Prop
  | .addOrder o | .replaceWith _ o => o.symbolId ∈ x.books → o.idle ((x.pits o.symbolId).board o.side.other.limits)
  | .modifyOrder id p _ | .mitigateOrder id p _ | .replaceOrder id _ p _ =>
    ∀ o, x.find id = some o → o.symbolId ∈ x.books → ({ o with price := p } : Order).idle ((x.pits o.symbolId).board o.side.other.limits)
  | _ => True

theorem Tranquil.near {x y : Venue} {op : Op} (h : Tranquil x op) (e : blind x = blind y) : Tranquil y op := by
  cases op <;> simp only [Tranquil] at h ⊢ <;> first | trivial | skip
  all_goals first
    | (intro hb; rw [← blind_board e]; exact h (by rw [blind_books e]; exact hb))
    | (intro o ho hb; rw [← blind_board e]; exact h o (by rw [blind_find e]; exact ho) (by rw [blind_books e]; exact hb))

theorem Tame.modify {x : Venue} (h : Still x) {o t : Order} (hb : o.symbolId ∈ x.books)
    (ht : t.idle ((x.pits o.symbolId).board t.side.other.limits)) :
    Tame (x.modify o (x.pits o.symbolId) t) ((blind x).modify o (blindP (x.pits o.symbolId)) t) := by
  unfold Venue.modify
  have hi : t.idle (((x.pits o.symbolId).change o.id none).board t.side.other.limits) := idle_gone (l := (x.pits o.symbolId).board) ht o.id
  rw [strike_idle _ hi, strike_idle (p := (blindP (x.pits o.symbolId)).change o.id none) _ hi]
  simp only []
  have := Tame.done h o.symbolId (r := ([], ((x.pits o.symbolId).change o.id none).land t)) (land_quiet (gone_quiet (h _ hb) _) hi)
  have e : blindP (((x.pits o.symbolId).change o.id none).land t) = ((blindP (x.pits o.symbolId)).change o.id none).land t := by
    unfold Pit.land
    by_cases c : t.rests
    · rw [if_pos c, if_pos c]; rfl
    · rw [if_neg c, if_neg c]; rfl
  rw [← e]
  exact this

theorem idle_like {t t' : Order} {rs : List Order} (h : t.idle rs) (h1 : t'.type = t.type) (h2 : t'.side = t.side) (h3 : t'.price = t.price) : t'.idle rs := by
  unfold Order.idle at h ⊢
  rw [h1, h2, h3]
  exact h

/-- An order found in a book has its place there under its own id only. -/
theorem same_price {x : Venue} (hx : Sound x) (hp : Placed x) {id : Nat} {o : Order} (ho : x.find id = some o) (hb : o.symbolId ∈ x.books) :
    ∀ k, ∀ r ∈ (x.pits o.symbolId).board k, r.id = id → o.price = r.price := by
  intro k r hr e
  obtain ⟨h1, h2⟩ := hp id o ho
  obtain ⟨k', hk'⟩ := h2 hb
  have hn := (hx.fine _ hb).neat
  have hk := hn.cross k k' r o hr hk' (by rw [e, h1])
  subst hk
  rw [hn.one hr hk' (by rw [e, h1])]

theorem Tame.execute {x : Venue} (h : Still x) (hx : Sound x) (hp : Placed x) (id q : Nat) (price : Order → Nat) :
    Tame (x.execute id q price) ((blind x).execute id q price) := by
  unfold Venue.execute
  refine Tame.withQty h (Tame.onOrder h (fun o ho hb => ?_))
  refine Tame.done h o.symbolId (r := ([(o, price o, min q o.leaves)], _)) ?_
  refine change_quiet (h _ hb) (fun t ht => ?_)
  have := same_price hx hp ho hb
  split at ht
  · cases ht; exact this
  · cases ht

theorem matchAll_still (ss : List Nat) : ∀ {x : Venue}, Still x → (∀ s ∈ ss, s ∈ x.books) →
    (Venue.matchAll ss x).1 = [] ∧ blind (Venue.matchAll ss x).2 = blind x := by
  induction ss with
  | nil => intro x _ _; exact ⟨rfl, rfl⟩
  | cons s ss ih =>
    intro x h hs
    obtain ⟨v, hv⟩ := rest_quiet (h s (hs s List.mem_cons_self))
    unfold Venue.matchAll
    simp only []
    rw [hv]
    have e : blind (x.setPit s { (x.pits s) with seen := v }) = blind x := by
      rw [blind_set]
      unfold blind Venue.setPit
      simp only [Venue.mk.injEq, true_and, and_true]
      funext i
      by_cases c : i = s
      · rw [if_pos c, c]; rfl
      · rw [if_neg c]
    obtain ⟨i1, i2⟩ := ih (x := x.setPit s { (x.pits s) with seen := v }) (h.near e.symm) (fun i hi => hs i (List.mem_cons_of_mem _ hi))
    simp only []
    exact ⟨by rw [i1]; rfl, i2.trans e⟩

/-- Switching matching on or off, or asking for it, does nothing. -/
theorem mode_still {x : Venue} (h : Still x) {op : Op} (ho : op.isMode = true) :
    (x.call op).1 = .ok ∧ (x.call op).2.1 = [] ∧ blind (x.call op).2.2 = blind x := by
  cases op <;> first | (cases ho; done) | skip
  · obtain ⟨h1, h2⟩ := matchAll_still x.books (x := { x with matching := true }) h (fun s hs => hs)
    exact ⟨rfl, h1, h2⟩
  · exact ⟨rfl, rfl, rfl⟩
  · obtain ⟨h1, h2⟩ := matchAll_still x.books h (fun s hs => hs)
    exact ⟨rfl, h1, h2⟩

theorem replaceWith_eq (x : Venue) (id : Nat) (o : Order) : x.call (.replaceWith id o) =
    if (x.delete id).1 = .ok then (((x.delete id).2.2.add o).1, (x.delete id).2.1 ++ ((x.delete id).2.2.add o).2.1, ((x.delete id).2.2.add o).2.2)
    else x.delete id := by
  show (match x.delete id with
    | (.ok, xs, x') => ((x'.add o).1, xs ++ (x'.add o).2.1, (x'.add o).2.2)
    | r => r) = _
  generalize x.delete id = a
  obtain ⟨e, xs, y⟩ := a
  cases e <;> first | rfl | (rw [if_neg (by decide)])

theorem Tame.call {x : Venue} (h : Still x) (hx : Sound x) (hp : Placed x) {op : Op} (hm : op.isMode = false) (hc : Tranquil x op) :
    Tame (x.call op) ((blind x).call op) := by
  cases op with
  | addSymbol s =>
    unfold Venue.call
    simp only []
    by_cases c : s.id ∈ x.symbols
    · rw [if_pos c, if_pos (show s.id ∈ (blind x).symbols from c)]; exact .refuse h _
    · rw [if_neg c, if_neg (show s.id ∉ (blind x).symbols from c)]; exact ⟨⟨rfl, rfl, rfl⟩, h⟩
  | deleteSymbol s =>
    unfold Venue.call
    simp only []
    by_cases c : s ∈ x.symbols
    · rw [if_pos c, if_pos (show s ∈ (blind x).symbols from c)]; exact ⟨⟨rfl, rfl, rfl⟩, h⟩
    · rw [if_neg c, if_neg (show s ∉ (blind x).symbols from c)]; exact .refuse h _
  | addOrderBook s =>
    unfold Venue.call
    simp only []
    by_cases c : s.id ∉ x.symbols
    · rw [if_pos c, if_pos (show s.id ∉ (blind x).symbols from c)]; exact .refuse h _
    · rw [if_neg c, if_neg (show ¬ s.id ∉ (blind x).symbols from c)]
      by_cases c : s.id ∈ x.books
      · rw [if_pos c, if_pos (show s.id ∈ (blind x).books from c)]; exact .refuse h _
      · rw [if_neg c, if_neg (show s.id ∉ (blind x).books from c)]
        refine ⟨⟨rfl, rfl, ?_⟩, ?_⟩
        · have := (blind_set x s.id .empty).trans (blind_set (blind x) s.id .empty).symm
          have e := congrArg (fun y : Venue => ({ y with books := Venue.insert s.id x.books } : Venue)) this
          exact e
        · intro i hi
          unfold Venue.setPit
          simp only []
          by_cases e : i = s.id
          · rw [if_pos e]; exact ⟨fun b hb => (by cases hb), fun _ _ => rfl⟩
          · rw [if_neg e]
            refine h i ?_
            have key : ∀ (n : Nat) (l : List Nat), i ∈ Venue.insert n l → i = n ∨ i ∈ l := by
              intro n l
              induction l with
              | nil => intro h; exact .inl (List.mem_singleton.1 h)
              | cons m ms ih =>
                intro h
                unfold Venue.insert at h
                split at h
                · rcases List.mem_cons.1 h with h | h
                  · exact .inl h
                  · exact .inr h
                · rcases List.mem_cons.1 h with h | h
                  · exact .inr (by rw [h]; exact List.mem_cons_self)
                  · rcases ih h with h | h
                    · exact .inl h
                    · exact .inr (List.mem_cons_of_mem _ h)
            rcases key _ _ hi with h | h
            · exact absurd h e
            · exact h
  | deleteOrderBook s =>
    unfold Venue.call
    simp only []
    by_cases c : s ∈ x.books
    · rw [if_pos c, if_pos (show s ∈ (blind x).books from c)]
      exact ⟨⟨rfl, rfl, rfl⟩, fun i hi => h i (List.mem_filter.1 hi).1⟩
    · rw [if_neg c, if_neg (show s ∉ (blind x).books from c)]; exact .refuse h _
  | addOrder o => exact Tame.add h hc
  | reduceOrder id q =>
    refine Tame.withQty h (Tame.onOrder h (fun o ho hb => ?_))
    refine Tame.done h o.symbolId (r := ([], _)) ?_
    refine change_quiet (h _ hb) (fun t ht => ?_)
    have := same_price hx hp ho hb
    split at ht
    · cases ht; exact this
    · cases ht
  | modifyOrder id p q =>
    refine Tame.withQty h (Tame.onOrder h (fun o ho hb => ?_))
    exact Tame.modify h hb (idle_like (hc o ho hb) rfl rfl rfl)
  | mitigateOrder id p q =>
    refine Tame.withQty h (Tame.onOrder h (fun o ho hb => ?_))
    exact Tame.modify h hb (idle_like (hc o ho hb) rfl rfl rfl)
  | replaceOrder id n p q =>
    unfold Venue.call
    simp only []
    by_cases c : id = 0 ∨ n = 0
    · rw [if_pos c, if_pos c]; exact .refuse h _
    · rw [if_neg c, if_neg c]
      by_cases c : q = 0
      · rw [if_pos c, if_pos c]; exact .refuse h _
      · rw [if_neg c, if_neg c]
        have e : (blind x).find id = x.find id := rfl
        rw [e]
        cases ho : x.find id with
        | none => exact .refuse h _
        | some o =>
          simp only []
          by_cases c : o.type ≠ .limit
          · rw [if_pos c, if_pos c]; exact .refuse h _
          · rw [if_neg c, if_neg c]
            refine Tame.onOrder h (fun o ho hb => ?_)
            have hi : ({ o with id := n, price := p, quantity := q, executed := 0, leaves := q } : Order).idle
                (((x.pits o.symbolId).change id none).board o.side.other.limits) :=
              idle_like (idle_gone (l := (x.pits o.symbolId).board) (hc o ho hb) id) rfl rfl rfl
            rw [strike_idle x.matching hi, strike_idle (p := (blindP (x.pits o.symbolId)).change id none) (blind x).matching hi]
            exact Tame.land h _ (gone_quiet (h _ hb) id) hi
  | replaceWith id o =>
    rw [replaceWith_eq, replaceWith_eq]
    have hd := Tame.delete h id
    have hs := delete_sub h id
    generalize x.delete id = a at hd hs
    generalize (blind x).delete id = b at hd
    rw [← hd.near.1]
    by_cases c : a.1 = .ok
    · rw [if_pos c, if_pos c]
      have ha : o.symbolId ∈ a.2.2.books → o.idle ((a.2.2.pits o.symbolId).board o.side.other.limits) := fun hb =>
        idle_sub (hc (by rw [← hs.1]; exact hb)) (fun r hr => hs.2 _ _ r hr)
      have t1 := Tame.add hd.still ha
      have hb : o.symbolId ∈ b.2.2.books → o.idle ((b.2.2.pits o.symbolId).board o.side.other.limits) := fun hb => by
        rw [← blind_board hd.near.2.2]
        exact ha (by rw [blind_books hd.near.2.2]; exact hb)
      have t2 := Tame.add (hd.still.near hd.near.2.2) hb
      rw [← hd.near.2.2] at t2
      have t := t1.near.trans t2.near.symm
      exact ⟨⟨t.1, by simp only []; rw [hd.near.2.1, t.2.1], t.2.2⟩, t1.still⟩
    · rw [if_neg c, if_neg c]; exact hd
  | deleteOrder id => exact Tame.delete h id
  | executeOrder id q => exact Tame.execute h hx hp id q _
  | executeOrderAt id p q => exact Tame.execute h hx hp id q _
  | enableMatching => cases hm
  | disableMatching => cases hm
  | matchAll => cases hm

end Inert
end CppTrader
