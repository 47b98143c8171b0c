import Verif.Proof.Index
import Verif.Props.Feeds
/-
C88: the hash map of the orders is a map.
-/

namespace CppTrader
open Index

namespace Index

variable {α : Type} {hash : Nat → Nat}

/-- A request made of the hash map. -/
def Table.step (hash : Nat → Nat) (t : Table α) : Dict.Request α → Except Stuck (Table α × Dict.Answer α)
  | .insert key value => do
    let (t, b) ← t.insert hash key value
    return (t, .done b)
  | .erase key => do
    let (t, b) ← t.erase hash key
    return (t, .done b)
  | .get key => do return (t, .value (← t.get hash key))
  | .size => .ok (t, .count t.size)

/-- What the hash map answers to a sequence of requests. -/
def Table.run (hash : Nat → Nat) (t : Table α) : List (Dict.Request α) → Except Stuck (Table α × List (Dict.Answer α))
  | [] => .ok (t, [])
  | r :: rs => do
    let (t, a) ← t.step hash r
    let (t, as) ← t.run hash rs
    return (t, a :: as)

/-- The hash map holds what the map holds. -/
structure Table.Agrees (hash : Nat → Nat) (t : Table α) (d : Dict α) : Prop where
  fine : t.Fine hash
  keys : d.Pairwise (fun x y => x.1 ≠ y.1)
  size : t.size = d.length
  holds : ∀ k v, t.Holds k v ↔ (k, v) ∈ d

theorem get_mem {d : Dict α} (hd : d.Pairwise (fun x y => x.1 ≠ y.1)) (k : Nat) (v : α) : d.get k = some v ↔ (k, v) ∈ d := by
  induction d with
  | nil => simp [Dict.get]
  | cons x d ih =>
    obtain ⟨k', w⟩ := x
    rw [List.pairwise_cons] at hd
    have ih := ih hd.2
    unfold Dict.get at ih ⊢
    rw [List.find?_cons, List.mem_cons]
    by_cases e : k' = k
    · subst e
      simp only [beq_self_eq_true, Option.map_some, Option.some.injEq, Prod.mk.injEq, true_and]
      constructor
      · rintro rfl; exact .inl rfl
      · rintro (h | h)
        · exact h.symm
        · exact absurd (rfl : k' = k') (hd.1 (k', v) h)
    · have : (k' == k) = false := by simpa using e
      rw [this, ih]
      constructor
      · exact .inr
      · rintro (h | h)
        · cases h; exact absurd rfl e
        · exact h

theorem Table.Agrees.get_some {t : Table α} {d : Dict α} (a : t.Agrees hash d) {k v} : t.Holds k v ↔ d.get k = some v := by
  rw [a.holds, get_mem a.keys]

theorem Table.Agrees.get_none {t : Table α} {d : Dict α} (a : t.Agrees hash d) {k} (h : ∀ v, ¬ t.Holds k v) : d.get k = none := by
  cases e : d.get k with
  | none => rfl
  | some v => exact absurd (a.get_some.2 e) (h v)

theorem erase_length {d : Dict α} (hd : d.Pairwise (fun x y => x.1 ≠ y.1)) {k v} (h : (k, v) ∈ d) :
    (d.filter (·.1 != k)).length + 1 = d.length := by
  induction d with
  | nil => cases h
  | cons x d ih =>
    rw [List.pairwise_cons] at hd
    rw [List.filter_cons]
    rcases List.mem_cons.1 h with rfl | h
    · simp only [bne_self_eq_false, Bool.false_eq_true, if_false, List.length_cons]
      rw [List.filter_eq_self.2]
      intro y hy
      simpa using (hd.1 y hy).symm
    · have : (x.1 != k) = true := by simpa using hd.1 _ h
      rw [this, if_pos rfl, List.length_cons, List.length_cons, ih hd.2 h]

/-- Erasing the bucket of a key erases the key. -/
theorem Table.Agrees.eraseAt {t : Table α} {d : Dict α} (a : t.Agrees hash d) {i k : Nat} {v : α} (hi : t.slot i = some (k, v)) :
    ∃ t', t.eraseAt hash i = .ok t' ∧ t'.Agrees hash (d.filter (·.1 != k)) := by
  obtain ⟨t', h, f, hs, hh⟩ := a.fine.eraseAt hi
  have := erase_length a.keys ((a.holds k v).1 ⟨i, hi⟩)
  refine ⟨t', h, f, a.keys.filter _, by have := a.size; omega, fun k' w => ?_⟩
  rw [hh, a.holds, List.mem_filter]
  simp

theorem Table.Agrees.step {t : Table α} {d : Dict α} (a : t.Agrees hash d) (r : Dict.Request α) :
    ∃ t', t.step hash r = .ok (t', (d.step r).2) ∧ t'.Agrees hash (d.step r).1 := by
  cases r with
  | insert k v =>
    obtain ⟨t', b, h, f, ht, hf⟩ := a.fine.insert k v
    cases b with
    | true =>
      obtain ⟨h1, h2, h3⟩ := ht rfl
      have hn := a.get_none h1
      refine ⟨t', by simp [Table.step, h, hn, Dict.step, bind, Except.bind, pure, Except.pure], ?_⟩
      simp only [Dict.step, hn, Option.isSome_none, Bool.false_eq_true, if_false]
      refine ⟨f, List.pairwise_cons.2 ⟨fun x hx e => ?_, a.keys⟩, by rw [h2, a.size]; rfl, fun k' w => ?_⟩
      · obtain ⟨k', w⟩ := x
        dsimp only at e
        subst e
        exact h1 w ((a.holds _ _).2 hx)
      · rw [h3, a.holds, List.mem_cons, Or.comm]
        simp [Prod.mk.injEq]
    | false =>
      obtain ⟨h1, h2, w, hw⟩ := hf rfl
      have hn := a.get_some.1 hw
      refine ⟨t', by simp [Table.step, h, hn, Dict.step, bind, Except.bind, pure, Except.pure], ?_⟩
      simp only [Dict.step, hn, Option.isSome_some, if_true]
      exact ⟨f, a.keys, by rw [h1, a.size], fun k' w => by rw [h2, a.holds]⟩
  | erase k =>
    rcases a.fine.find k with ⟨i, v, h1, h2⟩ | ⟨h1, h2⟩
    · obtain ⟨t', h3, a'⟩ := a.eraseAt h2
      have hn := a.get_some.1 ⟨i, h2⟩
      exact ⟨t', by simp [Table.step, Table.erase, h1, h3, hn, Dict.step, bind, Except.bind, pure, Except.pure], a'⟩
    · have hn := a.get_none h2
      refine ⟨t, by simp [Table.step, Table.erase, h1, hn, Dict.step, bind, Except.bind, pure, Except.pure], ?_⟩
      have : d.filter (·.1 != k) = d := List.filter_eq_self.2 fun x hx => by
        simp only [bne_iff_ne]
        rintro rfl
        exact h2 x.2 ((a.holds _ _).2 hx)
      simp only [Dict.step, this]
      exact a
  | get k =>
    rcases a.fine.find k with ⟨i, v, h1, h2⟩ | ⟨h1, h2⟩
    · have hn := a.get_some.1 ⟨i, h2⟩
      exact ⟨t, by simp [Table.step, Table.get, h1, h2, hn, Dict.step, bind, Except.bind, pure, Except.pure], a⟩
    · have hn := a.get_none h2
      exact ⟨t, by simp [Table.step, Table.get, h1, hn, Dict.step, bind, Except.bind, pure, Except.pure], a⟩
  | size => exact ⟨t, by simp [Table.step, Dict.step, a.size], a⟩

theorem Table.Agrees.run (rs : List (Dict.Request α)) : ∀ {t : Table α} {d : Dict α}, t.Agrees hash d →
    ∃ t', t.run hash rs = .ok (t', (d.run rs).2) ∧ t'.Agrees hash (d.run rs).1 := by
  induction rs with
  | nil => intro t d a; exact ⟨t, rfl, a⟩
  | cons r rs ih =>
    intro t d a
    obtain ⟨t1, h1, a1⟩ := a.step r
    obtain ⟨t2, h2, a2⟩ := ih a1
    exact ⟨t2, by simp [Table.run, h1, h2, Dict.run, bind, Except.bind, pure, Except.pure], a2⟩

theorem agrees_new (c : Nat) : (Table.new c : Table α).Agrees hash [] :=
  ⟨new_fine c, .nil, rfl, fun k v => ⟨fun h => absurd h (new_holds _ _ _), fun h => by cases h⟩⟩

theorem nodup_of_keys {l : List (Nat × α)} (h : l.Pairwise (fun x y => x.1 ≠ y.1)) : l.Nodup :=
  h.imp fun {x y} (e : x.1 ≠ y.1) (e' : x = y) => e (congrArg (·.1) e')

theorem Table.Agrees.entries {t : Table α} {d : Dict α} (a : t.Agrees hash d) : t.entries.Perm d := by
  classical
  refine (List.perm_ext_iff_of_nodup (nodup_of_keys (entries_keys a.fine)) (nodup_of_keys a.keys)).2 fun x => ?_
  rw [← a.holds, ← mem_entries a.fine]

/-- C88, whatever the hash function and the initial capacity: a sequence of insertions, deletions and look-ups always comes to an end,
gets the answers a map gives, and an iteration from `begin()` to `end()` then visits exactly what is in the map. -/
theorem C88_map (hash : Nat → Nat) (capacity : Nat) (rs : List (Dict.Request α)) :
    ∃ t' : Table α, (Table.new capacity).run hash rs = .ok (t', (Dict.run [] rs).2) ∧ t'.entries.Perm (Dict.run [] rs).1 := by
  obtain ⟨t', h, a⟩ := Table.Agrees.run (hash := hash) rs (agrees_new capacity)
  exact ⟨t', h, a.entries⟩

/-- C88, iterators: erasing the bucket in which a key is found erases this key: the map goes on as after `erase(key)`. -/
theorem C88_iterator (hash : Nat → Nat) (capacity : Nat) (rs rs' : List (Dict.Request α)) {t : Table α} {as}
    (h : (Table.new capacity).run hash rs = .ok (t, as)) {key i : Nat} (hi : t.find hash key = .ok (some i)) :
    ∃ t1 t2, t.eraseAt hash i = .ok t1 ∧ t1.run hash rs' = .ok (t2, ((((Dict.run [] rs).1.step (.erase key)).1).run rs').2) := by
  obtain ⟨t', h', a⟩ := Table.Agrees.run (hash := hash) rs (agrees_new capacity)
  rw [h] at h'
  cases h'
  rcases a.fine.find key with ⟨j, v, h1, h2⟩ | ⟨h1, _⟩
  · rw [hi] at h1
    cases h1
    obtain ⟨t1, h3, a'⟩ := a.eraseAt h2
    obtain ⟨t2, h4, _⟩ := Table.Agrees.run (hash := hash) rs' a'
    exact ⟨t1, t2, h3, h4⟩
  · rw [hi] at h1; cases h1

theorem Table.Agrees.kept (hash : Nat → Nat) {t : Table α} {d : Dict α} (a : t.Agrees hash d) {key i : Nat}
    (hi : t.find hash key = .ok (some i)) (home : i = t.home hash key) (others : List Nat) (ho : key ∉ others) :
    ∃ t1 as t2, t.run hash (others.map .erase) = .ok (t1, as) ∧ t1.eraseAt hash i = .ok t2 ∧
      t2.Agrees hash ((d.run (others.map .erase ++ [.erase key])).1) := by
  rcases a.fine.find key with ⟨j, v, h1, h2⟩ | ⟨h1, _⟩
  · rw [hi] at h1
    cases h1
    induction others generalizing t d with
    | nil =>
      obtain ⟨t2, h3, a'⟩ := a.eraseAt h2
      exact ⟨t, [], t2, rfl, h3, by simpa [Dict.run, Dict.step] using a'⟩
    | cons o others ih =>
      simp only [List.mem_cons, not_or] at ho
      obtain ⟨t', h3, a'⟩ := a.step (.erase o)
      have keep : t'.slot i = some (key, v) ∧ t'.cap = t.cap := by
        rcases a.fine.find o with ⟨x, w, e1, e2⟩ | ⟨e1, _⟩
        · have ne : t.home hash key ≠ x := by
            rw [← home]
            rintro rfl
            rw [h2] at e2
            cases e2
            exact ho.1 rfl
          simp only [Table.step, Table.erase, e1, bind, Except.bind, pure, Except.pure] at h3
          split at h3
          · cases h3
          · next y e3 =>
            split at e3
            · cases e3
            · next z e4 =>
              cases e3
              obtain rfl : z = t' := congrArg (·.1) (Except.ok.inj h3)
              have := shift_home _ _ _ _ _ a.fine.wide e4 ne (home ▸ h2)
              rwa [← home] at this
        · simp only [Table.step, Table.erase, e1, bind, Except.bind, pure, Except.pure] at h3
          obtain rfl : t = t' := congrArg (·.1) (Except.ok.inj h3)
          exact ⟨h2, rfl⟩
      have hh : i = t'.home hash key := by rw [home, Table.home, Table.home, keep.2]
      have hf : t'.find hash key = .ok (some i) := by
        rcases a'.fine.find key with ⟨x, w, e1, e2⟩ | ⟨_, e2⟩
        · rw [e1, a'.fine.uniq _ _ _ _ _ e2 keep.1]
        · exact absurd ⟨i, keep.1⟩ (e2 v)
      obtain ⟨t1, as, t2, r1, r2, r3⟩ := ih a' hf hh ho.2 keep.1
      exact ⟨t1, (d.step (.erase o)).2 :: as, t2,
        by rw [List.map_cons]; simp [Table.run, h3, r1, bind, Except.bind, pure, Except.pure], r2, r3⟩
  · rw [hi] at h1; cases h1

/-- C88, iterators that are kept: an order found in its home bucket stays there while other ids are erased, so that the iterator may still
be used to erase it: the map goes on as if all these ids had been erased. -/
theorem C88_kept (hash : Nat → Nat) (capacity : Nat) (rs rs' : List (Dict.Request α)) {t : Table α} {as}
    (h : (Table.new capacity).run hash rs = .ok (t, as)) {key i : Nat} (hi : t.find hash key = .ok (some i)) (home : i = t.home hash key)
    (others : List Nat) (ho : key ∉ others) :
    ∃ t1 a1 t2 t3, t.run hash (others.map .erase) = .ok (t1, a1) ∧ t1.eraseAt hash i = .ok t2 ∧
      t2.run hash rs' = .ok (t3, (((Dict.run [] rs).1.run (others.map .erase ++ [.erase key])).1.run rs').2) := by
  obtain ⟨t', h', a⟩ := Table.Agrees.run (hash := hash) rs (agrees_new capacity)
  rw [h] at h'
  cases h'
  obtain ⟨t1, a1, t2, r1, r2, r3⟩ := Table.Agrees.kept hash a hi home others ho
  obtain ⟨t3, r4, _⟩ := Table.Agrees.run (hash := hash) rs' r3
  exact ⟨t1, a1, t2, t3, r1, r2, r4⟩

/-- A map that starts with two buckets: it grows twice, and what was erased is gone. -/
example : ((Table.new 2 : Table Nat).run fast
    [.insert 3 30, .insert 51 510, .insert 3 31, .insert 7 70, .insert 8 80, .erase 51, .insert 9 90, .get 3, .get 51, .get 9, .erase 5,
      .size]).toOption.map (fun r => (r.1.cap, r.2)) =
    some (8, [.done true, .done true, .done false, .done true, .done true, .done true, .done true, .value (some 30), .value none,
      .value (some 90), .done false, .count 4]) := by
  decide +kernel

end Index

/-- Order 3 is in its home bucket, order 51 next to its own. -/
example : ((Index.orders.run Index.fast [.insert 3 30, .insert 51 510]).toOption.map fun r =>
    ((r.1.find Index.fast 3).toOption, r.1.home Index.fast 3, (r.1.find Index.fast 51).toOption, r.1.home Index.fast 51)) =
    some (some (some 6350), 6350, some (some 6351), 6350) := by
  decide +kernel

/-! ### The orders of the engine -/

/-- What a callback means for the map of the orders. -/
def Event.filed : Event → List (Dict.Request Unit)
  | .addOrder o => [.insert o.id ()]
  | .deleteOrder o => [.erase o.id]
  | _ => []

theorem Dict.get_filter {d : Dict Unit} (k i : Nat) :
    Dict.get (d.filter (·.1 != k)) i = if i = k then none else d.get i := by
  unfold Dict.get
  induction d with
  | nil => simp
  | cons x d ih =>
    rw [List.filter_cons]
    split
    · next h =>
      rw [List.find?_cons, List.find?_cons]
      split
      · next h2 =>
        simp only [beq_iff_eq] at h2; simp only [bne_iff_ne] at h
        rw [if_neg (fun e => h (h2.trans e))]
      · exact ih
    · next h =>
      rw [ih]
      simp only [bne_iff_ne, Decidable.not_not] at h
      split
      · rfl
      · next ne =>
        rw [List.find?_cons]
        have : (x.1 == i) = false := by simp only [beq_eq_false_iff_ne]; exact fun e => ne (e.symm.trans h)
        rw [this]

theorem filed_follow (es : List Event) : ∀ (v v' : OrderView) (d : Dict Unit),
    Replays (OrderView.ok ⟨true, true, true⟩) OrderView.next v es v' → (∀ i, (d.get i).isSome = (v i).isSome) →
    ∀ i, ((d.run (es.flatMap Event.filed)).1.get i).isSome = (v' i).isSome := by
  induction es with
  | nil => intro v v' d h hd; cases h; exact hd
  | cons e es ih =>
    intro v v' d h hd
    obtain ⟨ho, h⟩ := h
    have keep : e.filed = [] → (∀ i, (v.next e i).isSome = (v i).isSome) →
        ∀ i, ((d.run ((e :: es).flatMap Event.filed)).1.get i).isSome = (v' i).isSome := by
      intro he hv
      rw [List.flatMap_cons, he, List.nil_append]
      exact ih _ _ d h fun i => by rw [hd, hv]
    cases e with
    | addOrder o =>
      rw [List.flatMap_cons]
      have hn : d.get o.id = none := by
        have := hd o.id
        rw [show v o.id = none from ho] at this
        simpa using this
      simp only [Event.filed, List.cons_append, List.nil_append, Dict.run, Dict.step, hn]
      refine ih _ _ _ h fun i => ?_
      simp only [OrderView.next, OrderView.set]
      by_cases e : i = o.id
      · subst e; simp [Dict.get]
      · rw [if_neg e, ← hd i]
        have : (o.id == i) = false := by simp only [beq_eq_false_iff_ne]; exact fun h => e h.symm
        simp [Dict.get, this]
    | deleteOrder o =>
      rw [List.flatMap_cons]
      simp only [Event.filed, List.cons_append, List.nil_append, Dict.run, Dict.step]
      refine ih _ _ _ h fun i => ?_
      simp only [OrderView.next, OrderView.set, Dict.get_filter]
      by_cases e : i = o.id
      · simp [e]
      · rw [if_neg e, if_neg e, hd i]
    | updateOrder o =>
      obtain ⟨x, hx, _⟩ := ho
      refine keep rfl fun i => ?_
      simp only [OrderView.next, OrderView.set]
      by_cases e : i = o.id
      · subst e; rw [if_pos rfl, hx]; rfl
      · rw [if_neg e]
    | exec o p q =>
      obtain ⟨⟨x, hx, _⟩, _⟩ := ho
      refine keep rfl fun i => ?_
      simp only [OrderView.next, OrderView.set]
      by_cases e : i = o.id
      · subst e; rw [if_pos rfl, hx]; rfl
      · rw [if_neg e]
    | _ => exact keep rfl fun _ => rfl

/-- C88, the orders: over a history in which new orders come under unused ids, the hash map of the market manager, in which an order is
inserted when `onAddOrder` reports it and erased when `onDeleteOrder` does, finds an id exactly if `GetOrder` does. -/
theorem C88_orders {h : List (Op × ErrorCode)} {g : Mgr} (hh : g.FreshHistory h) :
    ∃ t as, Index.orders.run fast (g.ev.flatMap Event.filed) = .ok (t, as) ∧
      ∀ id, t.get fast id = .ok (if (g.getOrder id).isSome then some () else none) := by
  obtain ⟨t, h1, a⟩ := Table.Agrees.run (hash := fast) (g.ev.flatMap Event.filed) (agrees_new (α := Unit) 16384)
  refine ⟨t, _, h1, fun id => ?_⟩
  have hf := filed_follow g.ev _ _ [] (C45_order_feed_history hh) (fun _ => rfl) id
  obtain ⟨t', h2, _⟩ := a.step (.get id)
  simp only [Table.step, Dict.step, bind, Except.bind, pure, Except.pure] at h2
  split at h2
  · cases h2
  · next x e =>
    cases h2
    rw [e]
    congr 1
    rw [← hf]
    cases Dict.get (Dict.run [] (List.flatMap Event.filed g.ev)).1 id <;> rfl

/-! ### An iterator that is kept too long -/

/-- Orders 3 and 51, whose ids have the same home bucket; 51 is given a price at which it takes the whole of 3. -/
def collision : List Op :=
  trading ++ [.addOrder (.mkLimit 3 1 .sell 100 5), .addOrder (.mkLimit 51 1 .buy 90 5), .modifyOrder 51 100 5]

/-- The deletions reported, in order. -/
def deletions (es : List Event) : List Nat := es.filterMap fun | .deleteOrder o => some o.id | _ => none

/-- What `ModifyOrder` does to the map in the last call of `collision`: `find(51)`, then the erasure of 3 (by the `ReduceOrder` of the
match), then the erasure of 51 with the iterator of the beginning. The answers: whether 3 and 51 are found afterwards, and the size. -/
def keptTooLong : Except Stuck (Bool × Bool × Nat) := do
  let (t, _) ← (Index.orders (α := Unit)).insert fast 3 ()
  let (t, _) ← t.insert fast 51 ()
  match ← t.find fast 51 with
  | none => return (false, false, 0)
  | some it =>
    let (t, _) ← t.erase fast 3
    let t ← t.eraseAt fast it
    return ((← t.get fast 3).isSome, (← t.get fast 51).isSome, t.size)

/-- `ModifyOrder` uses an iterator (found at market_manager.cpp:578, used at 664) after the match has erased other orders. When order 3
goes, 51 moves back into its bucket, and the iterator is left on a blank one: 51 stays in the map, with the address of a released order,
in a map whose size is now 0. The engine model takes the map for one in which the right key is erased, and finds neither order. -/
theorem C88_stale_witness :
    keptTooLong.toOption = some (false, true, 0) ∧
    ∃ g : Mgr, g.Reachable ∧
      (decide (deletions g.ev = [3, 51]) && (g.getOrder 3).isNone && (g.getOrder 51).isNone) = true :=
  ⟨by decide +kernel,
    demo (p := fun g => decide (deletions g.ev = [3, 51]) && (g.getOrder 3).isNone && (g.getOrder 51).isNone) collision
      (by decide +kernel)⟩

/-- A history C88_orders applies to. -/
example : ∃ (g : Mgr) (h : List (Op × ErrorCode)), g.FreshHistory h ∧
    (decide ((g.ev.flatMap Event.filed).length = 4) && (g.getOrder 3).isNone) = true :=
  demoFresh (p := fun g => decide ((g.ev.flatMap Event.filed).length = 4) && (g.getOrder 3).isNone) collision (by decide +kernel)

end CppTrader
