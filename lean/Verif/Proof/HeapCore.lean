import Verif.Proof.HeapBook
import Verif.Proof.MatchBook
import Verif.Proof.LandOps
import Verif.Model.HeapEngine
/-
The pointer-level engine against the engine: what links their states, and the elementary steps.
-/

namespace CppTrader
namespace Ptr

/-- Where the order being matched is: nowhere, in the local variable, in a node of the order map, in a node outside of
it. -/
inductive Seat where
  | idle
  | temp (t : Order)
  | kept (a : Nat) (t : Order)
  | out (a : Nat) (t : Order)

namespace Seat
def map : Seat → (Nat → Option Order) → (Nat → Option Order)
  | .kept _ t, m => setO m t.id (some t)
  | _, m => m
def aside : Seat → Option (Nat × Order)
  | .out a t => some (a, t)
  | _ => none
def taker : Seat → Option Order
  | .idle => none
  | .temp t => some t
  | .kept _ t => some t
  | .out _ t => some t
def loc : Seat → Loc
  | .kept a _ => .node a
  | .out a _ => .node a
  | _ => .temp
def set : Seat → Order → Seat
  | .idle, _ => .idle
  | .temp _, t => .temp t
  | .kept a _, t => .kept a t
  | .out a _, t => .out a t
def ok : Seat → Core → HCore → Prop
  | .idle, _, _ => True
  | .temp t, _, hs => hs.temp = t
  | .kept a t, s, hs => hs.heap.orders t.id = some a ∧ s.orders t.id = none
  | .out _ _, _, _ => True
end Seat

/-- The scalar members of a book. -/
def scal (b : Book) : HBook := ⟨b.symbol, b.lastBid, b.lastAsk, b.matchBid, b.matchAsk, b.trailBid, b.trailAsk⟩

/-- The levels of all books: those of the book in `slot` are given by `b`, the others by `W`. -/
def lvs (W : Col → List Level) (slot : Nat) (b : Book) : Col → List Level := fun x => if x.1 = slot then b.lv x.2 else W x

theorem lvs_at (W : Col → List Level) (n : Nat) (b : Book) (k : Kind) : lvs W n b (n, k) = b.lv k := by unfold lvs; rw [if_pos rfl]

theorem lvs_congr {W : Col → List Level} {n : Nat} {b b' : Book} (h : b'.lv = b.lv) : lvs W n b' = lvs W n b := by
  unfold lvs; rw [h]

theorem lvs_set {W : Col → List Level} {n : Nat} {b b' : Book} {k : Kind} (h : ∀ k', k' ≠ k → b'.lv k' = b.lv k') :
    setX (lvs W n b) (n, k) (b'.lv k) = lvs W n b' := by
  funext y
  obtain ⟨m, k'⟩ := y
  unfold setX lvs
  by_cases e : m = n
  · subst e
    by_cases e' : k' = k
    · subst e'; rw [if_pos rfl, if_pos rfl]
    · rw [if_neg (by intro e2; exact e' (congrArg Prod.snd e2)), if_pos rfl, if_pos rfl, h k' e']
  · rw [if_neg (by intro e2; exact e (congrArg Prod.fst e2)), if_neg e, if_neg e]

variable {W : Col → List Level}

/-- The heap state `hs` represents the state `s`. -/
structure R (W : Col → List Level) (f : Seat) (s : Core) (hs : HCore) : Prop where
  inv : Inv s
  fly : ∀ t, f.taker = some t → Fly s t
  rep : Rep hs.heap (f.map s.orders) (lvs W hs.slot s.book) f.aside
  slot : hs.slot = s.book.symbol.id
  book : hs.book = scal s.book
  ev : hs.ev = s.ev
  seat : f.ok s hs

/-- A step that links no order. -/
structure Cut (W : Col → List Level) (f : Seat) (s : Core) (hs : HCore) (f' : Seat) (s' : Core) (hs' : HCore) : Prop where
  r : R W f' s' hs'
  mono : ∀ i a, hs'.heap.orders i = some a → hs.heap.orders i = some a
  keep : ∀ y lb q, LAt hs.heap y lb q → (∃ m ∈ lvs W hs'.slot s'.book y, m.price = q) → LAt hs'.heap y lb q
  fewer : ∀ k m', m' ∈ s'.book.lv k → ∃ m ∈ s.book.lv k, m.price = m'.price
  slot : hs'.slot = hs.slot

theorem Cut.refl {f : Seat} {s : Core} {hs : HCore} (r : R W f s hs) : Cut W f s hs f s hs :=
  ⟨r, fun _ _ h => h, fun _ _ _ h _ => h, fun _ m hm => ⟨m, hm, rfl⟩, rfl⟩

theorem Cut.trans {f f' f'' : Seat} {s s' s'' : Core} {hs hs' hs'' : HCore} (c : Cut W f s hs f' s' hs') (d : Cut W f' s' hs' f'' s'' hs'') :
    Cut W f s hs f'' s'' hs'' := by
  refine ⟨d.r, fun i a h => c.mono i a (d.mono i a h), ?_, ?_, d.slot.trans c.slot⟩
  · intro y lb q hq hex
    refine d.keep y lb q (c.keep y lb q hq ?_) hex
    obtain ⟨m, hm, hp⟩ := hex
    rw [d.slot] at hm
    unfold lvs at hm ⊢
    by_cases e : y.1 = hs'.slot
    · rw [if_pos e] at hm ⊢
      obtain ⟨m0, h0, hp0⟩ := d.fewer y.2 m hm
      exact ⟨m0, h0, hp0.trans hp⟩
    · rw [if_neg e] at hm ⊢
      exact ⟨m, hm, hp⟩
  · intro k m hm
    obtain ⟨m1, h1, p1⟩ := d.fewer k m hm
    obtain ⟨m2, h2, p2⟩ := c.fewer k m1 h1
    exact ⟨m2, h2, p2.trans p1⟩

theorem fly_congr {s s' : Core} {t : Order} (h : Fly s t) (hs : s'.book.symbol = s.book.symbol) (hv : Core.volume s'.book ≤ Core.volume s.book) : Fly s' t :=
  ⟨h.repr, h.idPos, by rw [hs]; exact h.sym, Nat.lt_of_le_of_lt (Nat.add_le_add_right hv _) h.vol, h.trail⟩

/-- Events and scalar members change. -/
theorem R.calm {f : Seat} {s s' : Core} {hs hs' : HCore} (r : R W f s hs) (h1 : s'.orders = s.orders) (h2 : s'.book.symbol = s.book.symbol)
    (h3 : s'.book.lv = s.book.lv) (h4 : s'.book.best = s.book.best) (h5 : hs'.heap = hs.heap) (h6 : hs'.slot = hs.slot) (h7 : hs'.temp = hs.temp)
    (h8 : hs'.book = scal s'.book) (h9 : hs'.ev = s'.ev) : Cut W f s hs f s' hs' := by
  have hvol : Core.volume s'.book = Core.volume s.book := volume_congr h3
  refine ⟨⟨⟨?_, ?_, ?_⟩, ?_, ?_, ?_, h8, h9, ?_⟩, ?_, ?_, ?_, h6⟩
  · rw [h1]; exact r.inv.book.book_congr h2 h3 h4
  · rw [h1]; exact r.inv.orders
  · rw [hvol]; exact r.inv.vol
  · intro t ht; exact fly_congr (r.fly t ht) h2 (Nat.le_of_eq hvol)
  · rw [h5, h1, h6, lvs_congr h3]; exact r.rep
  · rw [h6, h2]; exact r.slot
  · have := r.seat
    cases f with
    | idle => trivial
    | temp t => exact h7.trans this
    | kept a t => exact ⟨by rw [h5]; exact this.1, by rw [h1]; exact this.2⟩
    | out a t => trivial
  · intro i a h; rw [h5] at h; exact h
  · intro y lb q h _; rw [h5]; exact h
  · intro k m hm; rw [h3] at hm; exact ⟨m, hm, rfl⟩

theorem R.emit {f : Seat} {s : Core} {hs : HCore} (r : R W f s hs) (e : Event) : Cut W f s hs f (s.emit e) (hs.emit e) :=
  r.calm rfl rfl rfl rfl rfl rfl rfl r.book (by show hs.ev ++ _ = s.ev ++ _; rw [r.ev])

theorem R.setPrices {f : Seat} {s : Core} {hs : HCore} (r : R W f s hs) (sd : Side) (p : Nat) : Cut W f s hs f (s.setPrices sd p) (hs.setPrices sd p) := by
  refine r.calm rfl (updatePrices_symbol ..) (updatePrices_lv ..) (updatePrices_best ..) ?_ ?_ ?_ ?_ ?_
  · cases sd <;> rfl
  · cases sd <;> rfl
  · cases sd <;> rfl
  · unfold HCore.setPrices Core.setPrices Book.updatePrices
    cases sd <;> (dsimp only; rw [r.book]; rfl)
  · cases sd <;> exact r.ev

theorem R.reset {f : Seat} {s : Core} {hs : HCore} (r : R W f s hs) : Cut W f s hs f s.reset hs.reset := by
  refine r.calm rfl rfl rfl rfl rfl rfl rfl ?_ r.ev
  unfold HCore.reset
  dsimp only
  rw [r.book]; rfl

theorem R.best {f : Seat} {s : Core} {hs : HCore} (r : R W f s hs) (k : Kind) : s.book.best k = (s.book.lv k).head?.map (·.price) := (r.inv.book.kinds k).best

/-- The order map of the heap for the orders of the book. -/
theorem R.addr {f : Seat} {s : Core} {hs : HCore} (r : R W f s hs) {id : Nat} {o : Order} (ho : s.orders id = some o) :
    f.map s.orders id = some o ∧ ∃ a n, hs.heap.orders id = some a ∧ hs.heap.onode a = some n ∧ n.order = o ∧ o.id = id := by
  have h1 : f.map s.orders id = some o := by
    have hs' := r.seat
    cases f with
    | idle => exact ho
    | temp t => exact ho
    | out a t => exact ho
    | kept a t =>
      refine (setO_off _ _ ?_).trans ho
      intro e; rw [e, hs'.2] at ho; cases ho
  exact ⟨h1, r.rep.node h1⟩

theorem Seat.map_set {f : Seat} {s : Core} {hs : HCore} (hk : f.ok s hs) {id : Nat} {o : Order} (ho : s.orders id = some o) (v : Option Order) :
    f.map (setO s.orders id v) = setO (f.map s.orders) id v := by
  cases f with
  | idle => rfl
  | temp t => rfl
  | out a t => rfl
  | kept a t =>
    have hne : id ≠ t.id := by intro e; rw [e, hk.2] at ho; cases ho
    funext j
    show setO (setO s.orders id v) t.id _ j = setO (setO s.orders t.id _) id v j
    unfold setO
    by_cases h1 : j = t.id
    · have h2 : ¬ j = id := fun e => hne (e.symm.trans h1)
      rw [if_pos h1, if_neg h2, if_pos h1]
    · rw [if_neg h1]
      by_cases h2 : j = id
      · rw [if_pos h2, if_pos h2]
      · rw [if_neg h2, if_neg h2, if_neg h1]

/-- Nothing is queued under the id of a taker kept in the map. -/
theorem R.unlinked {f : Seat} {s : Core} {hs : HCore} (r : R W f s hs) {a : Nat} {t : Order} (hf : f = .kept a t) : ¬ Linked (lvs W hs.slot s.book) t.id := by
  subst hf
  rintro ⟨x, l, hl, hi⟩
  obtain ⟨o, h1, h2, h3, _⟩ := r.rep.mem x l hl t.id hi
  have : o = t := by
    have h1' : setO s.orders t.id (some t) t.id = some o := h1
    rw [setO_at'] at h1'; exact (Option.some.inj h1').symm
  subst this
  have hsym := (r.fly o rfl).sym
  have hx : x.1 = hs.slot := by rw [← h2, hsym, r.slot]
  have hl' : l ∈ s.book.lv x.2 := by unfold lvs at hl; rw [if_pos hx] at hl; exact hl
  obtain ⟨o', h4, _⟩ := ((r.inv.book.kinds x.2).levels l hl').mem o.id hi
  rw [r.seat.2] at h4; cases h4

/-- An order of the book is queued, an order elsewhere is not queued in the book. -/
theorem R.linked {f : Seat} {s : Core} {hs : HCore} (r : R W f s hs) {k : Kind} {l : Level} {i : Nat} (hl : l ∈ s.book.lv k) (hi : i ∈ l.ids) :
    ∃ o, s.orders i = some o ∧ o.symbolId = s.book.symbol.id ∧ o.kind = some k ∧ o.key = l.price := ((r.inv.book.kinds k).levels l hl).mem i hi

/-- `_orders.erase` and `_order_pool.Release` of an unlinked order, an order being kept aside or not. -/
theorem Rep.dropAny {h : Heap} {M : Nat → Option Order} {lv : Col → List Level} {out : Option (Nat × Order)} (r : Rep h M lv out) {i a : Nat} {o : Order}
    (hi : M i = some o) (ha : h.orders i = some a) (hl : ¬ Linked lv i) :
    ∃ h', (h.erase i).releaseOrder a = .ok h' ∧ Rep h' (setO M i none) lv out ∧ h'.orders = setX h.orders i none ∧ h'.tree = h.tree ∧ h'.lnode = h.lnode := by
  obtain ⟨n, hn, hno, hid⟩ := r.nodeAt hi ha
  refine ⟨{ h.erase i with onode := setX h.onode a none }, ?_, ?_, rfl, rfl, rfl⟩
  · unfold Heap.releaseOrder
    rw [show (h.erase i).onode a = some n from hn]
    rfl
  have ho : ∀ j b, setX h.orders i none j = some b → j ≠ i ∧ h.orders j = some b := by
    intro j b hj'
    by_cases hji : j = i
    · rw [hji, setX_same] at hj'; cases hj'
    · rw [setX_other _ _ hji] at hj'; exact ⟨hji, hj'⟩
  refine ⟨?_, ?_, ?_, ?_, ?_, r.lfull, r.nodup, r.apart, r.best, r.sorted, r.idsNodup, r.count, ?_⟩
  · intro j b hj
    obtain ⟨hji, hj⟩ := ho j b hj
    obtain ⟨m, h1, h2, h3⟩ := r.back j b hj
    have hba : b ≠ a := fun e => hji (r.inj (e ▸ hj) ha)
    exact ⟨m, (setX_other _ _ hba).trans h1, h2, (setO_off _ _ hji).trans h3⟩
  · intro j u hj
    have hji : j ≠ i := by intro e; rw [e, setO_at'] at hj; cases hj
    rw [setO_off _ _ hji] at hj
    obtain ⟨b, hb⟩ := r.fwd j u hj
    exact ⟨b, (setX_other _ _ hji).trans hb⟩
  · intro b m hb
    have hb' : setX h.onode a none b = some m := hb
    by_cases hba : b = a
    · rw [hba, setX_same] at hb'; cases hb'
    · rw [setX_other _ _ hba] at hb'
      obtain ⟨q1, q2⟩ := r.full b m hb'
      refine ⟨q1, ?_⟩
      rcases q2 with ⟨j, hj⟩ | q2
      · refine .inl ⟨j, (setX_other _ _ ?_).trans hj⟩
        intro e; rw [e, ha] at hj; exact hba (Option.some.inj hj).symm
      · exact .inr q2
  · intro b t hb
    obtain ⟨⟨m, h1, h2⟩, h3⟩ := r.outOk b t hb
    have hba : b ≠ a := fun e => h3 i (e ▸ ha)
    exact ⟨⟨m, (setX_other _ _ hba).trans h1, h2⟩, fun j hj => h3 j (ho j b hj).2⟩
  · refine unlinked_frame r rfl ?_ ?_ rfl rfl
    · intro j _ _ hlj
      exact setX_other _ _ (fun e => hl (e ▸ hlj))
    · intro j b hlj hj
      refine setX_other _ _ ?_
      intro e
      exact hl ((r.inj (e ▸ hj) ha) ▸ hlj)
  · intro x l hlm j hj
    have hji : j ≠ i := fun e => hl ⟨x, l, hlm, e ▸ hj⟩
    obtain ⟨u, q⟩ := r.mem x l hlm j hj
    exact ⟨u, (setO_off _ _ hji).trans q.1, q.2⟩

/-! ### Queues -/

/-- The order `id` of collection `k` is taken out of its level or changed in place. -/
structure Bump (k : Kind) (id : Nat) (b b' : Book) : Prop where
  place : ∃ L1 l L2 l', b.lv k = L1 ++ l :: L2 ∧ id ∈ l.ids ∧ l'.price = l.price ∧ (l'.ids = l.ids ∨ l'.ids = l.ids.erase id) ∧
    (b'.lv k = L1 ++ l' :: L2 ∨ b'.lv k = L1 ++ L2)
  others : ∀ k', k' ≠ k → b'.lv k' = b.lv k'
  symbol : b'.symbol = b.symbol

theorem settle_bump {b : Book} {k : Kind} {L1 L2 : List Level} {l l' : Level} {id : Nat} (hs : Sorted k (b.lv k)) (e : b.lv k = L1 ++ l :: L2) (hid : id ∈ l.ids)
    (hp : l'.price = l.price) (hi : l'.ids = l.ids ∨ l'.ids = l.ids.erase id) : Bump k id b (b.settle k l').1 := by
  have hsp := sorted_mid (e ▸ hs)
  unfold Book.settle
  split
  · refine ⟨⟨L1, l, L2, l', e, hid, hp, hi, .inr ?_⟩, ?_, ?_⟩
    · show (b.deleteLevel k l'.price).lv k = _
      unfold Book.deleteLevel
      dsimp only
      rw [setK_same, e, hp]
      exact eraseLevel_mid hsp
    · intro k' hk'
      show (b.deleteLevel k l'.price).lv k' = _
      unfold Book.deleteLevel
      exact setK_other' _ _ hk'
    · rfl
  · refine ⟨⟨L1, l, L2, l', e, hid, hp, hi, .inl ?_⟩, fun k' hk' => setK_other' _ _ hk', rfl⟩
    show setK b.lv k _ k = _
    rw [setK_same, e]
    exact replaceLevel_mid hsp hp

theorem delete_bump {b b' : Book} {k : Kind} {o : Order} {u : LevelUpdate} (hs : Sorted k (b.lv k)) (run : b.deleteOrder k o = .ok (b', u)) : Bump k o.id b b' := by
  unfold Book.deleteOrder at run
  cases hf : findLevel (b.lv k) o.key with
  | none => rw [hf] at run; cases run
  | some l =>
    rw [hf] at run
    dsimp only at run
    split at run
    · rename_i hil
      obtain ⟨L1, L2, e, hp, _⟩ := findLevel_some hs hf
      have := settle_bump (l' := l.remove o) hs e hil rfl (.inr rfl)
      rw [Except.ok.inj run] at this
      exact this
    · cases run

theorem reduce_bump {b b' : Book} {k : Kind} {o : Order} {q hd v : Nat} {u : LevelUpdate} (hs : Sorted k (b.lv k)) (run : b.reduceOrder k o q hd v = .ok (b', u)) :
    Bump k o.id b b' := by
  unfold Book.reduceOrder at run
  cases hf : findLevel (b.lv k) o.key with
  | none => rw [hf] at run; cases run
  | some l =>
    rw [hf] at run
    dsimp only at run
    split at run
    · rename_i hil
      obtain ⟨L1, L2, e, hp, _⟩ := findLevel_some hs hf
      have := settle_bump (l' := l.reduce o q hd v) hs e hil rfl (by
        unfold Level.reduce
        by_cases h0 : o.leaves = 0
        · exact .inr (by simp only [if_pos h0])
        · exact .inl (by simp only [if_neg h0]))
      rw [Except.ok.inj run] at this
      exact this
    · cases run

theorem Bump.fewer {k : Kind} {id : Nat} {b b' : Book} (h : Bump k id b b') : ∀ k' m', m' ∈ b'.lv k' → ∃ m ∈ b.lv k', m.price = m'.price := by
  intro k' m' hm
  by_cases e : k' = k
  · subst e
    obtain ⟨L1, l, L2, l', e, _, hp, _, e'⟩ := h.place
    rw [e]
    rcases e' with e' | e'
    · rw [e'] at hm
      rcases List.mem_append.mp hm with q | q
      · exact ⟨m', List.mem_append_left _ q, rfl⟩
      · rcases List.mem_cons.mp q with q | q
        · exact ⟨l, by simp, by rw [q, hp]⟩
        · exact ⟨m', by simp [q], rfl⟩
    · rw [e'] at hm
      rcases List.mem_append.mp hm with q | q
      · exact ⟨m', List.mem_append_left _ q, rfl⟩
      · exact ⟨m', by simp [q], rfl⟩
  · rw [h.others k' e] at hm
    exact ⟨m', hm, rfl⟩

/-- The orders still to be visited are the last ones of the level of price `p`. -/
def Tail (b : Book) (k : Kind) (p : Nat) (rest : List Nat) : Prop := rest = [] ∨ ∃ l ∈ b.lv k, l.price = p ∧ rest <:+ l.ids

theorem suffix_tail {i : Nat} {r l : List Nat} (h : (i :: r) <:+ l) : r <:+ l := by
  obtain ⟨t, e⟩ := h
  exact ⟨t ++ [i], by rw [← e]; simp⟩

theorem Tail.next {b : Book} {k : Kind} {p i : Nat} {r : List Nat} (h : Tail b k p (i :: r)) : Tail b k p r := by
  rcases h with h | ⟨l, h1, h2, h3⟩
  · cases h
  · exact .inr ⟨l, h1, h2, suffix_tail h3⟩

theorem Tail.same {b b' : Book} {k : Kind} {p : Nat} {r : List Nat} (h : Tail b k p r) (e : b'.lv k = b.lv k) : Tail b' k p r := by
  unfold Tail; rw [e]; exact h

/-- The pair of a sorted list of levels around a price. -/
theorem around {L1 L2 K1 K2 : List Level} {l m : Level} (h1 : ∀ v ∈ L1, v.price ≠ l.price) (h2 : ∀ v ∈ L2, v.price ≠ l.price) (hp : m.price = l.price)
    (e : L1 ++ l :: L2 = K1 ++ m :: K2) : L1 = K1 ∧ l = m ∧ L2 = K2 := by
  induction L1 generalizing K1 with
  | nil =>
    cases K1 with
    | nil => exact ⟨rfl, (List.cons.inj e).1, (List.cons.inj e).2⟩
    | cons y K1 =>
      have e2 := (List.cons.inj e).2
      exact absurd hp (h2 m (by rw [e2]; simp))
  | cons z L1 ih =>
    cases K1 with
    | nil => exact absurd hp (h1 m (by rw [(List.cons.inj e).1]; exact List.mem_cons_self))
    | cons y K1 =>
      obtain ⟨q0, q⟩ := List.cons.inj e
      obtain ⟨q1, q2, q3⟩ := ih (fun v hv => h1 v (List.mem_cons_of_mem _ hv)) q
      exact ⟨by rw [q0, q1], q2, q3⟩

theorem Bump.tail {k : Kind} {id : Nat} {s s' : Core} (h : Bump k id s.book s'.book) (hi : Inv s) (hi' : Inv s') (ho : ∀ i, i ≠ id → s'.orders i = s.orders i)
    {p : Nat} {rest : List Nat} (ht : Tail s.book k p (id :: rest)) : Tail s'.book k p rest := by
  rcases ht with ht | ⟨m, hm, hmp, hsuf⟩
  · cases ht
  · cases hr : rest with
    | nil => exact .inl rfl
    | cons j js =>
      right
      obtain ⟨L1, l, L2, l', e, hid, hp, hids, e'⟩ := h.place
      have hsp := sorted_mid (e ▸ (hi.book.kinds k).sorted)
      have hl : l ∈ s.book.lv k := by rw [e]; simp
      have hidm : id ∈ m.ids := hsuf.subset List.mem_cons_self
      have hml : m = l := by
        obtain ⟨o, h1, _, _, h4⟩ := ((hi.book.kinds k).levels m hm).mem id hidm
        obtain ⟨o', h1', _, _, h4'⟩ := ((hi.book.kinds k).levels l hl).mem id hid
        rw [h1] at h1'; cases h1'
        exact sorted_price_inj (hi.book.kinds k).sorted hm hl (h4.symm.trans h4')
      subst hml
      have hnd := ((hi.book.kinds k).levels m hm).nodup
      obtain ⟨pre, epre⟩ := hsuf
      rw [← epre] at hnd
      have hji : j ≠ id := by
        intro ej
        have := (List.nodup_append.mp hnd).2.1
        rw [hr, ej] at this
        exact (List.nodup_cons.mp this).1 List.mem_cons_self
      rcases e' with e' | e'
      · refine ⟨l', by rw [e']; simp, hp.trans hmp, ?_⟩
        rcases hids with q | q
        · rw [q, ← epre, hr]; exact ⟨pre ++ [id], by simp⟩
        · rw [q, ← epre, erase_mid hnd, hr]; exact ⟨pre, rfl⟩
      · exfalso
        have hjm : j ∈ m.ids := by rw [← epre, hr]; simp
        obtain ⟨o, h1, h2, h3, h4⟩ := ((hi.book.kinds k).levels m hm).mem j hjm
        obtain ⟨k', l'', h5, h6, h7⟩ := hi'.book.complete j o (by rw [ho j hji]; exact h1) (by rw [h.symbol]; exact h2)
        rw [h3] at h5; cases h5
        obtain ⟨o', g1, _, _, g4⟩ := ((hi'.book.kinds k).levels l'' h6).mem j h7
        rw [ho j hji, h1] at g1; cases g1
        have hpe : l''.price = m.price := g4.symm.trans h4
        rw [e'] at h6
        rcases List.mem_append.mp h6 with q | q
        · exact hsp.left_ne _ q hpe
        · exact hsp.right_ne _ q hpe

end Ptr
end CppTrader
