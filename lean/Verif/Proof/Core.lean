import Verif.Proof.Prim
/-
The state invariant of one order book together with the order map, and the specifications of the
primitive state changes (queue an order, unqueue it, reduce it, execute it).
-/

namespace CppTrader

/-- The invariant of the state one book operation works on. -/
structure Inv (s : Core) : Prop where
  book : BookOK s.orders s.book
  orders : OrdersOK s.orders
  vol : Core.volume s.book < W64

/-- Ids queued in a collection, in priority order. -/
def queue (b : Book) (k : Kind) : List Nat := flatOf (b.lv k)

theorem kindVolume_eq (b : Book) (k : Kind) : Core.kindVolume b k = volOf (b.lv k) := rfl
theorem kindCount_eq (b : Book) (k : Kind) : Core.kindCount b k = (queue b k).length := by
  simp [Core.kindCount, queue, flatOf, List.length_flatMap]

/-- `b'` has the same levels as `b` outside collection `k`. -/
structure Book.SameLv (k : Kind) (b b' : Book) : Prop where
  symbol : b'.symbol = b.symbol
  lv : ∀ k', k' ≠ k → b'.lv k' = b.lv k'
  best : ∀ k', k' ≠ k → b'.best k' = b.best k'
  trailBid : b'.trailBid = b.trailBid
  trailAsk : b'.trailAsk = b.trailAsk

theorem Book.SameBut.toLv {k b b'} (h : Book.SameBut k b b') : Book.SameLv k b b' :=
  ⟨h.symbol, h.lv, h.best, h.trailBid, h.trailAsk⟩

theorem Book.SameLv.volume {k b b'} (h : Book.SameLv k b b') :
    Core.volume b' + volOf (b.lv k) = Core.volume b + volOf (b'.lv k) := by
  unfold Core.volume
  simp only [kindVolume_eq]
  have := h.lv
  cases k <;>
    (rw [show volOf (b.lv _) = volOf (b.lv _) from rfl]
     simp (disch := decide) only [this]
     omega)

theorem volOf_le_volume (b : Book) (k : Kind) : volOf (b.lv k) ≤ Core.volume b := by
  unfold Core.volume; simp only [kindVolume_eq]; cases k <;> omega

theorem BookOK.update {m m' : Nat → Option Order} {b b' : Book} {k : Kind} {id : Nat}
    (h : BookOK m b) (hs : Book.SameLv k b b')
    (hk : KindOK m' b.symbol.id k (b'.lv k) (b'.best k))
    (hm : ∀ i, i ≠ id → m' i = m i) (hn : ∀ k', k' ≠ k → id ∉ queue b k')
    (hq : ∀ i, i ≠ id → i ∈ queue b k → i ∈ queue b' k)
    (hid : ∀ o, m' id = some o → o.symbolId = b.symbol.id → o.kind = some k ∧ id ∈ queue b' k) :
    BookOK m' b' := by
  constructor
  · intro k'
    rw [hs.symbol]
    by_cases e : k' = k
    · subst e; exact hk
    · rw [hs.lv k' e, hs.best k' e]
      exact (h.kinds k').congr fun i hi => (hm i (fun e' => hn k' e (e' ▸ hi))).symm
  · intro i o ho hsym
    rw [hs.symbol] at hsym
    by_cases e : i = id
    · subst e
      obtain ⟨h1, h2⟩ := hid o ho hsym
      obtain ⟨l, hl, hi⟩ := mem_flatOf.1 h2
      exact ⟨k, l, h1, hl, hi⟩
    · rw [hm i e] at ho
      obtain ⟨k', l, h1, h2, h3⟩ := h.complete i o ho hsym
      by_cases e' : k' = k
      · subst e'
        obtain ⟨l', hl', hi'⟩ := mem_flatOf.1 (hq i e (mem_flatOf.2 ⟨l, h2, h3⟩))
        exact ⟨k', l', h1, hl', hi'⟩
      · exact ⟨k', l, h1, by rw [hs.lv k' e']; exact h2, h3⟩

theorem BookOK.queue_iff {m b i o} (h : BookOK m b) (hm : m i = some o)
    (hs : o.symbolId = b.symbol.id) (k : Kind) : i ∈ queue b k ↔ o.kind = some k := by
  constructor
  · intro hi
    obtain ⟨l, hl, hil⟩ := mem_flatOf.1 hi
    obtain ⟨o', h1, _, h3, _⟩ := ((h.kinds k).levels l hl).mem i hil
    rw [hm] at h1; cases h1; exact h3
  · intro hk
    obtain ⟨k', l, h1, h2, h3⟩ := h.complete i o hm hs
    rw [hk] at h1; cases h1
    exact mem_flatOf.2 ⟨l, h2, h3⟩

theorem BookOK.queue_mem {m b i k} (h : BookOK m b) (hi : i ∈ queue b k) :
    ∃ o, m i = some o ∧ o.symbolId = b.symbol.id ∧ o.kind = some k := by
  obtain ⟨l, hl, hil⟩ := mem_flatOf.1 hi
  obtain ⟨o, h1, h2, h3, _⟩ := ((h.kinds k).levels l hl).mem i hil
  exact ⟨o, h1, h2, h3⟩

theorem BookOK.queue_none {m b i} (h : BookOK m b) (hi : m i = none) (k : Kind) : i ∉ queue b k := by
  intro hq
  obtain ⟨o, h1, _⟩ := h.queue_mem hq
  rw [hi] at h1; cases h1

theorem KindOK.nodup {m sym k ls best} (h : KindOK m sym k ls best) : (flatOf ls).Nodup := by
  have key : ∀ ls' : List Level, (∀ l ∈ ls', LevelOK m sym k l) → Sorted k ls' → (flatOf ls').Nodup := by
    intro ls' hl hs
    induction ls' with
    | nil => simp
    | cons l ls ih =>
      rw [flatOf_cons, List.nodup_append]
      refine ⟨(hl l (by simp)).nodup, ih (fun x hx => hl x (by simp [hx])) (List.Pairwise.of_cons hs), ?_⟩
      intro a ha c hc e
      subst e
      obtain ⟨l', hl', hil⟩ := mem_flatOf.1 hc
      obtain ⟨o, h1, _, _, h4⟩ := (hl l (by simp)).mem a ha
      obtain ⟨o', h1', _, _, h4'⟩ := (hl l' (by simp [hl'])).mem a hil
      rw [h1] at h1'; cases h1'
      exact better_ne (List.rel_of_pairwise_cons hs hl') (h4.symm.trans h4')
  exact key ls h.levels h.sorted

theorem kind_of_notMarket {o : Order} (h : o.type ≠ .market) : ∃ k, o.kind = some k := by
  unfold Order.kind; cases ht : o.type <;> simp_all

namespace Core

@[simp] theorem updateLevel_book (s : Core) (u) : (s.updateLevel u).book = s.book := rfl
@[simp] theorem updateLevel_orders (s : Core) (u) : (s.updateLevel u).orders = s.orders := rfl
@[simp] theorem emit_book (s : Core) (e) : (s.emit e).book = s.book := rfl
@[simp] theorem emit_orders (s : Core) (e) : (s.emit e).orders = s.orders := rfl
@[simp] theorem emit_ev (s : Core) (e) : (s.emit e).ev = s.ev ++ [e] := rfl

end Core

theorem Inv.emit {s : Core} (h : Inv s) (e : Event) : Inv (s.emit e) := ⟨h.book, h.orders, h.vol⟩

/-- The effect of a primitive change of order `id` in collection `k`. -/
structure Eff (k : Kind) (id : Nat) (v : Option Order) (s s' : Core) : Prop where
  orders : s'.orders = setO s.orders id v
  same : Book.SameLv k s.book s'.book

theorem Inv.link {s : Core} {t : Order} (h : Inv s) (ht : OrderOK t)
    (hs : t.symbolId = s.book.symbol.id) (hn : s.orders t.id = none)
    (hv : Core.volume s.book + t.leaves < W64) :
    ∃ k s', t.kind = some k ∧ s.link t = .ok s' ∧ Inv s' ∧ Eff k t.id (some t) s s' ∧
      Book.SameBut k s.book s'.book ∧
      Core.volume s'.book = Core.volume s.book + t.leaves ∧
      (∃ pre post, queue s.book k = pre ++ post ∧ queue s'.book k = pre ++ t.id :: post) := by
  obtain ⟨k, hk⟩ := kind_of_notMarket ht.notMarket
  have hle := volOf_le_volume s.book k
  obtain ⟨a1, a2, pre, post, a3, a4, _, _⟩ :=
    addOrder_ok (h.book.kinds k) hk hs hn (by omega)
  have hsame := addOrder_same s.book k t
  let s1 : Core := { s with book := (s.book.addOrder k t).1, orders := setO s.orders t.id (some t) }
  let s' : Core := if k.isLimit then s1.updateLevel (s.book.addOrder k t).2 else s1
  have e1 : s'.book = (s.book.addOrder k t).1 := by simp only [s']; split <;> rfl
  have e2 : s'.orders = setO s.orders t.id (some t) := by simp only [s']; split <;> rfl
  have hvol : Core.volume s'.book = Core.volume s.book + t.leaves := by
    have := hsame.toLv.volume; rw [e1]; omega
  refine ⟨k, s', hk, ?_, ⟨?_, ?_, by omega⟩, ⟨e2, e1 ▸ hsame.toLv⟩, e1 ▸ hsame, hvol, ?_⟩
  · unfold Core.link; rw [hk]
  · rw [e1, e2]
    refine h.book.update (id := t.id) hsame.toLv (hs ▸ hs ▸ a1) (fun i hi => setO_other _ _ hi)
      (fun k' _ => h.book.queue_none hn k') ?_ ?_
    · intro i _ hi
      show i ∈ flatOf _
      rw [a4]
      have : i ∈ flatOf (s.book.lv k) := hi
      rw [a3] at this
      simp only [List.mem_append, List.mem_cons] at this ⊢
      rcases this with h | h <;> simp [h]
    · intro o ho _
      simp at ho; subst ho
      exact ⟨hk, by show t.id ∈ flatOf _; rw [a4]; simp⟩
  · rw [e2]
    intro i o ho
    by_cases e : i = t.id
    · subst e; simp at ho; subst ho; exact ⟨rfl, ht⟩
    · rw [setO_other _ _ e] at ho; exact h.orders i o ho
  · exact ⟨pre, post, a3, by rw [e1]; exact a4⟩

theorem Inv.unlink {s : Core} {id : Nat} {o : Order} (h : Inv s) (ho : s.orders id = some o)
    (hs : o.symbolId = s.book.symbol.id) :
    ∃ k s', o.kind = some k ∧ s.unlink o = .ok s' ∧ Inv s' ∧ Eff k id none s s' ∧
      Book.SameBut k s.book s'.book ∧
      Core.volume s'.book + o.leaves = Core.volume s.book ∧
      queue s'.book k = (queue s.book k).erase id := by
  obtain ⟨hid, hok⟩ := h.orders id o ho
  subst hid
  obtain ⟨k, hk⟩ := kind_of_notMarket hok.notMarket
  have hq : o.id ∈ queue s.book k := (h.book.queue_iff ho hs k).2 hk
  have hle := volOf_le_volume s.book k
  have hv := h.vol
  obtain ⟨b', u, a0, hsame, a1, a2, a3⟩ :=
    deleteOrder_ok (h.book.kinds k) h.orders ho hq (by omega)
  let s1 : Core := { s with book := b', orders := setO s.orders o.id none }
  let s' : Core := if k.isLimit then s1.updateLevel u else s1
  have e1 : s'.book = b' := by simp only [s']; split <;> rfl
  have e2 : s'.orders = setO s.orders o.id none := by simp only [s']; split <;> rfl
  have hvol : Core.volume s'.book + o.leaves = Core.volume s.book := by
    have := hsame.toLv.volume; rw [e1]; omega
  refine ⟨k, s', hk, ?_, ⟨?_, ?_, by omega⟩, ⟨e2, e1 ▸ hsame.toLv⟩, e1 ▸ hsame, hvol, ?_⟩
  · unfold Core.unlink; rw [hk]; simp only [a0]; rfl
  · rw [e1, e2]
    refine h.book.update (id := o.id) hsame.toLv a1 (fun i hi => setO_other _ _ hi) ?_ ?_ ?_
    · intro k' hk' hq'
      have := (h.book.queue_iff ho hs k').1 hq'
      rw [hk] at this; cases this; exact hk' rfl
    · intro i hi hq'
      show i ∈ flatOf _
      rw [a3]; exact (List.mem_erase_of_ne hi).2 hq'
    · intro o' ho'; simp at ho'
  · rw [e2]
    intro i o' ho'
    by_cases e : i = o.id
    · subst e; simp at ho'
    · rw [setO_other _ _ e] at ho'; exact h.orders i o' ho'
  · show flatOf (s'.book.lv k) = _
    rw [e1]; exact a3

theorem Inv.shrink {s : Core} {o o' : Order} {q : Nat} (h : Inv s) (ho : s.orders o.id = some o)
    (hs : o.symbolId = s.book.symbol.id)
    (hid : o'.id = o.id) (hkey : o'.key = o.key) (hkd : o'.kind = o.kind)
    (hsy : o'.symbolId = o.symbolId) (hq : q ≤ o.leaves) (hlv : o'.leaves = o.leaves - q)
    (hmv : o'.maxVisible = o.maxVisible) (hok' : 0 < o'.leaves → OrderOK o') :
    ∃ k s', o.kind = some k ∧
      s.shrink o' q (o.hiddenQty - o'.hiddenQty) (o.visibleQty - o'.visibleQty) = .ok s' ∧ Inv s' ∧
      Eff k o.id (if o'.leaves = 0 then none else some o') s s' ∧
      Book.SameBut k s.book s'.book ∧
      Core.volume s'.book + q = Core.volume s.book ∧
      queue s'.book k = (if o'.leaves = 0 then (queue s.book k).erase o.id else queue s.book k) := by
  obtain ⟨_, hok⟩ := h.orders _ o ho
  obtain ⟨k, hk⟩ := kind_of_notMarket hok.notMarket
  have hqu : o.id ∈ queue s.book k := (h.book.queue_iff ho hs k).2 hk
  have hle := volOf_le_volume s.book k
  have hv := h.vol
  obtain ⟨b', u, a0, hsame, a1, a2, a3⟩ :=
    reduceOrder_ok (h.book.kinds k) h.orders ho hqu (by omega) hid hkey hkd hsy hq hlv hmv
  let v := if o'.leaves = 0 then none else some o'
  let s1 : Core := { s with book := b', orders := setO s.orders o.id v }
  let s' : Core := if k.isLimit then s1.updateLevel u else s1
  have e1 : s'.book = b' := by simp only [s']; split <;> rfl
  have e2 : s'.orders = setO s.orders o.id v := by simp only [s']; split <;> rfl
  have hvol : Core.volume s'.book + q = Core.volume s.book := by
    have := hsame.toLv.volume; rw [e1]; omega
  have a3' : queue b' k = if o'.leaves = 0 then (queue s.book k).erase o.id else queue s.book k := a3
  refine ⟨k, s', hk, ?_, ⟨?_, ?_, by omega⟩, ⟨e2, e1 ▸ hsame.toLv⟩, e1 ▸ hsame, hvol, ?_⟩
  · unfold Core.shrink; rw [hkd, hk]; simp only [a0, hid]; rfl
  · rw [e1, e2]
    refine h.book.update (id := o.id) hsame.toLv a1 (fun i hi => setO_other _ _ hi) ?_ ?_ ?_
    · intro k' hk' hq'
      have := (h.book.queue_iff ho hs k').1 hq'
      rw [hk] at this; cases this; exact hk' rfl
    · intro i hi hq'
      rw [a3']
      split
      · exact (List.mem_erase_of_ne hi).2 hq'
      · exact hq'
    · intro o'' ho'' _
      simp only [setO_same, v] at ho''
      split at ho''
      · cases ho''
      · rename_i hne
        cases ho''
        exact ⟨hkd.trans hk, by rw [a3', if_neg hne]; exact hqu⟩
  · rw [e2]
    intro i o'' ho''
    by_cases e : i = o.id
    · subst e
      simp only [setO_same, v] at ho''
      split at ho''
      · cases ho''
      · cases ho''; exact ⟨hid, hok' (by omega)⟩
    · rw [setO_other _ _ e] at ho''; exact h.orders i o'' ho''
  · rw [e1]; exact a3'

end CppTrader
