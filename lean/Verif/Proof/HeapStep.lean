import Verif.Proof.HeapCore
/-
Elementary steps of the pointer-level engine: executing, reducing, deleting, unlinking and linking an order.
-/

namespace CppTrader
namespace Ptr

variable {W : Col → List Level}

theorem setO_again (m : Nat → Option Order) (i : Nat) (v w : Option Order) : setO (setO m i v) i w = setO m i w := by
  funext j; unfold setO; split <;> rfl

theorem orders_some {h : Heap} {i a b : Nat} (h1 : h.orders i = some a) (h2 : h.orders i = some b) : a = b := by
  rw [h1] at h2; exact Option.some.inj h2

/-- The order of a node changes, not its place. -/
theorem R.write {f : Seat} {s : Core} {hs : HCore} (r : R W f s hs) {id a : Nat} {o o' : Order} (ho : s.orders id = some o) (ha : hs.heap.orders id = some a)
    (hid : o'.id = id) (hsy : o'.symbolId = o.symbolId) (hk : o'.kind = o.kind) (hkey : o'.key = o.key)
    (hi : Inv { s with orders := setO s.orders id (some o') }) :
    ∃ hs', hs.write a o' = .ok hs' ∧ Cut W f s hs f { s with orders := setO s.orders id (some o') } hs' ∧ hs'.heap.orders = hs.heap.orders ∧
      hs' = { hs with heap := upd hs.heap (some a) (fun n => { n with order := o' }) } := by
  obtain ⟨hM, _⟩ := r.addr ho
  obtain ⟨e, rep⟩ := r.rep.write hM ha hid (fun _ => ⟨hsy, hk, hkey⟩)
  have hne : ∀ t b, f = .kept b t → id ≠ t.id := by
    intro t b hf e
    have := r.seat; rw [hf] at this
    rw [e, this.2] at ho; cases ho
  refine ⟨{ hs with heap := upd hs.heap (some a) (fun n => { n with order := o' }) }, ?_, ?_, rfl, rfl⟩
  · unfold HCore.write; rw [e]; rfl
  · refine ⟨⟨hi, fun t ht => fly_congr (r.fly t ht) rfl (Nat.le_refl _), ?_, r.slot, r.book, r.ev, ?_⟩, fun _ _ h => h, ?_, fun _ m hm => ⟨m, hm, rfl⟩, rfl⟩
    · show Rep _ (f.map (setO s.orders id (some o'))) _ _
      rw [Seat.map_set r.seat ho]; exact rep
    · have := r.seat
      cases f with
      | idle => trivial
      | temp t => exact this
      | kept b t => exact ⟨this.1, (setO_off _ _ (fun e => hne t b rfl e.symm)).trans this.2⟩
      | out b t => trivial
    · intro y lb q hq _; exact hq

theorem execResting_run {f : Seat} {s s' : Core} {hs : HCore} (r : R W f s hs) {id a p q : Nat} (ha : hs.heap.orders id = some a)
    (run : s.execResting id p q = .ok s') :
    ∃ hs' o, hs.execResting a p q = .ok hs' ∧ Cut W f s hs f s' hs' ∧ s.orders id = some o ∧
      s'.orders = setO s.orders id (some { o with executed := add64 o.executed q }) ∧ s'.book.lv = s.book.lv ∧ s'.book.symbol = s.book.symbol ∧ hs'.heap.orders = hs.heap.orders := by
  cases ho : s.orders id with
  | none => unfold Core.execResting at run; rw [ho] at run; cases run
  | some o =>
    obtain ⟨s1, h1, h2, h3, h4, h5⟩ := r.inv.execResting (price := p) (q := q) ho
    rw [h1] at run
    have := Except.ok.inj run
    subst this
    obtain ⟨hM, a', n, ha', hn, hno, hid⟩ := r.addr ho
    have := orders_some ha ha'
    subst this
    have c1 := r.emit (.exec o p q)
    have c2 := c1.r.setPrices o.side p
    have hord : ((s.emit (.exec o p q)).setPrices o.side p).orders = s.orders := rfl
    have hheap : ((hs.emit (.exec o p q)).setPrices o.side p).heap = hs.heap := by cases o.side <;> rfl
    have es1 : s1 = { (s.emit (.exec o p q)).setPrices o.side p with orders := setO s.orders id (some { o with executed := add64 o.executed q }) } := by
      unfold Core.execResting at h1
      rw [ho] at h1
      exact (Except.ok.inj h1).symm
    obtain ⟨hs', e, c3, hoo, _⟩ := c2.r.write (id := id) (a := a) (o := o) (o' := { o with executed := add64 o.executed q }) ho (by rw [hheap]; exact ha) hid rfl rfl rfl (by
      rw [es1] at h2; exact h2)
    refine ⟨hs', o, ?_, ?_, rfl, h3, ?_, ?_, ?_⟩
    · unfold HCore.execResting HCore.order
      rw [order_eq hn, Except.bind_ok, hno]
      exact e
    · rw [es1]; exact (c1.trans c2).trans c3
    · rw [h4]; exact updatePrices_lv ..
    · rw [h4]; exact updatePrices_symbol ..
    · rw [hoo, hheap]

/-- `UpdateLevel` after a change of the book. -/
theorem R.after {f : Seat} {s : Core} {hs : HCore} {h' : Heap} (r : R W f s { hs with heap := h' }) (k : Kind) (u : LevelUpdate) :
    Cut W f s { hs with heap := h' } f (if k.isLimit then s.updateLevel u else s) (hs.after k (h', u)) := by
  unfold HCore.after
  dsimp only
  cases k.isLimit with
  | false => exact .refl r
  | true =>
    refine r.calm rfl rfl rfl rfl rfl rfl rfl r.book ?_
    have h1 := r.ev
    have h2 := r.book
    dsimp only at h1 h2
    unfold HCore.updateLevel Core.updateLevel HCore.emit Core.emit
    simp only [if_true]
    rw [h1, h2]
    rfl

theorem after_heap (hs : HCore) (k : Kind) (x : Heap × LevelUpdate) : (hs.after k x).heap = x.1 ∧ (hs.after k x).slot = hs.slot ∧ (hs.after k x).temp = hs.temp ∧
    (hs.after k x).book = hs.book := by
  unfold HCore.after; dsimp only; cases k.isLimit <;> exact ⟨rfl, rfl, rfl, rfl⟩

theorem after_ev {s : Core} {hs : HCore} {h' : Heap} (hb : hs.book = scal s.book) (he : hs.ev = s.ev) (k : Kind) (u : LevelUpdate) :
    (hs.after k (h', u)).ev = (if k.isLimit then s.updateLevel u else s).ev := by
  unfold HCore.after
  dsimp only
  cases k.isLimit with
  | false => exact he
  | true =>
    unfold HCore.updateLevel Core.updateLevel HCore.emit Core.emit
    simp only [if_true]
    rw [he, hb]
    rfl

/-- What unlinking an order does; the node is still in the map. -/
structure Unlinked (W : Col → List Level) (f : Seat) (s : Core) (hs : HCore) (id : Nat) (o : Order) (k : Kind) (s' : Core) (hs' : HCore) : Prop where
  rep : Rep hs'.heap (f.map s.orders) (lvs W hs'.slot s'.book) f.aside
  gone : ¬ Linked (lvs W hs'.slot s'.book) id
  ords : hs'.heap.orders = hs.heap.orders
  keep : ∀ y lb q, LAt hs.heap y lb q → (∃ m ∈ lvs W hs'.slot s'.book y, m.price = q) → LAt hs'.heap y lb q
  bump : Bump k id s.book s'.book
  inv : Inv s'
  orders : s'.orders = setO s.orders id none
  vol : Core.volume s'.book + o.leaves = Core.volume s.book
  slot : hs'.slot = hs.slot
  temp : hs'.temp = hs.temp
  book : hs'.book = scal s'.book
  ev : hs'.ev = s'.ev

theorem unlink_run {f : Seat} {s s' : Core} {hs : HCore} (r : R W f s hs) {id a : Nat} {o : Order} (ho : s.orders id = some o)
    (hsym : o.symbolId = s.book.symbol.id) (ha : hs.heap.orders id = some a) (run : s.unlink o = .ok s') :
    ∃ hs' k, hs.unlink a = .ok hs' ∧ o.kind = some k ∧ Unlinked W f s hs id o k s' hs' := by
  obtain ⟨k, s1, hk, h1, hi, he, hsame, hvol, hq⟩ := r.inv.unlink ho hsym
  rw [h1] at run
  have := Except.ok.inj run
  subst this
  obtain ⟨hM, a', n, ha', hn, hno, hid⟩ := r.addr ho
  have := orders_some ha ha'
  subst this
  unfold Core.unlink at h1
  rw [hk] at h1
  dsimp only at h1
  cases hd : s.book.deleteOrder k o with
  | error e => rw [hd] at h1; cases h1
  | ok x =>
    obtain ⟨b, u⟩ := x
    rw [hd] at h1
    have h1 := Except.ok.inj h1
    have hbump := delete_bump (r.inv.book.kinds k).sorted hd
    rw [hid] at hbump
    have hbk : s1.book = b := by rw [← h1]; cases k.isLimit <;> rfl
    obtain ⟨h', e, rep, hg, hords, hkeep⟩ := deleteOrder_spec r.rep (x := (hs.slot, k)) (b := s.book) (by rw [lvs_at]) (by rw [lvs_at]; exact r.best k) hM ha hd
    have hset : setX (lvs W hs.slot s.book) (hs.slot, k) (b.lv k) = lvs W hs.slot b := lvs_set hbump.others
    rw [hset] at rep hg hkeep
    obtain ⟨q1, q2, q3, q4⟩ := after_heap hs k (h', u)
    have hev : (hs.after k (h', u)).ev = s1.ev := by
      rw [after_ev (s := { s with book := b, orders := setO s.orders o.id none }) (hs := hs) ?_ r.ev, ← h1]
      rw [r.book]
      have := hsame
      rw [hbk] at this
      unfold scal
      rw [this.symbol, this.lastBid, this.lastAsk, this.matchBid, this.matchAsk, this.trailBid, this.trailAsk]
    refine ⟨hs.after k (h', u), k, ?_, hk, ?_, ?_, ?_, ?_, ?_, hi, he.orders, hvol, q2, q3, ?_, hev⟩
    · unfold HCore.unlink HCore.order
      rw [order_eq hn, Except.bind_ok, hno, hk]
      show (do let r ← hs.heap.deleteOrder (hs.slot, k) a; Except.ok (hs.after k r)) = _
      rw [e]; rfl
    · rw [q1, q2, hbk]; exact rep
    · rw [q2, hbk]; exact hg
    · rw [q1]; exact hords
    · rw [q1, q2, hbk]; exact hkeep
    · rw [hbk]; exact hbump
    · rw [q4, r.book]
      have := hsame
      unfold scal
      rw [this.symbol, this.lastBid, this.lastAsk, this.matchBid, this.matchAsk, this.trailBid, this.trailAsk]

/-- `_orders.erase; _order_pool.Release` -/
theorem R.dropped {f : Seat} {s s' : Core} {hs hs1 : HCore} (r : R W f s hs) {id a : Nat} {o o1 : Order} {k : Kind} (ho : s.orders id = some o) (ha : hs.heap.orders id = some a)
    (rep : Rep hs1.heap (setO (f.map s.orders) id (some o1)) (lvs W hs1.slot s'.book) f.aside) (gone : ¬ Linked (lvs W hs1.slot s'.book) id)
    (ords : hs1.heap.orders = hs.heap.orders) (keep : ∀ y lb q, LAt hs.heap y lb q → (∃ m ∈ lvs W hs1.slot s'.book y, m.price = q) → LAt hs1.heap y lb q)
    (bump : Bump k id s.book s'.book) (inv : Inv s') (orders : s'.orders = setO s.orders id none) (vol : Core.volume s'.book ≤ Core.volume s.book)
    (slot : hs1.slot = hs.slot) (temp : hs1.temp = hs.temp) (book : hs1.book = scal s'.book) (ev : hs1.ev = s'.ev) :
    ∃ hs', hs1.drop id a = .ok hs' ∧ Cut W f s hs f s' hs' ∧ hs'.heap.orders = setX hs.heap.orders id none := by
  obtain ⟨h', e, rep', q1, q2, q3⟩ := rep.dropAny (i := id) (a := a) (o := o1) (setO_at' _ _ _) (by rw [ords]; exact ha) gone
  have hmap : setO (setO (f.map s.orders) id (some o1)) id none = f.map s'.orders := by
    rw [orders, Seat.map_set r.seat ho, setO_again]
  rw [hmap] at rep'
  refine ⟨{ hs1 with heap := h' }, ?_, ⟨⟨inv, ?_, rep', ?_, book, ev, ?_⟩, ?_, ?_, bump.fewer, slot⟩, ?_⟩
  · unfold HCore.drop
    rw [e]; rfl
  · intro t ht; exact fly_congr (r.fly t ht) bump.symbol vol
  · show hs1.slot = _
    rw [slot, bump.symbol]; exact r.slot
  · have := r.seat
    cases f with
    | idle => trivial
    | temp t => exact temp.trans this
    | kept b t =>
      have hne : t.id ≠ id := by intro e; rw [← e, this.2] at ho; cases ho
      refine ⟨?_, by rw [orders, setO_off _ _ hne]; exact this.2⟩
      show h'.orders t.id = _
      rw [q1, setX_other _ _ hne, ords]; exact this.1
    | out b t => trivial
  · intro i b hb
    have hb' : h'.orders i = some b := hb
    rw [q1, ords] at hb'
    by_cases e : i = id
    · rw [e, setX_same] at hb'; cases hb'
    · rw [setX_other _ _ e] at hb'; exact hb'
  · intro y lb q hq hex
    obtain ⟨hm, n, hn, hp⟩ := keep y lb q hq hex
    exact ⟨by show lb ∈ h'.tree y; rw [q2]; exact hm, n, by show h'.lnode lb = _; rw [q3]; exact hn, hp⟩
  · show h'.orders = _
    rw [q1, ords]

theorem deleteBody_run {f : Seat} {s s' : Core} {hs : HCore} (r : R W f s hs) {id a : Nat} {o : Order} (ho : s.orders id = some o)
    (hsym : o.symbolId = s.book.symbol.id) (ha : hs.heap.orders id = some a) (run : s.deleteBody o = .ok s') :
    ∃ hs' k, hs.deleteBody id a = .ok hs' ∧ o.kind = some k ∧ Cut W f s hs f s' hs' ∧ Bump k id s.book s'.book ∧ s'.orders = setO s.orders id none ∧
      hs'.heap.orders = setX hs.heap.orders id none := by
  unfold Core.deleteBody at run
  obtain ⟨s1, h1, run⟩ := bind_inv run
  have := Except.ok.inj run
  subst this
  obtain ⟨hs1, k, e1, hk, u⟩ := unlink_run r ho hsym ha h1
  obtain ⟨hM, a', n, ha', hn, hno, hid⟩ := r.addr ho
  have := orders_some ha ha'
  subst this
  obtain ⟨n1, hn1, hno1, _⟩ := u.rep.nodeAt hM (by rw [u.ords]; exact ha)
  obtain ⟨hs', e2, c, hx⟩ := r.dropped (s' := s1.emit (.deleteOrder o)) (hs1 := hs1.emit (.deleteOrder o)) (o1 := o) (k := k) ho ha (by
      rw [setO_self hM]; exact u.rep) u.gone u.ords u.keep u.bump (u.inv.emit _) u.orders (by show Core.volume s1.book ≤ _; have := u.vol; omega) u.slot u.temp u.book
      (by show hs1.ev ++ _ = s1.ev ++ _; rw [u.ev])
  refine ⟨hs', k, ?_, hk, c, u.bump, u.orders, hx⟩
  unfold HCore.deleteBody
  rw [e1, Except.bind_ok]
  unfold HCore.order
  rw [order_eq hn1, Except.bind_ok, hno1]
  exact e2

/-- The part of `ReduceOrder`, `MitigateOrder` and `ExecuteOrder` after the checks: the order is changed in place to `o'`, reported, and the
level follows. -/
theorem shrink_run {f : Seat} {s s' : Core} {hs : HCore} (r : R W f s hs) {id a q : Nat} {o o' : Order} {e : List Event} (ho : s.orders id = some o)
    (hsym : o.symbolId = s.book.symbol.id) (ha : hs.heap.orders id = some a)
    (hid' : o'.id = o.id) (hkey : o'.key = o.key) (hkd : o'.kind = o.kind) (hsy : o'.symbolId = o.symbolId) (hq : q ≤ o.leaves) (hlv : o'.leaves = o.leaves - q)
    (hmv : o'.maxVisible = o.maxVisible) (hok' : 0 < o'.leaves → OrderOK o')
    (run : { s with ev := s.ev ++ e }.shrink o' q (o.hiddenQty - o'.hiddenQty) (o.visibleQty - o'.visibleQty) = .ok s') :
    ∃ hs' k, (do
        let hs1 ← hs.write a o'
        let hs1 ← { hs1 with ev := hs1.ev ++ e }.shrink a q (o.hiddenQty - o'.hiddenQty) (o.visibleQty - o'.visibleQty)
        if o'.leaves > 0 then .ok hs1 else hs1.drop id a : Except Err HCore) = .ok hs' ∧ o.kind = some k ∧ Cut W f s hs f s' hs' ∧ Bump k id s.book s'.book ∧
      s'.orders = setO s.orders id (if o'.leaves = 0 then none else some o') := by
  obtain ⟨hM, a', n, ha', hn, hno, hid⟩ := r.addr ho
  have := orders_some ha ha'
  subst this
  obtain ⟨k, s1, hk, h1, hi, he, hsame, hvol, hqu⟩ := (Inv.shrink (s := { s with ev := s.ev ++ e }) (o := o) (o' := o') (q := q) ⟨r.inv.book, r.inv.orders, r.inv.vol⟩ (by rw [hid]; exact ho) hsym
    hid' hkey hkd hsy hq hlv hmv hok')
  rw [h1] at run
  have := Except.ok.inj run
  subst this
  unfold Core.shrink at h1
  rw [hkd, hk] at h1
  dsimp only at h1
  cases hd : s.book.reduceOrder k o' q (o.hiddenQty - o'.hiddenQty) (o.visibleQty - o'.visibleQty) with
  | error e => rw [hd] at h1; cases h1
  | ok x =>
    obtain ⟨b, u⟩ := x
    rw [hd] at h1
    have h1 := Except.ok.inj h1
    have hbump := reduce_bump (r.inv.book.kinds k).sorted hd
    rw [hid', hid] at hbump
    have hbk : s1.book = b := by rw [← h1]; cases k.isLimit <;> rfl
    obtain ⟨ew, repw⟩ := r.rep.write hM ha (hid'.trans hid) (fun _ => ⟨hsy, hkd, hkey⟩)
    generalize hh0 : upd hs.heap (some a) (fun n => { n with order := o' }) = h0 at ew repw
    have hords0 : h0.orders = hs.heap.orders := by rw [← hh0]; rfl
    have hlat0 : ∀ y lb p, LAt hs.heap y lb p → LAt h0 y lb p := by intro y lb p hq; rw [← hh0]; exact hq
    obtain ⟨n0, hn0, hno0, _⟩ := repw.nodeAt (setO_at' _ _ _) (by rw [hords0]; exact ha)
    obtain ⟨h', e', rep, hg, hords, hkeep⟩ := reduceOrder_spec repw (x := (hs.slot, k)) (b := s.book) (by rw [lvs_at]) (by rw [lvs_at]; exact r.best k) (setO_at' _ _ _)
      (by rw [hords0]; exact ha) hd
    have hset : setX (lvs W hs.slot s.book) (hs.slot, k) (b.lv k) = lvs W hs.slot b := lvs_set hbump.others
    rw [hset] at rep hg hkeep
    have hords' : h'.orders = hs.heap.orders := hords.trans hords0
    let hs0 : HCore := { hs with heap := h0, ev := hs.ev ++ e }
    obtain ⟨q1, q2, q3, q4⟩ := after_heap hs0 k (h', u)
    have hbook : hs.book = scal b := by
      rw [r.book]
      have := hsame
      rw [hbk] at this
      have hh : ∀ {c : Book}, Book.SameBut k s.book c → scal s.book = scal c := by
        intro c this
        unfold scal
        rw [this.symbol, this.lastBid, this.lastAsk, this.matchBid, this.matchAsk, this.trailBid, this.trailAsk]
      exact hh this
    have hev : (hs0.after k (h', u)).ev = s1.ev := by
      rw [after_ev (s := { s with ev := s.ev ++ e, book := b, orders := setO s.orders o'.id (if o'.leaves = 0 then none else some o') }) (hs := hs0) hbook (by
        show hs.ev ++ e = s.ev ++ e; rw [r.ev]), ← h1]
    have horders : s1.orders = setO s.orders id (if o'.leaves = 0 then none else some o') := by rw [he.orders, hid]
    have hvolle : Core.volume s1.book ≤ Core.volume s.book := by
      have : Core.volume s1.book + q = Core.volume s.book := hvol
      omega
    have hshr : hs0.shrink a q (o.hiddenQty - o'.hiddenQty) (o.visibleQty - o'.visibleQty) = .ok (hs0.after k (h', u)) := by
      unfold HCore.shrink HCore.order
      rw [order_eq (h := hs0.heap) hn0, Except.bind_ok, hno0, hkd, hk]
      show (do let r ← h0.reduceOrder (hs.slot, k) a q _ _; Except.ok (hs0.after k r)) = _
      rw [e']; rfl
    have hwr : hs.write a o' = .ok { hs with heap := h0 } := by unfold HCore.write; rw [ew]; rfl
    by_cases hz : o'.leaves = 0
    · obtain ⟨hs', e2, c, hx⟩ := r.dropped (s' := s1) (hs1 := hs0.after k (h', u)) (o1 := o') (k := k) ho ha (by
          rw [q1, q2, hbk]; exact rep) (by rw [q2, hbk]; exact hg hz) (by rw [q1]; exact hords') (by
          rw [q1, q2, hbk]; intro y lb p hp hex; exact hkeep y lb p (hlat0 y lb p hp) hex) (by rw [hbk]; exact hbump) hi (by rw [horders, if_pos hz]) hvolle q2 q3
          (by rw [q4, hbk]; exact hbook) hev
      refine ⟨hs', k, ?_, hk, c, by rw [hbk]; exact hbump, horders⟩
      rw [hwr, Except.bind_ok]
      show (do let hs1 ← hs0.shrink a q _ _; _) = _
      rw [hshr, Except.bind_ok, if_neg (by omega)]
      exact e2
    · refine ⟨hs0.after k (h', u), k, ?_, hk, ⟨⟨hi, ?_, ?_, ?_, ?_, hev, ?_⟩, ?_, ?_, ?_, q2⟩, by rw [hbk]; exact hbump, horders⟩
      · rw [hwr, Except.bind_ok]
        show (do let hs1 ← hs0.shrink a q _ _; _) = _
        rw [hshr, Except.bind_ok, if_pos (by omega)]
      · intro t ht; exact fly_congr (r.fly t ht) (by rw [hbk]; exact hbump.symbol) hvolle
      · rw [horders, if_neg hz, Seat.map_set r.seat ho, q1, q2, hbk]; exact rep
      · rw [q2, hbk, hbump.symbol]; exact r.slot
      · rw [q4, hbk]; exact hbook
      · have := r.seat
        cases f with
        | idle => trivial
        | temp t => exact q3.trans this
        | kept b t =>
          have hne : t.id ≠ id := by intro e; rw [← e, this.2] at ho; cases ho
          refine ⟨by rw [q1]; show h'.orders t.id = _; rw [hords']; exact this.1, by rw [horders, setO_off _ _ hne]; exact this.2⟩
        | out b t => trivial
      · intro i b hb; rw [q1] at hb; rw [← hords']; exact hb
      · intro y lb p hp hex; rw [q1]; rw [q2, hbk] at hex; exact hkeep y lb p (hlat0 y lb p hp) hex
      · rw [hbk]; exact hbump.fewer

end Ptr
end CppTrader
