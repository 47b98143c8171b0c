import Verif.Proof.HeapStep
/-
The steps of the matching functions on pointers: `ReduceOrder` and `DeleteOrder` called recursively, the order being matched, and moving an
order between the book and the hand of the caller.
-/

namespace CppTrader
namespace Ptr

variable {W : Col → List Level}

theorem Inv.okAfter {s : Core} (hi : Inv s) {id : Nat} {o : Order} (ho : s.orders id = some o) {q : Nat} (h : 0 < o.leaves - q) :
    OrderOK { o with leaves := o.leaves - q } := by
  obtain ⟨g1, g2, g3, g4, g5, g6⟩ := (hi.orders id o ho).2
  refine ⟨?_, g2, h, g4, g5, g6⟩
  unfold Order.Repr64 at *
  simp only; omega

theorem reduceBody_run {f : Seat} {s s' : Core} {hs : HCore} (r : R W f s hs) {id a q : Nat} {o : Order} (ho : s.orders id = some o)
    (hsym : o.symbolId = s.book.symbol.id) (ha : hs.heap.orders id = some a) (run : s.reduceBody o q = .ok s') :
    ∃ hs' k, hs.reduceBody id a q = .ok hs' ∧ o.kind = some k ∧ Cut W f s hs f s' hs' ∧ Bump k id s.book s'.book ∧
      (∀ i, i ≠ id → s'.orders i = s.orders i) := by
  obtain ⟨hM, a', n, ha', hn, hno, hid⟩ := r.addr ho
  have := orders_some ha ha'
  subst this
  unfold Core.reduceBody at run
  dsimp only at run
  have hle : min q o.leaves ≤ o.leaves := Nat.min_le_right _ _
  obtain ⟨hs', k, e, hk, c, b, hord⟩ := shrink_run (o' := { o with leaves := o.leaves - min q o.leaves }) (q := min q o.leaves)
    (e := [if o.leaves - min q o.leaves > 0 then Event.updateOrder { o with leaves := o.leaves - min q o.leaves } else .deleteOrder { o with leaves := o.leaves - min q o.leaves }])
    r ho hsym ha rfl rfl rfl rfl hle rfl rfl (fun h => Inv.okAfter r.inv ho h) run
  refine ⟨hs', k, ?_, hk, c, b, ?_⟩
  · unfold HCore.reduceBody HCore.order
    rw [order_eq hn, Except.bind_ok]
    dsimp only
    rw [hno]
    exact e
  · intro i hi; rw [hord]; exact setO_off _ _ hi

/-- What `ReduceOrder(id, …)` or `DeleteOrder(id)` called during matching leaves behind. -/
structure Hit (W : Col → List Level) (f : Seat) (s : Core) (hs : HCore) (id : Nat) (s' : Core) (hs' : HCore) : Prop where
  cut : Cut W f s hs f s' hs'
  bump : s'.book.lv = s.book.lv ∨ ∃ k, Bump k id s.book s'.book
  orders : ∀ i, i ≠ id → s'.orders i = s.orders i
  symbol : s'.book.symbol = s.book.symbol

theorem Hit.pre {f : Seat} {s s1 s' : Core} {hs hs1 hs' : HCore} {id : Nat} (c : Cut W f s hs f s1 hs1) (hl : s1.book.lv = s.book.lv) (hs1' : s1.book.symbol = s.book.symbol)
    (ho : ∀ i, i ≠ id → s1.orders i = s.orders i) (h : Hit W f s1 hs1 id s' hs') : Hit W f s hs id s' hs' := by
  refine ⟨c.trans h.cut, ?_, fun i hi => (h.orders i hi).trans (ho i hi), h.symbol.trans hs1'⟩
  rcases h.bump with q | ⟨k, b⟩
  · exact .inl (q.trans hl)
  · refine .inr ⟨k, ⟨?_, ?_, b.symbol.trans hs1'⟩⟩
    · have := b.place; rw [hl] at this; exact this
    · intro k' hk'; rw [b.others k' hk', hl]

theorem Hit.tail {f : Seat} {s s' : Core} {hs hs' : HCore} {id : Nat} (h : Hit W f s hs id s' hs') (r : R W f s hs) {k : Kind} {p : Nat} {rest : List Nat}
    (ht : Tail s.book k p (id :: rest)) : Tail s'.book k p rest := by
  rcases h.bump with q | ⟨k', b⟩
  · exact ht.next.same (by rw [q])
  · by_cases e : k = k'
    · subst e; exact b.tail r.inv h.cut.r.inv h.orders ht
    · exact ht.next.same (b.others k e)

/-- The place of the order that was hit. -/
theorem Hit.kind {f : Seat} {s s' : Core} {hs hs' : HCore} {id : Nat} (h : Hit W f s hs id s' hs') (r : R W f s hs) {o : Order} (ho : s.orders id = some o) {k : Kind}
    (hk : o.kind ≠ some k) : s'.book.lv k = s.book.lv k := by
  rcases h.bump with q | ⟨k', b⟩
  · rw [q]
  · by_cases e : k = k'
    · subst e
      obtain ⟨L1, l, L2, l', e, hid, _⟩ := b.place
      obtain ⟨o', h1, _, h3, _⟩ := r.linked (k := k) (l := l) (by rw [e]; simp) hid
      rw [ho] at h1; cases h1
      exact absurd h3 hk
    · exact b.others k e

theorem Hit.after {f : Seat} {s s' : Core} {hs hs' hs2 : HCore} {s2 : Core} {id : Nat} (h : Hit W f s hs id s' hs') (c : Cut W f s' hs' f s2 hs2)
    (hl : s2.book.lv = s'.book.lv) (ho : s2.orders = s'.orders) (hsy : s2.book.symbol = s'.book.symbol) : Hit W f s hs id s2 hs2 := by
  refine ⟨h.cut.trans c, ?_, fun i hi => by rw [ho]; exact h.orders i hi, hsy.trans h.symbol⟩
  rcases h.bump with q | ⟨k, b⟩
  · exact .inl (hl.trans q)
  · refine .inr ⟨k, ⟨?_, ?_, hsy.trans b.symbol⟩⟩
    · have := b.place; rw [← hl] at this; exact this
    · intro k' hk'; rw [hl]; exact b.others k' hk'

theorem reduceRec_run {f : Seat} {s s' : Core} {hs : HCore} (r : R W f s hs) {id q : Nat} {o : Order} (ho : s.orders id = some o)
    (run : s.reduceRec id q = .ok s') : ∃ hs', hs.reduceRec id q = .ok hs' ∧ Hit W f s hs id s' hs' := by
  unfold Core.reduceRec at run
  unfold HCore.reduceRec
  by_cases h0 : id = 0 ∨ q = 0
  · rw [if_pos h0] at run ⊢
    have := Except.ok.inj run
    subst this
    exact ⟨hs, rfl, .refl r, .inl rfl, fun _ _ => rfl, rfl⟩
  · rw [if_neg h0] at run ⊢
    obtain ⟨hM, a, n, ha, hn, hno, hid⟩ := r.addr ho
    rw [ho] at run
    rw [ha]
    dsimp only at run ⊢
    split at run
    · cases run
    · rename_i hs0
      have hsym : o.symbolId = s.book.symbol.id := Classical.not_not.mp hs0
      obtain ⟨s1, h1, run⟩ := bind_inv run
      have := Except.ok.inj run
      subst this
      obtain ⟨hs1, k, e, hk, c, b, hord⟩ := reduceBody_run r ho hsym ha h1
      refine ⟨hs1.reset, ?_, ?_⟩
      · unfold HCore.order
        rw [order_eq hn, Except.bind_ok, hno, if_neg (by rw [r.slot]; exact hs0), e]
        rfl
      · exact (Hit.after ⟨c, .inr ⟨k, b⟩, hord, b.symbol⟩ c.r.reset rfl rfl rfl)

theorem deleteRec_run {f : Seat} {s s' : Core} {hs : HCore} (r : R W f s hs) {id : Nat} {o : Order} (ho : s.orders id = some o)
    (run : s.deleteRec id = .ok s') : ∃ hs', hs.deleteRec id = .ok hs' ∧ Hit W f s hs id s' hs' := by
  unfold Core.deleteRec at run
  unfold HCore.deleteRec
  by_cases h0 : id = 0
  · rw [if_pos h0] at run ⊢
    have := Except.ok.inj run
    subst this
    exact ⟨hs, rfl, .refl r, .inl rfl, fun _ _ => rfl, rfl⟩
  · rw [if_neg h0] at run ⊢
    obtain ⟨hM, a, n, ha, hn, hno, hid⟩ := r.addr ho
    rw [ho] at run
    rw [ha]
    dsimp only at run ⊢
    split at run
    · cases run
    · rename_i hs0
      have hsym : o.symbolId = s.book.symbol.id := Classical.not_not.mp hs0
      obtain ⟨s1, h1, run⟩ := bind_inv run
      have := Except.ok.inj run
      subst this
      obtain ⟨hs1, k, e, hk, c, b, hord, _⟩ := deleteBody_run r ho hsym ha h1
      refine ⟨hs1.reset, ?_, ?_⟩
      · unfold HCore.order
        rw [order_eq hn, Except.bind_ok, hno, if_neg (by rw [r.slot]; exact hs0), e]
        rfl
      · exact (Hit.after ⟨c, .inr ⟨k, b⟩, fun i hi => by rw [hord]; exact setO_off _ _ hi, b.symbol⟩ c.r.reset rfl rfl rfl)

/-- Execute a resting order, then read its id again and reduce or delete it. -/
theorem execRed_run {f : Seat} {s s1 s' : Core} {hs : HCore} (r : R W f s hs) {id a p q : Nat} (ha : hs.heap.orders id = some a)
    (run1 : s.execResting id p q = .ok s1) (run2 : s1.reduceRec id q = .ok s') :
    ∃ hs1 n hs', hs.execResting a p q = .ok hs1 ∧ hs1.order a = .ok n ∧ hs1.reduceRec n.order.id q = .ok hs' ∧ Hit W f s hs id s' hs' := by
  obtain ⟨hs1, o, e1, c1, ho, hord, hlv, hsy, hho⟩ := execResting_run r ha run1
  have ho1 : s1.orders id = some { o with executed := add64 o.executed q } := by rw [hord]; exact setO_at' _ _ _
  obtain ⟨_, a', n, ha', hn, hno, hid⟩ := c1.r.addr ho1
  have := orders_some (by rw [hho]; exact ha) ha'
  subst this
  obtain ⟨hs', e2, h2⟩ := reduceRec_run c1.r ho1 run2
  refine ⟨hs1, n, hs', e1, order_eq hn, ?_, h2.pre c1 hlv hsy (fun i hi => by rw [hord]; exact setO_off _ _ hi)⟩
  rw [hno, hid]; exact e2

theorem execDel_run {f : Seat} {s s1 s' : Core} {hs : HCore} (r : R W f s hs) {id a p q : Nat} (ha : hs.heap.orders id = some a)
    (run1 : s.execResting id p q = .ok s1) (run2 : s1.deleteRec id = .ok s') :
    ∃ hs1 n hs', hs.execResting a p q = .ok hs1 ∧ hs1.order a = .ok n ∧ hs1.deleteRec n.order.id = .ok hs' ∧ Hit W f s hs id s' hs' := by
  obtain ⟨hs1, o, e1, c1, ho, hord, hlv, hsy, hho⟩ := execResting_run r ha run1
  have ho1 : s1.orders id = some { o with executed := add64 o.executed q } := by rw [hord]; exact setO_at' _ _ _
  obtain ⟨_, a', n, ha', hn, hno, hid⟩ := c1.r.addr ho1
  have := orders_some (by rw [hho]; exact ha) ha'
  subst this
  obtain ⟨hs', e2, h2⟩ := deleteRec_run c1.r ho1 run2
  refine ⟨hs1, n, hs', e1, order_eq hn, ?_, h2.pre c1 hlv hsy (fun i hi => by rw [hord]; exact setO_off _ _ hi)⟩
  rw [hno, hid]; exact e2

/-! ### The order being matched -/

theorem R.read {f : Seat} {s : Core} {hs : HCore} (r : R W f s hs) {t : Order} (ht : f.taker = some t) : hs.read f.loc = .ok t := by
  have hseat := r.seat
  cases f with
  | idle => cases ht
  | temp t' => cases ht; exact congrArg Except.ok hseat
  | kept a t' =>
    cases ht
    obtain ⟨n, hn, hno, _⟩ := r.rep.nodeAt (i := t.id) (a := a) (o := t) (setO_at' _ _ _) hseat.1
    show (do let n ← hs.order a; Except.ok n.order) = _
    unfold HCore.order
    rw [order_eq hn, Except.bind_ok, hno]
  | out a t' =>
    cases ht
    obtain ⟨⟨n, hn, hno⟩, _⟩ := r.rep.outOk a t rfl
    show (do let n ← hs.order a; Except.ok n.order) = _
    unfold HCore.order
    rw [order_eq hn, Except.bind_ok, hno]

theorem Seat.set_taker {f : Seat} {t t' : Order} (ht : f.taker = some t) : (f.set t').taker = some t' := by
  cases f <;> first | rfl | cases ht
theorem Seat.set_loc {f : Seat} {t' : Order} : (f.set t').loc = f.loc := by cases f <;> rfl
theorem Seat.set_set {f : Seat} {t t' : Order} : (f.set t).set t' = f.set t' := by cases f <;> rfl
theorem Seat.set_self {f : Seat} {t : Order} (ht : f.taker = some t) : f.set t = f := by
  cases f <;> first | rfl | (cases ht; rfl)

theorem R.store {f : Seat} {s : Core} {hs : HCore} (r : R W f s hs) {t t' : Order} (ht : f.taker = some t) (hid : t'.id = t.id) (hf : Fly s t') :
    ∃ hs', hs.store f.loc t' = .ok hs' ∧ Cut W f s hs (f.set t') s hs' ∧ hs'.heap.orders = hs.heap.orders := by
  have hseat := r.seat
  cases f with
  | idle => cases ht
  | temp t0 =>
    refine ⟨{ hs with temp := t' }, rfl, ⟨⟨r.inv, fun u hu => by cases hu; exact hf, r.rep, r.slot, r.book, r.ev, rfl⟩, fun _ _ h => h, fun _ _ _ h _ => h, fun _ m hm => ⟨m, hm, rfl⟩, rfl⟩, rfl⟩
  | kept a t0 =>
    cases ht
    obtain ⟨e, rep⟩ := r.rep.write (i := t.id) (a := a) (o := t) (o' := t') (setO_at' _ _ _) hseat.1 hid (fun hl => absurd hl (r.unlinked rfl))
    refine ⟨{ hs with heap := upd hs.heap (some a) (fun n => { n with order := t' }) }, ?_, ⟨⟨r.inv, fun u hu => by cases hu; exact hf, ?_, r.slot, r.book, r.ev, ?_⟩, fun _ _ h => h,
      fun _ _ _ h _ => h, fun _ m hm => ⟨m, hm, rfl⟩, rfl⟩, rfl⟩
    · show hs.write a t' = _
      unfold HCore.write; rw [e]; rfl
    · show Rep _ (setO s.orders t'.id (some t')) _ _
      have : setO (Seat.map (.kept a t) s.orders) t.id (some t') = setO s.orders t'.id (some t') := by
        show setO (setO s.orders t.id (some t)) t.id (some t') = _
        rw [setO_again, hid]
      rw [← this]; exact rep
    · exact ⟨by rw [hid]; exact hseat.1, by rw [hid]; exact hseat.2⟩
  | out a t0 =>
    cases ht
    obtain ⟨e, rep⟩ := Rep.writeOut (a := a) (t := t) r.rep t'
    refine ⟨{ hs with heap := upd hs.heap (some a) (fun n => { n with order := t' }) }, ?_, ⟨⟨r.inv, fun u hu => by cases hu; exact hf, rep, r.slot, r.book, r.ev, trivial⟩, fun _ _ h => h,
      fun _ _ _ h _ => h, fun _ m hm => ⟨m, hm, rfl⟩, rfl⟩, rfl⟩
    show hs.write a t' = _
    unfold HCore.write; rw [e]; rfl

theorem fly_exec {s : Core} {t : Order} (h : Fly s t) (e q : Nat) (he : e < W64) : Fly s { t with executed := e, leaves := t.leaves - q } := by
  refine ⟨?_, h.idPos, h.sym, ?_, h.trail⟩
  · have := h.repr
    unfold Order.Repr64 at *
    simp only; omega
  · have := h.vol
    show _ + (t.leaves - q) < _
    omega

theorem execTaker_run {f : Seat} {s : Core} {hs : HCore} (r : R W f s hs) {t : Order} (ht : f.taker = some t) (p q : Nat) :
    ∃ hs', hs.execTaker f.loc p q = .ok hs' ∧ Cut W f s hs (f.set (s.execTaker t p q).2) (s.execTaker t p q).1 hs' ∧ hs'.heap.orders = hs.heap.orders := by
  have c1 := r.emit (.exec t p q)
  have c2 := c1.r.setPrices t.side p
  obtain ⟨hs', e, c3, hoo⟩ := c2.r.store ht (t' := { t with executed := add64 t.executed q, leaves := t.leaves - q }) rfl (fly_exec (c2.r.fly t ht) _ _ (add64_lt _ _))
  refine ⟨hs', ?_, (c1.trans c2).trans c3, ?_⟩
  · unfold HCore.execTaker
    rw [r.read ht, Except.bind_ok]
    exact e
  · rw [hoo]; cases t.side <;> rfl

/-! ### Taking an order out of the book and putting it back -/

theorem pick_run {s s' : Core} {hs : HCore} (r : R W .idle s hs) {id a : Nat} {o : Order} (ho : s.orders id = some o)
    (hsym : o.symbolId = s.book.symbol.id) (ha : hs.heap.orders id = some a) (run : s.unlink o = .ok s') :
    ∃ hs' k, hs.unlink a = .ok hs' ∧ o.kind = some k ∧ Cut W .idle s hs (.kept a o) s' hs' ∧ Bump k id s.book s'.book ∧ s'.orders = setO s.orders id none ∧
      hs'.heap.orders = hs.heap.orders := by
  obtain ⟨hs', k, e, hk, u⟩ := unlink_run r ho hsym ha run
  obtain ⟨_, _, _, _, _, _, hid⟩ := r.addr ho
  obtain ⟨g1, g2, g3, g4, g5, g6⟩ := (r.inv.orders id o ho).2
  refine ⟨hs', k, e, hk, ⟨⟨u.inv, ?_, ?_, ?_, u.book, u.ev, ?_⟩, ?_, u.keep, u.bump.fewer, u.slot⟩, u.bump, u.orders, u.ords⟩
  · intro t ht
    cases ht
    exact ⟨g1, g2, by rw [u.bump.symbol]; exact hsym, by have := u.vol; have := r.inv.vol; omega, g6⟩
  · show Rep _ (setO s'.orders o.id (some o)) _ _
    rw [u.orders, hid, setO_again, setO_self ho]
    exact u.rep
  · rw [u.slot, u.bump.symbol]; exact r.slot
  · exact ⟨by rw [hid, u.ords]; exact ha, by rw [u.orders, hid]; exact setO_at' _ _ _⟩
  · intro i b hb; rw [u.ords] at hb; exact hb

/-- A step that links orders. -/
structure Go (W : Col → List Level) (f : Seat) (s : Core) (hs : HCore) (f' : Seat) (s' : Core) (hs' : HCore) : Prop where
  r : R W f' s' hs'
  mono : ∀ i a, hs'.heap.orders i = some a → hs.heap.orders i = some a
  slot : hs'.slot = hs.slot

theorem Cut.go {f f' : Seat} {s s' : Core} {hs hs' : HCore} (c : Cut W f s hs f' s' hs') : Go W f s hs f' s' hs' := ⟨c.r, c.mono, c.slot⟩
theorem Go.trans {f f' f'' : Seat} {s s' s'' : Core} {hs hs' hs'' : HCore} (c : Go W f s hs f' s' hs') (d : Go W f' s' hs' f'' s'' hs'') : Go W f s hs f'' s'' hs'' :=
  ⟨d.r, fun i a h => c.mono i a (d.mono i a h), d.slot.trans c.slot⟩

theorem link_run {s s' : Core} {hs : HCore} {a : Nat} {t : Order} (r : R W (.kept a t) s hs) (ht : OrderOK t) (run : s.link t = .ok s') :
    ∃ hs' k, hs.link a = .ok hs' ∧ t.kind = some k ∧ Go W (.kept a t) s hs .idle s' hs' ∧ (∀ y lb q, LAt hs.heap y lb q → LAt hs'.heap y lb q) ∧
      s'.orders = setO s.orders t.id (some t) ∧ s'.book = (s.book.addOrder k t).1 ∧ hs'.heap.orders = hs.heap.orders ∧ (∀ k', k' ≠ k → s'.book.lv k' = s.book.lv k') := by
  have hf := r.fly t rfl
  obtain ⟨k, s1, hk, h1, hi, he, hsame, hvol, hq⟩ := r.inv.link ht hf.sym r.seat.2 hf.vol
  rw [h1] at run
  have := Except.ok.inj run
  subst this
  unfold Core.link at h1
  rw [hk] at h1
  have h1 := Except.ok.inj h1
  have hbk : s1.book = (s.book.addOrder k t).1 := by rw [← h1]; cases k.isLimit <;> rfl
  obtain ⟨n, hn, hno, _⟩ := r.rep.nodeAt (i := t.id) (a := a) (o := t) (setO_at' _ _ _) r.seat.1
  obtain ⟨h', e, rep, hords, hkeep⟩ := addOrder_spec r.rep (x := (hs.slot, k)) (b := s.book) (by rw [lvs_at]) (by rw [lvs_at]; exact r.best k)
    (i := t.id) (a := a) (o := t) (setO_at' _ _ _) r.seat.1 (r.unlinked rfl) (by rw [r.slot]; exact hf.sym) hk
  have hset : setX (lvs W hs.slot s.book) (hs.slot, k) ((s.book.addOrder k t).1.lv k) = lvs W hs.slot (s.book.addOrder k t).1 := lvs_set (by
    intro k' hk'; rw [← hbk]; exact hsame.lv k' hk')
  dsimp only at rep
  rw [hset] at rep
  obtain ⟨q1, q2, q3, q4⟩ := after_heap hs k (h', (s.book.addOrder k t).2)
  have hsc : scal s.book = scal s1.book := by
    unfold scal
    rw [hsame.symbol, hsame.lastBid, hsame.lastAsk, hsame.matchBid, hsame.matchAsk, hsame.trailBid, hsame.trailAsk]
  refine ⟨hs.after k (h', (s.book.addOrder k t).2), k, ?_, hk, ⟨⟨hi, (fun u hu => by cases hu), ?_, ?_, ?_, ?_, trivial⟩, ?_, q2⟩, ?_, he.orders, hbk, ?_, hsame.lv⟩
  · unfold HCore.link HCore.order
    rw [order_eq hn, Except.bind_ok, hno, hk]
    show (do let r ← hs.heap.addOrder (hs.slot, k) a; Except.ok (hs.after k r)) = _
    rw [e]; rfl
  · rw [q1, q2, hbk]
    show Rep _ s1.orders _ _
    rw [he.orders]; exact rep
  · rw [q2, hsame.symbol]; exact r.slot
  · rw [q4, r.book, hsc]
  · rw [after_ev (s := { s with book := (s.book.addOrder k t).1, orders := setO s.orders t.id (some t) }) (hs := hs) (by
      rw [r.book, hsc, hbk]) r.ev, ← h1]
    rfl
  · intro i b hb; rw [q1] at hb
    have hb' : h'.orders i = some b := hb
    rw [hords] at hb'; exact hb'
  · rw [q1]; exact hkeep
  · rw [q1]; exact hords

/-- `onDeleteOrder`, `_orders.erase(_orders.find(Id))`, `Release`, for an order taken out of the book. -/
theorem discard_run {s : Core} {hs : HCore} {a : Nat} {t : Order} (r : R W (.kept a t) s hs) :
    ∃ hs', (hs.emit (.deleteOrder t)).dropFound a = .ok hs' ∧ Go W (.kept a t) s hs .idle (s.emit (.deleteOrder t)) hs' := by
  have c := r.emit (.deleteOrder t)
  obtain ⟨n, hn, hno, _⟩ := r.rep.nodeAt (i := t.id) (a := a) (o := t) (setO_at' _ _ _) r.seat.1
  obtain ⟨h', e, rep', q1, q2, q3⟩ := r.rep.dropAny (i := t.id) (a := a) (o := t) (setO_at' _ _ _) r.seat.1 (r.unlinked rfl)
  refine ⟨{ hs.emit (.deleteOrder t) with heap := h' }, ?_, ⟨⟨c.r.inv, (fun u hu => by cases hu), ?_, r.slot, r.book, c.r.ev, trivial⟩, ?_, rfl⟩⟩
  · unfold HCore.dropFound HCore.order
    rw [order_eq (h := (hs.emit (.deleteOrder t)).heap) hn, Except.bind_ok, hno, show (hs.emit (.deleteOrder t)).heap.orders t.id = some a from r.seat.1]
    show (hs.emit (.deleteOrder t)).drop t.id a = _
    unfold HCore.drop
    rw [show ((hs.emit (.deleteOrder t)).heap.erase t.id).releaseOrder a = .ok h' from e]
    rfl
  · show Rep h' s.orders _ _
    have : setO (Seat.map (.kept a t) s.orders) t.id none = s.orders := by
      show setO (setO s.orders t.id (some t)) t.id none = _
      rw [setO_again, setO_self r.seat.2]
    rw [← this]; exact rep'
  · intro i b hb
    have hb' : h'.orders i = some b := hb
    rw [q1] at hb'
    by_cases e : i = t.id
    · rw [e, setX_same] at hb'; cases hb'
    · rw [setX_other _ _ e] at hb'; exact hb'

end Ptr
end CppTrader
