import Verif.Proof.Exec
/-
Decomposition of the engine into elementary steps.

A configuration is the book state plus an optional order *in flight* (incoming, or taken out of the book
to be activated, moved or modified). Every engine function is shown to be a sequence of `Step`s; the
safety properties are then proved once, by induction over sequences of steps.
-/

namespace CppTrader

/-- Collection of resting limit orders of a side. -/
def limKind : Side → Kind
  | .buy => .bid
  | .sell => .ask

theorem kind_limit {o : Order} (h : o.type = .limit) : o.kind = some (limKind o.side) := by
  unfold Order.kind; rw [h]; cases hs : o.side <;> simp [Order.isBuy, limKind, hs]

/-- Execution of `q` of the resting limit order `o` at `price`; an All-Or-None order only as a whole. -/
structure FillPre (s : Core) (o : Order) (q : Nat) : Prop where
  mem : s.orders o.id = some o
  sym : o.symbolId = s.book.symbol.id
  lim : o.type = .limit
  pos : 0 < q
  le : q ≤ o.leaves
  aon : o.isAON = true → q = o.leaves

inductive Fill (s : Core) (o : Order) (price q : Nat) (s' : Core) : Prop
  | red (pre : FillPre s o q) (run : s.execRed o.id price q = .ok s')
  | del (pre : FillPre s o q) (all : q = o.leaves) (run : s.execDel o.id price q = .ok s')

theorem Fill.pre {s o price q s'} (h : Fill s o price q s') : FillPre s o q := by cases h <;> assumption

/-- Executions of several resting orders at one price. -/
inductive Fills (price : Nat) : Core → List (Order × Nat) → Core → Prop
  | nil (s) : Fills price s [] s
  | cons {s o q s1 xs s2} : Fill s o price q s1 → Fills price s1 xs s2 → Fills price s ((o, q) :: xs) s2

def sumQ (xs : List (Order × Nat)) : Nat := (xs.map (·.2)).sum

/-- What an elementary step does. -/
inductive Lbl
  /-- the incoming order `t` trades `q` with the resting order `o` at the price of `o` -/
  | trade (t o : Order) (q : Nat)
  /-- the incoming Fill-Or-Kill / All-Or-None order `t` trades its whole quantity with several orders -/
  | sweep (t : Order) (xs : List (Order × Nat))
  /-- the resting order `e` is executed completely against the resting order `r`, at the price of `e` -/
  | pair (e r : Order)
  /-- executions of a matching chain between resting orders, at price `p` -/
  | cross (p : Nat) (xs ys : List (Order × Nat))
  | take (o : Order)
  | put (t : Order)
  | cancel (t : Order)
  | activate (o t : Order)
  | bound (t : Order) (p : Nat)
  | retrail (o t : Order)
  | mark
  | reset
  | arrive (o : Order)
  | reduce (o : Order) (q : Nat)
  | execute (o : Order) (p q : Nat)
  | modify (o t : Order)
  | vanish (o t : Order)

/-- Stop-like order types. -/
def Order.isStopLike (o : Order) : Bool :=
  o.isStop || o.isStopLimit || o.isTrailingStop || o.isTrailingStopLimit

inductive Step : Lbl → Core → Option Order → Core → Option Order → Prop
  | trade {s t o q s1} (fill : Fill s o o.price q s1)
      (head : (queue s.book (Core.oppKind t)).head? = some o.id)
      (side : o.side ≠ t.side) (reach : Core.reaches t o.price = true) (qty : q = min o.leaves t.leaves)
      (nf : t.isFOK = false) (na : t.isAON = false) :
      Step (.trade t o q) s (some t) (s1.execTaker t o.price q).1 (some (s1.execTaker t o.price q).2)
  | sweep {s t xs s1} (fills : Fills t.price s xs s1) (sum : sumQ xs = t.leaves) (pos : 0 < t.leaves)
      (sides : ∀ x ∈ xs, x.1.side ≠ t.side ∧ Core.reaches t x.1.price = true)
      (tif : t.isFOK = true ∨ t.isAON = true) :
      Step (.sweep t xs) s (some t) (s1.execTaker t t.price t.leaves).1 (some (s1.execTaker t t.price t.leaves).2)
  | pair {s e r s1 s2} (fe : Fill s e e.price e.leaves s1) (fr : Fill s1 r e.price e.leaves s2)
      (side : e.side ≠ r.side) (ne : e.id ≠ r.id) (nae : e.isAON = false) (nar : r.isAON = false)
      (crossed : ∀ b a, (b = e ∧ a = r ∨ b = r ∧ a = e) → b.side = .buy → a.price ≤ b.price) :
      Step (.pair e r) s none s2 none
  | cross {s p xs ys s1 s2} (f1 : Fills p s xs s1) (f2 : Fills p s1 ys s2) (ne : xs ≠ [])
      (aon : ∃ i o, s.orders i = some o ∧ o.symbolId = s.book.symbol.id ∧ o.type = .limit ∧ o.isAON = true)
      (side : ∃ sd, (∀ x ∈ xs, x.1.side = sd) ∧ (∀ y ∈ ys, y.1.side ≠ sd)) :
      Step (.cross p xs ys) s none s2 none
  | take {s o s'} (mem : s.orders o.id = some o) (sym : o.symbolId = s.book.symbol.id)
      (run : s.unlink o = .ok s') : Step (.take o) s none s' (some o)
  | put {s t s'} (fresh : s.orders t.id = none) (pos : 0 < t.leaves) (nm : t.type ≠ .market)
      (tif : t.type = .limit → t.tif = .gtc ∨ t.tif = .aon)
      (run : s.link t = .ok s') : Step (.put t) s (some t) s' none
  | cancel {s t} : Step (.cancel t) s (some t) (s.emit (.deleteOrder t)) none
  | activate {s o t} (ty : (o.isStop || o.isTrailingStop) = true ∧ t = Core.toMarket o ∨
        (o.isStopLimit || o.isTrailingStopLimit) = true ∧ t = Core.toLimit o)
      (trig : Core.triggered s.book o = true) :
      Step (.activate o t) s (some o) (s.emit (.updateOrder t)) (some t)
  | bound {s t p} (ty : t.type = .market) (lim : Core.marketLimit s.book t = some p) :
      Step (.bound t p) s (some t) s (some { t with price := p })
  | retrail {s o} (ty : o.isTrailing = true) (ne : s.book.calcTrailing o ≠ o.stopPrice) :
      Step (.retrail o (Core.retrail o (s.book.calcTrailing o))) s (some o)
        (s.emit (.updateOrder (Core.retrail o (s.book.calcTrailing o))))
        (some (Core.retrail o (s.book.calcTrailing o)))
  | mark {s tb ta} : Step .mark s none { s with book := { s.book with trailBid := tb, trailAsk := ta } } none
  | reset {s t} : Step .reset s t s.reset t
  | arrive {s o} (rep : o.Repr64) (idp : 0 < o.id) (sym : o.symbolId = s.book.symbol.id)
      (vol : Core.volume s.book + o.leaves < W64) (tr : o.isTrailing = true → o.TrailOK) :
      Step (.arrive o) s none (s.emit (.addOrder o)) (some o)
  | reduce {s o q s'} (mem : s.orders o.id = some o) (sym : o.symbolId = s.book.symbol.id) (pos : 0 < q)
      (run : s.reduceBody o q = .ok s') : Step (.reduce o q) s none s' none
  | execute {s o p q s'} (mem : s.orders o.id = some o) (sym : o.symbolId = s.book.symbol.id) (pos : 0 < q)
      (le : q ≤ o.leaves)
      (run : ((s.emit (.exec o p q)).setPrices o.side p).shrink (o.filled q) q
        (o.hiddenQty - (o.filled q).hiddenQty) (o.visibleQty - (o.filled q).visibleQty) = .ok s') :
      Step (.execute o p q) s none
        (s'.emit (if (o.filled q).leaves > 0 then .updateOrder (o.filled q) else .deleteOrder (o.filled q))) none
  | modify {s o p q mit} (rep : (Core.modified o p q mit).Repr64)
      (pos : 0 < (Core.modified o p q mit).leaves)
      (vol : Core.volume s.book + (Core.modified o p q mit).leaves < W64) :
      Step (.modify o (Core.modified o p q mit)) s (some o) (s.emit (.updateOrder (Core.modified o p q mit)))
        (some (Core.modified o p q mit))
  | vanish {s o p q mit} (zero : (Core.modified o p q mit).leaves = 0) :
      Step (.vanish o (Core.modified o p q mit)) s (some o) (s.emit (.deleteOrder (Core.modified o p q mit))) none

/-- Sequences of steps with labels in `A`. -/
inductive Steps (A : Lbl → Prop) : Core → Option Order → Core → Option Order → Prop
  | refl (s t) : Steps A s t s t
  | head {l s t s1 t1 s2 t2} : A l → Step l s t s1 t1 → Steps A s1 t1 s2 t2 → Steps A s t s2 t2

theorem Steps.one {A l s t s' t'} (h : A l) (st : Step l s t s' t') : Steps A s t s' t' := .head h st (.refl _ _)

theorem Steps.trans {A s t s1 t1 s2 t2} (h : Steps A s t s1 t1) (h' : Steps A s1 t1 s2 t2) : Steps A s t s2 t2 := by
  induction h with
  | refl => exact h'
  | head a st _ ih => exact .head a st (ih h')

theorem Steps.mono {A B : Lbl → Prop} {s t s' t'} (h : Steps A s t s' t') (hab : ∀ l, A l → B l) : Steps B s t s' t' := by
  induction h with
  | refl => exact .refl _ _
  | head a st _ ih => exact .head (hab _ a) st ih

/-- An order in flight. -/
structure Fly (s : Core) (t : Order) : Prop where
  repr : t.Repr64
  idPos : 0 < t.id
  sym : t.symbolId = s.book.symbol.id
  vol : Core.volume s.book + t.leaves < W64
  trail : t.isTrailing = true → t.TrailOK

/-- Invariant of configurations. -/
structure CInv (s : Core) (t : Option Order) : Prop where
  inv : Inv s
  fly : ∀ t', t = some t' → Fly s t'

theorem CInv.none_iff {s} : CInv s none ↔ Inv s := ⟨fun h => h.inv, fun h => ⟨h, by simp⟩⟩

/-- Specification of `Fill`. -/
structure FillEff (s : Core) (o : Order) (q : Nat) (s' : Core) : Prop where
  inv : Inv s'
  orders : s'.orders = setO s.orders o.id (afterFill o q)
  same : Book.SameLv (limKind o.side) s.book s'.book
  vol : Core.volume s'.book + q = Core.volume s.book
  queue : queue s'.book (limKind o.side) =
    (if o.leaves = q then (queue s.book (limKind o.side)).erase o.id else queue s.book (limKind o.side))

theorem Fill.eff {s o price q s'} (h : Fill s o price q s') (hi : Inv s) : FillEff s o q s' := by
  cases h with
  | red pre run =>
    obtain ⟨k, s1, a1, a2, a3, a4, a5, a6⟩ := hi.execRed (price := price) pre.mem pre.sym pre.pos pre.le
    rw [run] at a2; cases a2
    rw [kind_limit pre.lim] at a1; cases a1
    exact ⟨a3, a4.orders, a4.same, a5, a6⟩
  | del pre all run =>
    obtain ⟨k, s1, a1, a2, a3, a4, a5, a6⟩ := hi.execDel (price := price) pre.mem pre.sym
    subst all
    rw [run] at a2; cases a2
    rw [kind_limit pre.lim] at a1; cases a1
    exact ⟨a3, by rw [a4.orders]; simp [afterFill], a4.same, a5, by rw [a6]; simp⟩

/-- Existence of `Fill` in its two forms. -/
theorem Inv.fill_red {s o price q} (hi : Inv s) (pre : FillPre s o q) :
    ∃ s', s.execRed o.id price q = .ok s' ∧ Fill s o price q s' := by
  obtain ⟨k, s1, a1, a2, a3, a4, a5, a6⟩ := hi.execRed (price := price) pre.mem pre.sym pre.pos pre.le
  exact ⟨s1, a2, .red pre a2⟩

theorem Inv.fill_del {s o price} (hi : Inv s) (pre : FillPre s o o.leaves) :
    ∃ s', s.execDel o.id price o.leaves = .ok s' ∧ Fill s o price o.leaves s' := by
  obtain ⟨k, s1, a1, a2, a3, a4, a5, a6⟩ := hi.execDel (price := price) pre.mem pre.sym
  exact ⟨s1, a2, .del pre rfl a2⟩

theorem Fills.inv {price s xs s'} (h : Fills price s xs s') (hi : Inv s) :
    Inv s' ∧ Core.volume s'.book + sumQ xs = Core.volume s.book ∧ s'.book.symbol = s.book.symbol := by
  induction h with
  | nil => simp [hi, sumQ]
  | cons f _ ih =>
    have e := f.eff hi
    obtain ⟨a, b, c⟩ := ih e.inv
    refine ⟨a, ?_, c.trans e.same.symbol⟩
    have := e.vol
    simp only [sumQ, List.map_cons, List.sum_cons] at *
    omega

theorem execTaker_repr {s t p q} (h : t.Repr64) : (Core.execTaker s t p q).2.Repr64 := by
  unfold Order.Repr64 Core.execTaker at *
  have := add64_lt t.executed q
  simp only; omega

theorem key_lt {o : Order} (h : o.Repr64) : o.key < W64 := by
  unfold Order.Repr64 at h
  unfold Order.key; split <;> omega

theorem Inv.best_level {s : Core} (h : Inv s) {k p} (hb : s.book.best k = some p) :
    ∃ l ls, s.book.lv k = l :: ls ∧ l.price = p := by
  have := (h.book.kinds k).best
  rw [hb] at this
  cases hl : s.book.lv k with
  | nil => simp [hl] at this
  | cons l ls => simp [hl] at this; exact ⟨l, ls, rfl, this.symm⟩

theorem Inv.best_lt {s : Core} (h : Inv s) {k p} (hb : s.book.best k = some p) : p < W64 := by
  obtain ⟨l, ls, hl, rfl⟩ := h.best_level hb
  have hl' := (h.book.kinds k).levels l (by simp [hl])
  cases hi : l.ids with
  | nil => exact absurd hi hl'.nonempty
  | cons i is =>
    obtain ⟨o, h1, _, _, h4⟩ := hl'.mem i (by simp [hi])
    rw [← h4]; exact key_lt (h.orders i o h1).2.repr

theorem Inv.trailBid_lt {s : Core} (h : Inv s) : s.book.marketTrailBid < W64 := by
  unfold Book.marketTrailBid
  cases hb : s.book.best .bid with
  | none => simp
  | some p => have := h.best_lt hb; simp; omega

theorem calcTrailing_lt {s : Core} (hi : Inv s) {o : Order} (h : o.Repr64) : s.book.calcTrailing o < W64 := by
  unfold Order.Repr64 at h
  have hb := hi.trailBid_lt
  unfold Book.calcTrailing trailPrice
  by_cases hbuy : o.isBuy = true
  · simp only [hbuy, if_true]
    generalize s.book.marketTrailAsk = m
    generalize trailAbs o m = d
    have h1 := add64_lt m d.1
    by_cases h2 : m < sub64 MAX64 d.1
    · simp only [h2, if_true]; split <;> omega
    · simp only [h2, if_false]; split <;> omega
  · have hbuy' : o.isBuy = false := by simpa using hbuy
    simp only [hbuy', Bool.false_eq_true, if_false]
    generalize s.book.marketTrailBid = m at hb
    generalize trailAbs o m = d
    by_cases h2 : m > d.1
    · simp only [h2, if_true]; split <;> omega
    · simp only [h2, if_false]; split <;> omega

theorem retrail_repr {o : Order} {p : Nat} (h : o.Repr64) (hp : p < W64) : (Core.retrail o p).Repr64 := by
  unfold Order.Repr64 Core.retrail at *
  have := add64_lt p (sub64 o.price o.stopPrice)
  split <;> (try simp only) <;> omega

theorem retrail_leaves (o : Order) (p : Nat) : (Core.retrail o p).leaves = o.leaves := by
  unfold Core.retrail; split <;> rfl
theorem retrail_id (o : Order) (p : Nat) : (Core.retrail o p).id = o.id := by
  unfold Core.retrail; split <;> rfl
theorem retrail_symbolId (o : Order) (p : Nat) : (Core.retrail o p).symbolId = o.symbolId := by
  unfold Core.retrail; split <;> rfl
theorem retrail_type (o : Order) (p : Nat) : (Core.retrail o p).type = o.type := by
  unfold Core.retrail; split <;> rfl
theorem retrail_side (o : Order) (p : Nat) : (Core.retrail o p).side = o.side := by
  unfold Core.retrail; split <;> rfl
theorem retrail_tif (o : Order) (p : Nat) : (Core.retrail o p).tif = o.tif := by
  unfold Core.retrail; split <;> rfl
theorem retrail_trail (o : Order) (p : Nat) : (Core.retrail o p).TrailOK ↔ o.TrailOK := by
  unfold Core.retrail Order.TrailOK; split <;> rfl
theorem isTrailing_congr {o o' : Order} (h : o'.type = o.type) : o'.isTrailing = o.isTrailing := by
  unfold Order.isTrailing Order.isTrailingStop Order.isTrailingStopLimit; rw [h]

theorem marketLimit_lt {s : Core} (hi : Inv s) {t : Order} {p : Nat} (hr : t.Repr64) (h : Core.marketLimit s.book t = some p) :
    p < W64 := by
  unfold Core.marketLimit at h
  unfold Order.Repr64 at hr
  split at h
  · cases hb : s.book.best .ask with
    | none => simp [hb] at h
    | some a =>
      have := hi.best_lt hb
      simp [hb] at h; rw [← h]; split <;> omega
  · cases hb : s.book.best .bid with
    | none => simp [hb] at h
    | some a =>
      have := hi.best_lt hb
      simp [hb] at h; rw [← h]; split <;> omega

theorem Inv.take {s : Core} {o s'} (h : Inv s) (mem : s.orders o.id = some o)
    (sym : o.symbolId = s.book.symbol.id) (run : s.unlink o = .ok s') :
    ∃ k, o.kind = some k ∧ Inv s' ∧ Eff k o.id none s s' ∧
      Book.SameBut k s.book s'.book ∧
      Core.volume s'.book + o.leaves = Core.volume s.book ∧
      queue s'.book k = (queue s.book k).erase o.id := by
  obtain ⟨k, s1, a1, a2, a3⟩ := h.unlink mem sym
  rw [run] at a2; cases a2
  exact ⟨k, a1, a3⟩

theorem Fly.orderOK {s : Core} {t : Order} (h : Fly s t) (pos : 0 < t.leaves) (nm : t.type ≠ .market)
    (tif : t.type = .limit → t.tif = .gtc ∨ t.tif = .aon) : OrderOK t :=
  ⟨h.repr, h.idPos, pos, nm, tif, h.trail⟩

theorem Inv.put {s : Core} {t s'} (h : Inv s) (hf : Fly s t) (fresh : s.orders t.id = none) (pos : 0 < t.leaves)
    (nm : t.type ≠ .market) (tif : t.type = .limit → t.tif = .gtc ∨ t.tif = .aon) (run : s.link t = .ok s') :
    ∃ k, t.kind = some k ∧ Inv s' ∧ Eff k t.id (some t) s s' ∧
      Book.SameBut k s.book s'.book ∧
      Core.volume s'.book = Core.volume s.book + t.leaves ∧
      (∃ pre post, queue s.book k = pre ++ post ∧ queue s'.book k = pre ++ t.id :: post) := by
  obtain ⟨k, s1, a1, a2, a3⟩ := h.link (hf.orderOK pos nm tif) hf.sym fresh hf.vol
  rw [run] at a2; cases a2
  exact ⟨k, a1, a3⟩

theorem Inv.reduce {s : Core} {o q s'} (h : Inv s) (mem : s.orders o.id = some o)
    (sym : o.symbolId = s.book.symbol.id)
    (run : s.reduceBody o q = .ok s') :
    ∃ k, o.kind = some k ∧ Inv s' ∧
      Eff k o.id (if o.leaves - min q o.leaves = 0 then none else some { o with leaves := o.leaves - min q o.leaves }) s s' ∧
      Book.SameBut k s.book s'.book ∧
      Core.volume s'.book + min q o.leaves = Core.volume s.book ∧
      queue s'.book k = (if o.leaves - min q o.leaves = 0 then (queue s.book k).erase o.id else queue s.book k) := by
  have hok := (h.orders _ o mem).2
  unfold Core.reduceBody at run
  simp only at run
  obtain ⟨k, s1, a1, a2, a3, a4, a5, a6, a7⟩ := (h.emit (if o.leaves - min q o.leaves > 0 then
      .updateOrder { o with leaves := o.leaves - min q o.leaves } else
      .deleteOrder { o with leaves := o.leaves - min q o.leaves })).shrink
    (o := o) (o' := { o with leaves := o.leaves - min q o.leaves }) (q := min q o.leaves)
    mem sym rfl rfl rfl rfl (by omega) rfl rfl (by
      intro hl
      obtain ⟨g1, g2, g3, g4, g5, g6⟩ := hok
      refine ⟨?_, g2, hl, g4, g5, g6⟩
      unfold Order.Repr64 at *; simp only; omega)
  rw [run] at a2; cases a2
  exact ⟨k, a1, a3, ⟨a4.orders, a4.same⟩, a5, a6, a7⟩

theorem Inv.reduce_ok {s : Core} {o} (h : Inv s) (mem : s.orders o.id = some o)
    (sym : o.symbolId = s.book.symbol.id) (q : Nat) : ∃ s', s.reduceBody o q = .ok s' := by
  have hok := (h.orders _ o mem).2
  unfold Core.reduceBody
  simp only
  obtain ⟨k, s1, a1, a2, a3, a4, a5, a6, a7⟩ := (h.emit (if o.leaves - min q o.leaves > 0 then
      .updateOrder { o with leaves := o.leaves - min q o.leaves } else
      .deleteOrder { o with leaves := o.leaves - min q o.leaves })).shrink
    (o := o) (o' := { o with leaves := o.leaves - min q o.leaves }) (q := min q o.leaves)
    mem sym rfl rfl rfl rfl (by omega) rfl rfl (by
      intro hl
      obtain ⟨g1, g2, g3, g4, g5, g6⟩ := hok
      refine ⟨?_, g2, hl, g4, g5, g6⟩
      unfold Order.Repr64 at *; simp only; omega)
  exact ⟨s1, a2⟩

/-- The state `ExecuteOrder` works on after its execution report. -/
def Core.reported (s : Core) (o : Order) (p q : Nat) : Core := (s.emit (.exec o p q)).setPrices o.side p

theorem Inv.execute_ok {s : Core} {o} (h : Inv s) (mem : s.orders o.id = some o)
    (sym : o.symbolId = s.book.symbol.id) (p q : Nat) (hq : q ≤ o.leaves) :
    ∃ k s', o.kind = some k ∧ (s.reported o p q).shrink (o.filled q) q
        (o.hiddenQty - (o.filled q).hiddenQty) (o.visibleQty - (o.filled q).visibleQty) = .ok s' ∧ Inv s' ∧
      Eff k o.id (afterFill o q) (s.reported o p q) s' ∧
      Book.SameBut k (s.book.updatePrices o.side p) s'.book ∧
      Core.volume s'.book + q = Core.volume s.book ∧
      queue s'.book k = (if o.leaves = q then (queue s.book k).erase o.id else queue s.book k) := by
  have hok := (h.orders _ o mem).2
  obtain ⟨k, s1, a1, a2, a3, a4, a5, a6, a7⟩ := ((h.emit (.exec o p q)).setPrices o.side p).shrink
    (o := o) (o' := o.filled q) (q := q)
    mem (by show _ = (s.book.updatePrices o.side p).symbol.id; rw [updatePrices_symbol]; exact sym)
    rfl rfl rfl rfl (by omega) rfl rfl (by
      intro hl
      obtain ⟨g1, g2, g3, g4, g5, g6⟩ := hok
      refine ⟨?_, g2, hl, g4, g5, g6⟩
      have := add64_lt o.executed q
      unfold Order.Repr64 Order.filled at *; simp only; omega)
  have hz : (o.filled q).leaves = 0 ↔ o.leaves = q := by show o.leaves - q = 0 ↔ _; omega
  refine ⟨k, s1, a1, a2, a3, ?_, a5, ?_, ?_⟩
  · refine ⟨?_, a4.same⟩
    rw [a4.orders]; unfold afterFill; simp only [hz]; rfl
  · rw [a6]; exact volume_congr (updatePrices_lv ..)
  · rw [a7]; simp only [hz]
    have : queue (Core.setPrices (s.emit (.exec o p q)) o.side p).book k = queue s.book k := by
      unfold queue; show flatOf ((s.book.updatePrices o.side p).lv k) = _; rw [updatePrices_lv]
    rw [this]

theorem Fly.of_same {s s' : Core} {t t' : Order} (h : Fly s t) (h1 : t'.Repr64) (h2 : t'.id = t.id)
    (h3 : t'.symbolId = t.symbolId) (h4 : s'.book.symbol = s.book.symbol)
    (h5 : Core.volume s'.book + t'.leaves ≤ Core.volume s.book + t.leaves)
    (h6 : t'.isTrailing = true → t'.TrailOK) : Fly s' t' :=
  ⟨h1, h2 ▸ h.idPos, by rw [h3, h4]; exact h.sym, by have := h.vol; omega, h6⟩

theorem toMarket_not_trailing (o : Order) : (Core.toMarket o).isTrailing = false := rfl
theorem toLimit_not_trailing (o : Order) : (Core.toLimit o).isTrailing = false := rfl

theorem execTaker_inv {s : Core} (h : Inv s) (t : Order) (p q : Nat) : Inv (s.execTaker t p q).1 :=
  (h.emit _).setPrices _ _

theorem execTaker_volume (s : Core) (t : Order) (p q : Nat) :
    Core.volume (s.execTaker t p q).1.book = Core.volume s.book := volume_congr (updatePrices_lv ..)
theorem execTaker_symbol (s : Core) (t : Order) (p q : Nat) :
    (s.execTaker t p q).1.book.symbol = s.book.symbol := updatePrices_symbol ..

/-- Every step preserves the configuration invariant. -/
theorem Step.inv {l s t s' t'} (st : Step l s t s' t') (h : CInv s t) : CInv s' t' := by
  obtain ⟨hi, hf⟩ := h
  cases st with
  | trade fill head side reach qty nf na =>
    rename_i t o q s1
    have e := fill.eff hi
    have hf := hf t rfl
    refine ⟨execTaker_inv e.inv _ _ _, ?_⟩
    intro t' ht'; cases ht'
    refine hf.of_same (execTaker_repr hf.repr) rfl rfl ?_ ?_ hf.trail
    · rw [execTaker_symbol]; exact e.same.symbol
    · rw [execTaker_volume]; have := e.vol; show _ + (t.leaves - q) ≤ _; omega
  | sweep fills sum pos sides tif =>
    rename_i t xs s1
    obtain ⟨e1, e2, e3⟩ := fills.inv hi
    have hf := hf t rfl
    refine ⟨execTaker_inv e1 _ _ _, ?_⟩
    intro t' ht'; cases ht'
    refine hf.of_same (execTaker_repr hf.repr) rfl rfl ?_ ?_ hf.trail
    · rw [execTaker_symbol]; exact e3
    · rw [execTaker_volume]; show _ + (t.leaves - t.leaves) ≤ _; omega
  | pair fe fr side ne nae nar crossed =>
    exact ⟨(fr.eff (fe.eff hi).inv).inv, by simp⟩
  | cross f1 f2 ne aon side => exact ⟨(f2.inv (f1.inv hi).1).1, by simp⟩
  | take mem sym run =>
    obtain ⟨k, a1, a2, a3, a4, a5, a6⟩ := hi.take mem sym run
    refine ⟨a2, ?_⟩
    intro t' ht'; cases ht'
    have hok := (hi.orders _ _ mem).2
    have := hi.vol
    exact ⟨hok.repr, hok.idPos, by rw [a4.symbol]; exact sym, by omega, hok.trail⟩
  | put fresh pos nm tif run =>
    obtain ⟨k, a1, a2, _⟩ := hi.put (hf _ rfl) fresh pos nm tif run
    exact ⟨a2, by simp⟩
  | cancel => exact ⟨hi.emit _, by simp⟩
  | activate ty trig =>
    rename_i o t
    have hf := hf o rfl
    refine ⟨hi.emit _, ?_⟩
    intro t' ht'; cases ht'
    rcases ty with ⟨_, rfl⟩ | ⟨_, rfl⟩
    · refine hf.of_same ?_ rfl rfl rfl (Nat.le_refl _) (by simp [toMarket_not_trailing])
      have := hf.repr; unfold Order.Repr64 Core.toMarket at *; simp only; omega
    · refine hf.of_same ?_ rfl rfl rfl (Nat.le_refl _) (by simp [toLimit_not_trailing])
      have := hf.repr; unfold Order.Repr64 Core.toLimit at *; simp only; omega
  | bound ty lim =>
    rename_i t p
    have hf := hf t rfl
    refine ⟨hi, ?_⟩
    intro t' ht'; cases ht'
    refine hf.of_same ?_ rfl rfl rfl (Nat.le_refl _) hf.trail
    have h1 := marketLimit_lt hi hf.repr lim
    have := hf.repr; unfold Order.Repr64 at *; simp only; omega
  | retrail ty ne =>
    rename_i o
    have hf := hf o rfl
    refine ⟨hi.emit _, ?_⟩
    intro t' ht'; cases ht'
    refine hf.of_same (retrail_repr hf.repr (calcTrailing_lt hi hf.repr)) (retrail_id ..) (retrail_symbolId ..) rfl
      (by rw [retrail_leaves]; exact Nat.le_refl _) ?_
    rw [isTrailing_congr (retrail_type ..), retrail_trail]; exact hf.trail
  | mark => exact ⟨⟨hi.book.book_congr rfl rfl rfl, hi.orders, hi.vol⟩, by simp⟩
  | reset =>
    refine ⟨hi.reset, ?_⟩
    intro t' ht'
    have := hf t' ht'
    exact ⟨this.repr, this.idPos, this.sym, this.vol, this.trail⟩
  | arrive rep idp sym vol tr =>
    refine ⟨hi.emit _, ?_⟩
    intro t' ht'; cases ht'
    exact ⟨rep, idp, sym, vol, tr⟩
  | reduce mem sym pos run =>
    obtain ⟨k, a1, a2, _⟩ := hi.reduce mem sym run
    exact ⟨a2, by simp⟩
  | execute mem sym pos le run =>
    rename_i o p q s1
    obtain ⟨k, s2, a1, a2, a3, _⟩ := hi.execute_ok mem sym p q le
    have run' : (s.reported o p q).shrink (o.filled q) q
        (o.hiddenQty - (o.filled q).hiddenQty) (o.visibleQty - (o.filled q).visibleQty) = .ok s1 := run
    rw [run'] at a2; cases a2
    exact ⟨a3.emit _, by simp⟩
  | modify rep pos vol =>
    rename_i o p q mit
    have hf := hf o rfl
    refine ⟨hi.emit _, ?_⟩
    intro t' ht'; cases ht'
    exact ⟨rep, hf.idPos, hf.sym, vol, hf.trail⟩
  | vanish zero => exact ⟨hi.emit _, by simp⟩

theorem Steps.inv {A s t s' t'} (h : Steps A s t s' t') (hi : CInv s t) : CInv s' t' := by
  induction h with
  | refl => exact hi
  | head _ st _ ih => exact ih (st.inv hi)

end CppTrader
