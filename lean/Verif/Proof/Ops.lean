import Verif.Proof.MatchBook
import Verif.Proof.Trailing
import Verif.Feed
/-
The order operations on one book: totality, steps and postconditions.
-/

namespace CppTrader
open Core

/-- Which public call an order operation belongs to. -/
inductive Tag
  | add (m : Nat) (o : Order) | reduce | modify | replace (t o : Order) | delete | execute

/-- The order `o'` may arrive during the call. -/
def Tag.arrives : Tag → Order → Prop
  | .add m o, o' => o.Submitted m o'
  | .replace t _, o' => o' = t
  | _, _ => False

/-- The id of the order that may arrive during the call is not in use. -/
def Tag.freshIn (m : Nat → Option Order) : Tag → Prop
  | .add _ o => m o.id = none
  | .replace t o => t.id = o.id ∨ m t.id = none
  | _ => True

/-- Labels of trades made by matching. -/
def Lbl.isTrade : Lbl → Prop
  | .trade _ _ _ => True
  | .sweep _ _ => True
  | .pair _ _ => True
  | .cross _ _ _ => True
  | _ => False

/-- No stop order is triggered or moved. -/
def Lbl.calm : Lbl → Prop
  | .activate _ _ => False
  | .retrail _ _ => False
  | _ => True

/-- No stop-like order trades. -/
def Lbl.stopSafe : Lbl → Prop
  | .trade t _ _ => t.isStopLike = false
  | .sweep t _ => t.isStopLike = false
  | _ => True

/-- Labels an operation may use. -/
structure OpL (m : Bool) (tag : Tag) (l : Lbl) : Prop where
  noTrade : m = false → ¬ l.isTrade
  stopSafe : tag ≠ .modify → l.stopSafe
  exec : ∀ o p q, l = .execute o p q → tag = .execute
  modify : ∀ o t, l = .modify o t → tag = .modify
  reduce : ∀ o q, l = .reduce o q → tag = .reduce
  vanish : ∀ o t, l = .vanish o t → tag = .modify
  arrive : ∀ o, l = .arrive o → tag.arrives o
  calm : m = false → l.calm

/-- Not the queueing of an order. -/
def Lbl.noPut : Lbl → Prop
  | .put _ => False
  | _ => True

/-- Labels used before an arriving order is queued. -/
def PreL (m : Bool) (tag : Tag) (l : Lbl) : Prop := OpL m tag l ∧ l.noPut

/-- Not the arrival of an order. -/
def Lbl.noArrive : Lbl → Prop
  | .arrive _ => False
  | _ => True

/-- Sequences of steps without arrival, or with exactly one arrival of an order, under an unused id if `F` holds. -/
inductive Once (F : Prop) (A : Lbl → Prop) (s : Core) (t : Option Order) (s' : Core) (t' : Option Order) : Bool → Prop
  | no (h : Steps (fun l => A l ∧ l.noArrive) s t s' t') : Once F A s t s' t' false
  | one {s1 t1 s2 t2} (o : Order) (h : Steps (fun l => A l ∧ l.noArrive) s t s1 t1) (a : A (.arrive o))
      (st : Step (.arrive o) s1 t1 s2 t2) (h' : Steps (fun l => A l ∧ l.noArrive) s2 t2 s' t')
      (fr : F → s1.orders o.id = none) : Once F A s t s' t' true

theorem Once.steps {F A s t s' t' n} (h : Once F A s t s' t' n) : Steps A s t s' t' := by
  cases h with
  | no h => exact h.mono fun _ h => h.1
  | one o h a st h' _ => exact ((h.mono fun _ h => h.1).trans (.one a st)).trans (h'.mono fun _ h => h.1)

theorem Once.trans {F A s t s1 t1 s' t' n} (h : Once F A s t s1 t1 n) (h' : Steps (fun l => A l ∧ l.noArrive) s1 t1 s' t') :
    Once F A s t s' t' n := by
  cases h with
  | no h => exact .no (h.trans h')
  | one o h a st h1 fr => exact .one o h a st (h1.trans h') fr

theorem Once.mono {F} {A B : Lbl → Prop} {s t s' t' n} (h : Once F A s t s' t' n) (hab : ∀ l, A l → B l) : Once F B s t s' t' n := by
  cases h with
  | no h => exact .no (h.mono fun _ h => ⟨hab _ h.1, h.2⟩)
  | one o h a st h1 fr =>
    exact .one o (h.mono fun _ h => ⟨hab _ h.1, h.2⟩) (hab _ a) st (h1.mono fun _ h => ⟨hab _ h.1, h.2⟩) fr

/-- Whether the call submits an order. -/
def Tag.adds : Tag → Bool
  | .add _ _ => true
  | .replace _ _ => true
  | _ => false

theorem EngL.noArrive {l} (h : EngL l) : l.noArrive := by cases l <;> first | trivial | exact h

theorem EngL.op {l} (h : EngL l) (tag) : OpL true tag l := by
  refine ⟨by simp, ?_, ?_, ?_, ?_, ?_, ?_, by simp⟩
  · intro _; cases l <;> simp_all [EngL, Lbl.stopSafe]
  · rintro o p q rfl; cases h
  · rintro o t rfl; cases h
  · rintro o t rfl; cases h
  · rintro o t rfl; cases h
  · rintro o rfl; cases h

/-- A label that is no trade and no call-specific prelude. -/
def Lbl.plain : Lbl → Prop
  | .trade _ _ _ => False
  | .sweep _ _ => False
  | .pair _ _ => False
  | .cross _ _ _ => False
  | .execute _ _ _ => False
  | .modify _ _ => False
  | .reduce _ _ => False
  | .vanish _ _ => False
  | .arrive _ => False
  | .activate _ _ => False
  | .retrail _ _ => False
  | _ => True

theorem Lbl.plain.op {l : Lbl} (h : l.plain) (m tag) : OpL m tag l := by
  refine ⟨?_, ?_, ?_, ?_, ?_, ?_, ?_, fun _ => by cases l <;> first | trivial | cases h⟩
  · intro _ h'; cases l <;> simp_all [Lbl.plain, Lbl.isTrade]
  · intro _; cases l <;> simp_all [Lbl.plain, Lbl.stopSafe]
  · rintro o p q rfl; cases h
  · rintro o t rfl; cases h
  · rintro o t rfl; cases h
  · rintro o t rfl; cases h
  · rintro o rfl; cases h

theorem Lbl.plain.pre {l : Lbl} (h : l.plain) (h' : l.noPut) (m tag) : PreL m tag l := ⟨h.op m tag, h'⟩

theorem Lbl.plain.preN {l : Lbl} (h : l.plain) (h' : l.noPut) (m tag) : PreL m tag l ∧ l.noArrive :=
  ⟨h.pre h' m tag, by cases l <;> first | trivial | exact h⟩

theorem Lbl.plain.opN {l : Lbl} (h : l.plain) (m tag) : OpL m tag l ∧ l.noArrive :=
  ⟨h.op m tag, by cases l <;> first | trivial | exact h⟩

theorem InL.op {t0 l} (h : InL t0 l) {tag} (hs : tag ≠ .modify → t0.isStopLike = false) : OpL true tag l := by
  refine ⟨by simp, ?_, ?_, ?_, ?_, ?_, ?_, by simp⟩
  · intro ht
    have := hs ht
    cases l <;> simp_all [InL, Lbl.stopSafe]
    all_goals (obtain ⟨p, e, l, rfl⟩ := h; exact this)
  · rintro o p q rfl; cases h
  · rintro o t rfl; cases h
  · rintro o t rfl; cases h
  · rintro o t rfl; cases h
  · rintro o rfl; cases h

theorem InL.pre {t0 l} (h : InL t0 l) {tag} (hs : tag ≠ .modify → t0.isStopLike = false) : PreL true tag l :=
  ⟨h.op hs, by cases l <;> first | trivial | exact h⟩

theorem InL.preN {t0 l} (h : InL t0 l) {tag} (hs : tag ≠ .modify → t0.isStopLike = false) : PreL true tag l ∧ l.noArrive :=
  ⟨h.pre hs, by cases l <;> first | trivial | exact h⟩

/-- Result of an order operation. `s1` is the state before the final reset of the matching prices. -/
structure OpEff (m : Bool) (n : Bool) (tag : Tag) (s s' : Core) (e : ErrorCode) : Prop where
  steps : Steps (OpL m tag) s none s' none
  once : Once (tag.freshIn s.orders) (OpL m tag) s none s' none n
  inv : Inv s'
  code : e = .ok ∨ e = .orderDuplicate
  dup : e = .orderDuplicate → Steps (PreL m tag) s none s' none ∧ (∃ t, tag.arrives t ∧ s'.orders t.id ≠ none) ∧ ¬ tag.freshIn s.orders
  done : e = .ok → ∃ s1, s' = s1.reset ∧ Steps (OpL m tag) s none s1 none ∧
    (m = true → HasAON s1 ∨ Uncrossed s1.book ∧ Settled s1.book)

theorem finish_ok {s : Core} (hi : Inv s) (m : Bool) (tag : Tag) :
    ∃ s', s.finish m = .ok (s', .ok) ∧ OpEff m false tag s s' .ok ∧ volume s'.book ≤ volume s.book ∧
      Steps (fun l => OpL m tag l ∧ l.noArrive) s none s' none := by
  unfold finish
  cases m with
  | true =>
    obtain ⟨s1, e1, e2, e3⟩ := matchBook_ok hi
    simp only [if_true]
    rw [e1, Except.bind_ok]
    have hs : Steps (fun l => OpL true tag l ∧ l.noArrive) s none s1 none := e2.steps.mono fun l h => ⟨h.op tag, h.noArrive⟩
    have hs' := hs.trans (.one (Lbl.plain.opN (l := .reset) trivial _ _) .reset)
    exact ⟨s1.reset, rfl, ⟨hs'.mono fun _ h => h.1, .no hs', e2.inv.reset, .inl rfl, by simp,
      fun _ => ⟨s1, rfl, hs.mono fun _ h => h.1, fun _ => e3⟩⟩, e2.vol, hs'⟩
  | false =>
    simp only [Bool.false_eq_true, if_false]
    rw [Except.bind_ok]
    have hs' : Steps (fun l => OpL false tag l ∧ l.noArrive) s none s.reset none := .one (Lbl.plain.opN (l := .reset) trivial _ _) .reset
    exact ⟨s.reset, rfl, ⟨hs'.mono fun _ h => h.1, .no hs', hi.reset, .inl rfl, by simp,
      fun _ => ⟨s, rfl, .refl _ _, by simp⟩⟩, Nat.le_refl _, hs'⟩

theorem OpEff.prefix {m n tag s s1 s'} (h : Once (tag.freshIn s.orders) (OpL m tag) s none s1 none n) (h' : OpEff m false tag s1 s' .ok)
    (hn : Steps (fun l => OpL m tag l ∧ l.noArrive) s1 none s' none) :
    OpEff m n tag s s' .ok :=
  ⟨h.steps.trans h'.steps, h.trans hn, h'.inv, h'.code, by simp, fun he => by
    obtain ⟨s2, a, b, c⟩ := h'.done he; exact ⟨s2, a, h.steps.trans b, c⟩⟩

/-- Finish with an order in flight that is dropped. -/
theorem drop_ok {m n tag s s1 t} (hi : Inv s) (h : Once (tag.freshIn s.orders) (PreL m tag) s none s1 (some t) n) :
    ∃ s', (s1.emit (.deleteOrder t)).finish m = .ok (s', .ok) ∧ OpEff m n tag s s' .ok := by
  have hs : Once (tag.freshIn s.orders) (OpL m tag) s none (s1.emit (.deleteOrder t)) none n :=
    (h.mono fun _ h => h.1).trans (.one (Lbl.plain.opN (l := .cancel t) trivial _ _) .cancel)
  obtain ⟨s', e1, e2, _, e3⟩ := finish_ok (hs.steps.inv (CInv.none_iff.2 hi)).inv m tag
  exact ⟨s', e1, .prefix hs e2 e3⟩

/-- Finish by queueing the order in flight. -/
theorem link_ok {m n tag s s1 t} (hi : Inv s) (h : Once (tag.freshIn s.orders) (PreL m tag) s none s1 (some t) n) (hf : s1.orders t.id = none)
    (hpos : 0 < t.leaves) (hnm : t.type ≠ .market) (htif : t.type = .limit → t.tif = .gtc ∨ t.tif = .aon) :
    ∃ s2 s', s1.link t = .ok s2 ∧ s2.finish m = .ok (s', .ok) ∧ OpEff m n tag s s' .ok := by
  have hc := h.steps.inv (CInv.none_iff.2 hi)
  have hfly := hc.fly _ rfl
  obtain ⟨k3, s2, c1, c2, c3, _⟩ := hc.inv.link (hfly.orderOK hpos hnm htif) hfly.sym hf hfly.vol
  have hs : Once (tag.freshIn s.orders) (OpL m tag) s none s2 none n :=
    (h.mono fun _ h => h.1).trans (.one (Lbl.plain.opN (l := .put t) trivial _ _) (.put hf hpos hnm htif c2))
  obtain ⟨s', e1, e2, _, e3⟩ := finish_ok c3 m tag
  exact ⟨s2, s', c2, e1, .prefix hs e2 e3⟩

theorem insertNew_ok {m n tag s s1 t} (hi : Inv s) (h : Once (tag.freshIn s.orders) (PreL m tag) s none s1 (some t) n)
    (htag : ∃ o', tag.arrives o' ∧ o'.id = t.id) (hfr : tag.freshIn s.orders → s1.orders t.id = none)
    (hpos : 0 < t.leaves) (hnm : t.type ≠ .market) (htif : t.type = .limit → t.tif = .gtc ∨ t.tif = .aon) :
    ∃ s' e, s1.insertNew m t = .ok (s', e) ∧ OpEff m n tag s s' e := by
  unfold insertNew
  cases ho : s1.orders t.id with
  | some o =>
    have hs : Once (tag.freshIn s.orders) (PreL m tag) s none (s1.emit (.deleteOrder t)) none n :=
      h.trans (.one (Lbl.plain.preN (l := .cancel t) trivial trivial _ _) .cancel)
    exact ⟨_, _, rfl, ⟨hs.steps.mono fun _ h => h.1, hs.mono fun _ h => h.1, (hs.steps.inv (CInv.none_iff.2 hi)).inv, .inr rfl,
      fun _ => ⟨hs.steps, by obtain ⟨o', h1, h2⟩ := htag; exact ⟨o', h1, by rw [h2, emit_orders, ho]; simp⟩,
        fun hf => by rw [hfr hf] at ho; cases ho⟩, by simp⟩⟩
  | none =>
    obtain ⟨s2, s', e1, e2, e3⟩ := link_ok hi h ho hpos hnm htif
    exact ⟨s', .ok, by simp only [e1, Except.bind_ok, e2], e3⟩

theorem restOrCancel_ok {m n tag s s1 t} (hi : Inv s) (h : Once (tag.freshIn s.orders) (PreL m tag) s none s1 (some t) n)
    (htag : ∃ o', tag.arrives o' ∧ o'.id = t.id) (hfr : tag.freshIn s.orders → s1.orders t.id = none) (hl : t.type = .limit) :
    ∃ s' e, s1.restOrCancel m t = .ok (s', e) ∧ OpEff m n tag s s' e := by
  unfold restOrCancel
  by_cases hr : (decide (t.leaves > 0) && !t.isIOC && !t.isFOK) = true
  · simp only [hr, if_true]
    simp only [Bool.and_eq_true, decide_eq_true_eq, Bool.not_eq_true'] at hr
    refine insertNew_ok hi h htag hfr hr.1.1 (by rw [hl]; simp) ?_
    intro _
    have h1 := hr.1.2
    have h2 := hr.2
    unfold Order.isIOC at h1; unfold Order.isFOK at h2
    cases ht : t.tif <;> simp_all
  · simp only [hr, Bool.false_eq_true, if_false]
    obtain ⟨s', e1, e2⟩ := drop_ok hi h
    exact ⟨s', .ok, e1, e2⟩

/-- Optional matching of a limit order in flight. -/
theorem matchIf_ok {m : Bool} {n tag s s1 t} (hi : Inv s) (h : Once (tag.freshIn s.orders) (PreL m tag) s none s1 (some t) n)
    (hpos : 0 < t.leaves) (hs : tag ≠ .modify → t.isStopLike = false) :
    ∃ s2 t2, s1.matchIf m t = .ok (s2, t2) ∧ Once (tag.freshIn s.orders) (PreL m tag) s none s2 (some t2) n ∧ Sim t t2 ∧ MatchFrame t s1 s2 := by
  unfold matchIf
  cases m with
  | false => exact ⟨s1, t, rfl, h, .refl t, .refl _ _⟩
  | true =>
    have hc := h.steps.inv (CInv.none_iff.2 hi)
    obtain ⟨s2, t2, e1, e2, e3⟩ := matchOrder_ok hc.inv (hc.fly _ rfl) hpos
    exact ⟨s2, t2, e1, h.trans (e2.mono fun l hl => hl.toIn.preN hs), e3, (e2.match_frame hc).1⟩

theorem arrive_steps {m : Bool} {tag s0 s o} (h0 : Steps (fun l => PreL m tag l ∧ l.noArrive) s0 none s none)
    (htag : tag.arrives o) (rep : o.Repr64) (idp : 0 < o.id)
    (sym : o.symbolId = s.book.symbol.id)
    (vol : volume s.book + o.leaves < W64) (tr : o.isTrailing = true → o.TrailOK)
    (hfr : tag.freshIn s0.orders → s.orders o.id = none) :
    Once (tag.freshIn s0.orders) (PreL m tag) s0 none (s.emit (.addOrder o)) (some o) true := by
  refine .one o h0 ⟨⟨?_, ?_, ?_, ?_, ?_, ?_, ?_, fun _ => trivial⟩, trivial⟩ (Step.arrive rep idp sym vol tr) (.refl _ _) hfr
  · intro _ h; cases h
  · intro _; trivial
  · intro _ _ _ h; cases h
  · intro _ _ h; cases h
  · intro _ _ h; cases h
  · intro _ _ h; cases h
  · intro _ e; cases e; exact htag

theorem validate_facts {o : Order} (h : o.validate = .ok) : 0 < o.id ∧ 0 < o.leaves ∧ (o.isTrailing = true → o.TrailOK) := by
  obtain ⟨id, sym, type, side, price, stop, qty, ex, leaves, tif, mv, sl, td, ts⟩ := o
  unfold Order.validate at h
  simp only at h
  by_cases h1 : id = 0
  · simp [h1] at h
  · by_cases h2 : qty < leaves
    · simp [h1, h2] at h
    · by_cases h3 : leaves = 0
      · simp [h1, h3] at h
      · refine ⟨by simp; omega, by simp; omega, ?_⟩
        intro ht
        simp only [h1, h2, h3, if_false] at h
        unfold Order.isTrailing Order.isTrailingStop Order.isTrailingStopLimit at ht
        unfold Order.TrailOK
        simp only at ht ⊢
        by_cases hd0 : td = 0
        · cases type <;> simp_all [Order.isMarket, Order.isLimit, Order.isStop, Order.isTrailingStop, Order.isTrailingStopLimit,
            Order.isStopLimit] <;> (repeat' split at h) <;> simp_all
        · by_cases hd : td > 0
          · cases type <;> simp [Order.isMarket, Order.isLimit, Order.isStop, Order.isTrailingStop, Order.isTrailingStopLimit,
              Order.isStopLimit, hd0, hd] at h ht <;> (repeat' split at h) <;> simp_all <;> omega
          · cases type <;> simp [Order.isMarket, Order.isLimit, Order.isStop, Order.isTrailingStop, Order.isTrailingStopLimit,
              Order.isStopLimit, hd0, hd] at h ht <;> (repeat' split at h) <;> simp_all <;> omega

/-- The market price an order of the given side follows. -/
def Book.trailMarket (b : Book) (sd : Side) : Nat := match sd with
  | .buy => b.marketTrailAsk
  | .sell => b.marketTrailBid

theorem calcTrailing_market (b : Book) (o : Order) : b.calcTrailing o = trailPrice o (b.trailMarket o.side) := by
  unfold Book.calcTrailing Book.trailMarket Order.isBuy
  cases o.side <;> rfl

theorem isTrailing_iff (o : Order) : o.isTrailing = true ↔ (o.type = .trailingStop ∨ o.type = .trailingStopLimit) := by
  simp [Order.isTrailing, Order.isTrailingStop, Order.isTrailingStopLimit]

theorem retrail_submitted {b : Book} {o : Order} (hr : o.Repr64) (hok : o.TrailOK) (ht : o.isTrailing = true) :
    o.Submitted (b.trailMarket o.side) (Core.retrail o (b.calcTrailing o)) := by
  rw [calcTrailing_market]
  generalize b.trailMarket o.side = m
  have hs := trailPrice_spec hr hok m
  have ht' := (isTrailing_iff o).1 ht
  by_cases h : o.trailMoves m
  · right
    rw [hs.1 h]
    refine ⟨h, ?_⟩
    unfold Core.retrail
    rcases ht' with h | h <;> simp [h]
  · left
    refine ⟨?_, fun h' => h h'.2⟩
    rw [hs.2 h]
    have : add64 o.stopPrice (sub64 o.price o.stopPrice) = o.price := by
      have h1 := hr.2.2.1
      have h2 := hr.2.2.2.1
      unfold add64 sub64
      omega
    unfold Core.retrail
    split <;> simp [this]

theorem submitted_plain {o : Order} (m : Nat) (h : o.isTrailing = false) : o.Submitted m o :=
  .inl ⟨rfl, fun h' => by rw [(isTrailing_iff o).2 h'.1] at h; cases h⟩

theorem initTrailing_props {s : Core} {o : Order} (hi : Inv s) (hr : o.Repr64) (hok : o.isTrailing = true → o.TrailOK) :
    let t := initTrailing s.book o
    t.Repr64 ∧ t.id = o.id ∧ t.symbolId = o.symbolId ∧ t.leaves = o.leaves ∧ t.type = o.type ∧ t.side = o.side ∧
      (t.TrailOK ↔ o.TrailOK) ∧ t.tif = o.tif ∧ o.Submitted (s.book.trailMarket o.side) t := by
  simp only
  unfold initTrailing
  split
  · exact ⟨retrail_repr hr (calcTrailing_lt hi hr), retrail_id .., retrail_symbolId .., retrail_leaves .., retrail_type ..,
      retrail_side .., retrail_trail .., retrail_tif .., retrail_submitted hr (hok (by assumption)) (by assumption)⟩
  · exact ⟨hr, rfl, rfl, rfl, rfl, rfl, Iff.rfl, rfl, submitted_plain _ (by simpa using ‹¬ o.isTrailing = true›)⟩

theorem stopLike_of_type {o : Order} (h : o.type = .market ∨ o.type = .limit) : o.isStopLike = false := by
  unfold Order.isStopLike Order.isStop Order.isStopLimit Order.isTrailingStop Order.isTrailingStopLimit
  rcases h with h | h <;> simp [h]

theorem addMarket_ok {m : Bool} {s : Core} {o : Order} (hi : Inv s) (hv : o.validate = .ok) (hr : o.Repr64)
    (hs : o.symbolId = s.book.symbol.id) (hvol : volume s.book + o.leaves < W64) (ht : o.type = .market) :
    ∃ s' e, s.addMarket m o = .ok (s', e) ∧ OpEff m true (.add (s.book.trailMarket o.side) o) s s' e := by
  obtain ⟨h1, h2, h3⟩ := validate_facts hv
  have ha : Once (Tag.freshIn s.orders (.add (s.book.trailMarket o.side) o)) (PreL m (.add (s.book.trailMarket o.side) o)) s none (s.emit (.addOrder o)) (some o) true := arrive_steps (.refl _ _) (submitted_plain _ (by simp [Order.isTrailing, Order.isTrailingStop, Order.isTrailingStopLimit, ht])) hr h1 hs hvol h3 id
  unfold addMarket
  cases m with
  | false =>
    obtain ⟨s', e1, e2⟩ := drop_ok hi ha
    exact ⟨s', .ok, e1, e2⟩
  | true =>
    have hc := ha.steps.inv (CInv.none_iff.2 hi)
    obtain ⟨s2, t2, e1, e2, e3, e4, e5⟩ := matchMarket_ok hc.inv (hc.fly _ rfl) h2 ht
    obtain ⟨s', f1, f2⟩ := drop_ok hi (ha.trans (e2.mono fun l hl => hl.preN (tag := .add (s.book.trailMarket o.side) o) fun _ => stopLike_of_type (.inl ht)))
    refine ⟨s', .ok, ?_, f2⟩
    simp only [if_true, e1, Except.bind_ok, f1]

theorem addLimit_ok {m : Bool} {s : Core} {o : Order} (hi : Inv s) (hv : o.validate = .ok) (hr : o.Repr64)
    (hs : o.symbolId = s.book.symbol.id) (hvol : volume s.book + o.leaves < W64) (ht : o.type = .limit) :
    ∃ s' e, s.addLimit m o = .ok (s', e) ∧ OpEff m true (.add (s.book.trailMarket o.side) o) s s' e := by
  obtain ⟨h1, h2, h3⟩ := validate_facts hv
  have ha : Once (Tag.freshIn s.orders (.add (s.book.trailMarket o.side) o)) (PreL m (.add (s.book.trailMarket o.side) o)) s none (s.emit (.addOrder o)) (some o) true := arrive_steps (.refl _ _) (submitted_plain _ (by simp [Order.isTrailing, Order.isTrailingStop, Order.isTrailingStopLimit, ht])) hr h1 hs hvol h3 id
  obtain ⟨s2, t2, e1, e2, e3, e4⟩ := matchIf_ok hi ha h2 (fun _ => stopLike_of_type (.inr ht))
  obtain ⟨s', e, f1, f2⟩ := restOrCancel_ok hi e2 ⟨o, submitted_plain _ (by simp [Order.isTrailing, Order.isTrailingStop, Order.isTrailingStopLimit, ht]), by obtain ⟨_, _, rfl⟩ := e3; rfl⟩
    (fun h => e4.none _ (by obtain ⟨_, _, rfl⟩ := e3; exact h)) (by obtain ⟨_, _, rfl⟩ := e3; exact ht)
  exact ⟨s', e, by simp only [addLimit, e1, Except.bind_ok, f1], f2⟩

theorem addStop_ok {m : Bool} {s : Core} {o : Order} (hi : Inv s) (hv : o.validate = .ok) (hr : o.Repr64)
    (hs : o.symbolId = s.book.symbol.id) (hvol : volume s.book + o.leaves < W64)
    (ht : (o.isStop || o.isTrailingStop) = true) :
    ∃ s' e, s.addStop m o = .ok (s', e) ∧ OpEff m true (.add (s.book.trailMarket o.side) o) s s' e := by
  obtain ⟨h1, h2, h3⟩ := validate_facts hv
  obtain ⟨g1, g2, g3, g4, g5, g6, g7, g8, g9⟩ := initTrailing_props hi hr h3
  unfold addStop
  simp only
  generalize initTrailing s.book o = u at *
  have ht' : (u.isStop || u.isTrailingStop) = true := by
    unfold Order.isStop Order.isTrailingStop at *; rw [g5]; exact ht
  have ha : Once (Tag.freshIn s.orders (.add (s.book.trailMarket o.side) o)) (PreL m (.add (s.book.trailMarket o.side) o)) s none (s.emit (.addOrder u)) (some u) true :=
    arrive_steps (.refl _ _) g9 g1 (by omega) (by rw [g3]; exact hs) (by rw [g4]; exact hvol)
      (fun h => g7.2 (h3 (by rw [← isTrailing_congr g5]; exact h))) (fun h => by rw [g2]; exact h)
  by_cases hc : (m && triggered (s.emit (.addOrder u)).book u) = true
  · simp only [hc, if_true]
    simp only [Bool.and_eq_true] at hc
    obtain ⟨rfl, htr⟩ := hc
    have st : Step (.activate u (toMarket u)) (s.emit (.addOrder u)) (some u)
      ((s.emit (.addOrder u)).emit (.updateOrder (toMarket u))) (some (toMarket u)) := .activate (.inl ⟨ht', rfl⟩) htr
    have ha2 := ha.trans (.one (⟨⟨EngL.op (l := .activate u (toMarket u)) trivial _, trivial⟩, trivial⟩) st)
    have hci := ha2.steps.inv (CInv.none_iff.2 hi)
    obtain ⟨s2, t2, e1, e2, e3, e4, e5⟩ := matchMarket_ok hci.inv (hci.fly _ rfl) (show 0 < u.leaves by omega) rfl
    obtain ⟨s', f1, f2⟩ := drop_ok hi (ha2.trans (e2.mono fun l hl => hl.preN (tag := .add (s.book.trailMarket o.side) o) fun _ => rfl))
    exact ⟨s', .ok, by simp only [e1, Except.bind_ok, f1], f2⟩
  · simp only [hc, Bool.false_eq_true, if_false]
    have hpos : u.leaves > 0 := by omega
    simp only [hpos, if_true]
    refine insertNew_ok hi ha ⟨u, g9, rfl⟩ (fun h => by show s.orders u.id = none; rw [g2]; exact h) hpos ?_ ?_
    · intro e; unfold Order.isStop Order.isTrailingStop at ht'; simp [e] at ht'
    · intro e; unfold Order.isStop Order.isTrailingStop at ht'; simp [e] at ht'

theorem addStopLimit_ok {m : Bool} {s : Core} {o : Order} (hi : Inv s) (hv : o.validate = .ok) (hr : o.Repr64)
    (hs : o.symbolId = s.book.symbol.id) (hvol : volume s.book + o.leaves < W64)
    (ht : (o.isStopLimit || o.isTrailingStopLimit) = true) :
    ∃ s' e, s.addStopLimit m o = .ok (s', e) ∧ OpEff m true (.add (s.book.trailMarket o.side) o) s s' e := by
  obtain ⟨h1, h2, h3⟩ := validate_facts hv
  obtain ⟨g1, g2, g3, g4, g5, g6, g7, g8, g9⟩ := initTrailing_props hi hr h3
  unfold addStopLimit
  simp only
  generalize initTrailing s.book o = u at *
  have ht' : (u.isStopLimit || u.isTrailingStopLimit) = true := by
    unfold Order.isStopLimit Order.isTrailingStopLimit at *; rw [g5]; exact ht
  have ha : Once (Tag.freshIn s.orders (.add (s.book.trailMarket o.side) o)) (PreL m (.add (s.book.trailMarket o.side) o)) s none (s.emit (.addOrder u)) (some u) true :=
    arrive_steps (.refl _ _) g9 g1 (by omega) (by rw [g3]; exact hs) (by rw [g4]; exact hvol)
      (fun h => g7.2 (h3 (by rw [← isTrailing_congr g5]; exact h))) (fun h => by rw [g2]; exact h)
  by_cases hc : (m && triggered (s.emit (.addOrder u)).book u) = true
  · simp only [hc, if_true]
    simp only [Bool.and_eq_true] at hc
    obtain ⟨rfl, htr⟩ := hc
    have st : Step (.activate u (toLimit u)) (s.emit (.addOrder u)) (some u)
      ((s.emit (.addOrder u)).emit (.updateOrder (toLimit u))) (some (toLimit u)) := .activate (.inr ⟨ht', rfl⟩) htr
    have ha2 := ha.trans (.one (⟨⟨EngL.op (l := .activate u (toLimit u)) trivial _, trivial⟩, trivial⟩) st)
    have hci := ha2.steps.inv (CInv.none_iff.2 hi)
    obtain ⟨s2, t2, e1, e2, e3⟩ := matchOrder_ok hci.inv (hci.fly _ rfl) (show 0 < u.leaves by omega)
    obtain ⟨s', e, f1, f2⟩ := restOrCancel_ok hi (ha2.trans (e2.mono fun l hl => hl.toIn.preN (tag := .add (s.book.trailMarket o.side) o) fun _ => rfl))
      ⟨u, g9, by obtain ⟨_, _, rfl⟩ := e3; rfl⟩
      (fun h => (e2.match_frame hci).1.none _ (by obtain ⟨_, _, rfl⟩ := e3; show s.orders u.id = none; rw [g2]; exact h))
      (by obtain ⟨_, _, rfl⟩ := e3; rfl)
    exact ⟨s', e, by simp only [e1, Except.bind_ok, f1], f2⟩
  · simp only [hc, Bool.false_eq_true, if_false]
    have hpos : u.leaves > 0 := by omega
    simp only [hpos, if_true]
    refine insertNew_ok hi ha ⟨u, g9, rfl⟩ (fun h => by show s.orders u.id = none; rw [g2]; exact h) hpos ?_ ?_
    · intro e; unfold Order.isStopLimit Order.isTrailingStopLimit at ht'; simp [e] at ht'
    · intro e; unfold Order.isStopLimit Order.isTrailingStopLimit at ht'; simp [e] at ht'

theorem addAny_ok {m : Bool} {s : Core} {o : Order} (hi : Inv s) (hv : o.validate = .ok) (hr : o.Repr64)
    (hs : o.symbolId = s.book.symbol.id) (hvol : volume s.book + o.leaves < W64) :
    ∃ s' e, s.addAny m o = .ok (s', e) ∧ OpEff m true (.add (s.book.trailMarket o.side) o) s s' e := by
  unfold addAny
  cases ht : o.type with
  | market => exact addMarket_ok hi hv hr hs hvol ht
  | limit => exact addLimit_ok hi hv hr hs hvol ht
  | stop => exact addStop_ok hi hv hr hs hvol (by simp [Order.isStop, ht])
  | trailingStop => exact addStop_ok hi hv hr hs hvol (by simp [Order.isTrailingStop, ht])
  | stopLimit => exact addStopLimit_ok hi hv hr hs hvol (by simp [Order.isStopLimit, ht])
  | trailingStopLimit => exact addStopLimit_ok hi hv hr hs hvol (by simp [Order.isTrailingStopLimit, ht])

theorem reduceOp_ok {m : Bool} {s : Core} {o : Order} {q : Nat} (hi : Inv s) (mem : s.orders o.id = some o)
    (sym : o.symbolId = s.book.symbol.id) (hq : 0 < q) :
    ∃ s' e, s.reduceOp m o q = .ok (s', e) ∧ OpEff m false .reduce s s' e := by
  obtain ⟨s1, e1⟩ := hi.reduce_ok mem sym q
  have st : Step (.reduce o q) s none s1 none := .reduce mem sym hq e1
  obtain ⟨s', f1, f2, _, f4⟩ := finish_ok (st.inv (CInv.none_iff.2 hi)).inv m .reduce
  refine ⟨s', .ok, by simp only [reduceOp, e1, Except.bind_ok, f1], .prefix (.no (.one (l := .reduce o q) ⟨⟨?_, ?_, ?_, ?_, ?_, ?_, ?_, fun _ => trivial⟩, trivial⟩ st)) f2 f4⟩
  · intro _ h; cases h
  · intro _; trivial
  · intro _ _ _ h; cases h
  · intro _ _ h; cases h
  · intro _ _ _; rfl
  · intro _ _ h; cases h
  · intro _ h; cases h

theorem deleteOp_ok {m : Bool} {s : Core} {o : Order} (hi : Inv s) (mem : s.orders o.id = some o)
    (sym : o.symbolId = s.book.symbol.id) :
    ∃ s' e, s.deleteOp m o = .ok (s', e) ∧ OpEff m false .delete s s' e ∧ volume s'.book ≤ volume s.book := by
  obtain ⟨k, s1, a1, a2, a3, a4, a5, a6, _⟩ := hi.unlink mem sym
  have h1 : Once (Tag.freshIn s.orders .delete) (OpL m .delete) s none (s1.emit (.deleteOrder o)) none false :=
    .no (.head (Lbl.plain.opN (l := .take o) trivial _ _) (.take mem sym a2) (.one (Lbl.plain.opN (l := .cancel o) trivial _ _) .cancel))
  obtain ⟨s', f1, f2, f3, f4⟩ := finish_ok (h1.steps.inv (CInv.none_iff.2 hi)).inv m .delete
  refine ⟨s', .ok, by simp only [deleteOp, deleteBody, a2, Except.bind_ok, f1], .prefix h1 f2 f4, ?_⟩
  have : volume (s1.emit (.deleteOrder o)).book = volume s1.book := rfl
  omega

theorem executeOp_ok {m : Bool} {s : Core} {o : Order} {p q : Nat} (hi : Inv s) (mem : s.orders o.id = some o)
    (sym : o.symbolId = s.book.symbol.id) (hq : 0 < q) :
    ∃ s' e, s.executeOp m o p q = .ok (s', e) ∧ OpEff m false .execute s s' e := by
  have hpos := (hi.orders _ o mem).2.leaves
  obtain ⟨k, s1, a1, a2, _⟩ := hi.execute_ok mem sym p (min q o.leaves) (by omega)
  have st : Step (.execute o p (min q o.leaves)) s none _ none := .execute mem sym (by omega) (by omega) a2
  obtain ⟨s', f1, f2, _, f4⟩ := finish_ok (st.inv (CInv.none_iff.2 hi)).inv m .execute
  refine ⟨s', .ok, ?_, .prefix (.no (.one (l := .execute o p (min q o.leaves)) ⟨⟨?_, ?_, ?_, ?_, ?_, ?_, ?_, fun _ => trivial⟩, trivial⟩ st)) f2 f4⟩
  · unfold executeOp
    simp only
    rw [show ((s.emit (.exec o p (min q o.leaves))).setPrices o.side p).shrink
        { o with executed := add64 o.executed (min q o.leaves), leaves := o.leaves - min q o.leaves } (min q o.leaves)
        (o.hiddenQty - ({ o with executed := add64 o.executed (min q o.leaves), leaves := o.leaves - min q o.leaves } : Order).hiddenQty)
        (o.visibleQty - ({ o with executed := add64 o.executed (min q o.leaves), leaves := o.leaves - min q o.leaves } : Order).visibleQty)
        = .ok s1 from a2, Except.bind_ok]
    exact f1
  · intro _ h; cases h
  · intro _; trivial
  · intro _ _ _ _; rfl
  · intro _ _ h; cases h
  · intro _ _ h; cases h
  · intro _ _ h; cases h
  · intro _ h; cases h

theorem take_steps {m : Bool} {tag} {s : Core} {o : Order} (hi : Inv s) (mem : s.orders o.id = some o)
    (sym : o.symbolId = s.book.symbol.id) :
    ∃ s1, s.unlink o = .ok s1 ∧ Steps (fun l => PreL m tag l ∧ l.noArrive) s none s1 (some o) ∧ s1.orders = setO s.orders o.id none ∧
      s1.book.symbol = s.book.symbol ∧ volume s1.book + o.leaves = volume s.book := by
  obtain ⟨k, s1, a1, a2, a3, a4, a5, a6, _⟩ := hi.unlink mem sym
  exact ⟨s1, a2, .one (Lbl.plain.preN (l := .take o) trivial trivial _ _) (.take mem sym a2), a4.orders, a5.symbol, a6⟩

theorem modified_leaves_le (o : Order) (p q mit) : (modified o p q mit).leaves ≤ q := by
  unfold modified; simp only; split <;> (try split) <;> omega

theorem modifyOp_ok {m : Bool} {s : Core} {o : Order} {p q : Nat} {mit : Bool} (hi : Inv s) (mem : s.orders o.id = some o)
    (sym : o.symbolId = s.book.symbol.id) (hp : p < W64) (hq : q < W64) (hvol : volume s.book + q < W64) :
    ∃ s' e, s.modifyOp m o p q mit = .ok (s', e) ∧ OpEff m false .modify s s' e := by
  obtain ⟨s1, a1, a2, a3, a4, a5⟩ := take_steps (m := m) (tag := .modify) hi mem sym
  have hok := (hi.orders _ o mem).2
  have hle := modified_leaves_le o p q mit
  have hrep : (modified o p q mit).Repr64 := by
    have := hok.repr
    unfold Order.Repr64 at *
    refine ⟨this.1, this.2.1, hp, this.2.2.2.1, hq, this.2.2.2.2.2.1, by omega, this.2.2.2.2.2.2.2⟩
  unfold modifyOp
  rw [a1, Except.bind_ok]
  simp only
  by_cases hpos : (modified o p q mit).leaves > 0
  · simp only [hpos, if_true]
    have st : Step (.modify o (modified o p q mit)) s1 (some o) (s1.emit (.updateOrder (modified o p q mit)))
      (some (modified o p q mit)) := .modify hrep hpos (by omega)
    have h2 : Once (Tag.freshIn s.orders .modify) (PreL m .modify) s none (s1.emit (.updateOrder (modified o p q mit))) (some (modified o p q mit)) false := by
      refine .no (a2.trans (.one (l := .modify o (modified o p q mit)) ⟨⟨⟨?_, ?_, ?_, ?_, ?_, ?_, ?_, fun _ => trivial⟩, trivial⟩, trivial⟩ st))
      · intro _ h; cases h
      · intro _; trivial
      · intro _ _ _ h; cases h
      · intro _ _ _; rfl
      · intro _ _ h; cases h
      · intro _ _ h; cases h
      · intro _ h; cases h
    obtain ⟨s2, t2, e1, e2, e3, e4⟩ := matchIf_ok hi h2 hpos (by simp)
    rw [e1, Except.bind_ok]
    simp only
    by_cases hl : t2.leaves > 0
    · simp only [hl, if_true]
      have hty : t2.type = o.type := by obtain ⟨_, _, rfl⟩ := e3; rfl
      have htf : t2.tif = o.tif := by obtain ⟨_, _, rfl⟩ := e3; rfl
      have hid : t2.id = o.id := by obtain ⟨_, _, rfl⟩ := e3; rfl
      have hnone : s2.orders t2.id = none := e4.none _ (by
        show s1.orders t2.id = none
        rw [a3, hid]; simp)
      obtain ⟨s3, s', f1, f2, f3⟩ := link_ok hi e2 hnone hl (by rw [hty]; exact hok.notMarket)
        (by rw [hty, htf]; exact hok.tif)
      exact ⟨s', .ok, by rw [f1, Except.bind_ok, f2], f3⟩
    · simp only [hl, if_false]
      obtain ⟨s', f1, f2⟩ := drop_ok hi e2
      exact ⟨s', .ok, f1, f2⟩
  · simp only [hpos, if_false]
    have st : Step (.vanish o (modified o p q mit)) s1 (some o) (s1.emit (.deleteOrder (modified o p q mit))) none :=
      .vanish (by omega)
    have h2 : Once (Tag.freshIn s.orders .modify) (OpL m .modify) s none _ none false :=
      .no ((a2.mono fun _ h => ⟨h.1.1, h.2⟩).trans (.one (l := .vanish o (modified o p q mit)) ⟨⟨by rintro _ ⟨⟩, fun _ => trivial, by simp, by simp, by simp, fun _ _ _ => rfl, by simp, fun _ => trivial⟩, trivial⟩ st))
    obtain ⟨s', f1, f2, _, f4⟩ := finish_ok (h2.steps.inv (CInv.none_iff.2 hi)).inv m .modify
    exact ⟨s', .ok, f1, .prefix h2 f2 f4⟩

theorem replaceOp_ok {m : Bool} {s : Core} {o : Order} {n p q : Nat} (hi : Inv s) (mem : s.orders o.id = some o)
    (sym : o.symbolId = s.book.symbol.id) (hlim : o.type = .limit) (hn0 : 0 < n) (hn : n < W64) (hp : p < W64) (hq0 : 0 < q)
    (hq : q < W64) (hvol : volume s.book + q < W64) :
    ∃ s' e, s.replaceOp m o n p q = .ok (s', e) ∧ OpEff m true (.replace { o with id := n, price := p, quantity := q, executed := 0, leaves := q } o) s s' e := by
  obtain ⟨s1, a1, a2, a3, a4, a5⟩ := take_steps (m := m) (tag := .replace { o with id := n, price := p, quantity := q, executed := 0, leaves := q } o) hi mem sym
  have hok := (hi.orders _ o mem).2
  unfold replaceOp
  rw [a1, Except.bind_ok]
  simp only
  generalize ht : ({ o with id := n, price := p, quantity := q, executed := 0, leaves := q } : Order) = t at *
  have hrep : t.Repr64 := by
    have := hok.repr
    rw [← ht]
    unfold Order.Repr64 at *
    refine ⟨hn, this.2.1, hp, this.2.2.2.1, hq, by simp, hq, this.2.2.2.2.2.2.2⟩
  have hty : t.type = .limit := by rw [← ht]; exact hlim
  have htf : t.tif = o.tif := by rw [← ht]
  have hnone : Tag.freshIn s.orders (.replace t o) → s1.orders t.id = none := by
    intro h
    rw [a3]
    rcases h with h | h
    · rw [h]; simp
    · by_cases e : t.id = o.id
      · rw [e]; simp
      · rw [setO_other _ _ e]; exact h
  have h2 : Once (Tag.freshIn s.orders (.replace t o)) (PreL m (.replace t o)) s none ((s1.emit (.deleteOrder o)).emit (.addOrder t)) (some t) true :=
    (arrive_steps (a2.trans (.one (Lbl.plain.preN (l := .cancel o) trivial trivial _ _) .cancel)) rfl hrep (by rw [← ht]; exact hn0) (by rw [← ht]; show o.symbolId = s1.book.symbol.id; rw [a4]; exact sym)
        (by rw [← ht]; show volume s1.book + q < _; omega)
        (fun h => by rw [← ht] at h ⊢; exact hok.trail h) hnone)
  have hpos : 0 < t.leaves := by rw [← ht]; exact hq0
  obtain ⟨s2, t2, e1, e2, e3, e4⟩ := matchIf_ok hi h2 hpos (fun _ => stopLike_of_type (.inr hty))
  rw [e1, Except.bind_ok]
  simp only
  by_cases hl : t2.leaves > 0
  · simp only [hl, if_true]
    have hty2 : t2.type = .limit := by obtain ⟨_, _, rfl⟩ := e3; exact hty
    have htf2 : t2.tif = o.tif := by rw [← htf]; obtain ⟨_, _, rfl⟩ := e3; rfl
    exact insertNew_ok hi e2 ⟨t, rfl, by obtain ⟨_, _, rfl⟩ := e3; rfl⟩
      (fun h => e4.none _ (by obtain ⟨_, _, rfl⟩ := e3; exact hnone h)) hl (by rw [hty2]; simp) (fun _ => by rw [htf2]; exact hok.tif hlim)
  · simp only [hl, if_false]
    obtain ⟨s', f1, f2⟩ := drop_ok hi e2
    exact ⟨s', .ok, f1, f2⟩

end CppTrader
