import Verif.Proof.Calls
import Verif.Trades
/-
Last and matching prices of a book.
-/

namespace CppTrader
open Core

theorem lastPx_append (sd d xs ys) : lastPx sd d (xs ++ ys) = lastPx sd (lastPx sd d xs) ys := by
  unfold lastPx; rw [List.foldl_append]

/-- How the executions `xs` change the price memory of a book. -/
structure Px (xs : List (Order × Nat × Nat)) (b b' : Book) : Prop where
  lastBid : b'.lastBid = lastPx .buy b.lastBid xs
  lastAsk : b'.lastAsk = lastPx .sell b.lastAsk xs
  matchBid : b'.matchBid = b.matchBid ∨ b'.matchBid = 0 ∨ ∃ x ∈ xs, x.1.side = .buy ∧ b'.matchBid = x.2.1
  matchAsk : b'.matchAsk = b.matchAsk ∨ b'.matchAsk = MAX64 ∨ ∃ x ∈ xs, x.1.side = .sell ∧ b'.matchAsk = x.2.1

theorem Px.trans {xs ys b b1 b2} (h : Px xs b b1) (h' : Px ys b1 b2) : Px (xs ++ ys) b b2 := by
  refine ⟨by rw [h'.lastBid, h.lastBid, lastPx_append], by rw [h'.lastAsk, h.lastAsk, lastPx_append], ?_, ?_⟩
  · rcases h'.matchBid with e | e | ⟨x, hx, e⟩
    · rcases h.matchBid with f | f | ⟨x, hx, f⟩
      · exact .inl (e.trans f)
      · exact .inr (.inl (e.trans f))
      · exact .inr (.inr ⟨x, by simp [hx], f.1, e.trans f.2⟩)
    · exact .inr (.inl e)
    · exact .inr (.inr ⟨x, by simp [hx], e⟩)
  · rcases h'.matchAsk with e | e | ⟨x, hx, e⟩
    · rcases h.matchAsk with f | f | ⟨x, hx, f⟩
      · exact .inl (e.trans f)
      · exact .inr (.inl (e.trans f))
      · exact .inr (.inr ⟨x, by simp [hx], f.1, e.trans f.2⟩)
    · exact .inr (.inl e)
    · exact .inr (.inr ⟨x, by simp [hx], e⟩)

theorem Px.refl (b : Book) : Px [] b b := ⟨rfl, rfl, .inl rfl, .inl rfl⟩

theorem Book.SameBut.px {k b b'} (h : Book.SameBut k b b') : Px [] b b' :=
  ⟨h.lastBid, h.lastAsk, .inl h.matchBid, .inl h.matchAsk⟩

theorem Px.update (b : Book) (o : Order) (p q : Nat) : Px [(o, p, q)] b (b.updatePrices o.side p) := by
  cases hs : o.side <;> unfold Book.updatePrices <;> constructor <;> simp [lastPx, hs]

theorem Px.reset (b : Book) : Px [] b b.resetMatching := ⟨rfl, rfl, .inr (.inl rfl), .inr (.inl rfl)⟩

theorem Px.right {xs b b1 b2} (h : Px xs b b1) (h' : Px [] b1 b2) : Px xs b b2 := by
  have := h.trans h'; rwa [List.append_nil] at this

theorem Fill.px {s o p q s'} (f : Fill s o p q s') (hi : Inv s) : Px [(o, p, q)] s.book s'.book := by
  have hid := (hi.orders _ _ f.pre.mem).2.idPos
  obtain ⟨s1, a0, h1, a1, a2, a3⟩ := hi.execResting (price := p) (q := q) f.pre.mem
  have ho1 : s1.orders o.id = some (o.withExec (add64 o.executed q)) := by rw [a1]; simp
  have hs1 : (o.withExec (add64 o.executed q)).symbolId = s1.book.symbol.id := by
    rw [a2, updatePrices_symbol]; exact f.pre.sym
  have hp : Px [(o, p, q)] s.book s1.book := by rw [a2]; exact Px.update ..
  cases f with
  | red pre run =>
    have hq := pre.pos
    unfold Core.execRed at run
    rw [a0, Except.bind_ok] at run
    unfold Core.reduceRec at run
    rw [if_neg (by omega)] at run
    simp only [ho1] at run
    rw [if_neg (by simp [hs1])] at run
    cases hr : s1.reduceBody (o.withExec (add64 o.executed q)) q with
    | error e => rw [hr] at run; cases run
    | ok s2 =>
      rw [hr] at run; cases run
      obtain ⟨k, _, _, _, e, _⟩ := h1.reduce (o := o.withExec (add64 o.executed q)) ho1 hs1 hr
      exact (hp.right e.px).right (Px.reset _)
  | del pre all run =>
    unfold Core.execDel at run
    rw [a0, Except.bind_ok] at run
    unfold Core.deleteRec at run
    rw [if_neg (by omega)] at run
    simp only [ho1] at run
    rw [if_neg (by simp [hs1])] at run
    unfold Core.deleteBody at run
    cases hr : s1.unlink (o.withExec (add64 o.executed q)) with
    | error e => rw [hr] at run; cases run
    | ok s2 =>
      rw [hr] at run; cases run
      obtain ⟨k, _, _, _, e, _⟩ := h1.take (o := o.withExec (add64 o.executed q)) ho1 hs1 hr
      exact (hp.right e.px).right (Px.reset _)

theorem Fills.px {p s xs s'} (f : Fills p s xs s') (hi : Inv s) : Px (xs.map (fun x => (x.1, p, x.2))) s.book s'.book := by
  induction f with
  | nil => exact Px.refl _
  | cons f _ ih => exact (f.px hi).trans (ih (f.eff hi).inv)

theorem execTaker_px (s : Core) (t : Order) (p q : Nat) : Px [(t, p, q)] s.book (s.execTaker t p q).1.book := Px.update ..

theorem Step.px {l s t s' t'} (st : Step l s t s' t') (hc : CInv s t) : Px l.execs s.book s'.book := by
  obtain ⟨hi, hf⟩ := hc
  cases st with
  | trade fill head side reach qty nf na => exact (fill.px hi).trans (execTaker_px ..)
  | sweep fills sum pos sides tif => exact (fills.px hi).trans (execTaker_px ..)
  | pair fe fr side ne nae nar crossed => exact (fe.px hi).trans (fr.px (fe.eff hi).inv)
  | cross f1 f2 ne aon side => exact (f1.px hi).trans (f2.px (f1.inv hi).1)
  | take mem sym run => obtain ⟨k, a1, a2, a3, a4, _⟩ := hi.take mem sym run; exact a4.px
  | put fresh pos nm tif run => obtain ⟨k, a1, a2, a3, a4, _⟩ := hi.put (hf _ rfl) fresh pos nm tif run; exact a4.px
  | cancel => exact Px.refl _
  | activate ty trig => exact Px.refl _
  | bound ty lim => exact Px.refl _
  | retrail ty ne => exact Px.refl _
  | mark => exact ⟨rfl, rfl, .inl rfl, .inl rfl⟩
  | reset => exact Px.reset _
  | arrive rep idp sym vol tr => exact Px.refl _
  | reduce mem sym pos run => obtain ⟨k, a1, a2, a3, a4, _⟩ := hi.reduce mem sym run; exact a4.px
  | execute mem sym pos le run =>
    rename_i o p q s1
    obtain ⟨k, s2, a1, a2, a3, a4, a5, _⟩ := hi.execute_ok mem sym p q le
    have run' : (s.reported o p q).shrink (o.filled q) q
        (o.hiddenQty - (o.filled q).hiddenQty) (o.visibleQty - (o.filled q).visibleQty) = .ok s1 := run
    rw [run'] at a2; cases a2
    exact (Px.update s.book o p q).right a5.px
  | modify rep pos vol => exact Px.refl _
  | vanish zero => exact Px.refl _

/-- `evs` are the events between two states. -/
theorem Steps.px {A s t s' t'} (h : Steps A s t s' t') (hc : CInv s t) {evs} (hev : s'.ev = s.ev ++ evs) :
    Px (execsOf evs) s.book s'.book := by
  induction h generalizing evs with
  | refl =>
    have : evs = [] := by simpa using hev
    subst this; exact Px.refl _
  | head a st tl ih =>
    obtain ⟨e1, h1⟩ := st.events hc
    obtain ⟨e2, _, h2⟩ := tl.stepsEv (st.inv hc)
    have e : evs = e1 ++ e2 := by
      have h3 := h2.ev.ev
      rw [h1.ev.ev, hev, List.append_assoc] at h3
      exact List.append_cancel_left h3
    subst e
    rw [execsOf_append, h1.execs]
    exact (st.px hc).trans (ih (st.inv hc) h2.ev.ev)

theorem execsOn_self {sym : Nat} {xs : List (Order × Nat × Nat)} (h : ∀ x ∈ xs, x.1.symbolId = sym) : execsOn sym xs = xs := by
  unfold execsOn; exact List.filter_eq_self.2 fun x hx => by simp [h x hx]
theorem execsOn_other {sym n : Nat} {xs : List (Order × Nat × Nat)} (h : ∀ x ∈ xs, x.1.symbolId = n) (hne : n ≠ sym) : execsOn sym xs = [] := by
  unfold execsOn; exact List.filter_eq_nil_iff.2 fun x hx => by simp [h x hx, hne]
theorem execsOn_append (sym : Nat) (xs ys) : execsOn sym (xs ++ ys) = execsOn sym xs ++ execsOn sym ys := by
  unfold execsOn; exact List.filter_append ..

/-- One operation on the book of `n`. -/
theorem put_px {g : Mgr} (hi : MInv g) {A n b s' evs} (hb : slot g.books n = some b) (hs : Steps A (g.core b) none s' none)
    (hev : s'.ev = g.ev ++ evs) {sym c} (hc : slot g.books sym = some c) :
    ∃ c', slot (g.put n s').books sym = some c' ∧ Px (execsOn sym (execsOf evs)) c c' := by
  have hc0 := CInv.none_iff.2 (hi.inv hb).1
  have hp := hs.px hc0 (evs := evs) hev
  obtain ⟨e1, _, h1⟩ := hs.stepsEv hc0
  have : e1 = evs := by
    have := h1.ev.ev
    rw [hev] at this
    exact (List.append_cancel_left this).symm
  subst this
  have hsy := execsOf_sym h1.ev.sym
  rw [show (g.core b).book.symbol.id = n from (hi.inv hb).2] at hsy
  by_cases e : sym = n
  · subst e
    rw [hb] at hc; cases hc
    exact ⟨_, put_getBook_same hb, by rw [execsOn_self hsy]; exact hp⟩
  · exact ⟨c, by rw [put_getBook_other e]; exact hc, by rw [execsOn_other hsy (Ne.symm e)]; exact Px.refl _⟩

theorem Acts.px {A g g'} (h : Acts A g g') (hi : MInv g) {evs} (hev : g'.ev = g.ev ++ evs) {sym c}
    (hc : slot g.books sym = some c) : ∃ c', slot g'.books sym = some c' ∧ Px (execsOn sym (execsOf evs)) c c' := by
  induction h generalizing evs c with
  | refl =>
    have : evs = [] := by simpa using hev
    subst this; exact ⟨c, hc, Px.refl _⟩
  | book hb hs tl ih =>
    obtain ⟨e1, _, h1⟩ := hs.stepsEv (CInv.none_iff.2 (hi.inv hb).1)
    have hi1 := hi.put hb hs
    obtain ⟨e2, _, h2⟩ := tl.events hi1
    have e : evs = e1 ++ e2 := by
      have h3 := h2.ev
      rw [hev] at h3
      have h4 := h1.ev.ev
      have h5 := h3.trans (congrArg (· ++ e2) h4)
      exact List.append_cancel_left (h5.trans (List.append_assoc ..))
    subst e
    obtain ⟨c1, k1, k2⟩ := put_px hi hb hs h1.ev.ev hc
    obtain ⟨c2, k3, k4⟩ := ih hi1 h2.ev k1
    exact ⟨c2, k3, by rw [execsOf_append, execsOn_append]; exact k2.trans k4⟩

/-! ### Uncrossed books -/

theorem Inv.best_order {s : Core} (hi : Inv s) {sd : Side} {p : Nat} (h : s.book.best (limKind sd) = some p) :
    ∃ i o, s.orders i = some o ∧ o.symbolId = s.book.symbol.id ∧ o.type = .limit ∧ o.side = sd ∧ o.price = p := by
  obtain ⟨l, ls, hl, rfl⟩ := hi.best_level h
  have hl' := (hi.book.kinds (limKind sd)).levels l (by simp [hl])
  cases hids : l.ids with
  | nil => exact absurd hids hl'.nonempty
  | cons i is =>
    obtain ⟨o, h1, h2, h3, h4⟩ := hl'.mem i (by simp [hids])
    have : o.type = .limit ∧ o.side = sd := by
      unfold Order.kind Order.isBuy at h3
      cases hs : o.side <;> cases sd <;> cases ht : o.type <;> simp [hs, ht, limKind] at h3 ⊢
    refine ⟨i, o, h1, h2, this.1, this.2, ?_⟩
    unfold Order.key at h4; rw [this.1] at h4; exact h4

theorem Inv.order_best {s : Core} (hi : Inv s) {i : Nat} {o : Order} (h1 : s.orders i = some o) (h2 : o.symbolId = s.book.symbol.id)
    {k : Kind} (hk : o.kind = some k) : ∃ p, s.book.best k = some p ∧ k.better o.key p = false := by
  obtain ⟨k', l, h3, h4, h5⟩ := hi.book.complete i o h1 h2
  rw [hk] at h3; cases h3
  have hko := hi.book.kinds k
  obtain ⟨o', g1, _, _, g4⟩ := (hko.levels l h4).mem i h5
  rw [h1] at g1; cases g1
  have hb := hko.best
  cases hlv : s.book.lv k with
  | nil => rw [hlv] at h4; cases h4
  | cons l0 ls0 =>
    rw [hlv] at hb h4
    refine ⟨l0.price, hb, ?_⟩
    rw [g4]
    have hs := hko.sorted
    rw [hlv] at hs
    rcases List.mem_cons.1 h4 with rfl | h4
    · exact better_irrefl _ _
    · exact better_asymm (List.rel_of_pairwise_cons hs h4)

/-- No stored buy limit order of the book reaches a stored sell limit order. -/
def UncrossedM (m : Nat → Option Order) (sym : Nat) : Prop :=
  ∀ i j b a, m i = some b → m j = some a → b.symbolId = sym → a.symbolId = sym → b.type = .limit → a.type = .limit →
    b.side = .buy → a.side = .sell → b.price < a.price

theorem Inv.uncrossed_iff {s : Core} (hi : Inv s) : Uncrossed s.book ↔ UncrossedM s.orders s.book.symbol.id := by
  constructor
  · intro h i j b a hb ha sb sa tb ta db da
    obtain ⟨bp, h1, h2⟩ := hi.order_best hb sb (k := .bid) (by rw [kind_limit tb, db]; rfl)
    obtain ⟨ap, h3, h4⟩ := hi.order_best ha sa (k := .ask) (by rw [kind_limit ta, da]; rfl)
    have := h bp ap h1 h3
    simp [Kind.better, Kind.isBidType, Order.key, tb, ta] at h2 h4
    omega
  · intro h bp ap hb ha
    obtain ⟨i, o, h1, h2, h3, h4, rfl⟩ := hi.best_order (sd := .buy) hb
    obtain ⟨j, a, g1, g2, g3, g4, rfl⟩ := hi.best_order (sd := .sell) ha
    exact h i j o a h1 g1 h2 g2 h3 g3 h4 g4

/-- Stored orders were stored before, with the same terms. -/
def Sub (m m' : Nat → Option Order) : Prop :=
  ∀ i o', m' i = some o' → ∃ o, m i = some o ∧ o'.symbolId = o.symbolId ∧ o'.type = o.type ∧ o'.side = o.side ∧ o'.price = o.price

theorem Sub.refl (m) : Sub m m := fun _ o h => ⟨o, h, rfl, rfl, rfl, rfl⟩
theorem Sub.trans {m m1 m2} (h : Sub m m1) (h' : Sub m1 m2) : Sub m m2 := by
  intro i o2 h2
  obtain ⟨o1, h1, a, b, c, d⟩ := h' i o2 h2
  obtain ⟨o, h0, a', b', c', d'⟩ := h i o1 h1
  exact ⟨o, h0, a.trans a', b.trans b', c.trans c', d.trans d'⟩
theorem Sub.setO {m : Nat → Option Order} {o : Order} {v : Option Order} (h : m o.id = some o)
    (hv : ∀ o', v = some o' → o'.symbolId = o.symbolId ∧ o'.type = o.type ∧ o'.side = o.side ∧ o'.price = o.price) :
    Sub m (setO m o.id v) := by
  intro i o' h'
  by_cases e : i = o.id
  · subst e; simp at h'; exact ⟨o, h, hv o' h'⟩
  · rw [setO_other _ _ e] at h'; exact ⟨o', h', rfl, rfl, rfl, rfl⟩

theorem Sub.uncrossed {m m'} (h : Sub m m') {sym} (hu : UncrossedM m sym) : UncrossedM m' sym := by
  intro i j b a hb ha sb sa tb ta db da
  obtain ⟨b0, hb0, x1, x2, x3, x4⟩ := h i b hb
  obtain ⟨a0, ha0, y1, y2, y3, y4⟩ := h j a ha
  rw [x4, y4]
  exact hu i j b0 a0 hb0 ha0 (x1.symm.trans sb) (y1.symm.trans sa) (x2.symm.trans tb) (y2.symm.trans ta) (x3.symm.trans db) (y3.symm.trans da)

theorem Fill.sub {s o p q s'} (f : Fill s o p q s') (hi : Inv s) : Sub s.orders s'.orders := by
  rw [(f.eff hi).orders]
  exact Sub.setO f.pre.mem fun o' h => by rw [afterFill_some h]; exact ⟨rfl, rfl, rfl, rfl⟩

theorem Fills.sub {p s xs s'} (f : Fills p s xs s') (hi : Inv s) : Sub s.orders s'.orders := by
  induction f with
  | nil => exact .refl _
  | cons f _ ih => exact (f.sub hi).trans (ih (f.eff hi).inv)

theorem Step.sub {l s t s' t'} (st : Step l s t s' t') (hc : CInv s t) (hn : l.noPut) : Sub s.orders s'.orders := by
  obtain ⟨hi, hf⟩ := hc
  cases st with
  | trade fill head side reach qty nf na => exact fill.sub hi
  | sweep fills sum pos sides tif => exact fills.sub hi
  | pair fe fr side ne nae nar crossed => exact (fe.sub hi).trans (fr.sub (fe.eff hi).inv)
  | cross f1 f2 ne aon side => exact (f1.sub hi).trans (f2.sub (f1.inv hi).1)
  | take mem sym run =>
    obtain ⟨k, a1, a2, a3, _⟩ := hi.take mem sym run
    rw [a3.orders]; exact Sub.setO mem (by simp)
  | put fresh pos nm tif run => cases hn
  | reduce mem sym pos run =>
    obtain ⟨k, a1, a2, a3, _⟩ := hi.reduce mem sym run
    rw [a3.orders]
    refine Sub.setO mem ?_
    intro o' h
    split at h
    · cases h
    · cases h; exact ⟨rfl, rfl, rfl, rfl⟩
  | execute mem sym pos le run =>
    rename_i o p q s1
    obtain ⟨k, s2, a1, a2, a3, a4, a5, _⟩ := hi.execute_ok mem sym p q le
    have run' : (s.reported o p q).shrink (o.filled q) q
        (o.hiddenQty - (o.filled q).hiddenQty) (o.visibleQty - (o.filled q).visibleQty) = .ok s1 := run
    rw [run'] at a2; cases a2
    show Sub s.orders s1.orders
    rw [a4.orders]
    exact Sub.setO (m := s.orders) mem fun o' h => by rw [afterFill_some h]; exact ⟨rfl, rfl, rfl, rfl⟩
  | _ => exact .refl _

theorem Steps.sub {A s t s' t'} (h : Steps A s t s' t') (hc : CInv s t) (hA : ∀ l, A l → l.noPut) : Sub s.orders s'.orders := by
  induction h with
  | refl => exact .refl _
  | head a st _ ih => exact (st.sub hc (hA _ a)).trans (ih (st.inv hc))

/-! ### After a call -/

/-- The book of `sym` after a call that ran the matching: `b` is the book before, `b1` the book when matching
ended (`b'` possibly has its matching prices reset), `xs` the executions in between. -/
inductive Final (g' : Mgr) (sym : Nat) (xs : List (Order × Nat × Nat)) (b b' : Book) : Prop
  | aon (h : HasAON (g'.core b')) : Final g' sym xs b b'
  | done (b1 : Book) (u : Uncrossed b') (s : Settled b1) (px : Px xs b b1) (h : b' = b1 ∨ b' = b1.resetMatching) : Final g' sym xs b b'

theorem BookOp.final {tag sym g g'} (h : BookOp tag sym g g' .ok) (hi : MInv g) (hm : g.matching = true) {evs}
    (hev : g'.ev = g.ev ++ evs) : ∃ b b', slot g.books sym = some b ∧ slot g'.books sym = some b' ∧
      Final g' sym (execsOn sym (execsOf evs)) b b' ∧ b'.matchBid = 0 ∧ b'.matchAsk = MAX64 := by
  obtain ⟨b, s', h1, h2, rfl⟩ := h.ex
  obtain ⟨s1, rfl, h3, h4⟩ := h2.done rfl
  obtain ⟨c', k1, k2⟩ := put_px hi h1 h3 (evs := evs) hev h1
  have hb' := put_getBook_same (c := s1.reset) h1
  refine ⟨b, s1.reset.book, h1, hb', ?_, rfl, rfl⟩
  rw [put_getBook_same (c := s1) h1] at k1
  cases k1
  rcases h4 hm with h | ⟨u, s⟩
  · exact .aon h
  · exact .done s1.book u s k2 (.inr rfl)

theorem HasAON.keep {g g' : Mgr} (hi : MInv g) {sym n b} (hb : slot g.books sym = some b) (h : HasAON (g.core b))
    (hiso : Iso n g.orders g'.orders) (hne : sym ≠ n) : HasAON (g'.core b) := by
  obtain ⟨k, o, h1, h2, h3, h4⟩ := h
  refine ⟨k, o, hiso.keep k o h1 ?_, h2, h3, h4⟩
  rw [h2, show (g.core b).book.symbol.id = sym from (hi.inv hb).2]; exact hne

theorem BookOp.iso {tag n g g' e} (h : BookOp tag n g g' e) (hi : MInv g) :
    Iso n g.orders g'.orders ∧ ∀ sym, sym ≠ n → slot g'.books sym = slot g.books sym := by
  obtain ⟨b, s', h1, h2, rfl⟩ := h.ex
  refine ⟨?_, fun sym hs => put_getBook_other hs⟩
  have := (h2.steps.iso (CInv.none_iff.2 (hi.inv h1).1)).1
  rw [show (g.core b).book.symbol.id = n from (hi.inv h1).2] at this
  exact this

theorem BookOp.events {tag sym g g' e} (h : BookOp tag sym g g' e) (hi : MInv g) : ∃ evs, g'.ev = g.ev ++ evs ∧
    ∀ x ∈ execsOf evs, x.1.symbolId = sym := by
  obtain ⟨b, s', h1, h2, rfl⟩ := h.ex
  obtain ⟨evs, ls, h3⟩ := h2.steps.stepsEv (CInv.none_iff.2 (hi.inv h1).1)
  refine ⟨evs, h3.ev.ev, ?_⟩
  have := execsOf_sym h3.ev.sym
  rw [show (g.core b).book.symbol.id = sym from (hi.inv h1).2] at this
  exact this

theorem Final.before {g' sym xs ys b0 b b'} (h : Final g' sym ys b b') (hp : Px xs b0 b) : Final g' sym (xs ++ ys) b0 b' := by
  cases h with
  | aon h => exact .aon h
  | done b1 u s px h => exact .done b1 u s (hp.trans px) h

/-- Calls that run the matching on the book of `sym`, when they succeed. -/
def Mgr.Touches (g : Mgr) (op : Op) (sym : Nat) : Prop := g.Addresses op sym ∧ ¬ op.isRegistry

theorem Op.on_addresses {g : Mgr} (hi : MInv g) {op tag n sym} (on : op.on g tag n) (h : g.Addresses op sym) : n = sym := by
  cases op <;> simp only [Op.on] at on <;> simp only [Mgr.Addresses] at h
  case addOrder => exact on.2.trans h
  case replaceOrder =>
    obtain ⟨o, _, h1, h2⟩ := on
    obtain ⟨o', h3, h4⟩ := h
    rw [hi.getOrder, h1] at h3; cases h3; exact h2.symm.trans h4
  all_goals
    obtain ⟨_, o, h1, h2⟩ := on
    obtain ⟨o', h3, h4⟩ := h
    rw [hi.getOrder, h1] at h3; cases h3; exact h2.symm.trans h4

theorem StepEff.final {g op g'} (h : StepEff g op g' .ok) (hi : MInv g) (hm : g.matching = true ∨ op = .enableMatching ∨ op = .matchAll)
    {evs} (hev : g'.ev = g.ev ++ evs) {sym b} (ht : g.Touches op sym) (hb : slot g.books sym = some b) :
    ∃ b', slot g'.books sym = some b' ∧ Final g' sym (execsOn sym (execsOf evs)) b b' := by
  cases h with
  | refused h => exact absurd rfl h.2.1
  | addSymbol hn hv => exact absurd trivial ht.2
  | deleteSymbol hn hv => exact absurd trivial ht.2
  | addBook hr hn hv => exact absurd trivial ht.2
  | deleteBook hn hv => exact absurd trivial ht.2
  | book on h =>
    have hm' : g.matching = true := by
      rcases hm with hm | rfl | rfl
      · exact hm
      · cases on
      · cases on
    have := Op.on_addresses hi on ht.1
    subst this
    obtain ⟨b0, b', h1, h2, h3, _⟩ := h.final hi hm' hev
    rw [hb] at h1; cases h1
    exact ⟨b', h2, h3⟩
  | replaceWith ho h1 h2 =>
    rename_i id o old g1
    have hm' : g.matching = true := by
      rcases hm with hm | hm | hm
      · exact hm
      · cases hm
      · cases hm
    rcases h2 with h2 | h2
    · exact absurd rfl h2.2.1
    have hi1 := h1.minv hi
    obtain ⟨e1, k1, s1⟩ := h1.events hi
    obtain ⟨e2, k2, s2⟩ := h2.events hi1
    have e : evs = e1 ++ e2 := by
      rw [k1, hev, List.append_assoc] at k2
      exact List.append_cancel_left k2
    subst e
    rw [execsOf_append, execsOn_append]
    by_cases hso : o.symbolId = sym
    · subst hso
      obtain ⟨b1, q1, q2⟩ := (show ∃ c', slot g1.books o.symbolId = some c' ∧ Px (execsOn o.symbolId (execsOf e1)) b c' by
        obtain ⟨b2, s', a1, a2, rfl⟩ := h1.ex
        exact put_px hi a1 a2.steps k1 hb)
      obtain ⟨b0, b', f1, f2, f3, _⟩ := h2.final hi1 (by rw [h1.matching]; exact hm') k2
      rw [q1] at f1; cases f1
      exact ⟨b', f2, f3.before q2⟩
    · have hold : old.symbolId = sym := by
        rcases ht.1 with h | ⟨old', h, h'⟩
        · exact absurd h hso
        · rw [hi.getOrder, ho] at h; cases h; exact h'
      subst hold
      obtain ⟨b0, b', f1, f2, f3, _⟩ := h1.final hi hm' k1
      rw [hb] at f1; cases f1
      obtain ⟨i1, i2⟩ := h2.iso hi1
      rw [execsOn_other s2 hso, List.append_nil]
      refine ⟨b', by rw [i2 _ (Ne.symm hso)]; exact f2, ?_⟩
      cases f3 with
      | aon h => exact .aon (h.keep hi1 f2 i1 (Ne.symm hso))
      | done b1 u s px h => exact .done b1 u s px h
  | enable acts all hm2 =>
    obtain ⟨b', k1, k2⟩ := acts.px (hi.congr rfl rfl rfl) hev hb
    refine ⟨b', k1, ?_⟩
    rcases all sym b' k1 with h | ⟨u, s⟩
    · exact .aon h
    · exact .done b' u s k2 (.inl rfl)
  | disable => exact absurd ht.1 (by simp [Mgr.Addresses])
  | all acts all hm2 =>
    obtain ⟨b', k1, k2⟩ := acts.px hi hev hb
    refine ⟨b', k1, ?_⟩
    rcases all sym b' k1 with h | ⟨u, s⟩
    · exact .aon h
    · exact .done b' u s k2 (.inl rfl)

/-! ### Price memory over a call -/

theorem StepEff.px {g op g' e} (h : StepEff g op g' e) (hi : MInv g) {evs} (hev : g'.ev = g.ev ++ evs) {sym b}
    (hb : slot g.books sym = some b) : (∃ b', slot g'.books sym = some b' ∧ Px (execsOn sym (execsOf evs)) b b') ∨
      op = .deleteOrderBook sym ∧ slot g'.books sym = none := by
  have reg : ∀ ev, g.ev ++ [ev] = g.ev ++ evs → execsOf [ev] = [] → execsOn sym (execsOf evs) = [] := by
    intro ev h1 h2
    rw [← List.append_cancel_left h1, h2]; rfl
  cases h with
  | refused h =>
    rw [h.1] at hev ⊢
    have : evs = [] := by simpa using hev
    subst this; exact .inl ⟨b, hb, Px.refl _⟩
  | addSymbol hn hv => exact .inl ⟨b, hb, by rw [reg _ hev rfl]; exact Px.refl _⟩
  | deleteSymbol hn hv => exact .inl ⟨b, hb, by rw [reg _ hev rfl]; exact Px.refl _⟩
  | addBook hr hn hv =>
    refine .inl ⟨b, ?_, by rw [reg _ hev rfl]; exact Px.refl _⟩
    rw [hv sym]
    split
    · rename_i e; rw [e, hn] at hb; cases hb
    · exact hb
  | deleteBook hn hv =>
    rename_i id b0 v
    by_cases e : sym = id
    · subst e; right; exact ⟨rfl, by rw [hv sym]; simp⟩
    · left; refine ⟨b, by rw [hv sym, if_neg e]; exact hb, by rw [reg _ hev rfl]; exact Px.refl _⟩
  | book on h =>
    obtain ⟨b2, s', a1, a2, rfl⟩ := h.ex
    exact .inl (put_px hi a1 a2.steps hev hb)
  | replaceWith ho h1 h2 =>
    left
    rename_i id o old g1
    obtain ⟨e1, k1, s1⟩ := h1.events hi
    have p1 : ∃ c', slot g1.books sym = some c' ∧ Px (execsOn sym (execsOf e1)) b c' := by
      obtain ⟨b2, s', a1, a2, rfl⟩ := h1.ex
      exact put_px hi a1 a2.steps k1 hb
    rcases h2 with h2 | h2
    · rw [h2.1] at hev ⊢
      rw [k1] at hev
      rw [← List.append_cancel_left hev]; exact p1
    · obtain ⟨c1, p1, p2⟩ := p1
      have hi1 := h1.minv hi
      obtain ⟨e2, k2, s2⟩ := h2.events hi1
      have e : evs = e1 ++ e2 := by
        rw [k1, hev, List.append_assoc] at k2
        exact List.append_cancel_left k2
      subst e
      rw [execsOf_append, execsOn_append]
      obtain ⟨b2, s', a1, a2, rfl⟩ := h2.ex
      obtain ⟨c2, q1, q2⟩ := put_px hi1 a1 a2.steps k2 p1
      exact ⟨c2, q1, p2.trans q2⟩
  | enable acts all hm2 => exact .inl (acts.px (hi.congr rfl rfl rfl) hev hb)
  | disable =>
    have : evs = [] := by simpa using hev
    subst this; exact .inl ⟨b, hb, Px.refl _⟩
  | all acts all hm2 => exact .inl (acts.px hi hev hb)

/-! ### Uncrossed books over a history -/

/-- The book of `sym`, if any, is not crossed. -/
def UncrossedAt (g : Mgr) (sym : Nat) : Prop := ∀ b, slot g.books sym = some b → Uncrossed b

theorem noAON_core {g : Mgr} (hi : MInv g) {sym b} (hb : slot g.books sym = some b) (hn : g.NoAON sym) : ¬ HasAON (g.core b) := by
  rintro ⟨i, o, h1, h2, h3, h4⟩
  refine hn i o (by rw [hi.getOrder]; exact h1) ?_ (by simpa [Order.isAON] using h4)
  rw [h2]; exact (hi.inv hb).2

theorem BookOp.uncrossed {tag n g g' e} (h : BookOp tag n g g' e) (hi : MInv g) (hm : g.matching = true) {sym} (hu : UncrossedAt g sym)
    (hn : g'.NoAON sym) : UncrossedAt g' sym := by
  intro b' hb'
  have hi' := h.minv hi
  obtain ⟨i1, i2⟩ := h.iso hi
  by_cases hs : sym = n
  · subst hs
    obtain ⟨evs, k1, _⟩ := h.events hi
    obtain ⟨b, s', h1, h2, rfl⟩ := h.ex
    rcases h2.code with rfl | rfl
    · obtain ⟨b0, b1, f1, f2, f3, _⟩ := h.final hi hm k1
      rw [hb'] at f2; cases f2
      cases f3 with
      | aon h => exact absurd h (noAON_core hi' hb' hn)
      | done b2 u s px h => exact u
    · obtain ⟨d1, _⟩ := h2.dup rfl
      have hc := CInv.none_iff.2 (hi.inv h1).1
      have := d1.sub hc fun _ h => h.2
      rw [put_getBook_same h1] at hb'; cases hb'
      have hsym := (d1.iso hc).2
      refine (h2.inv.uncrossed_iff).2 ?_
      rw [hsym]
      exact this.uncrossed ((hi.inv h1).1.uncrossed_iff.1 (hu b h1))
  · rw [i2 sym hs] at hb'; exact hu b' hb'

theorem StepEff.uncrossed {g op g' e} (h : StepEff g op g' e) (hi : MInv g) (ha : g.Admissible op) {sym} (hn : g.NoAON sym) (ho : op.noAON sym)
    (hu : g.matching = true → UncrossedAt g sym) (hm : g'.matching = true) : UncrossedAt g' sym := by
  have hi' := h.minv hi ha
  have hn' := (h.callEv_noAON hi ha hn ho).1
  cases h with
  | refused h => rw [h.1] at hm ⊢; exact hu hm
  | addSymbol hn hv => exact hu hm
  | deleteSymbol hn hv => exact hu hm
  | addBook hr hn hv =>
    intro b hb
    rw [hv sym] at hb
    split at hb
    · cases hb; intro bp ap h; simp [Book.new] at h
    · exact hu hm b hb
  | deleteBook hn hv =>
    intro b hb
    rw [hv sym] at hb
    split at hb
    · cases hb
    · exact hu hm b hb
  | book on h =>
    rw [h.matching] at hm
    exact h.uncrossed hi hm (hu hm) hn'
  | replaceWith ho' h1 h2 =>
    rename_i id o old g1
    have hi1 := h1.minv hi
    have hn1 : g1.NoAON sym := by
      obtain ⟨b, s', k1, k2, rfl⟩ := h1.steps_delete
      exact ((Acts.book (A := fun _ l => OpL g.matching .delete l ∧ l.noArrive) k1 k2 (.refl _)).noA hi hn (fun o h => by cases h.2)).2
    have hm1 : g1.matching = true := by
      rcases h2 with h2 | h2
      · rw [← h2.1]; exact hm
      · rw [← h2.matching]; exact hm
    have hm0 : g.matching = true := by rw [← h1.matching]; exact hm1
    have hu1 := h1.uncrossed hi hm0 (hu hm0) hn1
    rcases h2 with h2 | h2
    · rw [h2.1]; exact hu1
    · exact h2.uncrossed hi1 hm1 hu1 hn'
  | enable acts all hm2 =>
    intro b hb
    rcases all sym b hb with h | h
    · exact absurd h (noAON_core hi' hb hn')
    · exact h.1
  | disable => cases hm
  | all acts all hm2 =>
    intro b hb
    rcases all sym b hb with h | h
    · exact absurd h (noAON_core hi' hb hn')
    · exact h.1

end CppTrader
