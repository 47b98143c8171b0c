import Verif.Proof.Core
/-
Specifications of the execution of a resting order.
-/

namespace CppTrader

theorem sumOver_congr' {m m' : Nat → Option Order} {f ids} (h : ∀ i ∈ ids, qtyAt m f i = qtyAt m' f i) :
    sumOver m f ids = sumOver m' f ids := by
  unfold sumOver; congr 1; exact List.map_congr_left h

/-- The order with a new executed quantity. -/
def Order.withExec (o : Order) (e : Nat) : Order := { o with executed := e }

theorem BookOK.withExec {m b id o e} (h : BookOK m b) (ho : m id = some o) :
    BookOK (setO m id (some (o.withExec e))) b := by
  have hq : ∀ f : Order → Nat, f (o.withExec e) = f o → ∀ i, qtyAt m f i = qtyAt (setO m id (some (o.withExec e))) f i := by
    intro f hf i
    by_cases hi : i = id
    · subst hi; simp [qtyAt, ho, hf]
    · simp [qtyAt, setO_other m (some (o.withExec e)) hi]
  constructor
  · intro k
    refine ⟨(h.kinds k).sorted, ?_, (h.kinds k).best⟩
    intro l hl
    obtain ⟨h1, h2, h3, h4, h5, h6, h7⟩ := (h.kinds k).levels l hl
    refine ⟨h1, h2, ?_, ?_, ?_, ?_, h7⟩
    · intro i hi
      obtain ⟨o', g1, g2, g3, g4⟩ := h3 i hi
      by_cases e' : i = id
      · subst e'; rw [ho] at g1; cases g1
        exact ⟨o.withExec e, by simp, g2, g3, g4⟩
      · exact ⟨o', by rw [setO_other _ _ e']; exact g1, g2, g3, g4⟩
    · rw [h4]; exact sumOver_congr' fun i _ => hq _ rfl i
    · rw [h5]; exact sumOver_congr' fun i _ => hq _ rfl i
    · rw [h6]; exact sumOver_congr' fun i _ => hq _ rfl i
  · intro i o' ho' hs
    by_cases e' : i = id
    · subst e'; simp at ho'; subst ho'
      obtain ⟨k, l, g1, g2, g3⟩ := h.complete i o ho hs
      exact ⟨k, l, g1, g2, g3⟩
    · rw [setO_other _ _ e'] at ho'; exact h.complete i o' ho' hs

theorem BookOK.book_congr {m b b'} (h : BookOK m b) (h1 : b'.symbol = b.symbol) (h2 : b'.lv = b.lv)
    (h3 : b'.best = b.best) : BookOK m b' := by
  constructor
  · intro k; rw [h1, h2, h3]; exact h.kinds k
  · intro i o ho hs; rw [h2]; exact h.complete i o ho (h1 ▸ hs)

theorem volume_congr {b b' : Book} (h : b'.lv = b.lv) : Core.volume b' = Core.volume b := by
  unfold Core.volume; simp [kindVolume_eq, h]

theorem updatePrices_lv (b : Book) (sd p) : (b.updatePrices sd p).lv = b.lv := by cases sd <;> rfl
theorem updatePrices_best (b : Book) (sd p) : (b.updatePrices sd p).best = b.best := by cases sd <;> rfl
theorem updatePrices_symbol (b : Book) (sd p) : (b.updatePrices sd p).symbol = b.symbol := by cases sd <;> rfl
theorem updatePrices_trailBid (b : Book) (sd p) : (b.updatePrices sd p).trailBid = b.trailBid := by cases sd <;> rfl
theorem updatePrices_trailAsk (b : Book) (sd p) : (b.updatePrices sd p).trailAsk = b.trailAsk := by cases sd <;> rfl

theorem Inv.setPrices {s : Core} (h : Inv s) (sd p) : Inv (s.setPrices sd p) :=
  ⟨h.book.book_congr (updatePrices_symbol ..) (updatePrices_lv ..) (updatePrices_best ..), h.orders, by
    show Core.volume (s.book.updatePrices sd p) < _
    rw [volume_congr (updatePrices_lv ..)]; exact h.vol⟩

theorem Inv.reset {s : Core} (h : Inv s) : Inv s.reset :=
  ⟨h.book.book_congr rfl rfl rfl, h.orders, h.vol⟩

theorem OrderOK.withExec {o : Order} (h : OrderOK o) {e : Nat} (he : e < W64) : OrderOK (o.withExec e) := by
  obtain ⟨h1, h2, h3, h4, h5, h6⟩ := h
  refine ⟨?_, h2, h3, h4, h5, h6⟩
  unfold Order.Repr64 at *
  simp only [Order.withExec]; omega

theorem Inv.execResting {s : Core} {id price q : Nat} {o : Order} (h : Inv s) (ho : s.orders id = some o) :
    ∃ s', s.execResting id price q = .ok s' ∧ Inv s' ∧
      s'.orders = setO s.orders id (some (o.withExec (add64 o.executed q))) ∧
      s'.book = s.book.updatePrices o.side price ∧ s'.ev = s.ev ++ [.exec o price q] := by
  refine ⟨_, by unfold Core.execResting; rw [ho], ?_, rfl, rfl, rfl⟩
  have h1 := h.setPrices o.side price
  refine ⟨h1.book.withExec ho, ?_, h1.vol⟩
  intro i o' ho'
  by_cases e : i = id
  · subst e
    have : o' = o.withExec (add64 o.executed q) := by simpa [setO, Order.withExec] using ho'.symm
    subst this
    obtain ⟨g1, g2⟩ := h.orders i o ho
    exact ⟨g1, g2.withExec (add64_lt _ _)⟩
  · simp only [setO, e, if_false] at ho'
    exact h.orders i o' ho'

namespace Core
/-- Proof-side name for "execute a resting order and reduce it". -/
def execRed (s : Core) (id price q : Nat) : Except Err Core := do
  let s ← s.execResting id price q
  s.reduceRec id q
/-- Proof-side name for "execute a resting order and delete it". -/
def execDel (s : Core) (id price q : Nat) : Except Err Core := do
  let s ← s.execResting id price q
  s.deleteRec id
end Core

/-- A resting order after an execution. -/
def Order.filled (o : Order) (q : Nat) : Order := { o with executed := add64 o.executed q, leaves := o.leaves - q }

/-- What is left in the map of a resting order after an execution. -/
def afterFill (o : Order) (q : Nat) : Option Order := if o.leaves = q then none else some (o.filled q)

theorem Eff.trans_exec {k id v w s s1 s2} (h0 : s1.orders = setO s.orders id w)
    (hl : s1.book.symbol = s.book.symbol ∧ s1.book.lv = s.book.lv ∧ s1.book.best = s.book.best ∧
      s1.book.trailBid = s.book.trailBid ∧ s1.book.trailAsk = s.book.trailAsk)
    (h : Eff k id v s1 s2) : Eff k id v s s2 := by
  obtain ⟨h1, h2, h3, h4, h5⟩ := hl
  refine ⟨?_, ?_, ?_, ?_, ?_, ?_⟩
  · rw [h.orders, h0]; funext i; unfold setO; split <;> rfl
  · rw [h.same.symbol, h1]
  · intro k' hk'; rw [h.same.lv k' hk', h2]
  · intro k' hk'; rw [h.same.best k' hk', h3]
  · rw [h.same.trailBid, h4]
  · rw [h.same.trailAsk, h5]

theorem Inv.execRed {s : Core} {id price q : Nat} {o : Order} (h : Inv s) (ho : s.orders id = some o)
    (hs : o.symbolId = s.book.symbol.id) (hq0 : 0 < q) (hq : q ≤ o.leaves) :
    ∃ k s', o.kind = some k ∧ s.execRed id price q = .ok s' ∧ Inv s' ∧
      Eff k id (afterFill o q) s s' ∧ Core.volume s'.book + q = Core.volume s.book ∧
      queue s'.book k = (if o.leaves = q then (queue s.book k).erase id else queue s.book k) := by
  obtain ⟨hid, hok⟩ := h.orders id o ho
  obtain ⟨s1, a0, h1, a1, a2, a3⟩ := h.execResting (price := price) (q := q) ho
  have ho1 : s1.orders id = some (o.withExec (add64 o.executed q)) := by rw [a1]; simp
  have hs1 : (o.withExec (add64 o.executed q)).symbolId = s1.book.symbol.id := by
    rw [a2, updatePrices_symbol]; exact hs
  generalize ho1' : o.withExec (add64 o.executed q) = o1 at ho1 hs1 a1
  have f1 : o1.id = id := by rw [← ho1']; exact hid
  have f2 : o1.leaves = o.leaves := by rw [← ho1']; rfl
  have f3 : o1.kind = o.kind := by rw [← ho1']; rfl
  let e : Event := if o1.leaves - min q o1.leaves > 0 then .updateOrder { o1 with leaves := o1.leaves - min q o1.leaves }
    else .deleteOrder { o1 with leaves := o1.leaves - min q o1.leaves }
  have hmin : min q o1.leaves = q := by omega
  obtain ⟨k, s2, b1, b2, b3, b4, b5, b6, b7⟩ := (h1.emit e).shrink (o := o1) (o' := { o1 with leaves := o1.leaves - q })
    (q := q) (by rw [f1]; exact ho1) hs1 rfl rfl rfl rfl (by omega) rfl rfl (by
      intro hl
      obtain ⟨g1, g2, g3, g4, g5, g6⟩ := (h1.orders id o1 ho1).2
      refine ⟨?_, g2, hl, g4, g5, g6⟩
      unfold Order.Repr64 at *; simp only; omega)
  have hl0 : (o1.leaves - q = 0) ↔ o.leaves = q := by omega
  refine ⟨k, s2.reset, f3 ▸ b1, ?_, b3.reset, ?_, ?_, ?_⟩
  · unfold Core.execRed
    rw [a0]
    show s1.reduceRec id q = _
    unfold Core.reduceRec
    have : ¬ (id = 0 ∨ q = 0) := by have := hok.idPos; omega
    simp only [this, if_false, ho1]
    have : ¬ (o1.symbolId ≠ s1.book.symbol.id) := by simp [hs1]
    simp only [this, if_false, Core.reduceBody]
    rw [hmin]
    simp only [e, hmin] at b2
    rw [b2]; rfl
  · have hl : s1.book.symbol = s.book.symbol ∧ s1.book.lv = s.book.lv ∧ s1.book.best = s.book.best ∧
      s1.book.trailBid = s.book.trailBid ∧ s1.book.trailAsk = s.book.trailAsk := by
      rw [a2]; exact ⟨updatePrices_symbol .., updatePrices_lv .., updatePrices_best .., updatePrices_trailBid ..,
        updatePrices_trailAsk ..⟩
    have b4' : Eff k id (afterFill o q) s1 s2 := by
      refine ⟨?_, b4.same⟩
      rw [b4.orders, f1]
      show setO s1.orders id _ = _
      congr 1
      unfold afterFill Order.filled
      simp only [hl0]
      split
      · rfl
      · simp [← ho1', Order.withExec, hid]
    have := Eff.trans_exec a1 hl b4'
    exact ⟨this.orders, this.same.symbol, this.same.lv, this.same.best, this.same.trailBid, this.same.trailAsk⟩
  · have : Core.volume s2.book + q = Core.volume s1.book := b6
    rw [a2, volume_congr (updatePrices_lv ..)] at this
    exact this
  · have : queue s2.book k = if o1.leaves - q = 0 then (queue s1.book k).erase o1.id else queue s1.book k := b7
    simp only [hl0, f1] at this
    have e2 : queue s1.book k = queue s.book k := by unfold queue; rw [a2, updatePrices_lv]
    rw [e2] at this
    exact this

theorem Inv.execDel {s : Core} {id price : Nat} {o : Order} (h : Inv s) (ho : s.orders id = some o)
    (hs : o.symbolId = s.book.symbol.id) :
    ∃ k s', o.kind = some k ∧ s.execDel id price o.leaves = .ok s' ∧ Inv s' ∧
      Eff k id none s s' ∧ Core.volume s'.book + o.leaves = Core.volume s.book ∧
      queue s'.book k = (queue s.book k).erase id := by
  obtain ⟨hid, hok⟩ := h.orders id o ho
  obtain ⟨s1, a0, h1, a1, a2, a3⟩ := h.execResting (price := price) (q := o.leaves) ho
  have ho1 : s1.orders id = some (o.withExec (add64 o.executed o.leaves)) := by rw [a1]; simp
  have hs1 : (o.withExec (add64 o.executed o.leaves)).symbolId = s1.book.symbol.id := by
    rw [a2, updatePrices_symbol]; exact hs
  obtain ⟨k, s2, b1, b2, b3, b4, b5, b6, b7⟩ := h1.unlink ho1 hs1
  refine ⟨k, (s2.emit (.deleteOrder (o.withExec (add64 o.executed o.leaves)))).reset, b1, ?_, (b3.emit _).reset, ?_, ?_, ?_⟩
  · unfold Core.execDel
    rw [a0]
    show s1.deleteRec id = _
    unfold Core.deleteRec
    have : ¬ (id = 0) := by have := hok.idPos; omega
    simp only [this, if_false, ho1]
    have : ¬ ((o.withExec (add64 o.executed o.leaves)).symbolId ≠ s1.book.symbol.id) := by simp [hs1]
    simp only [this, if_false, Core.deleteBody]
    rw [b2]; rfl
  · have hl : s1.book.symbol = s.book.symbol ∧ s1.book.lv = s.book.lv ∧ s1.book.best = s.book.best ∧
      s1.book.trailBid = s.book.trailBid ∧ s1.book.trailAsk = s.book.trailAsk := by
      rw [a2]; exact ⟨updatePrices_symbol .., updatePrices_lv .., updatePrices_best .., updatePrices_trailBid ..,
        updatePrices_trailAsk ..⟩
    have := Eff.trans_exec a1 hl b4
    exact ⟨this.orders, this.same.symbol, this.same.lv, this.same.best, this.same.trailBid, this.same.trailAsk⟩
  · have : Core.volume s2.book + o.leaves = Core.volume s1.book := b6
    rw [a2, volume_congr (updatePrices_lv ..)] at this
    exact this
  · have : queue s2.book k = (queue s1.book k).erase id := b7
    have e2 : queue s1.book k = queue s.book k := by unfold queue; rw [a2, updatePrices_lv]
    rw [e2] at this
    exact this

end CppTrader
