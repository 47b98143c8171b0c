import Verif.Proof.WatchEngine
/-
The watched operations on one book against the operations.
-/

namespace CppTrader
namespace Watch

variable {K : Base}

theorem finish_run {c c' : Core} {w : Watch} {e : ErrorCode} (m : Bool) (r : Rel K none c w) (run : c.finish m = .ok (c', e)) :
    ∃ w', w.finish m = .ok (w', e) ∧ Rel K none c' w' := by
  unfold Core.finish at run
  unfold Watch.finish
  cases m with
  | false =>
    cases run
    exact ⟨_, rfl, r.reset⟩
  | true =>
    simp only [if_true] at run ⊢
    obtain ⟨c1, hc1, run⟩ := bind_inv run
    obtain ⟨w1, hw1, r1⟩ := matchBook_run r hc1
    rw [hw1, Except.bind_ok]
    cases run
    exact ⟨_, rfl, r1.reset⟩

/-- A new order is announced. -/
theorem enter {c : Core} {w : Watch} (r : Rel K none c w) {o : Order} (hl : K.Loose c.orders o) :
    Rel K (some (false, o)) (c.emit (.addOrder o)) (w.emit (.addOrder o)) := by
  have hm : w.now.orders = c.orders := r.orders
  refine ⟨r.good.emit _ trivial (fun x hx => by cases hx; exact .inr (by rw [hm]; exact hl)), r.book, ?_, ⟨hm, hl⟩, r.keyed, r.lined⟩
  show w.now.ev ++ _ = c.ev ++ _
  rw [r.ev]

/-- A new order is changed and reported. -/
theorem turn {c : Core} {w : Watch} {o : Order} (r : Rel K (some (false, o)) c w) {t : Order} (hid : t.id = o.id) :
    Rel K (some (false, t)) (c.emit (.updateOrder t)) (w.emit (.updateOrder t)) := by
  obtain ⟨hm, hl⟩ := r.orders
  have hl' : K.Loose c.orders t := by unfold Base.Loose; rw [hid]; exact hl
  refine ⟨r.good.emit _ trivial (fun x hx => by cases hx; exact .inr (by rw [hm]; exact hl')), r.book, ?_, ⟨hm, hl'⟩, r.keyed, r.lined⟩
  show w.now.ev ++ _ = c.ev ++ _
  rw [r.ev]

/-- A new order is refused or used up. -/
theorem leave {c : Core} {w : Watch} {o : Order} (r : Rel K (some (false, o)) c w) :
    Rel K none (c.emit (.deleteOrder o)) (w.emit (.deleteOrder o)) := by
  obtain ⟨hm, hl⟩ := r.orders
  refine ⟨r.good.emit _ trivial (fun x hx => by cases hx; exact .inr (by rw [hm]; exact hl)), r.book, ?_, hm, r.keyed, r.lined⟩
  show w.now.ev ++ _ = c.ev ++ _
  rw [r.ev]

theorem insertNew_run {c c' : Core} {w : Watch} {t : Order} {e : ErrorCode} (m : Bool) (r : Rel K (some (false, t)) c w)
    (run : c.insertNew m t = .ok (c', e)) : ∃ w', w.insertNew m t = .ok (w', e) ∧ Rel K none c' w' := by
  obtain ⟨hm, hl⟩ := r.orders
  unfold Core.insertNew at run
  unfold Watch.insertNew
  rw [hm]
  cases ho : c.orders t.id with
  | some x =>
    rw [ho] at run
    cases run
    exact ⟨_, rfl, leave r⟩
  | none =>
    rw [ho] at run
    dsimp only at run ⊢
    obtain ⟨c1, hc1, run⟩ := bind_inv run
    have g1 : K.Good (w.store t) := r.good.put t.id (some t) (.inr hl.1) (.inr (.inr hl.1))
    obtain ⟨w1, hw1, f⟩ := link_run g1 r.book r.ev r.lined ho (by show setO w.now.orders t.id _ = _; rw [hm]) hc1
    rw [hw1, Except.bind_ok]
    refine finish_run m ⟨f.good, f.book, f.ev, ?_, ?_, f.lined⟩ run
    · show w1.now.orders = c1.orders
      rw [f.same, f.orders]
      show setO w.now.orders t.id _ = _
      rw [hm]
    · rw [f.orders]
      exact keyed_set r.keyed (fun x hx => by rw [← Option.some.inj hx])

theorem matchIf_run (own m : Bool) {c c' : Core} {w : Watch} {t t' : Order} (r : Rel K (some (own, t)) c w)
    (run : c.matchIf m t = .ok (c', t')) : ∃ w', Watch.matchIf own m w t = .ok (w', t') ∧ Rel K (some (own, t')) c' w' := by
  unfold Core.matchIf at run
  unfold Watch.matchIf
  cases m with
  | false => cases run; exact ⟨_, rfl, r⟩
  | true => exact matchOrder_run own r run

theorem addMarket_run {c c' : Core} {w : Watch} {o : Order} {e : ErrorCode} (m : Bool) (r : Rel K none c w) (hl : K.Loose c.orders o)
    (run : c.addMarket m o = .ok (c', e)) : ∃ w', w.addMarket m o = .ok (w', e) ∧ Rel K none c' w' := by
  unfold Core.addMarket at run
  unfold Watch.addMarket
  have r1 := enter r hl
  have hm := men_emit r.good (e := .addOrder o) (o := o) rfl
  cases m with
  | false => exact finish_run false (leave r1) run
  | true =>
    simp only [if_true] at run ⊢
    obtain ⟨⟨c1, t1⟩, hc1, run⟩ := bind_inv run
    obtain ⟨w1, hw1, r2⟩ := matchMarket_run false r1 hm hc1
    rw [hw1, Except.bind_ok]
    exact finish_run true (leave r2) run

theorem restOrCancel_run {c c' : Core} {w : Watch} {t : Order} {e : ErrorCode} (m : Bool) (r : Rel K (some (false, t)) c w)
    (run : c.restOrCancel m t = .ok (c', e)) : ∃ w', w.restOrCancel m t = .ok (w', e) ∧ Rel K none c' w' := by
  unfold Core.restOrCancel at run
  unfold Watch.restOrCancel
  split at run
  · rename_i h1; rw [if_pos h1]; exact insertNew_run m r run
  · rename_i h1; rw [if_neg h1]; exact finish_run m (leave r) run

theorem addLimit_run {c c' : Core} {w : Watch} {o : Order} {e : ErrorCode} (m : Bool) (r : Rel K none c w) (hl : K.Loose c.orders o)
    (run : c.addLimit m o = .ok (c', e)) : ∃ w', w.addLimit m o = .ok (w', e) ∧ Rel K none c' w' := by
  unfold Core.addLimit at run
  unfold Watch.addLimit
  have r1 := enter r hl
  obtain ⟨⟨c1, t1⟩, hc1, run⟩ := bind_inv run
  obtain ⟨w1, hw1, r2⟩ := matchIf_run false m r1 hc1
  dsimp only
  rw [hw1, Except.bind_ok]
  exact restOrCancel_run m r2 run

theorem initTrailing_id (b : Book) (o : Order) : (Core.initTrailing b o).id = o.id := by
  unfold Core.initTrailing
  split
  · exact retrail_id _ _
  · rfl

theorem addStop_run {c c' : Core} {w : Watch} {o : Order} {e : ErrorCode} (m : Bool) (r : Rel K none c w) (hl : K.Loose c.orders o)
    (run : c.addStop m o = .ok (c', e)) : ∃ w', w.addStop m o = .ok (w', e) ∧ Rel K none c' w' := by
  unfold Core.addStop at run
  unfold Watch.addStop
  rw [r.book]
  dsimp only at run ⊢
  have hl' : K.Loose c.orders (Core.initTrailing c.book o) := by unfold Base.Loose; rw [initTrailing_id]; exact hl
  generalize Core.initTrailing c.book o = o' at run hl' ⊢
  have r1 := enter r hl'
  rw [show (w.emit (.addOrder o')).now.book = (c.emit (.addOrder o')).book from r.book]
  split at run
  · rename_i h1
    rw [if_pos h1]
    obtain ⟨⟨c1, t1⟩, hc1, run⟩ := bind_inv run
    have r2 := turn r1 (t := Core.toMarket o') rfl
    obtain ⟨w1, hw1, r3⟩ := matchMarket_run false r2 (men_emit r1.good rfl) hc1
    rw [hw1, Except.bind_ok]
    exact finish_run m (leave r3) run
  · rename_i h1
    rw [if_neg h1]
    split at run
    · rename_i h2; rw [if_pos h2]; exact insertNew_run m r1 run
    · rename_i h2; rw [if_neg h2]; exact finish_run m (leave r1) run

theorem addStopLimit_run {c c' : Core} {w : Watch} {o : Order} {e : ErrorCode} (m : Bool) (r : Rel K none c w) (hl : K.Loose c.orders o)
    (run : c.addStopLimit m o = .ok (c', e)) : ∃ w', w.addStopLimit m o = .ok (w', e) ∧ Rel K none c' w' := by
  unfold Core.addStopLimit at run
  unfold Watch.addStopLimit
  rw [r.book]
  dsimp only at run ⊢
  have hl' : K.Loose c.orders (Core.initTrailing c.book o) := by unfold Base.Loose; rw [initTrailing_id]; exact hl
  generalize Core.initTrailing c.book o = o' at run hl' ⊢
  have r1 := enter r hl'
  rw [show (w.emit (.addOrder o')).now.book = (c.emit (.addOrder o')).book from r.book]
  split at run
  · rename_i h1
    rw [if_pos h1]
    obtain ⟨⟨c1, t1⟩, hc1, run⟩ := bind_inv run
    have r2 := turn r1 (t := Core.toLimit o') rfl
    obtain ⟨w1, hw1, r3⟩ := matchOrder_run false r2 hc1
    rw [hw1, Except.bind_ok]
    exact restOrCancel_run m r3 run
  · rename_i h1
    rw [if_neg h1]
    split at run
    · rename_i h2; rw [if_pos h2]; exact insertNew_run m r1 run
    · rename_i h2; rw [if_neg h2]; exact finish_run m (leave r1) run

theorem addAny_run {c c' : Core} {w : Watch} {o : Order} {e : ErrorCode} (m : Bool) (r : Rel K none c w) (hl : K.Loose c.orders o)
    (run : c.addAny m o = .ok (c', e)) : ∃ w', w.addAny m o = .ok (w', e) ∧ Rel K none c' w' := by
  unfold Core.addAny at run
  unfold Watch.addAny
  cases ht : o.type <;> rw [ht] at run <;> dsimp only at run ⊢
  · exact addMarket_run m r hl run
  · exact addLimit_run m r hl run
  · exact addStop_run m r hl run
  · exact addStopLimit_run m r hl run
  · exact addStop_run m r hl run
  · exact addStopLimit_run m r hl run

theorem reduceOp_run {c c' : Core} {w : Watch} {o : Order} {q : Nat} {e : ErrorCode} (m : Bool) (r : Rel K none c w)
    (ho : c.orders o.id = some o) (run : c.reduceOp m o q = .ok (c', e)) : ∃ w', w.reduceOp m o q = .ok (w', e) ∧ Rel K none c' w' := by
  unfold Core.reduceOp at run
  unfold Watch.reduceOp
  obtain ⟨c1, hc1, run⟩ := bind_inv run
  obtain ⟨w1, hw1, r1⟩ := reduceBody_run r ho hc1
  rw [hw1, Except.bind_ok]
  exact finish_run m r1 run

theorem deleteOp_run {c c' : Core} {w : Watch} {o : Order} {e : ErrorCode} (m : Bool) (r : Rel K none c w)
    (ho : c.orders o.id = some o) (run : c.deleteOp m o = .ok (c', e)) : ∃ w', w.deleteOp m o = .ok (w', e) ∧ Rel K none c' w' := by
  unfold Core.deleteOp at run
  unfold Watch.deleteOp
  obtain ⟨c1, hc1, run⟩ := bind_inv run
  obtain ⟨w1, hw1, r1⟩ := deleteBody_run r ho hc1
  rw [hw1, Except.bind_ok]
  exact finish_run m r1 run

theorem modifyOp_run {c c' : Core} {w : Watch} {o : Order} {p q : Nat} {b : Bool} {e : ErrorCode} (m : Bool) (r : Rel K none c w)
    (ho : c.orders o.id = some o) (run : c.modifyOp m o p q b = .ok (c', e)) :
    ∃ w', w.modifyOp m o p q b = .ok (w', e) ∧ Rel K none c' w' := by
  unfold Core.modifyOp at run
  unfold Watch.modifyOp
  obtain ⟨c1, hc1, run⟩ := bind_inv run
  obtain ⟨w1, hw1, ht⟩ := take_run r ho hc1
  rw [hw1, Except.bind_ok]
  dsimp only at run ⊢
  have hid : (Core.modified o p q b).id = o.id := rfl
  generalize Core.modified o p q b = t at run hid ⊢
  split at run
  · rename_i h1
    rw [if_pos h1]
    obtain ⟨⟨c2, t2⟩, hc2, run⟩ := bind_inv run
    obtain ⟨r1, _⟩ := ht t (.updateOrder t) hid trivial rfl
    obtain ⟨w2, hw2, r2⟩ := matchIf_run true m r1 hc2
    rw [hw2, Except.bind_ok]
    dsimp only at run ⊢
    split at run
    · rename_i h2
      rw [if_pos h2]
      obtain ⟨c3, hc3, run⟩ := bind_inv run
      obtain ⟨w3, hw3, r3⟩ := back_run r2 hc3
      rw [hw3, Except.bind_ok]
      exact finish_run m r3 run
    · rename_i h2
      rw [if_neg h2]
      exact finish_run m (gone_run r2) run
  · rename_i h1
    rw [if_neg h1]
    obtain ⟨r1, hmen⟩ := ht t (.deleteOrder t) hid trivial rfl
    refine finish_run m ?_ run
    refine ⟨r1.good.put t.id none (.inl hmen) (.inl rfl), r1.book, r1.ev, ?_, r1.keyed, r1.lined⟩
    show setO ((w1.store t).emit (.deleteOrder t)).now.orders t.id none = c1.orders
    rw [r1.orders.1, setO_setO]
    exact setO_self r1.orders.2

theorem replaceOp_run {c c' : Core} {w : Watch} {o : Order} {n p q : Nat} {e : ErrorCode} (m : Bool) (r : Rel K none c w)
    (ho : c.orders o.id = some o) (hn : some n = K.new) (hh : K.held n = none → c.orders n = none)
    (run : c.replaceOp m o n p q = .ok (c', e)) :
    ∃ w', w.replaceOp m o n p q = .ok (w', e) ∧ Rel K none c' w' := by
  unfold Core.replaceOp at run
  unfold Watch.replaceOp
  obtain ⟨c1, hc1, run⟩ := bind_inv run
  have hd : c.deleteBody o = .ok (c1.emit (.deleteOrder o)) := by
    unfold Core.deleteBody
    rw [hc1]; rfl
  obtain ⟨w1, hw1, f⟩ := unlink_run r.good r.book r.ev r.lined (fun i x hx => r.orders.get hx) hc1
  obtain ⟨w2, hw2, r2⟩ := deleteBody_run r ho hd
  have e2 : w2 = (w1.emit (.deleteOrder o)).erase o.id := by
    unfold Watch.deleteBody at hw2
    rw [hw1, Except.bind_ok] at hw2
    exact (Except.ok.inj hw2).symm
  rw [hw1, Except.bind_ok]
  dsimp only at run ⊢
  rw [← e2]
  have hl : K.Loose (c1.emit (.deleteOrder o)).orders { o with id := n, price := p, quantity := q, executed := 0, leaves := q } := by
    refine ⟨hn, fun h0 => ?_⟩
    show c1.orders n = none
    rw [f.orders]
    unfold setO
    split
    · rfl
    · exact hh h0
  have r3 := enter r2 hl
  obtain ⟨⟨c3, t3⟩, hc3, run⟩ := bind_inv run
  obtain ⟨w3, hw3, r4⟩ := matchIf_run false m r3 hc3
  rw [hw3, Except.bind_ok]
  dsimp only at run ⊢
  split at run
  · rename_i h1; rw [if_pos h1]; exact insertNew_run m r4 run
  · rename_i h1; rw [if_neg h1]; exact finish_run m (leave r4) run

theorem execute_aux {c c' : Core} {w : Watch} {o o' : Order} {p q hd v : Nat} {e : ErrorCode} (m : Bool) (r : Rel K none c w)
    (hid : o'.id = o.id) (hhome : o'.home = o.home) (ho : c.orders o.id = some o)
    (run : (do
      let s ← ((c.emit (.exec o p q)).setPrices o.side p).shrink o' q hd v
      (s.emit (if o'.leaves > 0 then .updateOrder o' else .deleteOrder o')).finish m : Except Err (Core × ErrorCode)) = .ok (c', e)) :
    ∃ w', (do
      let w ← (((w.emit (.exec o p q)).setPrices o.side p).store o').shrink o' q hd v
      let w := w.emit (if o'.leaves > 0 then .updateOrder o' else .deleteOrder o')
      (if o'.leaves = 0 then w.erase o'.id else w).finish m : Except Err (Watch × ErrorCode)) = .ok (w', e) ∧ Rel K none c' w' := by
  have hwo : w.now.orders o.id = some o := r.orders.get ho
  have g0 := r.good.emit (.exec o p q) trivial (fun x hx => by cases hx; exact .inl hwo)
  have g1 := g0.prices o.side p
  have hmen0 : Men K (w.emit (.exec o p q)) o'.id := by rw [hid]; exact men_emit r.good rfl
  have g2 : K.Good (((w.emit (.exec o p q)).setPrices o.side p).store o') :=
    g1.put o'.id (some o') (.inl (hmen0.more g0 ⟨[], by simp; rfl⟩)) (.inr (.inl (by
      show w.now.orders o'.id ≠ none
      rw [hid, hwo]; simp)))
  obtain ⟨c1, hc1, run⟩ := bind_inv run
  have hlc : Lined c.orders (c.book.updatePrices o.side p) := r.lined.same (by cases o.side <;> rfl)
  obtain ⟨w1, hw1, f⟩ := shrink_run (c := (c.emit (.exec o p q)).setPrices o.side p) g2
    (by show w.now.book.updatePrices _ _ = c.book.updatePrices _ _; rw [r.book])
    (by show w.now.ev ++ _ = c.ev ++ _; rw [r.ev]) hlc
    (by
      refine (r.lined.mono (fun i x hx => r.orders.get hx)).set (b := c.book) (.inr ⟨o, o', ?_, rfl, hhome⟩) |>.same (by cases o.side <;> rfl)
      rw [hid]; exact hwo) (by rw [hid]; exact ho) hhome hc1
  rw [hw1, Except.bind_ok]
  dsimp only
  generalize hev : (if o'.leaves > 0 then Event.updateOrder o' else .deleteOrder o') = ev at run ⊢
  have hab : ev.about = some o' := by rw [← hev]; split <;> rfl
  have hnl : ev.notLevel := by rw [← hev]; split <;> trivial
  have hm : w.now.orders = c.orders := r.orders
  have hw2 : w1.now.orders = setO c.orders o'.id (some o') := by
    rw [f.same]
    show setO w.now.orders o'.id (some o') = _
    rw [hm]
  have g3 := f.good.emit ev hnl (fun x hx => by
    rw [hab] at hx
    cases hx
    exact .inl (by rw [hw2, setO_at])) (off_book hab)
  have hco : c1.orders = setO c.orders o'.id (if o'.leaves = 0 then none else some o') := f.orders
  have hk : ∀ i x, c1.orders i = some x → x.id = i := by
    rw [hco]
    refine keyed_set r.keyed ?_
    intro x hx
    split at hx
    · cases hx
    · rw [← Option.some.inj hx]
  refine finish_run m ?_ run
  have hb : (w1.emit ev).now.book = (c1.emit ev).book := f.book
  have he : (w1.emit ev).now.ev = (c1.emit ev).ev := by
    show w1.now.ev ++ _ = c1.ev ++ _
    rw [f.ev]
  by_cases h0 : o'.leaves = 0
  · rw [if_pos h0] at hco ⊢
    refine ⟨g3.put o'.id none (.inl (men_emit f.good hab)) (.inl rfl), hb, he, ?_, hk, f.lined⟩
    show setO w1.now.orders o'.id none = c1.orders
    rw [hw2, setO_setO, hco]
  · rw [if_neg h0] at hco ⊢
    refine ⟨g3, hb, he, ?_, hk, f.lined⟩
    show w1.now.orders = c1.orders
    rw [hw2, hco]

theorem executeOp_run {c c' : Core} {w : Watch} {o : Order} {p q : Nat} {e : ErrorCode} (m : Bool) (r : Rel K none c w)
    (ho : c.orders o.id = some o) (run : c.executeOp m o p q = .ok (c', e)) :
    ∃ w', w.executeOp m o p q = .ok (w', e) ∧ Rel K none c' w' :=
  execute_aux m r (o := o)
    (o' := { o with executed := add64 o.executed (min q o.leaves), leaves := o.leaves - min q o.leaves }) rfl rfl ho run

end Watch
end CppTrader
