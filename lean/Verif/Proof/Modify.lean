import Verif.Proof.MgrLines
/-
The further life of an order after `ModifyOrder`/`MitigateOrder`, in the same call.
-/

namespace CppTrader
open Core

/-- Labels of steps that neither submit, modify nor reduce orders on request. -/
def Lbl.own (l : Lbl) : Prop := l.noArrive ∧ l.inScope ⟨false, false, true⟩

theorem finish_own {s s' : Core} {m : Bool} {e} (hi : Inv s) (h : s.finish m = .ok (s', e)) : Steps Lbl.own s none s' none := by
  obtain ⟨s1, e1, _, _, e3⟩ := finish_ok hi m .delete
  rw [h] at e1; cases e1
  exact e3.mono fun l hl => ⟨hl.2, hl.1.inScope (by simp) (by simp) (by simp)⟩

theorem matchIf_own {m : Bool} {s s2 : Core} {t t2 : Order} (hc : CInv s (some t)) (hpos : 0 < t.leaves)
    (h : s.matchIf m t = .ok (s2, t2)) : Steps Lbl.own s (some t) s2 (some t2) ∧ Sim t t2 ∧ MatchFrame t s s2 := by
  unfold matchIf at h
  cases m with
  | false => cases h; exact ⟨.refl _ _, .refl t, .refl _ _⟩
  | true =>
    simp only [if_true] at h
    obtain ⟨s1, t1, e1, e2, e3⟩ := matchOrder_ok hc.inv (hc.fly _ rfl) hpos
    rw [h] at e1; cases e1
    refine ⟨e2.mono fun l hl => ?_, e3, (e2.match_frame hc).1⟩
    cases l <;> first | exact ⟨trivial, trivial⟩ | cases hl

/-- The outcome for the order `i`: it is stored after updates and executions that started with `t`, or it is gone. -/
def Outcome (t : Order) (i : Nat) (evs : List Event) (v : OrderView) : Prop :=
  (∃ x, v i = some x ∧ Evo ⟨false, false, true⟩ t (execsOfId i evs) x) ∨ v i = none ∧ ∃ x, Evo ⟨false, false, true⟩ t (execsOfId i evs) x

theorem Steps.outcome {s s' : Core} {t : Order} (h : Steps Lbl.own s (some t) s' none) (hc : CInv s (some t)) (hn : s.orders t.id = none) :
    ∃ evs, Ev s s' evs ∧ Outcome t t.id evs s'.orders := by
  obtain ⟨evs, ls, h1⟩ := h.stepsEv hc
  obtain ⟨v', a, b⟩ := h1.orders ⟨false, false, true⟩ (OrderView.set s.orders t.id (some t)) ⟨hn, t, rfl, sameBut_refl _⟩ fun l hl => (h1.labels l hl).1
  rw [show v' = s'.orders from b] at a
  refine ⟨evs, h1.ev, ?_⟩
  have := OrdEv.life (i := t.id) (x := t) a (by simp) (by
    rw [h1.adds, noArrive_flat fun l hl => ((h1.labels l hl).1).1]; simp) .nil
  unfold Outcome
  simpa using this

theorem modifyOp_life {m : Bool} {s s' : Core} {o : Order} {p q : Nat} {mit : Bool} {e} (hi : Inv s) (mem : s.orders o.id = some o)
    (sym : o.symbolId = s.book.symbol.id) (hp : p < W64) (hq : q < W64) (hvol : volume s.book + q < W64)
    (h : s.modifyOp m o p q mit = .ok (s', e)) :
    ∃ evs, Ev s s' evs ∧
      (0 < (modified o p q mit).leaves → Outcome (modified o p q mit) o.id evs s'.orders) ∧
      ((modified o p q mit).leaves = 0 → s'.orders o.id = none ∧ execsOfId o.id evs = []) := by
  obtain ⟨s1, a1, a2, a3, a4, a5⟩ := take_steps (m := m) (tag := .modify) hi mem sym
  have hok := (hi.orders _ o mem).2
  have hle := modified_leaves_le o p q mit
  have hrep : (modified o p q mit).Repr64 := by
    have := hok.repr
    unfold Order.Repr64 at *
    refine ⟨this.1, this.2.1, hp, this.2.2.2.1, hq, this.2.2.2.2.2.1, by omega, this.2.2.2.2.2.2.2⟩
  have st0 : Step (.take o) s none s1 (some o) := .take mem sym a1
  have hc1 := st0.inv (CInv.none_iff.2 hi)
  obtain ⟨ev0, g0⟩ := st0.events (CInv.none_iff.2 hi)
  have hx0 : execsOf ev0 = [] := g0.execs
  have hn1 : s1.orders o.id = none := by rw [a3]; simp
  have hid : ∀ xs ys, execsOf xs = [] → execsOfId o.id (xs ++ ys) = execsOfId o.id ys := by
    intro xs ys hx; unfold execsOfId; rw [execsOf_append, hx]; rfl
  unfold modifyOp at h
  rw [a1, Except.bind_ok] at h
  simp only at h
  by_cases hpos : (modified o p q mit).leaves > 0
  · simp only [hpos, if_true] at h
    have st : Step (.modify o (modified o p q mit)) s1 (some o) (s1.emit (.updateOrder (modified o p q mit)))
      (some (modified o p q mit)) := .modify hrep hpos (by omega)
    have hc2 := st.inv hc1
    obtain ⟨ev1, g1⟩ := st.events hc1
    have hx1 : execsOf ev1 = [] := g1.execs
    obtain ⟨⟨s2, t2⟩, h1, h2⟩ := bind_inv h
    obtain ⟨hst, hsim, hfr⟩ := matchIf_own hc2 hpos h1
    have hc3 := hst.inv hc2
    have hall : Steps Lbl.own (s1.emit (.updateOrder (modified o p q mit))) (some (modified o p q mit)) s' none := by
      simp only at h2
      by_cases hlv : t2.leaves > 0
      · simp only [hlv, if_true] at h2
        obtain ⟨s3, h3, h4⟩ := bind_inv h2
        have hty : t2.type = o.type := by obtain ⟨_, _, rfl⟩ := hsim; rfl
        have htf : t2.tif = o.tif := by obtain ⟨_, _, rfl⟩ := hsim; rfl
        have hid : t2.id = o.id := by obtain ⟨_, _, rfl⟩ := hsim; rfl
        have stp : Step (.put t2) s2 (some t2) s3 none := .put (hfr.none _ (by rw [hid]; exact hn1)) hlv (by rw [hty]; exact hok.notMarket)
          (by rw [hty, htf]; exact hok.tif) h3
        exact hst.trans (.head (l := .put t2) ⟨trivial, trivial⟩ stp (finish_own (stp.inv hc3).inv h4))
      · simp only [hlv, if_false] at h2
        have stp : Step (.cancel t2) s2 (some t2) (s2.emit (.deleteOrder t2)) none := .cancel
        exact hst.trans (.head (l := .cancel t2) ⟨trivial, trivial⟩ stp (finish_own (stp.inv hc3).inv h2))
    obtain ⟨ev2, b1, b2⟩ := hall.outcome hc2 (by exact hn1)
    refine ⟨ev0 ++ (ev1 ++ ev2), g0.ev.trans (g1.ev.trans b1), fun _ => ?_, fun hz => by omega⟩
    unfold Outcome
    rw [hid _ _ hx0, hid _ _ hx1]
    exact b2
  · simp only [hpos, if_false] at h
    have st : Step (.vanish o (modified o p q mit)) s1 (some o) (s1.emit (.deleteOrder (modified o p q mit))) none :=
      .vanish (by omega)
    have hc2 := st.inv hc1
    obtain ⟨ev1, g1⟩ := st.events hc1
    have hx1 : execsOf ev1 = [] := g1.execs
    obtain ⟨ev2, ls, b⟩ := (finish_own hc2.inv h).stepsEv hc2
    refine ⟨ev0 ++ (ev1 ++ ev2), g0.ev.trans (g1.ev.trans b.ev), fun h' => absurd h' hpos, fun _ => ?_⟩
    rw [hid _ _ hx0, hid _ _ hx1]
    obtain ⟨v', a, c⟩ := b.orders ⟨false, false, true⟩ s1.orders rfl fun l hl => (b.labels l hl).1
    have := OrdEv.absent a hn1 (by rw [b.adds, noArrive_flat fun l hl => ((b.labels l hl).1).1]; simp)
    rw [show v' = s'.orders from c] at this
    refine ⟨this.1, ?_⟩
    unfold execsOfId; rw [List.filter_eq_nil_iff]; intro z hz; simpa using this.2 z hz

/-- `ModifyOrder` and `MitigateOrder`: the order afterwards. -/
theorem modify_life {g : Mgr} (hi : MInv g) {id p q g' evs} {mit : Bool} (hp : p < W64) (hq : q < W64)
    (hf : ∀ o, g.getOrder id = some o → g.Fits o.symbolId q) (hs : g.modifyOrder id p q mit = .ok (g', .ok)) (hev : g'.ev = g.ev ++ evs) :
    ∃ o, g.getOrder id = some o ∧
      (0 < (modified o p q mit).leaves → Outcome (modified o p q mit) id evs g'.getOrder) ∧
      ((modified o p q mit).leaves = 0 → g'.getOrder id = none ∧ execsOfId id evs = []) := by
  unfold Mgr.modifyOrder at hs
  by_cases h0 : id = 0
  · rw [if_pos h0] at hs; cases hs
  by_cases h1 : q = 0
  · rw [if_neg h0, if_pos h1] at hs; cases hs
  rw [if_neg h0, if_neg h1] at hs
  obtain ⟨o, b, c, h2, h3, h4, rfl⟩ := onOrder_inv hs
  obtain ⟨hI, hsym⟩ := hi.inv h3
  have hid := (hi.orders id o h2).1
  have hgo : g.getOrder id = some o := by rw [hi.getOrder]; exact h2
  have mem : (g.core b).orders o.id = some o := by show g.orders o.id = _; rw [hid]; exact h2
  obtain ⟨evs', b1, b2, b3⟩ := modifyOp_life hI mem hsym.symm hp hq (hf o hgo b h3) h4
  have he : evs' = evs := by
    have := put_ev (sym := o.symbolId) b1
    rw [hev] at this
    exact (List.append_cancel_left this).symm
  subst he
  have hget : ∀ i, (g.put o.symbolId c).getOrder i = c.orders i := by
    intro i
    obtain ⟨_, ⟨A, hst⟩, _⟩ : True ∧ (∃ A, Steps A (g.core b) none c none) ∧ True := by
      obtain ⟨s', e', f1, f2⟩ := modifyOp_ok (m := g.matching) (p := p) (q := q) (mit := mit) hI mem hsym.symm hp hq (hf o hgo b h3)
      rw [h4] at f1; cases f1
      exact ⟨trivial, ⟨_, f2.steps⟩, trivial⟩
    rw [(hi.put h3 hst).getOrder]; rfl
  rw [hid] at b2 b3
  refine ⟨o, hgo, fun hpos => ?_, fun hz => ?_⟩
  · have := b2 hpos
    unfold Outcome at this ⊢
    rw [hget]; exact this
  · rw [hget]; exact b3 hz

end CppTrader
