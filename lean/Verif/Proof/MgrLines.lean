import Verif.Proof.LandOps
/-
Public calls in terms of lines and executions.
-/

namespace CppTrader
open Core

theorem onBook_inv {g : Mgr} {sym f g' e} (h : g.onBook sym f = .ok (g', e)) (hb : g.getBook sym ≠ none) :
    ∃ b c, slot g.books sym = some b ∧ f (g.core b) = .ok (c, e) ∧ g' = g.put sym c := by
  unfold Mgr.onBook at h
  cases hs : slot g.books sym with
  | none => exact absurd hs hb
  | some b =>
    rw [hs] at h
    simp only at h
    obtain ⟨⟨c, e'⟩, h1, h2⟩ := bind_inv h
    cases h2
    exact ⟨b, c, rfl, h1, rfl⟩

theorem onBook_ok_inv {g : Mgr} {sym f g'} (h : g.onBook sym f = .ok (g', .ok)) : g.getBook sym ≠ none := by
  intro hb
  unfold Mgr.onBook at h
  rw [show slot g.books sym = none from hb] at h
  cases h

theorem onOrder_inv {g : Mgr} {id f g'} (h : g.onOrder id f = .ok (g', .ok)) :
    ∃ o b c, g.orders id = some o ∧ slot g.books o.symbolId = some b ∧ f o (g.core b) = .ok (c, .ok) ∧ g' = g.put o.symbolId c := by
  unfold Mgr.onOrder at h
  cases ho : g.orders id with
  | none => rw [ho] at h; cases h
  | some o =>
    rw [ho] at h
    obtain ⟨b, c, h1, h2, h3⟩ := onBook_inv h (onBook_ok_inv h)
    exact ⟨o, b, c, rfl, h1, h2, h3⟩

theorem put_ev {g : Mgr} {sym b c evs} (h : Ev (g.core b) c evs) : (g.put sym c).ev = g.ev ++ evs := h.ev

theorem lines_board {g : Mgr} (hi : MInv g) {sym b} (hb : slot g.books sym = some b) : g.lines sym = (g.core b).line := by
  funext k; exact lines_core hi hb k

theorem addOrder_inv {g : Mgr} {o g' e} (h : g.addOrder o = .ok (g', e)) (he : g.refusal (.addOrder o) = none) :
    o.validate = .ok ∧ ∃ b c, slot g.books o.symbolId = some b ∧ (g.core b).addAny g.matching o = .ok (c, e) ∧ g' = g.put o.symbolId c := by
  unfold Mgr.refusal at he
  by_cases hv : o.validate = .ok
  · simp only [hv, ne_eq, not_true, if_false] at he
    have hb : g.getBook o.symbolId ≠ none := fun hb => by rw [if_pos hb] at he; cases he
    unfold Mgr.addOrder at h
    simp only [hv, ne_eq, not_true, if_false] at h
    exact ⟨hv, onBook_inv h hb⟩
  · simp [hv] at he

/-- An order call whose effect is that of the arrival of `t` after `id` (if any) has left its line. -/
theorem addPlain_call {g : Mgr} (hi : MInv g) {o g' e} (ha : g.Admissible (.addOrder o)) (hs : g.addOrder o = .ok (g', e))
    (hn : g.refusal (.addOrder o) = none) (hty : o.type = .limit ∨ o.type = .market) :
    ∃ evs rest, g'.ev = g.ev ++ evs ∧ execsOf evs = ((g.lines o.symbolId).arrive g.matching o).1 ++ rest ∧
      ((g.matching = true → ((g.lines o.symbolId).arrive g.matching o).2.quiet) →
        rest = [] ∧ (e = .ok → g'.lines = g.lines.set o.symbolId ((g.lines o.symbolId).arrive g.matching o).2)) ∧
      (o.type = .market → g.getOrder o.id = none → ∀ x ∈ rest, x.1.id ≠ o.id) ∧ (o.type = .market → e = .ok) := by
  obtain ⟨hv, b, c, h1, h2, h3⟩ := addOrder_inv hs hn
  obtain ⟨hI, hsym⟩ := hi.inv h1
  have hl := lines_board hi h1
  have hsy : o.symbolId = (g.core b).book.symbol.id := hsym.symm
  have hvol : volume (g.core b).book + o.leaves < W64 := ha.2 b h1
  have hst : Step (.arrive o) (g.core b) none ((g.core b).emit (.addOrder o)) (some o) := arrive_cinv hI hv ha.1 hsy hvol
  have ev1 : Ev (g.core b) ((g.core b).emit (.addOrder o)) [.addOrder o] := Ev.emit _ (e := .addOrder o) rfl hsy
  have key : Arrived g.matching ((g.core b).emit (.addOrder o)) o c e ∧ (o.type = .market → e = .ok) := by
    unfold addAny at h2
    rcases hty with ht | ht
    · rw [ht] at h2
      exact ⟨addLimit_run hI hv ha.1 hsy hvol ht h2, fun h => by rw [ht] at h; cases h⟩
    · rw [ht] at h2
      have := addMarket_run hI hv ha.1 hsy hvol ht h2
      exact ⟨.inl this, fun _ => this.1⟩
  rcases key with ⟨⟨he, ⟨A, h4⟩, evs, rest, h5, h6, h7, h8⟩ | ⟨he, _, evs, h5, h6⟩, hmk⟩
  · refine ⟨[.addOrder o] ++ evs, rest, ?_, ?_, ?_, ?_, hmk⟩
    · rw [h3]; exact put_ev (ev1.trans h5)
    · rw [execsOf_append, h6, hl]; rfl
    · intro hq
      rw [h3]
      obtain ⟨r1, r2⟩ := h7 fun hm => by have := hq hm; rw [hl] at this; exact this
      refine ⟨r1, fun _ => ?_⟩
      rw [lines_put hi h1 (Steps.head (A := fun _ => True) trivial hst (h4.mono fun _ _ => trivial)), r2, hl]; rfl
    · intro ht hf
      rw [hi.getOrder] at hf
      exact h8 ht hf
  · refine ⟨[.addOrder o] ++ evs, [], ?_, ?_, ?_, by simp, hmk⟩
    · rw [h3]; exact put_ev (ev1.trans h5)
    · rw [execsOf_append, h6, hl]; simp [execsOf]; rfl
    · intro _; exact ⟨rfl, fun h => by rw [he] at h; cases h⟩

/-- A call that changes one resting order in place or removes it. -/
theorem Changed.call {g : Mgr} (hi : MInv g) {b c : _} {o : Order} {v xs id} (h1 : slot g.books o.symbolId = some b) (hid : o.id = id)
    (h : Changed g.matching (g.core b) o.id v xs c) :
    ∃ evs rest, (g.put o.symbolId c).ev = g.ev ++ evs ∧ execsOf evs = xs ++ rest ∧
      (g.Quiet o.symbolId → rest = [] ∧ (g.put o.symbolId c).lines = g.lines.set o.symbolId ((g.lines o.symbolId).change id v) ∧
        (g.put o.symbolId c).getOrder = fun i => if i = id then v else g.getOrder i) := by
  subst hid
  obtain ⟨⟨A, hs⟩, evs, rest, h2, h3, h4⟩ := h
  have hl := lines_board hi h1
  refine ⟨evs, rest, put_ev h2, h3, ?_⟩
  intro hq
  obtain ⟨a1, a2, a3⟩ := h4 fun hm => by have := hq hm; rw [hl] at this; exact this
  refine ⟨a1, by rw [lines_put hi h1 hs, a2, hl], ?_⟩
  funext i
  rw [(hi.put h1 hs).getOrder, hi.getOrder]
  show c.orders i = _
  rw [a3]
  unfold setO
  rfl

theorem reduce_call {g : Mgr} (hi : MInv g) {id q g'} (hs : g.reduceOrder id q = .ok (g', .ok)) :
    ∃ o, g.getOrder id = some o ∧ ∃ evs rest, g'.ev = g.ev ++ evs ∧ execsOf evs = [] ++ rest ∧
      (g.Quiet o.symbolId → rest = [] ∧
        g'.lines = g.lines.set o.symbolId ((g.lines o.symbolId).change id (if q < o.leaves then some { o with leaves := o.leaves - q } else none)) ∧
        g'.getOrder = fun i => if i = id then (if q < o.leaves then some { o with leaves := o.leaves - q } else none) else g.getOrder i) := by
  unfold Mgr.reduceOrder at hs
  by_cases h0 : id = 0
  · rw [if_pos h0] at hs; cases hs
  by_cases h1 : q = 0
  · rw [if_neg h0, if_pos h1] at hs; cases hs
  rw [if_neg h0, if_neg h1] at hs
  obtain ⟨o, b, c, h2, h3, h4, rfl⟩ := onOrder_inv hs
  obtain ⟨hI, hsym⟩ := hi.inv h3
  have hid := (hi.orders id o h2).1
  obtain ⟨_, h5⟩ := reduceOp_run hI (by show g.orders o.id = _; rw [hid]; exact h2) hsym.symm (by omega) h4
  exact ⟨o, by rw [hi.getOrder]; exact h2, h5.call hi h3 hid⟩

theorem delete_call {g : Mgr} (hi : MInv g) {id g'} (hs : g.deleteOrder id = .ok (g', .ok)) :
    ∃ o, g.getOrder id = some o ∧ ∃ evs rest, g'.ev = g.ev ++ evs ∧ execsOf evs = [] ++ rest ∧
      (g.Quiet o.symbolId → rest = [] ∧ g'.lines = g.lines.set o.symbolId ((g.lines o.symbolId).change id none) ∧
        g'.getOrder = fun i => if i = id then none else g.getOrder i) := by
  unfold Mgr.deleteOrder at hs
  by_cases h0 : id = 0
  · rw [if_pos h0] at hs; cases hs
  rw [if_neg h0] at hs
  obtain ⟨o, b, c, h2, h3, h4, rfl⟩ := onOrder_inv hs
  obtain ⟨hI, hsym⟩ := hi.inv h3
  have hid := (hi.orders id o h2).1
  obtain ⟨_, h5⟩ := deleteOp_run hI (by show g.orders o.id = _; rw [hid]; exact h2) hsym.symm h4
  exact ⟨o, by rw [hi.getOrder]; exact h2, h5.call hi h3 hid⟩

/-- Both overloads of `ExecuteOrder`. -/
theorem execute_call {g : Mgr} (hi : MInv g) {id q g'} {p : Order → Nat} (h1 : q ≠ 0)
    (hs : g.onOrder id (fun o c => c.executeOp g.matching o (p o) q) = .ok (g', .ok)) :
    ∃ o, g.getOrder id = some o ∧ ∃ evs rest, g'.ev = g.ev ++ evs ∧ execsOf evs = [(o, p o, min q o.leaves)] ++ rest ∧
      (g.Quiet o.symbolId → rest = [] ∧
        g'.lines = g.lines.set o.symbolId ((g.lines o.symbolId).change id (if q < o.leaves then some (o.afterExec q) else none)) ∧
        g'.getOrder = fun i => if i = id then (if q < o.leaves then some (o.afterExec q) else none) else g.getOrder i) := by
  obtain ⟨o, b, c, h2, h3, h4, rfl⟩ := onOrder_inv hs
  obtain ⟨hI, hsym⟩ := hi.inv h3
  have hid := (hi.orders id o h2).1
  obtain ⟨_, h5⟩ := executeOp_run hI (by show g.orders o.id = _; rw [hid]; exact h2) hsym.symm (by omega) h4
  exact ⟨o, by rw [hi.getOrder]; exact h2, h5.call hi h3 hid⟩

theorem Moved.call {g : Mgr} (hi : MInv g) {b c : _} {o t : Order} {id e} (h1 : slot g.books o.symbolId = some b) (hid : o.id = id)
    (h : Moved g.matching (g.core b) o.id t c e) :
    ∃ evs rest, (g.put o.symbolId c).ev = g.ev ++ evs ∧
      execsOf evs = (((g.lines o.symbolId).change id none).arrive g.matching t).1 ++ rest ∧
      ((g.matching = true → (((g.lines o.symbolId).change id none).arrive g.matching t).2.quiet) → rest = [] ∧
        (e = .ok → (g.put o.symbolId c).lines = g.lines.set o.symbolId (((g.lines o.symbolId).change id none).arrive g.matching t).2)) := by
  subst hid
  obtain ⟨⟨A, hs⟩, ⟨evs, rest, h2, h3, h4⟩, _⟩ := h
  have hl := lines_board hi h1
  refine ⟨evs, rest, put_ev h2, by rw [h3, hl], ?_⟩
  intro hq
  obtain ⟨a1, a2⟩ := h4 fun hm => by have := hq hm; rw [hl] at this; exact this
  exact ⟨a1, fun he => by rw [lines_put hi h1 hs, a2 he, hl]⟩

theorem modify_call {g : Mgr} (hi : MInv g) {id p q g'} {mit : Bool} (hp : p < W64) (hq : q < W64)
    (hf : ∀ o, g.getOrder id = some o → g.Fits o.symbolId q) (hs : g.modifyOrder id p q mit = .ok (g', .ok)) :
    ∃ o, g.getOrder id = some o ∧ ∃ evs rest, g'.ev = g.ev ++ evs ∧
      execsOf evs = (((g.lines o.symbolId).change id none).arrive g.matching (modified o p q mit)).1 ++ rest ∧
      ((g.matching = true → (((g.lines o.symbolId).change id none).arrive g.matching (modified o p q mit)).2.quiet) → rest = [] ∧
        g'.lines = g.lines.set o.symbolId (((g.lines o.symbolId).change id none).arrive g.matching (modified o p q mit)).2) := by
  unfold Mgr.modifyOrder at hs
  by_cases h0 : id = 0
  · rw [if_pos h0] at hs; cases hs
  by_cases h1 : q = 0
  · rw [if_neg h0, if_pos h1] at hs; cases hs
  rw [if_neg h0, if_neg h1] at hs
  obtain ⟨o, b, c, h2, h3, h4, rfl⟩ := onOrder_inv hs
  obtain ⟨hI, hsym⟩ := hi.inv h3
  have hid := (hi.orders id o h2).1
  have hgo : g.getOrder id = some o := by rw [hi.getOrder]; exact h2
  obtain ⟨_, h5⟩ := modifyOp_run hI (by show g.orders o.id = _; rw [hid]; exact h2) hsym.symm hp hq (hf o hgo b h3) h4
  obtain ⟨evs, rest, a1, a2, a3⟩ := Moved.call hi h3 hid h5
  exact ⟨o, hgo, evs, rest, a1, a2, fun h => ⟨(a3 h).1, (a3 h).2 rfl⟩⟩

theorem replace_call {g : Mgr} (hi : MInv g) {id n p q g' e} (hn : n < W64) (hp : p < W64) (hq : q < W64)
    (hf : ∀ o, g.getOrder id = some o → g.Fits o.symbolId q) (hs : g.replaceOrder id n p q = .ok (g', e))
    (hr : g.refusal (.replaceOrder id n p q) = none) :
    ∃ o, g.getOrder id = some o ∧ ∃ evs rest, g'.ev = g.ev ++ evs ∧
      execsOf evs = (((g.lines o.symbolId).change id none).arrive g.matching { o with id := n, price := p, quantity := q, executed := 0, leaves := q }).1 ++ rest ∧
      ((g.matching = true → (((g.lines o.symbolId).change id none).arrive g.matching { o with id := n, price := p, quantity := q, executed := 0, leaves := q }).2.quiet) → rest = [] ∧
        (e = .ok → g'.lines = g.lines.set o.symbolId
          (((g.lines o.symbolId).change id none).arrive g.matching { o with id := n, price := p, quantity := q, executed := 0, leaves := q }).2)) := by
  unfold Mgr.refusal at hr
  simp only at hr
  unfold Mgr.replaceOrder at hs
  by_cases h0 : id = 0
  · simp [h0] at hr
  by_cases h0' : n = 0
  · simp [h0, h0'] at hr
  by_cases h1 : q = 0
  · simp [h0, h0', h1] at hr
  rw [if_neg h0, if_neg h0', if_neg h1] at hs
  rw [if_neg (by omega), if_neg h1, hi.getOrder] at hr
  cases ho : g.orders id with
  | none => rw [ho] at hr; cases hr
  | some o =>
    rw [ho] at hr hs
    simp only at hr hs
    by_cases hl : o.type = .limit
    · have hil : o.isLimit = true := by unfold Order.isLimit; simp [hl]
      rw [if_pos hil] at hs
      by_cases hb : g.getBook o.symbolId = none
      · simp [hl, hb] at hr
      obtain ⟨b, c, h2, h3, rfl⟩ := onBook_inv hs hb
      obtain ⟨hI, hsym⟩ := hi.inv h2
      have hid := (hi.orders id o ho).1
      have hgo : g.getOrder id = some o := by rw [hi.getOrder]; exact ho
      have h5 := replaceOp_run (n := n) (p := p) (q := q) hI (by show g.orders o.id = _; rw [hid]; exact ho) hsym.symm hl (by omega) hn hp (by omega) hq (hf o hgo b h2) h3
      obtain ⟨evs, rest, a1, a2, a3⟩ := Moved.call hi h2 hid h5
      exact ⟨o, hgo, evs, rest, a1, a2, a3⟩
    · simp [hl] at hr

end CppTrader
