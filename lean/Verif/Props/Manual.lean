import Verif.Props.Trades
import Verif.Props.Lines
/-
C44, C32, C40 for `ExecuteOrder` while matching is on: one manual execution, reported first, and what matching makes of the rest.
-/

namespace CppTrader
open Core

theorem executeOp_events {m : Bool} {s s' : Core} {o : Order} {p q : Nat} {e} (hi : Inv s) (mem : s.orders o.id = some o)
    (sym : o.symbolId = s.book.symbol.id) (hq : 0 < q) (h : s.executeOp m o p q = .ok (s', e)) :
    ∃ (evs : List Event) (rest : List (Order × Nat × Nat)) (ls : List Lbl), Ev s s' evs ∧ execsOf evs = (o, p, min q o.leaves) :: rest ∧ rest = (ls.map Lbl.execs).flatten ∧
      ∀ l ∈ ls, OpL m .delete l ∧ l.good ∧ l.onSym s.book.symbol.id := by
  have hpos := (hi.orders _ o mem).2.leaves
  obtain ⟨k, s1, a1, a2, _⟩ := hi.execute_ok mem sym p (min q o.leaves) (by omega)
  have st : Step (.execute o p (min q o.leaves)) s none _ none := .execute mem sym (by omega) (by omega) a2
  have hc : CInv s none := CInv.none_iff.2 hi
  obtain ⟨e1, h1⟩ := st.stepsEv (A := fun _ => True) trivial hc
  obtain ⟨s2, f1, _, _, f4⟩ := finish_ok (st.inv hc).inv m .delete
  obtain ⟨e2, l2, h2⟩ := f4.stepsEv (st.inv hc)
  have e0 : s2 = s' := by
    unfold executeOp at h
    simp only at h
    rw [show ((s.emit (.exec o p (min q o.leaves))).setPrices o.side p).shrink
        { o with executed := add64 o.executed (min q o.leaves), leaves := o.leaves - min q o.leaves } (min q o.leaves)
        (o.hiddenQty - ({ o with executed := add64 o.executed (min q o.leaves), leaves := o.leaves - min q o.leaves } : Order).hiddenQty)
        (o.visibleQty - ({ o with executed := add64 o.executed (min q o.leaves), leaves := o.leaves - min q o.leaves } : Order).visibleQty)
        = .ok s1 from a2, Except.bind_ok] at h
    exact congrArg (·.1) (Except.ok.inj (f1.symm.trans h))
  subst e0
  refine ⟨e1 ++ e2, execsOf e2, l2, h1.ev.trans h2.ev, ?_, h2.execs, fun l hl => ?_⟩
  · rw [execsOf_append, h1.execs]
    simp [Lbl.execs]
  · obtain ⟨⟨a, _⟩, b, c⟩ := h2.labels l hl
    exact ⟨a, b, by rw [h1.ev.bsym] at c; exact c⟩

/-- C44, C32 and C40 for an `ExecuteOrder` that is carried out (both overloads): the manual execution of the order is reported first, once;
whatever matching executes afterwards are deals and crossings of the same symbol, in which All-Or-None orders are executed for their whole
remaining quantity and stop orders of any type are not executed; with matching disabled there are none. -/
theorem C44_execute {g : Mgr} (hr : g.Reachable) {id q p : Nat} {op : Op} {g' : Mgr} {evs : List Event} {o : Order} (ho : g.getOrder id = some o)
    (hop : op = .executeOrder id q ∧ p = o.price ∨ op = .executeOrderAt id p q)
    (hs : g.step op = .ok (g', .ok)) (hev : g'.ev = g.ev ++ evs) :
    ∃ groups : List (List (Order × Nat × Nat)), execsOf evs = (o, p, min q o.leaves) :: groups.flatten ∧
      (∀ G ∈ groups, (∀ x ∈ G, x.1.symbolId = o.symbolId) ∧ (Deal G ∨ Cross G)) ∧
      (∀ x ∈ groups.flatten, (x.1.tif = .aon → x.2.2 = x.1.leaves) ∧ (x.1.type = .market ∨ x.1.type = .limit)) ∧
      (g.matching = false → groups = []) := by
  have key : ∃ f : Order → Nat, f o = p ∧ q ≠ 0 ∧ g.onOrder id (fun o c => c.executeOp g.matching o (f o) q) = .ok (g', .ok) := by
    rcases hop with ⟨rfl, rfl⟩ | rfl
    · simp only [Mgr.step, Mgr.executeOrder] at hs
      by_cases h0 : id = 0
      · rw [if_pos h0] at hs; cases hs
      by_cases h1 : q = 0
      · rw [if_neg h0, if_pos h1] at hs; cases hs
      rw [if_neg h0, if_neg h1] at hs
      exact ⟨fun o => o.price, rfl, h1, hs⟩
    · simp only [Mgr.step, Mgr.executeOrderAt] at hs
      by_cases h0 : id = 0
      · rw [if_pos h0] at hs; cases hs
      by_cases h1 : q = 0
      · rw [if_neg h0, if_pos h1] at hs; cases hs
      rw [if_neg h0, if_neg h1] at hs
      exact ⟨fun _ => p, rfl, h1, hs⟩
  obtain ⟨f, rfl, h1, h2⟩ := key
  have hi := hr.minv
  obtain ⟨o', b, c, h3, h4, h5, rfl⟩ := onOrder_inv h2
  rw [hi.getOrder, h3] at ho
  cases ho
  obtain ⟨hI, hsym⟩ := hi.inv h4
  have hid := (hi.orders id o h3).1
  obtain ⟨evs', rest, ls, e1, e2, e3, e4⟩ := executeOp_events hI (by show g.orders o.id = _; rw [hid]; exact h3) hsym.symm (by omega) h5
  have := put_ev (sym := o.symbolId) e1
  rw [hev] at this
  cases List.append_cancel_left this
  have grp : ∀ l ∈ ls, l.execs = [] ∨ l.isTrade ∧ (Deal l.execs ∨ Cross l.execs) := by
    intro l hl
    obtain ⟨a, d, _⟩ := e4 l hl
    rcases l.group d with x | x | x | ⟨_, o, p, q, rfl⟩
    · exact .inl x
    · exact .inr ⟨x.2, .inl x.1⟩
    · exact .inr ⟨x.2.1, .inr x.1⟩
    · cases a.exec _ _ _ rfl
  have flat : ((ls.map Lbl.execs).filter (fun G => !G.isEmpty)).flatten = rest := by
    rw [e3]
    generalize ls.map Lbl.execs = L
    induction L with
    | nil => rfl
    | cons a L ih => cases a <;> simp [ih]
  refine ⟨(ls.map Lbl.execs).filter (fun G => !G.isEmpty), by rw [flat]; exact e2, ?_, ?_, ?_⟩
  · intro G hG
    obtain ⟨h1, h2⟩ := List.mem_filter.1 hG
    obtain ⟨l, hl, rfl⟩ := List.mem_map.1 h1
    refine ⟨?_, ?_⟩
    · have := (e4 l hl).2.2
      rw [show (g.core b).book.symbol.id = o.symbolId from hsym] at this
      exact this
    · rcases grp l hl with x | x
      · rw [x] at h2; cases h2
      · exact x.2
  · intro x hx
    rw [flat, e3] at hx
    obtain ⟨G, hG, hx⟩ := List.mem_flatten.1 hx
    obtain ⟨l, hl, rfl⟩ := List.mem_map.1 hG
    obtain ⟨a, d, _⟩ := e4 l hl
    refine ⟨fun ht => ?_, stopSafe_types d (a.stopSafe (by simp)) (fun o p q e => by cases a.exec _ _ _ e) x hx⟩
    have ht : x.1.isAON = true := by simp [Order.isAON, ht]
    rcases grp l hl with y | ⟨_, y | y⟩
    · rw [y] at hx; cases hx
    · exact (y.amount x hx).2.2 ht
    · exact (y.amount x hx).2.2.1 ht
  · intro hm
    rw [List.filter_eq_nil_iff]
    intro G hG
    obtain ⟨l, hl, rfl⟩ := List.mem_map.1 hG
    rcases grp l hl with y | y
    · rw [y]; simp
    · exact absurd y.1 ((e4 l hl).1.noTrade hm)

/-- C44_execute applies, and matching does trade after the manual execution: the best ask is executed at 120, which triggers a stop
order, and the All-Or-None order behind it is executed whole. -/
example : ∃ (g g' : Mgr) (e : ErrorCode), g.Reachable ∧ g.Admissible (.executeOrderAt 1 120 10) ∧ g.step (.executeOrderAt 1 120 10) = .ok (g', e) ∧
    (decide (e = .ok) && g.matching &&
      decide ((execsOf (g'.ev.drop g.ev.length)).map (fun (x : Order × Nat × Nat) => (x.1.id, x.2)) = [(1, 120, 10), (2, 130, 3), (3, 130, 3)])) = true :=
  demoStep (p := fun g g' e => decide (e = .ok) && g.matching &&
      decide ((execsOf (g'.ev.drop g.ev.length)).map (fun (x : Order × Nat × Nat) => (x.1.id, x.2)) = [(1, 120, 10), (2, 130, 3), (3, 130, 3)]))
    (trading ++ [.addOrder (.mkLimit 1 1 .sell 100 10), .addOrder (.mkLimit 2 1 .sell 130 3 .aon), .addOrder (.mkStop 3 1 .buy 115 3)])
    (.executeOrderAt 1 120 10) (by decide +kernel)

end CppTrader
