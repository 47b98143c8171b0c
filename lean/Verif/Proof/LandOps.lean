import Verif.Proof.Quiet
/-
The order operations on one book in terms of lines and executions.
-/

namespace CppTrader
open Core

theorem Hit.idle {s : Core} {t} (hc : CInv s (some t)) : Hit false s t s t :=
  ⟨hc, ⟨[], .refl _, rfl⟩, rfl, rfl, fun _ _ => rfl, fun _ h => h, fun _ _ h _ => h⟩

theorem emit_line (s : Core) (e) : (s.emit e).line = s.line := rfl

/-- Result of the arrival of `t` in state `s`. -/
def Arrived (m : Bool) (s : Core) (t : Order) (s' : Core) (e : ErrorCode) : Prop :=
  e = .ok ∧ Landed m s t s' ∨
  e = .orderDuplicate ∧ (∃ A, Steps A s (some t) s' none) ∧ ∃ evs, Ev s s' evs ∧ execsOf evs = (Board.arrive m s.line t).1

theorem insertNew_run {m : Bool} {s s2 s' : Core} {t t2 : Order} {e} (h : Hit m s t s2 t2) {A} (hs : Steps A s (some t) s2 (some t2))
    (hr : t2.rests) (hd : s2.insertNew m t2 = .ok (s', e)) : Arrived m s t s' e := by
  unfold insertNew at hd
  cases ho : s2.orders t2.id with
  | some x =>
    rw [ho] at hd
    simp only at hd
    cases hd
    obtain ⟨ev1, c1, c2⟩ := h.exec
    have st : Step (.cancel t2) s2 (some t2) (s2.emit (.deleteOrder t2)) none := .cancel
    refine .inr ⟨rfl, ⟨fun _ => True, (hs.mono fun _ _ => trivial).trans (.one trivial st)⟩, _, c1.trans (Ev.emit s2 (e := .deleteOrder t2) rfl (h.cinv.fly _ rfl).sym), ?_⟩
    rw [execsOf_append, c2]; simp [execsOf]
  | none =>
    rw [ho] at hd
    simp only at hd
    cases hl : s2.link t2 with
    | error x => rw [hl] at hd; cases hd
    | ok s3 =>
      rw [hl, Except.bind_ok] at hd
      obtain ⟨a, b⟩ := h.landed_link hs hr ho hl hd
      exact .inl ⟨a, b⟩

theorem rests_limit {t : Order} (h : t.type = .limit) : (decide (t.leaves > 0) && !t.isIOC && !t.isFOK) = true ↔ t.rests := by
  unfold Order.rests Order.isIOC Order.isFOK
  cases t.tif <;> simp [h]

theorem restOrCancel_run {m : Bool} {s s2 s' : Core} {t t2 : Order} {e} (h : Hit m s t s2 t2) {A} (hs : Steps A s (some t) s2 (some t2))
    (hl : t2.type = .limit) (hd : s2.restOrCancel m t2 = .ok (s', e)) : Arrived m s t s' e := by
  unfold restOrCancel at hd
  by_cases hr : (decide (t2.leaves > 0) && !t2.isIOC && !t2.isFOK) = true
  · rw [if_pos hr] at hd
    exact insertNew_run h hs ((rests_limit hl).1 hr) hd
  · rw [if_neg hr] at hd
    exact .inl (h.landed_drop hs (fun h => hr ((rests_limit hl).2 h)) hd)

theorem matchIf_steps {m : Bool} {s s2 : Core} {t t2 : Order} (hc : CInv s (some t)) (hpos : 0 < t.leaves)
    (h : s.matchIf m t = .ok (s2, t2)) : ∃ A, Steps A s (some t) s2 (some t2) := by
  unfold matchIf at h
  cases m with
  | false => cases h; exact ⟨fun _ => True, .refl _ _⟩
  | true =>
    simp only [if_true] at h
    obtain ⟨s1, t1, e1, e2, _⟩ := matchOrder_ok hc.inv (hc.fly _ rfl) hpos
    rw [h] at e1; cases e1
    exact ⟨_, e2⟩

theorem arrive_cinv {s : Core} {o : Order} (hi : Inv s) (hv : o.validate = .ok) (hr : o.Repr64)
    (hs : o.symbolId = s.book.symbol.id) (hvol : volume s.book + o.leaves < W64) :
    Step (.arrive o) s none (s.emit (.addOrder o)) (some o) := by
  obtain ⟨h1, h2, h3⟩ := validate_facts hv
  exact .arrive hr h1 hs hvol h3

theorem bind_inv {α β : Type} {x : Except Err α} {f : α → Except Err β} {y} (h : x >>= f = .ok y) : ∃ a, x = .ok a ∧ f a = .ok y := by
  cases x with
  | error e => cases h
  | ok a => exact ⟨a, rfl, h⟩

theorem addLimit_run {m : Bool} {s s' : Core} {o : Order} {e} (hi : Inv s) (hv : o.validate = .ok) (hr : o.Repr64)
    (hs : o.symbolId = s.book.symbol.id) (hvol : volume s.book + o.leaves < W64) (ht : o.type = .limit)
    (h : s.addLimit m o = .ok (s', e)) :
    Arrived m (s.emit (.addOrder o)) o s' e := by
  have st := arrive_cinv hi hv hr hs hvol
  have hc := st.inv (CInv.none_iff.2 hi)
  obtain ⟨_, hpos, _⟩ := validate_facts hv
  unfold addLimit at h
  obtain ⟨⟨s2, t2⟩, h1, h2⟩ := bind_inv h
  have hit := matchIf_hit hc hpos (by rw [ht]; simp) h1
  obtain ⟨A, hst⟩ := matchIf_steps hc hpos h1
  exact restOrCancel_run hit hst (by rw [hit.facts.2.1, ht]) h2

theorem addMarket_run {m : Bool} {s s' : Core} {o : Order} {e} (hi : Inv s) (hv : o.validate = .ok) (hr : o.Repr64)
    (hs : o.symbolId = s.book.symbol.id) (hvol : volume s.book + o.leaves < W64) (ht : o.type = .market)
    (h : s.addMarket m o = .ok (s', e)) :
    e = .ok ∧ Landed m (s.emit (.addOrder o)) o s' := by
  have st := arrive_cinv hi hv hr hs hvol
  have hc := st.inv (CInv.none_iff.2 hi)
  obtain ⟨_, hpos, _⟩ := validate_facts hv
  have h' : ((if m then (s.emit (.addOrder o)).matchMarket o else .ok (s.emit (.addOrder o), o)) >>= fun x =>
      (x.1.emit (.deleteOrder x.2)).finish m) = .ok (s', e) := by
    rw [← h]; unfold addMarket; cases m <;> rfl
  obtain ⟨⟨s2, t2⟩, h1, h2⟩ := bind_inv h'
  have hit : Hit m (s.emit (.addOrder o)) o s2 t2 := by
    cases m with
    | false => cases h1; exact .idle hc
    | true => exact matchMarket_hit hc hpos ht h1
  have hst : ∃ A, Steps A (s.emit (.addOrder o)) (some o) s2 (some t2) := by
    cases m with
    | false => cases h1; exact ⟨fun _ => True, .refl _ _⟩
    | true =>
      obtain ⟨s1, t1, e1, e2, _⟩ := matchMarket_ok hc.inv (hc.fly _ rfl) hpos ht
      simp only [if_true] at h1
      rw [h1] at e1; cases e1
      exact ⟨_, e2⟩
  obtain ⟨A, hst⟩ := hst
  exact hit.landed_drop hst (fun hr => hr.2.1 (by rw [hit.facts.2.1, ht])) h2

/-- With matching off a stop order joins its line. -/
theorem addStopAny_run {s s' : Core} {o : Order} {e} (hi : Inv s) (hv : o.validate = .ok) (hr : o.Repr64)
    (hs : o.symbolId = s.book.symbol.id) (hvol : volume s.book + o.leaves < W64) (ht : o.isStopLike = true)
    (h : s.addAny false o = .ok (s', e)) :
    Step (.arrive (initTrailing s.book o)) s none (s.emit (.addOrder (initTrailing s.book o))) (some (initTrailing s.book o)) ∧
    Arrived false (s.emit (.addOrder (initTrailing s.book o))) (initTrailing s.book o) s' e := by
  obtain ⟨h1, h2, h3⟩ := validate_facts hv
  obtain ⟨g1, g2, g3, g4, g5, g6, g7, g8, g9⟩ := initTrailing_props hi hr h3
  have st : Step (.arrive (initTrailing s.book o)) s none (s.emit (.addOrder (initTrailing s.book o))) (some (initTrailing s.book o)) :=
    .arrive g1 (by omega) (by rw [g3]; exact hs) (by rw [g4]; exact hvol) (fun h => g7.2 (h3 (by rw [← isTrailing_congr g5]; exact h)))
  have hc := st.inv (CInv.none_iff.2 hi)
  refine ⟨st, ?_⟩
  have hpos : (initTrailing s.book o).leaves > 0 := by omega
  have key : (s.emit (.addOrder (initTrailing s.book o))).insertNew false (initTrailing s.book o) = .ok (s', e) := by
    unfold Order.isStopLike Order.isStop Order.isStopLimit Order.isTrailingStop Order.isTrailingStopLimit at ht
    unfold addAny addStop addStopLimit at h
    cases hty : o.type <;> simp only [hty] at h ht <;> try (simp at ht; done)
    all_goals (simp only [Bool.false_and, Bool.false_eq_true, if_false, hpos, if_true] at h; exact h)
  have hnm : o.type ≠ .market ∧ o.type ≠ .limit := by
    constructor <;> (intro e; simp [Order.isStopLike, Order.isStop, Order.isStopLimit, Order.isTrailingStop, Order.isTrailingStopLimit, e] at ht)
  exact insertNew_run (A := fun _ => True) (.idle hc) (.refl _ _) ⟨hpos, by rw [g5]; exact hnm.1, fun e => absurd (g5 ▸ e) hnm.2⟩ key

/-! ### Changes of a resting order -/

theorem reduceBody_line {s s' : Core} {o : Order} {q : Nat} (hi : Inv s) (mem : s.orders o.id = some o)
    (sym : o.symbolId = s.book.symbol.id) (run : s.reduceBody o q = .ok s') :
    s'.line = Board.change s.line o.id (if q < o.leaves then some { o with leaves := o.leaves - q } else none) ∧
    s'.orders = setO s.orders o.id (if q < o.leaves then some { o with leaves := o.leaves - q } else none) := by
  obtain ⟨k, a1, a2, a3, a4, a5, a6⟩ := hi.reduce mem sym run
  have : (if o.leaves - min q o.leaves = 0 then none else some { o with leaves := o.leaves - min q o.leaves }) =
      if q < o.leaves then some { o with leaves := o.leaves - q } else none := by
    by_cases h : q < o.leaves
    · rw [if_pos h, if_neg (by omega), Nat.min_eq_left (by omega)]
    · rw [if_neg h, if_pos (by omega)]
  rw [← this]
  refine ⟨funext fun k' => ?_, a3.orders⟩
  refine line_set hi a3 (by rw [mem]; simp) ?_ k'
  rw [a6]
  by_cases h : o.leaves - min q o.leaves = 0
  · simp [h]
  · simp [h]

theorem Ev.noExec {s s' evs} (h : Ev s s' evs) (h' : execsOf evs = []) : execsOf evs = [] := h'

theorem calm_change {m : Bool} {s s' : Core} {id v} (hi' : Inv s') (hl : s'.line = Board.change s.line id v)
    (hv : ∀ x, v = some x → ∃ o, (∀ k, (∃ r ∈ s.line k, r.id = id) → o ∈ s.line k) ∧ x.price = o.price) (hq : m = true → Board.quiet s.line) : Calm m s' := by
  rw [calm_lines hi']
  intro hm
  obtain ⟨h1, h2⟩ := hq hm
  have key : ∀ k r, r ∈ s'.line k → ∃ r' ∈ s.line k, r.price = r'.price := by
    intro k r hr
    rw [hl] at hr
    unfold Board.change at hr
    obtain ⟨r0, a, b⟩ := List.mem_filterMap.1 hr
    by_cases e : r0.id = id
    · rw [if_pos e] at b
      obtain ⟨o, c, d⟩ := hv r b
      exact ⟨o, c k ⟨r0, a, e⟩, d⟩
    · rw [if_neg e] at b; cases b; exact ⟨_, a, rfl⟩
  constructor
  · intro b hb a ha
    obtain ⟨b', c1, c2⟩ := key _ _ hb
    obtain ⟨a', d1, d2⟩ := key _ _ ha
    rw [c2, d2]; exact h1 b' c1 a' d1
  · intro k hk
    cases hl' : s'.line k with
    | nil => rfl
    | cons r rs =>
      obtain ⟨r', a, _⟩ := key k r (by rw [hl']; simp)
      rw [h2 k hk] at a; cases a

theorem line_own {s : Core} (hi : Inv s) {o : Order} (mem : s.orders o.id = some o) {k} (h : ∃ r ∈ s.line k, r.id = o.id) : o ∈ s.line k := by
  obtain ⟨r, h1, h2⟩ := h
  have h3 := (line_mem hi).1 h1
  rw [h2, mem] at h3
  cases h3.1; exact h1

/-- Result of an operation that changes one resting order without matching it anew. -/
structure Changed (m : Bool) (s : Core) (id : Nat) (v : Option Order) (xs : List (Order × Nat × Nat)) (s' : Core) : Prop where
  steps : ∃ A, Steps A s none s' none
  ev : ∃ evs rest, Ev s s' evs ∧ execsOf evs = xs ++ rest ∧
    ((m = true → Board.quiet s.line) → rest = [] ∧ s'.line = Board.change s.line id v ∧ s'.orders = setO s.orders id v)

theorem Core.changed {m : Bool} {s s1 s' : Core} {o v xs e} {l : Lbl} (hi : Inv s) (mem : s.orders o.id = some o)
    (st : Step l s none s1 none) (hx : l.execs = xs) (hl : s1.line = Board.change s.line o.id v)
    (ho : s1.orders = setO s.orders o.id v) (hv : ∀ x, v = some x → x.price = o.price) (h : s1.finish m = .ok (s', e)) : e = .ok ∧ Changed m s o.id v xs s' := by
  have hc := CInv.none_iff.2 hi
  obtain ⟨ev1, g1⟩ := st.events hc
  obtain ⟨a, ⟨A, b⟩, evs, c, d, _⟩ := Core.finish_run (st.inv hc).inv h
  refine ⟨a, ⟨fun _ => True, .head trivial st (b.mono fun _ _ => trivial)⟩, ev1 ++ evs, execsOf evs, g1.ev.trans c, by rw [execsOf_append, g1.execs, hx], ?_⟩
  intro hq
  obtain ⟨d1, d2, d3⟩ := d (calm_change (st.inv hc).inv hl (fun x hx => ⟨o, fun k hk => line_own hi mem hk, hv x hx⟩) hq)
  exact ⟨d1, by rw [d3, hl], by rw [d2, ho]⟩

theorem reduceOp_run {m : Bool} {s s' : Core} {o : Order} {q e} (hi : Inv s) (mem : s.orders o.id = some o)
    (sym : o.symbolId = s.book.symbol.id) (hq : 0 < q) (h : s.reduceOp m o q = .ok (s', e)) :
    e = .ok ∧ Changed m s o.id (if q < o.leaves then some { o with leaves := o.leaves - q } else none) [] s' := by
  unfold reduceOp at h
  obtain ⟨s1, h1, h2⟩ := bind_inv h
  have st : Step (.reduce o q) s none s1 none := .reduce mem sym hq h1
  refine Core.changed hi mem st rfl (reduceBody_line hi mem sym h1).1 (reduceBody_line hi mem sym h1).2 ?_ h2
  intro x hx
  split at hx <;> cases hx
  rfl

theorem executeOp_run {m : Bool} {s s' : Core} {o : Order} {p q e} (hi : Inv s) (mem : s.orders o.id = some o)
    (sym : o.symbolId = s.book.symbol.id) (hq : 0 < q) (h : s.executeOp m o p q = .ok (s', e)) :
    e = .ok ∧ Changed m s o.id (if q < o.leaves then some (o.afterExec q) else none) [(o, p, min q o.leaves)] s' := by
  have hpos := (hi.orders _ o mem).2.leaves
  obtain ⟨k, s1, a1, a2, a3, a4, a5, a6, a7⟩ := hi.execute_ok mem sym p (min q o.leaves) (by omega)
  have st : Step (.execute o p (min q o.leaves)) s none _ none := .execute mem sym (by omega) (by omega) a2
  have hrun : ((s1.emit (if (o.filled (min q o.leaves)).leaves > 0 then .updateOrder (o.filled (min q o.leaves)) else .deleteOrder (o.filled (min q o.leaves)))).finish m) = .ok (s', e) := by
    unfold executeOp at h
    simp only at h
    rw [show ((s.emit (.exec o p (min q o.leaves))).setPrices o.side p).shrink
        { o with executed := add64 o.executed (min q o.leaves), leaves := o.leaves - min q o.leaves } (min q o.leaves)
        (o.hiddenQty - ({ o with executed := add64 o.executed (min q o.leaves), leaves := o.leaves - min q o.leaves } : Order).hiddenQty)
        (o.visibleQty - ({ o with executed := add64 o.executed (min q o.leaves), leaves := o.leaves - min q o.leaves } : Order).visibleQty)
        = .ok s1 from a2, Except.bind_ok] at h
    exact h
  have hv : (if q < o.leaves then some (o.afterExec q) else none) = afterFill o (min q o.leaves) := by
    unfold afterFill
    by_cases h : q < o.leaves
    · rw [if_pos h, if_neg (by omega), Nat.min_eq_left (by omega)]; rfl
    · rw [if_neg h, if_pos (by omega)]
  refine Core.changed hi mem st rfl ?_ (by rw [hv]; exact a4.orders) ?_ hrun
  · funext k'
    rw [hv]
    have hi1 : Inv (s.reported o p (min q o.leaves)) := (hi.emit _).setPrices _ _
    have hcs : (s.reported o p (min q o.leaves)).line = s.line := by
      funext k''
      unfold Core.line
      have e1 : queue (s.reported o p (min q o.leaves)).book k'' = queue s.book k'' := by
        unfold queue
        show flatOf ((s.book.updatePrices o.side p).lv k'') = _
        rw [updatePrices_lv]
      rw [e1]; rfl
    rw [show Board.change s.line o.id (afterFill o (min q o.leaves)) k' = chg o.id (afterFill o (min q o.leaves)) (s.line k') from rfl, ← hcs]
    show s1.line k' = _
    refine line_set hi1 a4 (by show s.orders o.id ≠ none; rw [mem]; simp) ?_ k'
    have e1 : queue (s.reported o p (min q o.leaves)).book k = queue s.book k := by
      unfold queue
      show flatOf ((s.book.updatePrices o.side p).lv k) = _
      rw [updatePrices_lv]
    rw [a7, e1]
    unfold afterFill
    by_cases h : o.leaves = min q o.leaves
    · rw [if_pos h, if_pos h]; simp
    · rw [if_neg h, if_neg h]; simp
  · intro x hx
    split at hx <;> cases hx
    rfl

theorem unlink_line {s s1 : Core} {o : Order} (hi : Inv s) (mem : s.orders o.id = some o)
    (sym : o.symbolId = s.book.symbol.id) (run : s.unlink o = .ok s1) : s1.line = Board.change s.line o.id none := by
  obtain ⟨k, a1, a2, a3, a4, a5, a6⟩ := hi.take mem sym run
  funext k'
  exact line_set hi a3 (by rw [mem]; simp) (by simp [a6]) k'

theorem deleteOp_run {m : Bool} {s s' : Core} {o : Order} {e} (hi : Inv s) (mem : s.orders o.id = some o)
    (sym : o.symbolId = s.book.symbol.id) (h : s.deleteOp m o = .ok (s', e)) :
    e = .ok ∧ Changed m s o.id none [] s' := by
  unfold deleteOp deleteBody at h
  obtain ⟨s1, h1, h2⟩ := bind_inv h
  obtain ⟨s2, h3, h4⟩ := bind_inv h1
  cases h4
  have hl := unlink_line hi mem sym h3
  have st : Step (.take o) s none s2 (some o) := .take mem sym h3
  have hc := st.inv (CInv.none_iff.2 hi)
  obtain ⟨a, ⟨A, b⟩, evs, c, d, _⟩ := drop_run hc h2
  obtain ⟨ev1, g1⟩ := st.events (CInv.none_iff.2 hi)
  refine ⟨a, ⟨fun _ => True, .head trivial st (b.mono fun _ _ => trivial)⟩, ev1 ++ evs, execsOf evs, g1.ev.trans c, by rw [execsOf_append, g1.execs]; rfl, ?_⟩
  intro hq
  obtain ⟨d1, d2, d3⟩ := d (calm_change hc.inv hl (by simp) hq)
  exact ⟨d1, by rw [d3, hl], by rw [d2]; obtain ⟨k, a1, a2, a3, _⟩ := hi.take mem sym h3; exact a3.orders⟩

/-! ### Modification and replacement -/

/-- Result of taking an order out of its line and letting another one arrive. -/
structure Moved (m : Bool) (s : Core) (id : Nat) (t : Order) (s' : Core) (e : ErrorCode) : Prop where
  steps : ∃ A, Steps A s none s' none
  ev : ∃ evs rest, Ev s s' evs ∧ execsOf evs = (Board.arrive m (Board.change s.line id none) t).1 ++ rest ∧
    ((m = true → (Board.arrive m (Board.change s.line id none) t).2.quiet) →
      rest = [] ∧ (e = .ok → s'.line = (Board.arrive m (Board.change s.line id none) t).2))
  code : e = .ok ∨ e = .orderDuplicate

theorem quiet_change {l : Board} {id} (h : l.quiet) : (l.change id none).quiet := by
  have key : ∀ k r, r ∈ l.change id none k → r ∈ l k := by
    intro k r hr
    obtain ⟨r0, a, b⟩ := List.mem_filterMap.1 hr
    split at b
    · cases b
    · cases b; exact a
  refine ⟨fun b hb a ha => h.1 b (key _ _ hb) a (key _ _ ha), ?_⟩
  intro k hk
  cases hl : l.change id none k with
  | nil => rfl
  | cons r rs =>
    have := key k r (by rw [hl]; simp)
    rw [h.2 k hk] at this; cases this

theorem change_mem {l : Board} {id k r} (h : r ∈ l.change id none k) : r ∈ l k := by
  obtain ⟨r0, a, b⟩ := List.mem_filterMap.1 h
  split at b
  · cases b
  · cases b; exact a

theorem Arrived.moved {m : Bool} {s s1 s' : Core} {id : Nat} {t : Order} {e} {evs : List Event} (h : Arrived m s1 t s' e)
    (hs : ∃ A, Steps A s none s1 (some t)) (hev : Ev s s1 evs) (hx : execsOf evs = []) (hl : s1.line = Board.change s.line id none) : Moved m s id t s' e := by
  obtain ⟨A, hs⟩ := hs
  rcases h with ⟨he, ⟨B, h1⟩, ev2, rest, h2, h3, h4, _⟩ | ⟨he, ⟨B, h1⟩, ev2, h2, h3⟩
  · refine ⟨⟨fun _ => True, (hs.mono fun _ _ => trivial).trans (h1.mono fun _ _ => trivial)⟩, ⟨evs ++ ev2, rest, hev.trans h2, ?_, ?_⟩, .inl he⟩
    · rw [execsOf_append, hx, h3, hl]; rfl
    · intro hq
      rw [hl] at h4
      obtain ⟨h5, h6⟩ := h4 hq
      exact ⟨h5, fun _ => h6⟩
  · refine ⟨⟨fun _ => True, (hs.mono fun _ _ => trivial).trans (h1.mono fun _ _ => trivial)⟩, ⟨evs ++ ev2, [], hev.trans h2, ?_, ?_⟩, .inr he⟩
    · rw [execsOf_append, hx, h3, hl]; simp
    · intro _; exact ⟨rfl, fun h => by rw [he] at h; cases h⟩

theorem greedy_zero' {t : Order} (h : t.leaves = 0) (rs : List Order) : greedy t rs = [] ∧ greedyLeft t rs = t ∧ greedyRest t rs = rs := by
  cases rs with
  | nil => exact ⟨rfl, rfl, rfl⟩
  | cons r rs => exact greedy_stop (.inl h) rs

theorem chain_zero (t : Order) (R : List Order) : chain t 0 R = none := by
  cases R with
  | nil => rfl
  | cons r rs => unfold chain; rw [if_pos (.inl rfl)]

theorem fills_zero {t : Order} (h : t.leaves = 0) (R : List Order) : t.fills R = [] ∧ t.left R = t ∧ t.leaveLine R = R := by
  unfold Order.fills Order.left Order.leaveLine
  by_cases hw : t.whole
  · simp only [hw, if_true, h, chain_zero]; exact ⟨trivial, trivial, trivial⟩
  · simp only [hw, if_false]; exact greedy_zero' h R

theorem arrive_zero {m : Bool} {l : Board} {t : Order} (h : t.leaves = 0) : l.arrive m t = ([], l) := by
  have hn : ¬ t.rests := fun hr => by have := hr.1; omega
  unfold Board.arrive
  cases m with
  | false => simp [hn]
  | true =>
    simp only [if_true]
    have hc : (t.capped (l t.side.other.limits)).leaves = 0 := by unfold Order.capped; split <;> exact h
    obtain ⟨a, b, c⟩ := fills_zero hc (l t.side.other.limits)
    rw [a, b, c, if_neg (fun hr => by have := hr.1; omega)]
    have : l.put t.side.other.limits (l t.side.other.limits) = l := by
      funext k; unfold Board.put; split
      · rename_i e; rw [e]
      · rfl
    rw [this]

theorem stopLike_quiet {s : Core} (hi : Inv s) {o : Order} (mem : s.orders o.id = some o) (sym : o.symbolId = s.book.symbol.id)
    (hq : Board.quiet s.line) : o.isStopLike = false := by
  cases h : o.isStopLike with
  | false => rfl
  | true =>
    exfalso
    obtain ⟨k, hk⟩ := kind_of_notMarket (hi.orders _ o mem).2.notMarket
    have hl : o ∈ s.line k := (line_mem hi).2 ⟨mem, sym, hk⟩
    have : k.isLimit = false := by
      unfold Order.isStopLike Order.isStop Order.isStopLimit Order.isTrailingStop Order.isTrailingStopLimit at h
      unfold Order.kind at hk
      cases ht : o.type <;> simp [ht] at hk h
      all_goals (split at hk <;> cases hk <;> rfl)
    rw [hq.2 k this] at hl; cases hl

theorem modifyOp_run {m : Bool} {s s' : Core} {o : Order} {p q : Nat} {mit : Bool} {e} (hi : Inv s) (mem : s.orders o.id = some o)
    (sym : o.symbolId = s.book.symbol.id) (hp : p < W64) (hq : q < W64) (hvol : volume s.book + q < W64)
    (h : s.modifyOp m o p q mit = .ok (s', e)) : e = .ok ∧ Moved m s o.id (modified o p q mit) s' e := by
  obtain ⟨s1, a1, a2, a3, a4, a5⟩ := take_steps (m := m) (tag := .modify) hi mem sym
  have hok := (hi.orders _ o mem).2
  have hle := modified_leaves_le o p q mit
  have hl := unlink_line hi mem sym a1
  have hrep : (modified o p q mit).Repr64 := by
    have := hok.repr
    unfold Order.Repr64 at *
    refine ⟨this.1, this.2.1, hp, this.2.2.2.1, hq, this.2.2.2.2.2.1, by omega, this.2.2.2.2.2.2.2⟩
  have st0 : Step (.take o) s none s1 (some o) := .take mem sym a1
  have hc1 := st0.inv (CInv.none_iff.2 hi)
  obtain ⟨ev0, g0⟩ := st0.events (CInv.none_iff.2 hi)
  have hx0 : execsOf ev0 = [] := g0.execs
  unfold modifyOp at h
  rw [a1, Except.bind_ok] at h
  simp only at h
  by_cases hpos : (modified o p q mit).leaves > 0
  · simp only [hpos, if_true] at h
    have st : Step (.modify o (modified o p q mit)) s1 (some o) (s1.emit (.updateOrder (modified o p q mit)))
      (some (modified o p q mit)) := .modify hrep hpos (by omega)
    have hc2 := st.inv hc1
    obtain ⟨ev1, g1⟩ := st.events hc1
    have hx1 : execsOf ev1 = [] := g1.execs
    obtain ⟨⟨s2, t2⟩, h1, h2⟩ := bind_inv h
    have hit := matchIf_hit hc2 hpos (show o.type ≠ .market from hok.notMarket) h1
    obtain ⟨A, hst⟩ := matchIf_steps hc2 hpos h1
    have hf := hit.facts
    have harr : e = .ok ∧ Landed m (s1.emit (.updateOrder (modified o p q mit))) (modified o p q mit) s' := by
      simp only at h2
      by_cases hlv : t2.leaves > 0
      · simp only [hlv, if_true] at h2
        obtain ⟨s3, h3, h4⟩ := bind_inv h2
        refine hit.landed_link hst ⟨hlv, by rw [hf.2.1]; exact hok.notMarket, by rw [hf.2.1, hf.2.2]; exact hok.tif⟩ ?_ h3 h4
        refine hit.none _ ?_
        show s1.orders t2.id = none
        rw [a3, hf.1]; show setO _ o.id _ o.id = _; simp
      · simp only [hlv, if_false] at h2
        exact hit.landed_drop hst (fun hr => hlv hr.1) h2
    refine ⟨harr.1, Arrived.moved (.inl harr) ⟨fun _ => True, .head trivial st0 (.one trivial st)⟩ (g0.ev.trans g1.ev) (by rw [execsOf_append, hx0, hx1]; rfl) hl⟩
  · simp only [hpos, if_false] at h
    have st : Step (.vanish o (modified o p q mit)) s1 (some o) (s1.emit (.deleteOrder (modified o p q mit))) none :=
      .vanish (by omega)
    have hc2 := st.inv hc1
    obtain ⟨ev1, g1⟩ := st.events hc1
    have hx1 : execsOf ev1 = [] := g1.execs
    obtain ⟨a, ⟨B, b⟩, evs, c, d, _⟩ := Core.finish_run hc2.inv h
    refine ⟨a, ⟨⟨fun _ => True, .head trivial st0 (.head trivial st (b.mono fun _ _ => trivial))⟩, ⟨ev0 ++ (ev1 ++ evs), execsOf evs, g0.ev.trans (g1.ev.trans c), ?_, ?_⟩, .inl a⟩⟩
    · rw [execsOf_append, execsOf_append, hx0, hx1, arrive_zero (by omega)]; rfl
    · intro hq
      rw [arrive_zero (by omega)] at hq
      obtain ⟨d1, d2, d3⟩ := d (quiet_calm hc2.inv (by rw [show (s1.emit (.deleteOrder (modified o p q mit))).line = s1.line from rfl, hl]; exact hq))
      exact ⟨d1, fun _ => by rw [d3, arrive_zero (by omega)]; exact hl⟩

theorem replaceOp_run {m : Bool} {s s' : Core} {o : Order} {n p q : Nat} {e} (hi : Inv s) (mem : s.orders o.id = some o)
    (sym : o.symbolId = s.book.symbol.id) (hlim : o.type = .limit) (hn0 : 0 < n) (hn : n < W64) (hp : p < W64) (hq0 : 0 < q)
    (hq : q < W64) (hvol : volume s.book + q < W64)
    (h : s.replaceOp m o n p q = .ok (s', e)) :
    Moved m s o.id { o with id := n, price := p, quantity := q, executed := 0, leaves := q } s' e := by
  obtain ⟨s1, a1, a2, a3, a4, a5⟩ := take_steps (m := m) (tag := .modify) hi mem sym
  have hok := (hi.orders _ o mem).2
  have hl := unlink_line hi mem sym a1
  have st0 : Step (.take o) s none s1 (some o) := .take mem sym a1
  have hc1 := st0.inv (CInv.none_iff.2 hi)
  obtain ⟨ev0, g0⟩ := st0.events (CInv.none_iff.2 hi)
  have hx0 : execsOf ev0 = [] := g0.execs
  have st1 : Step (.cancel o) s1 (some o) (s1.emit (.deleteOrder o)) none := .cancel
  have hc2 := st1.inv hc1
  obtain ⟨ev1, g1⟩ := st1.events hc1
  have hx1 : execsOf ev1 = [] := g1.execs
  unfold replaceOp at h
  rw [a1, Except.bind_ok] at h
  simp only at h
  have htl : ({ o with id := n, price := p, quantity := q, executed := 0, leaves := q } : Order).type = .limit := hlim
  have hleaves : 0 < ({ o with id := n, price := p, quantity := q, executed := 0, leaves := q } : Order).leaves := hq0
  have st2 : Step (.arrive { o with id := n, price := p, quantity := q, executed := 0, leaves := q }) (s1.emit (.deleteOrder o)) none
      ((s1.emit (.deleteOrder o)).emit (.addOrder { o with id := n, price := p, quantity := q, executed := 0, leaves := q }))
      (some { o with id := n, price := p, quantity := q, executed := 0, leaves := q }) := by
    refine .arrive ?_ hn0 ?_ ?_ ?_
    · have := hok.repr
      unfold Order.Repr64 at *
      exact ⟨hn, this.2.1, hp, this.2.2.2.1, hq, by simp, hq, this.2.2.2.2.2.2.2⟩
    · show o.symbolId = s1.book.symbol.id; rw [a4]; exact sym
    · show volume s1.book + q < _; omega
    · intro h; exact hok.trail h
  have htif : ({ o with id := n, price := p, quantity := q, executed := 0, leaves := q } : Order).tif = o.tif := rfl
  generalize ({ o with id := n, price := p, quantity := q, executed := 0, leaves := q } : Order) = t at *
  have hc3 := st2.inv hc2
  obtain ⟨ev2, g2⟩ := st2.events hc2
  have hx2 : execsOf ev2 = [] := g2.execs
  obtain ⟨⟨s2, t2⟩, h1, h2⟩ := bind_inv h
  have hit := matchIf_hit hc3 hleaves (by rw [htl]; simp) h1
  obtain ⟨A, hst⟩ := matchIf_steps hc3 hleaves h1
  have hf := hit.facts
  have harr : Arrived m ((s1.emit (.deleteOrder o)).emit (.addOrder t)) t s' e := by
    simp only at h2
    by_cases hlv : t2.leaves > 0
    · simp only [hlv, if_true] at h2
      exact insertNew_run hit hst ⟨hlv, by rw [hf.2.1, htl]; simp, fun _ => by rw [hf.2.2, htif]; exact hok.tif hlim⟩ h2
    · simp only [hlv, if_false] at h2
      exact .inl (hit.landed_drop hst (fun hr => hlv hr.1) h2)
  refine harr.moved ⟨fun _ => True, .head trivial st0 (.head trivial st1 (.one trivial st2))⟩ (g0.ev.trans (g1.ev.trans g2.ev))
    (by rw [execsOf_append, execsOf_append, hx0, hx1, hx2]; rfl) hl

end CppTrader
