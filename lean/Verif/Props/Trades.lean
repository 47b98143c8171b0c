import Verif.Proof.Calls
import Verif.Proof.Demo
import Verif.Props.Calls
/-
What a public call may execute: C32, C33, C40, C09, C10.
`hev : g'.ev = g.ev ++ evs` says that `evs` are the handler callbacks raised by the call.
-/

namespace CppTrader
open Core

/-! ### Executions come in groups -/

theorem Op.on_execute {g : Mgr} {op : Op} {sym} (h : op.on g .execute sym) : op.isExecute = true := by
  cases op <;> simp only [Op.on] at h
  case addOrder => cases h.1
  case executeOrder => rfl
  case executeOrderAt => rfl
  case replaceOrder => obtain ⟨_, h, _⟩ := h; cases h
  all_goals (cases h.1)

theorem Op.on_modify {g : Mgr} {op : Op} {sym} (h : op.on g .modify sym) : op.isModify = true := by
  cases op <;> simp only [Op.on] at h
  case addOrder => cases h.1
  case modifyOrder => rfl
  case mitigateOrder => rfl
  case replaceOrder => obtain ⟨_, h, _⟩ := h; cases h
  all_goals (cases h.1)

theorem callL_execute {g : Mgr} {op sym o p q} (h : g.callL op sym (.execute o p q)) : op.isExecute = true := by
  rcases h with ⟨tag, on, hl⟩ | ⟨id, o', old, rfl, h1, h2⟩ | ⟨_, h⟩
  · rw [hl.exec _ _ _ rfl] at on; exact Op.on_execute on
  · rcases h2 with ⟨_, hl, _⟩ | ⟨_, _, hl⟩ <;> cases hl.exec _ _ _ rfl
  · cases h

theorem callL_trade {g : Mgr} {op sym l} (h : g.callL op sym l) (hl : l.isTrade) : g.matching = true ∨ op.isMatch = true := by
  cases hm : g.matching with
  | true => simp
  | false =>
    right
    rcases h with ⟨tag, on, ho⟩ | ⟨id, o', old, rfl, h1, h2⟩ | ⟨h | h, _⟩
    · exact absurd hl (ho.noTrade hm)
    · rcases h2 with ⟨_, ho, _⟩ | ⟨_, _, ho⟩ <;> exact absurd hl (ho.noTrade hm)
    · rw [h]; rfl
    · rw [h]; rfl

theorem callL_stopSafe {g : Mgr} {op sym l} (h : g.callL op sym l) (hm : op.isModify = false) : l.stopSafe := by
  rcases h with ⟨tag, on, ho⟩ | ⟨id, o', old, rfl, h1, h2⟩ | ⟨_, h⟩
  · refine ho.stopSafe ?_
    rintro rfl
    rw [Op.on_modify on] at hm; cases hm
  · rcases h2 with ⟨_, ho, _⟩ | ⟨_, _, ho⟩ <;> exact ho.stopSafe (by simp)
  · cases l <;> simp_all [EngL, Lbl.stopSafe]

/-- Every callback list of a call decomposes into the executions of its steps. -/
theorem call_execs {g : Mgr} (hr : g.Reachable) {op g' e evs} (ha : g.Admissible op) (hs : g.step op = .ok (g', e))
    (hev : g'.ev = g.ev ++ evs) : ∃ ls, CallEv g op g' evs ls := by
  obtain ⟨evs', ls, h⟩ := (hr.eff ha hs).callEv hr.minv
  have := h.ev
  rw [hev] at this
  cases List.append_cancel_left this
  exact ⟨ls, h⟩

/-- Callbacks are only ever appended: every call raises a (possibly empty) list of callbacks. -/
theorem events_appended {g : Mgr} (hr : g.Reachable) {op g' e} (ha : g.Admissible op) (hs : g.step op = .ok (g', e)) :
    ∃ evs, g'.ev = g.ev ++ evs := by
  obtain ⟨evs, ls, h⟩ := (hr.eff ha hs).callEv hr.minv
  exact ⟨evs, h.ev⟩

theorem Lbl.group {l : Lbl} (h : l.good) : l.execs = [] ∨ (Deal l.execs ∧ l.isTrade) ∨ (Cross l.execs ∧ l.isTrade ∧ ¬ l.notCross) ∨
    (Manual l.execs ∧ ∃ o p q, l = .execute o p q) := by
  cases l <;> simp only [Lbl.good] at h
  case trade => exact .inr (.inl ⟨h.1, trivial⟩)
  case sweep => exact .inr (.inl ⟨h.1, trivial⟩)
  case pair => exact .inr (.inl ⟨h.1, trivial⟩)
  case cross => exact .inr (.inr (.inl ⟨h, trivial, fun h => h⟩))
  case execute => exact .inr (.inr (.inr ⟨h, _, _, _, rfl⟩))
  all_goals exact .inl rfl

/-- C44: the executions of a call, in the order reported, are a sequence of complete groups, each within one
symbol: deals; crossings, only if the symbol has All-Or-None orders; manual executions, only in `ExecuteOrder`. -/
theorem C44_groups {g : Mgr} (hr : g.Reachable) {op g' e evs} (ha : g.Admissible op) (hs : g.step op = .ok (g', e))
    (hev : g'.ev = g.ev ++ evs) :
    ∃ groups : List (List (Order × Nat × Nat)), execsOf evs = groups.flatten ∧
      ∀ G ∈ groups, (∃ sym, ∀ x ∈ G, x.1.symbolId = sym) ∧
        (Deal G ∨ Cross G ∨ Manual G ∧ op.isExecute = true) := by
  obtain ⟨ls, h⟩ := call_execs hr ha hs hev
  refine ⟨(ls.map Lbl.execs).filter (fun G => !G.isEmpty), ?_, ?_⟩
  · rw [h.execs]
    generalize ls.map Lbl.execs = L
    induction L with
    | nil => rfl
    | cons a L ih => cases a <;> simp [ih]
  · intro G hG
    obtain ⟨h1, h2⟩ := List.mem_filter.1 hG
    obtain ⟨l, hl, rfl⟩ := List.mem_map.1 h1
    obtain ⟨sym, c, d, f⟩ := h.labels l hl
    refine ⟨⟨sym, f⟩, ?_⟩
    rcases l.group d with x | x | x | ⟨x, o, p, q, rfl⟩
    · rw [x] at h2; cases h2
    · exact .inl x.1
    · exact .inr (.inl x.1)
    · exact .inr (.inr ⟨x, callL_execute c⟩)

/-- Membership in the executions of a call, by label. -/
theorem CallEv.exec_mem {g op g' evs ls} (h : CallEv g op g' evs ls) {x} (hx : x ∈ execsOf evs) :
    ∃ l ∈ ls, x ∈ l.execs := by
  rw [h.execs] at hx
  obtain ⟨G, hG, hx⟩ := List.mem_flatten.1 hx
  obtain ⟨l, hl, rfl⟩ := List.mem_map.1 hG
  exact ⟨l, hl, hx⟩


theorem groups_flatten (L : List (List (Order × Nat × Nat))) : (L.filter (fun G => !G.isEmpty)).flatten = L.flatten := by
  induction L with
  | nil => rfl
  | cons a L ih => cases a <;> simp [ih]

/-- C44 for a symbol without All-Or-None orders: no crossings. -/
theorem C44_groups_noAON {g : Mgr} (hr : g.Reachable) {op g' e evs} (ha : g.Admissible op) (hs : g.step op = .ok (g', e))
    (hev : g'.ev = g.ev ++ evs) {sym : Nat} (hn : g.NoAON sym) (ho : op.noAON sym) :
    ∃ groups : List (List (Order × Nat × Nat)), execsOf evs = groups.flatten ∧
      ∀ G ∈ groups, ∃ n, (∀ x ∈ G, x.1.symbolId = n) ∧
        (Deal G ∨ Cross G ∧ n ≠ sym ∨ Manual G ∧ op.isExecute = true) := by
  obtain ⟨_, evs', ls, h, h'⟩ := (hr.eff ha hs).callEv_noAON hr.minv ha hn ho
  have := h.ev
  rw [hev] at this
  cases List.append_cancel_left this
  refine ⟨(ls.map Lbl.execs).filter (fun G => !G.isEmpty), by rw [groups_flatten]; exact h.execs, ?_⟩
  intro G hG
  obtain ⟨h1, h2⟩ := List.mem_filter.1 hG
  obtain ⟨l, hl, rfl⟩ := List.mem_map.1 h1
  obtain ⟨n, c, d, f, k⟩ := h' l hl
  refine ⟨n, f, ?_⟩
  rcases l.group d with x | x | x | ⟨x, o, p, q, rfl⟩
  · rw [x] at h2; cases h2
  · exact .inl x.1
  · exact .inr (.inl ⟨x.1, fun e => x.2.2 (k e)⟩)
  · exact .inr (.inr ⟨x, callL_execute c⟩)

/-! ### C32 -/

theorem Deal.amount {G} (h : Deal G) : ∀ x ∈ G, 0 < x.2.2 ∧ x.2.2 ≤ x.1.leaves ∧ (x.1.isAON = true → x.2.2 = x.1.leaves) := by
  cases h with
  | hit o t q side fill qty acc plain =>
    intro x hx
    simp only [List.mem_cons, List.not_mem_nil, or_false] at hx
    rcases hx with rfl | rfl
    · exact ⟨fill.pos, fill.le, fill.aon⟩
    · exact ⟨fill.pos, by simp only; omega, fun h => absurd h (by simp [plain.2])⟩
  | whole t xs fills sum pos tif =>
    intro x hx
    rcases List.mem_append.1 hx with hx | hx
    · obtain ⟨y, hy, rfl⟩ := List.mem_map.1 hx
      have := (fills y hy).2.1
      exact ⟨this.pos, this.le, this.aon⟩
    · simp at hx; subst hx; exact ⟨pos, Nat.le_refl _, fun _ => rfl⟩
  | pair e r side fe fr plain acc =>
    intro x hx
    simp only [List.mem_cons, List.not_mem_nil, or_false] at hx
    rcases hx with rfl | rfl
    · exact ⟨fe.pos, fe.le, fe.aon⟩
    · exact ⟨fr.pos, fr.le, fr.aon⟩

theorem Cross.amount {G} (h : Cross G) : ∀ x ∈ G, 0 < x.2.2 ∧ x.2.2 ≤ x.1.leaves ∧ (x.1.isAON = true → x.2.2 = x.1.leaves) ∧ x.1.type = .limit := by
  cases h with
  | mk p xs ys ne sd f1 f2 =>
    intro x hx
    rcases List.mem_append.1 hx with hx | hx <;> obtain ⟨y, hy, rfl⟩ := List.mem_map.1 hx
    · have := (f1 y hy).2
      exact ⟨this.pos, this.le, this.aon, this.limit⟩
    · have := (f2 y hy).2
      exact ⟨this.pos, this.le, this.aon, this.limit⟩

/-- C08 (first part): every execution reports a positive quantity of at most the leaves quantity of the order. -/
theorem C08_quantity {g : Mgr} (hr : g.Reachable) {op g' e evs} (ha : g.Admissible op) (hs : g.step op = .ok (g', e))
    (hev : g'.ev = g.ev ++ evs) : ∀ x ∈ execsOf evs, 0 < x.2.2 ∧ x.2.2 ≤ x.1.leaves := by
  obtain ⟨groups, h1, h2⟩ := C44_groups hr ha hs hev
  intro x hx
  rw [h1] at hx
  obtain ⟨G, hG, hx⟩ := List.mem_flatten.1 hx
  rcases (h2 G hG).2 with h | h | ⟨h, _⟩
  · exact ⟨(h.amount x hx).1, (h.amount x hx).2.1⟩
  · exact ⟨(h.amount x hx).1, (h.amount x hx).2.1⟩
  · cases h with
    | mk o p q pos le => simp at hx; subst hx; exact ⟨pos, le⟩

/-- C32: matching executes an All-Or-None order only for its whole remaining quantity. -/
theorem C32_aon_whole {g : Mgr} (hr : g.Reachable) {op g' e evs} (ha : g.Admissible op) (hs : g.step op = .ok (g', e))
    (hev : g'.ev = g.ev ++ evs) (hop : op.isExecute = false) :
    ∀ x ∈ execsOf evs, x.1.tif = .aon → x.2.2 = x.1.leaves := by
  obtain ⟨groups, h1, h2⟩ := C44_groups hr ha hs hev
  intro x hx ht
  have ht : x.1.isAON = true := by simp [Order.isAON, ht]
  rw [h1] at hx
  obtain ⟨G, hG, hx⟩ := List.mem_flatten.1 hx
  rcases (h2 G hG).2 with h | h | ⟨h, h3⟩
  · exact (h.amount x hx).2.2 ht
  · exact (h.amount x hx).2.2.1 ht
  · rw [hop] at h3; cases h3

/-- C32 applies: an incoming order fills a resting All-Or-None order completely and a limit order partly. -/
example : ∃ (g g' : Mgr) (e : ErrorCode), g.Reachable ∧ g.Admissible (.addOrder (.mkLimit 3 1 .buy 100 14)) ∧
    g.step (.addOrder (.mkLimit 3 1 .buy 100 14)) = .ok (g', e) ∧
    (decide ((execsOf (g'.ev.drop g.ev.length)).map (fun x => (x.1.id, x.2)) = [(1, 100, 10), (3, 100, 10), (2, 100, 4), (3, 100, 4)])) = true :=
  demoStep (p := fun g g' _ => decide ((execsOf (g'.ev.drop g.ev.length)).map (fun x => (x.1.id, x.2)) = [(1, 100, 10), (3, 100, 10), (2, 100, 4), (3, 100, 4)]))
    (trading ++ [.addOrder (.mkLimit 1 1 .sell 100 10 .aon), .addOrder (.mkLimit 2 1 .sell 100 9)]) (.addOrder (.mkLimit 3 1 .buy 100 14))
    (by decide +kernel)

/-! ### C33 -/

/-- C33: with matching disabled nothing is executed, except by `ExecuteOrder`, `EnableMatching` and `Match`. -/
theorem C33_no_matching {g : Mgr} (hr : g.Reachable) {op g' e evs} (ha : g.Admissible op) (hs : g.step op = .ok (g', e))
    (hev : g'.ev = g.ev ++ evs) (hm : g.matching = false) (hop : op.isExecute = false) (hop' : op.isMatch = false) :
    execsOf evs = [] := by
  obtain ⟨ls, h⟩ := call_execs hr ha hs hev
  cases hx : execsOf evs with
  | nil => rfl
  | cons x xs =>
    obtain ⟨l, hl, hx⟩ := h.exec_mem (x := x) (by rw [hx]; simp)
    obtain ⟨sym, c, d, _⟩ := h.labels l hl
    have key : ∀ l : Lbl, g.callL op sym l → l.isTrade → False := by
      intro l c t
      rcases callL_trade c t with h | h
      · rw [hm] at h; cases h
      · rw [hop'] at h; cases h
    rcases l.group d with y | y | y | ⟨y, o, p, q, rfl⟩
    · rw [y] at hx; cases hx
    · exact (key l c y.2).elim
    · exact (key l c y.2.1).elim
    · rw [callL_execute c] at hop; cases hop

/-- C33 applies: crossing orders are accepted without a trade while matching is disabled. -/
example : ∃ (g g' : Mgr) (e : ErrorCode), g.Reachable ∧ g.Admissible (.addOrder (.mkLimit 2 1 .buy 100 14)) ∧
    g.step (.addOrder (.mkLimit 2 1 .buy 100 14)) = .ok (g', e) ∧ (!g.matching && decide (e = .ok) && (g'.getOrder 2).isSome && (g'.getOrder 1).isSome) = true :=
  demoStep (p := fun g g' e => !g.matching && decide (e = .ok) && (g'.getOrder 2).isSome && (g'.getOrder 1).isSome)
    (opening ++ [.addOrder (.mkLimit 1 1 .sell 90 10)]) (.addOrder (.mkLimit 2 1 .buy 100 14)) (by decide +kernel)

/-! ### C40 -/

theorem notStopLike_type {o : Order} (h : o.isStopLike = false) : o.type = .market ∨ o.type = .limit := by
  unfold Order.isStopLike Order.isStop Order.isStopLimit Order.isTrailingStop Order.isTrailingStopLimit at h
  cases ht : o.type <;> simp_all

theorem stopSafe_types {l : Lbl} (hg : l.good) (hs : l.stopSafe) (hx : ∀ o p q, l ≠ .execute o p q) :
    ∀ x ∈ l.execs, x.1.type = .market ∨ x.1.type = .limit := by
  intro x hx'
  cases l <;> simp only [Lbl.good] at hg
  case trade t o q =>
    simp only [Lbl.execs, List.mem_cons, List.not_mem_nil, or_false] at hx'
    rcases hx' with rfl | rfl
    · exact .inr hg.2
    · exact notStopLike_type hs
  case sweep t xs =>
    rcases List.mem_append.1 hx' with h | h
    · obtain ⟨y, hy, rfl⟩ := List.mem_map.1 h
      exact .inr (hg.2 y hy)
    · simp at h; subst h; exact notStopLike_type hs
  case pair e r =>
    simp only [Lbl.execs, List.mem_cons, List.not_mem_nil, or_false] at hx'
    rcases hx' with rfl | rfl
    · exact .inr hg.2.1
    · exact .inr hg.2.2
  case cross p xs ys => exact .inr (hg.amount x hx').2.2.2
  case execute o p q => exact absurd rfl (hx o p q)
  all_goals cases hx'

/-- C40: no call other than `ModifyOrder`, `MitigateOrder` and `ExecuteOrder` executes an order that is
(still) a stop order of any type: what is executed is reported as a market or limit order. -/
theorem C40_stops_do_not_trade {g : Mgr} (hr : g.Reachable) {op g' e evs} (ha : g.Admissible op) (hs : g.step op = .ok (g', e))
    (hev : g'.ev = g.ev ++ evs) (hop : op.isExecute = false) (hop' : op.isModify = false) :
    ∀ x ∈ execsOf evs, x.1.type = .market ∨ x.1.type = .limit := by
  obtain ⟨ls, h⟩ := call_execs hr ha hs hev
  intro x hx
  obtain ⟨l, hl, hx⟩ := h.exec_mem hx
  obtain ⟨sym, c, d, _⟩ := h.labels l hl
  refine stopSafe_types d (callL_stopSafe c hop') ?_ x hx
  rintro o p q rfl
  rw [callL_execute c] at hop; cases hop

/-- C40 applies: a stop order is triggered by a trade and executed as a market order. -/
example : ∃ (g g' : Mgr) (e : ErrorCode), g.Reachable ∧ g.Admissible (.addOrder (.mkMarket 5 1 .buy 10)) ∧
    g.step (.addOrder (.mkMarket 5 1 .buy 10)) = .ok (g', e) ∧
    (decide ((execsOf (g'.ev.drop g.ev.length)).map (fun x => (x.1.id, x.1.type, x.2)) =
      [(1, .limit, 100, 10), (5, .market, 100, 10), (2, .limit, 110, 3), (3, .market, 110, 3)])) = true :=
  demoStep (p := fun g g' _ => decide ((execsOf (g'.ev.drop g.ev.length)).map (fun x => (x.1.id, x.1.type, x.2)) =
      [(1, .limit, 100, 10), (5, .market, 100, 10), (2, .limit, 110, 3), (3, .market, 110, 3)]))
    (trading ++ [.addOrder (.mkLimit 1 1 .sell 100 10), .addOrder (.mkLimit 2 1 .sell 110 10), .addOrder (.mkStop 3 1 .buy 105 3)])
    (.addOrder (.mkMarket 5 1 .buy 10)) (by decide +kernel)

/-- C40, the exception: `ModifyOrder` executes a stop order although the market is far from its stop price. -/
theorem C40_modify_witness : ∃ (g g' : Mgr) (e : ErrorCode), g.Reachable ∧ g.Admissible (.modifyOrder 3 100 3) ∧
    g.step (.modifyOrder 3 100 3) = .ok (g', e) ∧
    (decide ((execsOf (g'.ev.drop g.ev.length)).map (fun x => (x.1.id, x.1.type, x.1.stopPrice, x.2)) =
      [(1, .limit, 0, 100, 3), (3, .stop, 200, 100, 3)])) = true :=
  demoStep (p := fun g g' _ => decide ((execsOf (g'.ev.drop g.ev.length)).map (fun x => (x.1.id, x.1.type, x.1.stopPrice, x.2)) =
      [(1, .limit, 0, 100, 3), (3, .stop, 200, 100, 3)]))
    (trading ++ [.addOrder (.mkLimit 1 1 .sell 100 10), .addOrder (.mkStop 3 1 .buy 200 3)])
    (.modifyOrder 3 100 3) (by decide +kernel)

/-! ### C09, C10 -/

theorem sideTotal_append (sd : Side) (xs ys) : sideTotal sd (xs ++ ys) = sideTotal sd xs + sideTotal sd ys := by
  simp [sideTotal]

theorem sideTotal_all {sd : Side} {xs : List (Order × Nat)} {p : Nat} (h : ∀ x ∈ xs, x.1.side = sd) :
    sideTotal sd (xs.map fun x => (x.1, p, x.2)) = (xs.map (·.2)).sum := by
  induction xs with
  | nil => rfl
  | cons x xs ih =>
    have h1 := h x (by simp)
    have := ih (fun y hy => h y (by simp [hy]))
    simp only [sideTotal, List.map_cons, List.filter_cons, h1, decide_true, if_true, List.sum_cons] at this ⊢
    omega

theorem sideTotal_none {sd : Side} {xs : List (Order × Nat)} {p : Nat} (h : ∀ x ∈ xs, x.1.side ≠ sd) :
    sideTotal sd (xs.map fun x => (x.1, p, x.2)) = 0 := by
  induction xs with
  | nil => rfl
  | cons x xs ih =>
    have h1 := h x (by simp)
    have := ih (fun y hy => h y (by simp [hy]))
    simp only [sideTotal, List.map_cons, List.filter_cons, h1, decide_false] at this ⊢
    exact this

theorem sideTotal_two {sd : Side} {a b : Order} {p q : Nat} (h : a.side ≠ b.side) : sideTotal sd [(a, p, q), (b, p, q)] = q := by
  unfold sideTotal
  cases ha : a.side <;> cases hb : b.side <;> cases sd <;> simp_all

theorem Deal.total {G} (h : Deal G) : ∃ v, ∀ sd, sideTotal sd G = v := by
  cases h with
  | hit o t q side fill qty acc plain => exact ⟨q, fun sd => sideTotal_two side⟩
  | whole t xs fills sum pos tif =>
    refine ⟨t.leaves, fun sd => ?_⟩
    rw [sideTotal_append]
    by_cases e : t.side = sd
    · rw [sideTotal_none (fun x hx => by rw [← e]; exact (fills x hx).1)]
      simp [sideTotal, e]
    · rw [sideTotal_all (fun x hx => by
        have := (fills x hx).1
        cases h1 : x.1.side <;> cases h2 : t.side <;> cases sd <;> simp_all), sum]
      simp [sideTotal, e]
  | pair e r side fe fr plain acc => exact ⟨_, fun sd => sideTotal_two side⟩

theorem Deal.prices {G} (h : Deal G) : ∀ x ∈ G, x.1.accepts x.2.1 := by
  cases h with
  | hit o t q side fill qty acc plain =>
    intro x hx
    simp only [List.mem_cons, List.not_mem_nil, or_false] at hx
    rcases hx with rfl | rfl
    · unfold Order.accepts; split <;> simp
    · exact acc
  | whole t xs fills sum pos tif =>
    intro x hx
    rcases List.mem_append.1 hx with hx | hx
    · obtain ⟨y, hy, rfl⟩ := List.mem_map.1 hx
      exact (fills y hy).2.2
    · simp at hx; subst hx; unfold Order.accepts; split <;> simp
  | pair e r side fe fr plain acc =>
    intro x hx
    simp only [List.mem_cons, List.not_mem_nil, or_false] at hx
    rcases hx with rfl | rfl
    · unfold Order.accepts; split <;> simp
    · exact acc


theorem execsOn_groups {P : List (Order × Nat × Nat) → Prop} {groups : List (List (Order × Nat × Nat))} {sym : Nat}
    (h : ∀ G ∈ groups, ∃ n, (∀ x ∈ G, x.1.symbolId = n) ∧ (n = sym → P G)) :
    ∃ gs : List (List (Order × Nat × Nat)), execsOn sym groups.flatten = gs.flatten ∧ ∀ G ∈ gs, P G := by
  induction groups with
  | nil => exact ⟨[], rfl, by simp⟩
  | cons G Gs ih =>
    obtain ⟨gs, h1, h2⟩ := ih (fun G hG => h G (by simp [hG]))
    obtain ⟨n, a, b⟩ := h G (by simp)
    by_cases e : n = sym
    · refine ⟨G :: gs, ?_, ?_⟩
      · rw [List.flatten_cons, List.flatten_cons, ← h1]
        unfold execsOn
        rw [List.filter_append, List.filter_eq_self.2 (fun x hx => by simp [a x hx, e])]
      · intro G' hG'
        rcases List.mem_cons.1 hG' with rfl | h
        · exact b e
        · exact h2 _ h
    · refine ⟨gs, ?_, h2⟩
      rw [List.flatten_cons, ← h1]
      unfold execsOn
      rw [List.filter_append, List.filter_eq_nil_iff.2 (fun x hx => by simp [a x hx, e])]
      rfl

theorem noAON_deals {g : Mgr} (hr : g.Reachable) {op g' e evs} (ha : g.Admissible op) (hs : g.step op = .ok (g', e))
    (hev : g'.ev = g.ev ++ evs) (hop : op.isExecute = false) {sym : Nat} (hn : g.NoAON sym) (ho : op.noAON sym) :
    ∃ gs : List (List (Order × Nat × Nat)), execsOn sym (execsOf evs) = gs.flatten ∧ ∀ G ∈ gs, Deal G := by
  obtain ⟨groups, h1, h2⟩ := C44_groups_noAON hr ha hs hev hn ho
  rw [h1]
  refine execsOn_groups (fun G hG => ?_)
  obtain ⟨n, a, b⟩ := h2 G hG
  refine ⟨n, a, fun e => ?_⟩
  rcases b with b | ⟨_, b⟩ | ⟨_, b⟩
  · exact b
  · exact absurd e b
  · rw [hop] at b; cases b

/-- C09: in every call other than `ExecuteOrder`, for a symbol without All-Or-None orders, the total quantity
executed on buy orders equals the total quantity executed on sell orders. -/
theorem C09_conservation {g : Mgr} (hr : g.Reachable) {op g' e evs} (ha : g.Admissible op) (hs : g.step op = .ok (g', e))
    (hev : g'.ev = g.ev ++ evs) (hop : op.isExecute = false) {sym : Nat} (hn : g.NoAON sym) (ho : op.noAON sym) :
    sideTotal .buy (execsOn sym (execsOf evs)) = sideTotal .sell (execsOn sym (execsOf evs)) := by
  obtain ⟨gs, h1, h2⟩ := noAON_deals hr ha hs hev hop hn ho
  rw [h1]
  clear h1
  induction gs with
  | nil => rfl
  | cons G gs ih =>
    obtain ⟨v, hv⟩ := (h2 G (by simp)).total
    rw [List.flatten_cons, sideTotal_append, sideTotal_append, hv, hv, ih (fun G hG => h2 G (by simp [hG]))]

/-- C10: in every call other than `ExecuteOrder`, for a symbol without All-Or-None orders, no buy order is
executed above its price and no sell order below its price (market orders: above/below the price given by
their slippage). -/
theorem C10_limit_price {g : Mgr} (hr : g.Reachable) {op g' e evs} (ha : g.Admissible op) (hs : g.step op = .ok (g', e))
    (hev : g'.ev = g.ev ++ evs) (hop : op.isExecute = false) {sym : Nat} (hn : g.NoAON sym) (ho : op.noAON sym) :
    ∀ x ∈ execsOf evs, x.1.symbolId = sym → (x.1.side = .buy → x.2.1 ≤ x.1.price) ∧ (x.1.side = .sell → x.1.price ≤ x.2.1) := by
  obtain ⟨gs, h1, h2⟩ := noAON_deals hr ha hs hev hop hn ho
  intro x hx hsym
  have : x ∈ execsOn sym (execsOf evs) := List.mem_filter.2 ⟨hx, by simp [hsym]⟩
  rw [h1] at this
  obtain ⟨G, hG, hx⟩ := List.mem_flatten.1 this
  have := (h2 G hG).prices x hx
  unfold Order.accepts at this
  constructor <;> intro e <;> rw [e] at this <;> exact this

/-- The hypothesis of C09/C10 is kept by calls that submit no All-Or-None order. -/
theorem noAON_kept {g : Mgr} (hr : g.Reachable) {op g' e} (ha : g.Admissible op) (hs : g.step op = .ok (g', e))
    {sym : Nat} (hn : g.NoAON sym) (ho : op.noAON sym) : g'.NoAON sym :=
  ((hr.eff ha hs).callEv_noAON hr.minv ha hn ho).1

theorem noAON_init (sym : Nat) : Mgr.init.NoAON sym := by
  intro i o ho; simp [Mgr.getOrder, Mgr.init] at ho

/-- It holds in particular in every history without All-Or-None orders for the symbol. -/
theorem noAON_history {h g} (hh : Mgr.History h g) {sym : Nat} (hops : ∀ x ∈ h, x.1.noAON sym) : g.NoAON sym := by
  induction hh with
  | nil => exact noAON_init sym
  | snoc h1 ha hs ih =>
    have hr : Mgr.Reachable _ := h1.reachable
    exact noAON_kept hr ha hs (ih fun x hx => hops x (by simp [hx])) (hops (_, _) (List.mem_append_right _ (List.mem_singleton.2 rfl)))

/-- C09 and C10 apply: an incoming order trades with two resting orders, then a triggered stop order trades. -/
example : ∃ (g g' : Mgr) (e : ErrorCode), g.Reachable ∧ g.Admissible (.addOrder (.mkLimit 5 1 .buy 100 10)) ∧
    g.step (.addOrder (.mkLimit 5 1 .buy 100 10)) = .ok (g', e) ∧
    (decide (sideTotal .buy (execsOn 1 (execsOf (g'.ev.drop g.ev.length))) = 13)) = true :=
  demoStep (p := fun g g' _ => decide (sideTotal .buy (execsOn 1 (execsOf (g'.ev.drop g.ev.length))) = 13))
    (trading ++ [.addOrder (.mkLimit 1 1 .sell 99 6), .addOrder (.mkLimit 4 1 .sell 100 4), .addOrder (.mkLimit 2 1 .sell 110 10),
      .addOrder (.mkStop 3 1 .buy 105 3)])
    (.addOrder (.mkLimit 5 1 .buy 100 10)) (by decide +kernel)
example : Op.noAON 1 (.addOrder (.mkLimit 5 1 .buy 100 10)) := fun _ h => by cases h

/-- C09 fails with All-Or-None orders: 10 bought, 14 sold. -/
theorem C09_aon_witness : ∃ (g g' : Mgr) (e : ErrorCode), g.Reachable ∧ g.Admissible (.addOrder (.mkLimit 5 1 .buy 20 10 .aon)) ∧
    g.step (.addOrder (.mkLimit 5 1 .buy 20 10 .aon)) = .ok (g', e) ∧
    (decide (sideTotal .buy (execsOn 1 (execsOf (g'.ev.drop g.ev.length))) = 10) &&
      decide (sideTotal .sell (execsOn 1 (execsOf (g'.ev.drop g.ev.length))) = 14)) = true :=
  demoStep (p := fun g g' _ => decide (sideTotal .buy (execsOn 1 (execsOf (g'.ev.drop g.ev.length))) = 10) &&
      decide (sideTotal .sell (execsOn 1 (execsOf (g'.ev.drop g.ev.length))) = 14))
    (trading ++ [.addOrder (.mkLimit 1 1 .sell 20 4), .addOrder (.mkLimit 2 1 .sell 20 10 .aon), .addOrder (.mkLimit 3 1 .sell 25 4)])
    (.addOrder (.mkLimit 5 1 .buy 20 10 .aon)) (by decide +kernel)

/-- C10 fails with All-Or-None orders: a sell order with limit price 30 is executed at 20. -/
theorem C10_aon_witness : ∃ (g g' : Mgr) (e : ErrorCode), g.Reachable ∧ g.Admissible (.addOrder (.mkLimit 3 1 .buy 20 100 .aon)) ∧
    g.step (.addOrder (.mkLimit 3 1 .buy 20 100 .aon)) = .ok (g', e) ∧
    ((execsOf (g'.ev.drop g.ev.length)).any (fun x => decide (x.1.side = .sell ∧ x.1.type = .limit ∧ x.1.price = 30 ∧ x.2.1 = 20))) = true :=
  demoStep (p := fun g g' _ => (execsOf (g'.ev.drop g.ev.length)).any (fun x => decide (x.1.side = .sell ∧ x.1.type = .limit ∧ x.1.price = 30 ∧ x.2.1 = 20)))
    (trading ++ [.addOrder (.mkLimit 1 1 .sell 15 50), .addOrder (.mkLimit 2 1 .sell 30 50)])
    (.addOrder (.mkLimit 3 1 .buy 20 100 .aon)) (by decide +kernel)

end CppTrader
