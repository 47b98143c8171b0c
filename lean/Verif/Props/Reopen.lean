import Verif.Props.Restore
import Verif.Props.Inert
/-
C74, restoring with matching on.
-/

namespace CppTrader
open Core Inert

theorem Restored.part {bs : List Nat} {g : Mgr} (hr : g.Reachable) (hb : ∀ s, g.getBook s ≠ none → s ∈ bs) : ∀ {qs ps rest : List Order} {z : Venue}, Restored bs ps z →
    g.Saved (ps ++ (qs ++ rest)) → Restored bs (ps ++ qs) (z.after (qs.map .addOrder)) := by
  intro qs
  induction qs with
  | nil => intro ps rest z h _; rw [List.append_nil]; exact h
  | cons r qs ih =>
    intro ps rest z h hs
    obtain ⟨z', h1, h2⟩ := h.add hr hs hb
    have a2 := ih (rest := rest) h2 (by rw [List.append_assoc]; exact hs)
    show Restored bs _ ((z.call (.addOrder r)).2.2.after _)
    rw [h1]
    rw [List.append_assoc] at a2
    exact a2

/-- C74. If no bid meets an ask in the first manager and there are no stop orders, the orders can be given to the new manager with
matching on as well: every order is accepted without an execution, and the new manager has the same orders and lines. -/
theorem C74_restore_matching {g h : Mgr} (hr : g.Reachable) (hrh : h.Reachable) (hb : h.BlankFor g) {os : List Order} (hs : g.Saved os)
    (hn : ∀ id o, g.getOrder id = some o → g.getBook o.symbolId ≠ none) (hq : ∀ s, (g.lines s).quiet) :
    ∃ (l : List (Op × ErrorCode × List Execution)) (h' : Mgr), h.Records l h' ∧ l.map (·.1) = .enableMatching :: os.map .addOrder ∧
      (∀ r ∈ l, r.2 = (.ok, [])) ∧ (∀ id, h'.getOrder id = g.getOrder id) ∧ ∀ s, h'.lines s = g.lines s := by
  obtain ⟨y, hy⟩ := hrh.seats
  have hh := hrh.minv
  obtain ⟨h0, hgb⟩ := Restored.start hy hh hb
  obtain ⟨l0, h1, hl0, ho0⟩ := C74_restorable hr hrh hb hs
  obtain ⟨ok0, get0, lines0, _, _⟩ := C74_restore hr hrh hb hs hn hl0 ho0
  have hrec := logs_records hl0
  -- the calls meet nobody
  have hp : h.AllPassive (l0.map fun r => (r.1, r.2.1, execsOf r.2.2)) := by
    intro l1 r l2 g1 e hl1
    have e2 : os.map Op.addOrder = l1.map (·.1) ++ r.1 :: l2.map (·.1) := by
      rw [← ho0]
      have := congrArg (List.map (·.1)) e
      rw [List.map_map, List.map_append, List.map_cons] at this
      exact this
    obtain ⟨os1, os2, e3, e4, e5⟩ := List.map_eq_append_iff.1 e2
    obtain ⟨o, os3, e6, e7, e8⟩ := List.map_eq_cons_iff.1 e5
    subst e6
    have hR := Restored.part hr hgb (qs := os1) (ps := []) (rest := o :: os3) h0 (by rw [List.nil_append, ← e3]; exact hs)
    rw [List.nil_append, e4] at hR
    obtain ⟨_, hg1, hS⟩ := hy.records hh hl1
    rw [← e7]
    show o.idle _
    have hoo : g.getOrder o.id = some o := hs.orders o (by rw [e3]; simp)
    obtain ⟨k, hk⟩ := getOrder_kind hr hoo
    have hbk := hn _ _ hoo
    have hmem : o ∈ g.lines o.symbolId k := (lines_complete hr hbk).2 ⟨hoo, rfl, hk⟩
    have hkl : k.isLimit = true := by
      cases hkk : k.isLimit with
      | true => rfl
      | false => rw [(hq o.symbolId).2 k hkk] at hmem; cases hmem
    have hty : o.type = .limit := by
      unfold Order.home at hk
      cases ht : o.type <;> cases hsd : o.side <;> rw [ht, hsd] at hk <;> first | rfl | (simp at hk; done) | (simp at hk; subst hk; cases hkl)
    have hks : k = o.side.limits := by
      unfold Order.home at hk
      rw [hty] at hk
      cases hsd : o.side <;> rw [hsd] at hk <;> simp at hk <;> rw [← hk] <;> rfl
    refine .inl ⟨hty, fun r hrr => ?_⟩
    have hsub : r ∈ g.lines o.symbolId o.side.other.limits := by
      have hbs := hgb _ hbk
      have hpit := hR.pits _ hbs
      have hbk1 : g1.getBook o.symbolId ≠ none := (hS.books _).1 (by rw [hR.books]; exact hbs)
      obtain ⟨b, hb1⟩ := Option.ne_none_iff_exists'.1 hbk1
      have e9 : (⟨fun k => os1.filter (fun o' => decide (o'.symbolId = o.symbolId ∧ o'.home.map (·.1) = some k)), .blank, .blank, .blank⟩ : Pit).board
          = g1.lines o.symbolId := by
        rw [← hpit, hS.pits _ b hb1, lines_board hg1 hb1]
        rfl
      rw [← e9] at hrr
      rw [← hs.lines o.symbolId o.side.other.limits, e3]
      have h2 := List.mem_filter.1 hrr
      exact List.mem_filter.2 ⟨List.mem_append_left _ h2.1, h2.2⟩
    have hunc := (hq o.symbolId).1
    rw [hks] at hmem
    cases hsd : o.side with
    | buy => rw [hsd] at hmem hsub; exact hunc o hmem r hsub
    | sell => rw [hsd] at hmem hsub; exact hunc r hsub o hmem
  have hstill : Still y := by
    intro s hsb
    rw [h0.pits s hsb]
    exact ⟨(fun b hb => by cases hb), fun k _ => rfl⟩
  have hfl : ∀ l : List Order, (l.map Op.addOrder).filter (fun op => !op.isMode) = l.map Op.addOrder := by
    intro l
    rw [List.filter_eq_self]
    intro op h
    obtain ⟨o, _, rfl⟩ := List.mem_map.1 h
    rfl
  have hops : (l0.map fun r => (r.1, r.2.1, execsOf r.2.2)).map (·.1) = os.map Op.addOrder := by rw [List.map_map]; exact ho0
  obtain ⟨x', y', l', h', c1, c2, c3, c4, c5, c6, c7, c8, c9, c10⟩ := inert_runs _ (Nat.le_refl _) hy hh hy hh hstill rfl hrec hp
    (ops := .enableMatching :: os.map .addOrder) (by rw [hops]; rfl)
  obtain ⟨s1, s2⟩ := near_shows c3 c4 c5 c6 c7
  refine ⟨l', h', c1, c2, fun r hr' => ?_, fun id => by rw [← s1, get0], fun s => by rw [← (s2 s).2.2.1, lines0]⟩
  by_cases hm : r.1.isMode = true
  · exact c10 r hr' hm
  · have : r ∈ l'.filter (fun r => !r.1.isMode) := List.mem_filter.2 ⟨hr', by simpa using hm⟩
    rw [c8] at this
    obtain ⟨r0, h1, h2⟩ := List.mem_map.1 (List.mem_filter.1 this).1
    have := ok0 r0 h1
    rw [← h2, this.1, this.2]

/-- A session without registrations keeps the symbols, the books and the orders in them. -/
theorem no_registry {a g : Mgr} {l} (ha : a.Reachable) (hl : a.Records l g) (hh : a.Housed []) (hn : ∀ r ∈ l, ¬ r.1.isRegistry) :
    g.Reachable ∧ g.Housed [] ∧ (∀ s, g.getSymbol s = a.getSymbol s) ∧ ∀ s, (g.getBook s).map (·.symbol) = (a.getBook s).map (·.symbol) := by
  induction hl with
  | nil => exact ⟨ha, hh, fun _ => rfl, fun _ => rfl⟩
  | cons hm hs _ _ ih =>
    rename_i op _ _ _ _ _
    have hno := hn _ (List.mem_cons_self ..)
    obtain ⟨k1, k2⟩ := titles_kept ha.minv hm hs hno
    have h7 := step_housed ha hm hs hh
    have h8 : op.removes = [] := by cases op <;> first | rfl | exact absurd trivial hno
    rw [h8] at h7
    obtain ⟨k5, k6, k3, k4⟩ := ih (ha.step hm hs) h7 (fun r hr => hn r (List.mem_cons_of_mem _ hr))
    exact ⟨k5, k6, fun s => (k3 s).trans (k1 s), fun s => (k4 s).trans (k2 s)⟩

/-- Trading with matching on; four orders are left, one of them All-Or-None. -/
def tradedOut : List Op := [.enableMatching, .addOrder (.mkLimit 1 1 .buy 99 10), .addOrder (.mkLimit 2 1 .sell 101 5), .addOrder (.mkLimit 3 1 .sell 99 4),
  .addOrder (.mkLimit 4 1 .sell 102 8 .aon), .addOrder (.mkLimit 5 1 .buy 99 7), .modifyOrder 2 103 6]

/-- C74_restore_matching applies. -/
example : ∃ (g h : Mgr) (os : List Order), g.Reachable ∧ h.Reachable ∧ h.BlankFor g ∧ g.Saved os ∧ os.map (fun o => (o.id, o.leaves)) = [(1, 6), (5, 7), (4, 8), (2, 6)] ∧
    (∀ id o, g.getOrder id = some o → g.getBook o.symbolId ≠ none) ∧ g.matching = true ∧ ∀ s, (g.lines s).quiet := by
  have ho : openedMgr.Reachable := by
    obtain ⟨l, h1, _⟩ := checkRun_records (g' := openedMgr) .init (fun _ _ => rfl) (show checkRun true Mgr.init opening = some openedMgr by rfl)
    obtain ⟨_, h2, _⟩ := records_logs h1
    exact logs_reachable h2 .init
  let p : Mgr → Bool := fun g => decide (((List.range g.books.length).flatMap fun s => Kind.all.flatMap fun k => g.lines s k).map (fun o => (o.id, o.leaves)) =
      [(1, 6), (5, 7), (4, 8), (2, 6)]) && g.matching && decide (∀ b ∈ g.lines 1 .bid, ∀ a ∈ g.lines 1 .ask, b.price < a.price) &&
      (g.lines 1 .buyStop).isEmpty && (g.lines 1 .sellStop).isEmpty && (g.lines 1 .tBuyStop).isEmpty && (g.lines 1 .tSellStop).isEmpty
  have hp : (checkRun true openedMgr tradedOut).any p = true := by decide +kernel
  cases hc : checkRun true openedMgr tradedOut with
  | none => rw [hc] at hp; cases hp
  | some g =>
    rw [hc] at hp
    replace hp : p g = true := hp
    obtain ⟨l, a1, a2⟩ := checkRun_records ho (fun _ _ => rfl) hc
    have hreg : ∀ r ∈ l, ¬ r.1.isRegistry := by
      intro r hr
      have : r.1 ∈ l.map (·.1) := List.mem_map_of_mem hr
      rw [a2] at this
      revert this
      generalize r.1 = op
      intro hm
      simp only [tradedOut, List.mem_cons, List.not_mem_nil, or_false] at hm
      rcases hm with rfl | rfl | rfl | rfl | rfl | rfl | rfl <;> exact fun h => h
    obtain ⟨k1, k2, k3, k4⟩ := no_registry ho a1 (fun i o h => by cases h) hreg
    have hb : openedMgr.BlankFor g := by
      refine ⟨rfl, fun s => (k3 s).symm, fun s => (k4 s).symm, fun id => ?_, fun s b hb => ?_⟩
      · unfold Mgr.getOrder; split <;> rfl
      · obtain ⟨_, rfl⟩ := opened_book hb
        exact ⟨rfl, rfl, rfl, rfl, rfl, rfl⟩
    simp only [p, Bool.and_eq_true, decide_eq_true_eq, List.isEmpty_iff] at hp
    obtain ⟨⟨⟨⟨⟨⟨p1, p2⟩, p3⟩, p4⟩, p5⟩, p6⟩, p7⟩ := hp
    refine ⟨g, openedMgr, _, k1, ho, hb, C74_saved k1, p1, ?_, p2, fun s => ?_⟩
    · intro id o h
      rw [k1.minv.getOrder] at h
      exact (k2 id o h).elim (fun h => h) (fun h => by cases h)
    · by_cases hs : s = 1
      · subst hs
        exact ⟨p3, fun k hk => by cases k <;> first | exact p4 | exact p5 | exact p6 | exact p7 | cases hk⟩
      · have hnb : g.getBook s = none := by
          have := k4 s
          cases h8 : openedMgr.getBook s with
          | none => rw [h8] at this; exact Option.map_eq_none_iff.1 this
          | some c => exact absurd (opened_book h8).1 hs
        exact ⟨(fun b hb => by rw [lines_none hnb] at hb; cases hb), fun k _ => lines_none hnb k⟩

end CppTrader
