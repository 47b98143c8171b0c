import Verif.Proof.Textbook
/-
One call of the engine and of the textbook exchange.
-/

namespace CppTrader
open Core

/-- Same result code, same executions, and the states agree afterwards. -/
def Same (r : ErrorCode × List Execution × Exchange) (e : ErrorCode) (evs : List Event) (g' : Mgr) : Prop :=
  r.1 = e ∧ r.2.1 = execsOf evs ∧ Agree r.2.2 g'

theorem Agree.refused {x : Exchange} {g g' : Mgr} (h : Agree x g) (hr : g.Reachable) {op e evs c} (ha : g.Admissible op)
    (hs : g.step op = .ok (g', e)) (hev : g'.ev = g.ev ++ evs) (hc : g.refusal op = some c) : Same (x.refuse c) e evs g' := by
  have := C43_refused hr hc ha
  rw [hs] at this; cases this
  cases List.self_eq_append_right.1 hev
  exact ⟨rfl, rfl, h⟩

/-- A carried-out call on an order, with what is known about its effect. -/
theorem Agree.orderCall {x : Exchange} {g g' : Mgr} (h : Agree x g) (hr : g.Reachable) {op e evs} (ha : g.Admissible op)
    (hs : g.step op = .ok (g', e)) (hn : g.refusal op = none) {o : Order}
    (hon : ∀ tag sym, op.on g tag sym → sym = o.symbolId) (hreg : ∃ tag sym, op.on g tag sym) (hop : ∀ s, op.noAON s) {r : List Execution × Board}
    (he : e = .ok) (hx : execsOf evs = r.1) (hl : g'.lines = g.lines.set o.symbolId r.2)
    (hp : ∀ k, ∀ a ∈ r.2 k, a.book) : Same (x.accept o.symbolId r) e evs g' := by
  have heff := hr.eff ha hs
  refine ⟨he.symm, hx.symm, ?_⟩
  have key : ∃ tag, BookOp tag o.symbolId g g' e := by
    obtain ⟨tag, sym, hreg⟩ := hreg
    cases heff with
    | refused h => rw [hn] at h; cases h.2.2.2
    | book on hb => exact ⟨_, by rw [← hon _ _ on]; exact hb⟩
    | _ => cases hreg
  obtain ⟨tag, hb⟩ := key
  exact h.moved hr (hr.step ha hs) heff ha hop hb hl hp

theorem Agree.book_iff {x : Exchange} {g : Mgr} (h : Agree x g) (i : Nat) : i ∉ x.books ↔ g.getBook i = none := by
  rw [h.books]; exact Decidable.not_not

theorem Agree.orderRefusal {x : Exchange} {g : Mgr} (h : Agree x g) {id} {o : Order} (ho : g.getOrder id = some o) : g.orderRefusal id = none := by
  unfold Mgr.orderRefusal
  rw [ho]
  simp only [if_neg (h.kept id o ho)]

theorem orders_of {g : Mgr} (hr : g.Reachable) {id o} (ho : g.getOrder id = some o) : g.orders id = some o := by
  rw [← hr.minv.getOrder]; exact ho

theorem Agree.add {x : Exchange} {g g' : Mgr} (h : Agree x g) (hr : g.Reachable) {o e evs} (ha : g.Admissible (.addOrder o))
    (hs : g.step (.addOrder o) = .ok (g', e)) (hev : g'.ev = g.ev ++ evs) (hp : Exchange.plain o) (hf : g.getOrder o.id = none) :
    Same (x.add o) e evs g' := by
  unfold Exchange.add
  by_cases hv : o.validate = .ok
  · rw [if_neg (by simp [hv])]
    by_cases hb : g.getBook o.symbolId = none
    · rw [if_pos ((h.book_iff _).2 hb)]
      exact h.refused hr ha hs hev (by simp [Mgr.refusal, hv, hb])
    · rw [if_neg (fun hb' => hb ((h.book_iff _).1 hb'))]
      have hn : g.refusal (.addOrder o) = none := by simp [Mgr.refusal, hv, hb]
      have he : e = .ok := by
        rcases C43_carried_out hr hn ha hs (by simp) with h | ⟨_, h⟩
        · exact h
        · exact absurd hf h
      obtain ⟨evs', rest, h1, h2, h3, _⟩ := addPlain_call hr.minv ha hs hn hp.1
      rw [hev] at h1; cases List.append_cancel_left h1
      obtain ⟨rfl, h5⟩ := h3 fun hm => by rw [hm]; exact quiet_arrival hr (h.quiet hr _ hm) (h.resting hr _ _) hp.2 hp.1
      rw [List.append_nil] at h2
      rw [h.lines, h.matching]
      refine h.orderCall hr ha hs hn (fun _ _ on => on.2) ⟨_, _, rfl, rfl⟩ ?_ he h2 (h5 he) (arrive_plain (board_plain h hr _) hp)
      intro s _ ht
      exact hp.2 ht
  · rw [if_pos hv]
    exact h.refused hr ha hs hev (by simp [Mgr.refusal, hv])

theorem Agree.delete {x : Exchange} {g g' : Mgr} (h : Agree x g) (hr : g.Reachable) {id e evs}
    (hs : g.step (.deleteOrder id) = .ok (g', e)) (hev : g'.ev = g.ev ++ evs) : Same (x.delete id) e evs g' := by
  have ha : g.Admissible (.deleteOrder id) := trivial
  unfold Exchange.delete
  by_cases h0 : id = 0
  · rw [if_pos h0]; exact h.refused hr ha hs hev (by simp [Mgr.refusal, h0])
  rw [if_neg h0]
  unfold Exchange.onOrder
  rw [h.find hr]
  cases ho : g.getOrder id with
  | none => exact h.refused hr ha hs hev (by simp [Mgr.refusal, h0, Mgr.orderRefusal, ho])
  | some o =>
    have hn : g.refusal (.deleteOrder id) = none := by simp [Mgr.refusal, h0, h.orderRefusal ho]
    have he : e = .ok := by
      rcases C43_carried_out hr hn ha hs (by simp) with h | ⟨_, h⟩
      · exact h
      · exact absurd trivial h
    subst he
    obtain ⟨o', h1, evs', rest, h2, h3, h4⟩ := delete_call hr.minv hs
    rw [ho] at h1; cases h1
    rw [hev] at h2; cases List.append_cancel_left h2
    obtain ⟨rfl, h5, _⟩ := h4 (h.quiet hr _)
    simp only
    rw [h.lines]
    exact h.orderCall hr ha hs hn (o := o) (r := ([], (g.lines o.symbolId).change id none))
      (by rintro _ _ ⟨_, o', h1, h2⟩; rw [orders_of hr ho] at h1; cases h1; exact h2.symm)
      ⟨_, _, rfl, o, orders_of hr ho, rfl⟩ (fun _ => trivial) rfl h3 h5 (change_plain (board_plain h hr _) (by simp))

theorem withQty_case {x : Exchange} {g g' : Mgr} (h : Agree x g) (hr : g.Reachable) {op id q e evs f} (ha : g.Admissible op)
    (hs : g.step op = .ok (g', e)) (hev : g'.ev = g.ev ++ evs) (hop : ∀ s, op.noAON s) (hdup : g.FreshId op)
    (href : g.refusal op = if id = 0 then some .orderIdInvalid else if q = 0 then some .orderQuantityInvalid else g.orderRefusal id)
    (hon : ∀ tag sym, op.on g tag sym → ∃ o, g.orders id = some o ∧ o.symbolId = sym)
    (hrw : ∀ i o, op ≠ .replaceWith i o)
    (hreg : ∀ o, g.getOrder id = some o → ∃ tag sym, op.on g tag sym)
    (hf : ∀ o, g.getOrder id = some o → g.refusal op = none → e = .ok → q ≠ 0 → execsOf evs = (f o (g.lines o.symbolId)).1 ∧ g'.lines = g.lines.set o.symbolId (f o (g.lines o.symbolId)).2)
    (hp : ∀ o, g.getOrder id = some o → ∀ k, ∀ r ∈ (f o (g.lines o.symbolId)).2 k, r.book) :
    Same (x.withQty id q (x.onOrder id f)) e evs g' := by
  unfold Exchange.withQty
  by_cases h0 : id = 0
  · rw [if_pos h0]; exact h.refused hr ha hs hev (by simp [href, h0])
  rw [if_neg h0]
  by_cases h1 : q = 0
  · rw [if_pos h1]; exact h.refused hr ha hs hev (by simp [href, h0, h1])
  rw [if_neg h1]
  unfold Exchange.onOrder
  rw [h.find hr]
  cases ho : g.getOrder id with
  | none => exact h.refused hr ha hs hev (by simp [href, h0, h1, Mgr.orderRefusal, ho])
  | some o =>
    have hn : g.refusal op = none := by simp [href, h0, h1, h.orderRefusal ho]
    have he : e = .ok := by
      rcases C43_carried_out hr hn ha hs hrw with h | ⟨_, h⟩
      · exact h
      · exact absurd hdup h
    obtain ⟨h2, h3⟩ := hf o ho hn he h1
    simp only
    rw [h.lines]
    refine h.orderCall hr ha hs hn (o := o) ?_ (hreg o ho) hop he h2 h3 (hp o ho)
    intro tag sym on
    obtain ⟨o', a, b⟩ := hon tag sym on
    rw [orders_of hr ho] at a; cases a
    exact b.symm

theorem Agree.settled_quiet {x : Exchange} {g : Mgr} (h : Agree x g) (hr : g.Reachable) (hs : x.settled) (i : Nat) : (g.lines i).quiet := by
  constructor
  · intro b hb a ha
    have hbk : g.getBook i ≠ none := by
      intro hn
      rw [lines_none (by exact hn)] at hb; cases hb
    refine hs i ((h.books i).2 hbk) b ?_ a ?_
    · rw [h.lines]; exact hb
    · rw [h.lines]; exact ha
  · intro k hk
    cases hl : g.lines i k with
    | nil => rfl
    | cons r rs =>
      rcases (lines_plain h hr (s := i) (k := k) (r := r) (by rw [hl]; simp)).2 with rfl | rfl <;> simp [Kind.isLimit] at hk

theorem Agree.idle {x : Exchange} {g g' : Mgr} (h : Agree x g) (hr : g.Reachable) (hi' : MInv g') {m} (hl : g'.lines = g.lines) (ho : g'.orders = g.orders)
    (hs : g'.symbols = g.symbols) (hm : m = g'.matching) (hb : g'.bookSymbol = g.bookSymbol) (hq : ∀ i, (g.lines i).quiet) :
    Agree { x with matching := m } g' := by
  have hgo : g'.getOrder = g.getOrder := by
    funext i; rw [hi'.getOrder, hr.minv.getOrder, ho]
  refine ⟨hm, ?_, ?_, h.lines.trans hl.symm, ?_, ?_, ?_⟩
  · intro i
    rw [show g'.getSymbol i = g.getSymbol i by unfold Mgr.getSymbol; rw [hs]]
    exact h.symbols i
  · intro i
    rw [bookSymbol_iff hb]; exact h.books i
  · intro i o h1
    rw [hgo] at h1
    rw [bookSymbol_iff hb]; exact h.kept i o h1
  · intro i o h1
    rw [hgo] at h1
    exact h.plain i o h1
  · intro _ i
    rw [uncrossed_at hi', hl]
    exact (hq i).1

theorem Agree.step {x : Exchange} {g g' : Mgr} (h : Agree x g) (hr : g.Reachable) {op e evs} (hc : x.Covers op) (ha : g.Admissible op)
    (hs : g.step op = .ok (g', e)) (hev : g'.ev = g.ev ++ evs) : Same (x.call op) e evs g' := by
  have hi := hr.minv
  cases op with
  | addSymbol s =>
    unfold Exchange.call
    simp only
    by_cases hm : g.getSymbol s.id = none
    · rw [if_neg (fun h' => (h.symbols _).1 h' hm)]
      have heff := hr.eff ha hs
      cases heff with
      | refused h' => rw [show g.refusal (.addSymbol s) = none by simp [Mgr.refusal, hm]] at h'; cases h'.2.2.2
      | book on _ => cases on
      | addSymbol h1 h2 =>
        rename_i v
        have : evs = [.addSymbol s] := by simpa using hev.symm
        subst this
        refine ⟨rfl, rfl, h.matching, ?_, h.books, h.lines, h.kept, h.plain, h.uncrossed⟩
        intro i
        show i ∈ s.id :: x.symbols ↔ slot v i ≠ none
        rw [h2 i, List.mem_cons, h.symbols]
        by_cases e : i = s.id
        · simp [e]
        · simp [e]; rfl
    · rw [if_pos ((h.symbols _).2 hm)]
      exact h.refused hr ha hs hev (by simp [Mgr.refusal, hm])
  | deleteSymbol id =>
    unfold Exchange.call
    simp only
    by_cases hm : g.getSymbol id = none
    · rw [if_neg (fun h' => (h.symbols _).1 h' hm)]
      exact h.refused hr ha hs hev (by simp [Mgr.refusal, hm])
    · rw [if_pos ((h.symbols _).2 hm)]
      have heff := hr.eff ha hs
      cases heff with
      | refused h' => rw [show g.refusal (.deleteSymbol id) = none by simp [Mgr.refusal, hm]] at h'; cases h'.2.2.2
      | book on _ => cases on
      | deleteSymbol h1 h2 =>
        rename_i s v
        have : evs = [.deleteSymbol s] := by simpa using hev.symm
        subst this
        refine ⟨rfl, rfl, h.matching, ?_, h.books, h.lines, h.kept, h.plain, h.uncrossed⟩
        intro i
        show i ∈ x.symbols.filter (· ≠ id) ↔ slot v i ≠ none
        rw [h2 i, List.mem_filter, h.symbols]
        by_cases e : i = id
        · simp [e]
        · simp [e]; rfl
  | addOrderBook s =>
    unfold Exchange.call
    simp only
    by_cases hm : g.getSymbol s.id = none
    · rw [if_pos (fun h' => (h.symbols _).1 h' hm)]
      exact h.refused hr ha hs hev (by simp [Mgr.refusal, hm])
    rw [if_neg (fun h' => h' ((h.symbols _).2 hm))]
    by_cases hb : g.getBook s.id = none
    · rw [if_neg (fun h' => (h.books _).1 h' hb)]
      have heff := hr.eff ha hs
      have hr' := hr.step ha hs
      cases heff with
      | refused h' => rw [show g.refusal (.addOrderBook s) = none by simp [Mgr.refusal, hm, hb]] at h'; cases h'.2.2.2
      | book on _ => cases on
      | addBook h1 h2 h3 =>
        rename_i reg v
        have : evs = [.addBook reg] := by simpa using hev.symm
        subst this
        have hi' := hr'.minv
        have hgb : ∀ i, g.getBook i ≠ none → slot v i ≠ none := by
          intro i hne
          rw [h3 i]
          by_cases e : i = s.id
          · rw [if_pos e]; simp
          · rw [if_neg e]; exact hne
        refine ⟨rfl, rfl, h.matching, h.symbols, ?_, ?_, ?_, h.plain, ?_⟩
        · intro i
          show i ∈ s.id :: x.books ↔ slot v i ≠ none
          rw [h3 i, List.mem_cons, h.books]
          by_cases e : i = s.id
          · simp [e]
          · simp [e]; rfl
        · show x.lines = _
          rw [h.lines]
          funext n k
          by_cases e : n = s.id
          · subst e
            rw [lines_none hb]
            rw [lines_core hi' (b := Book.new reg) (by show slot v s.id = _; rw [h3 s.id, if_pos rfl])]
            rfl
          · cases hn : slot g.books n with
            | none => rw [lines_none hn]; exact (lines_none (by show slot v n = none; rw [h3 n, if_neg e]; exact hn) k).symm
            | some b' => rw [lines_core hi hn]; exact (lines_core hi' (by show slot v n = _; rw [h3 n, if_neg e]; exact hn) k).symm
        · intro i o ho
          exact hgb _ (h.kept i o ho)
        · intro hm' i b hb'
          have hb' : slot v i = some b := hb'
          rw [h3 i] at hb'
          by_cases e : i = s.id
          · rw [if_pos e] at hb'; cases hb'
            intro p q hp; simp [Book.new] at hp
          · rw [if_neg e] at hb'; exact h.uncrossed hm' i b hb'
    · rw [if_pos ((h.books _).2 hb)]
      exact h.refused hr ha hs hev (by simp [Mgr.refusal, hm, hb])
  | deleteOrderBook id => exact absurd hc (by simp [Exchange.Covers])
  | addOrder o => exact h.add hr ha hs hev hc.1 (by rw [← h.find hr]; exact hc.2)
  | reduceOrder id q =>
    refine withQty_case h hr ha hs hev (fun _ => trivial) trivial rfl ?_ (by simp) ?_ ?_ ?_
    · rintro tag sym ⟨_, on⟩; exact on
    · intro o ho; exact ⟨_, _, rfl, o, orders_of hr ho, rfl⟩
    · rintro o ho _ rfl _
      obtain ⟨a, _, b⟩ := C34_reduce hr ho hs hev (h.quiet hr _)
      exact ⟨a, b⟩
    · intro o ho
      refine change_plain (board_plain h hr _) ?_
      intro y hy
      split at hy <;> cases hy
      exact h.plain id o ho
  | modifyOrder id p q =>
    refine withQty_case h hr ha hs hev (fun _ => trivial) trivial rfl ?_ (by simp) ?_ ?_ ?_
    · rintro tag sym ⟨_, on⟩; exact on
    · intro o ho; exact ⟨_, _, rfl, o, orders_of hr ho, rfl⟩
    · rintro o ho _ rfl _
      rw [h.matching]
      exact C38_modify hr ha hs hev ho fun hm => quiet_move hr (h.quiet hr _ hm) (h.resting hr _ _) (h.plain id o ho).plain.2 (h.plain id o ho).plain.1
    · intro o ho
      have hb := h.plain id o ho
      exact arrive_plain (change_plain (board_plain h hr _) (by simp)) hb.plain
  | mitigateOrder id p q =>
    refine withQty_case h hr ha hs hev (fun _ => trivial) trivial rfl ?_ (by simp) ?_ ?_ ?_
    · rintro tag sym ⟨_, on⟩; exact on
    · intro o ho; exact ⟨_, _, rfl, o, orders_of hr ho, rfl⟩
    · rintro o ho _ rfl _
      have hs' : g.modifyOrder id p q true = .ok (g', .ok) := hs
      obtain ⟨o', h1, evs', rest, h2, h3, h4⟩ := modify_call hi ha.1 ha.2.1 ha.2.2 hs'
      rw [ho] at h1; cases h1
      rw [hev] at h2; cases List.append_cancel_left h2
      obtain ⟨rfl, h5⟩ := h4 fun hm => by rw [hm]; exact quiet_move hr (h.quiet hr _ hm) (h.resting hr _ _) (h.plain id o ho).plain.2 (h.plain id o ho).plain.1
      have hmod : modified o p q true = { o with price := p, quantity := q, leaves := q - o.executed } := by
        unfold modified
        by_cases hlt : o.executed < q
        · simp [hlt]
        · simp [hlt]; omega
      rw [hmod] at h3 h5
      rw [h.matching]
      exact ⟨by rw [h3, List.append_nil], h5⟩
    · intro o ho
      have hb := h.plain id o ho
      exact arrive_plain (change_plain (board_plain h hr _) (by simp)) hb.plain
  | replaceOrder id n p q =>
    unfold Exchange.call
    simp only
    by_cases h0 : id = 0 ∨ n = 0
    · rw [if_pos h0]; exact h.refused hr ha hs hev (by simp only [Mgr.refusal, if_pos h0])
    rw [if_neg h0]
    by_cases h1 : q = 0
    · rw [if_pos h1]; exact h.refused hr ha hs hev (by simp only [Mgr.refusal, if_neg h0, if_pos h1])
    rw [if_neg h1]
    unfold Exchange.onOrder
    rw [h.find hr]
    cases ho : g.getOrder id with
    | none => exact h.refused hr ha hs hev (by simp only [Mgr.refusal, if_neg h0, if_neg h1, ho])
    | some o =>
      have hb := h.plain id o ho
      have hn : g.refusal (.replaceOrder id n p q) = none := by
        simp only [Mgr.refusal, if_neg h0, if_neg h1, ho, hb.1, ne_eq, not_true, if_false, if_neg (h.kept id o ho)]
      have hfr : g.FreshId (.replaceOrder id n p q) := by
        rcases hc with h' | h'
        · exact .inl h'
        · exact .inr (by rw [← h.find hr]; exact h')
      obtain ⟨he, h2, h3⟩ := C23_replace hr ha hs hev ho hn hfr fun hm => quiet_move hr (h.quiet hr _ hm) (h.resting hr _ _) hb.plain.2 hb.plain.1
      simp only
      rw [h.lines, h.matching]
      refine h.orderCall hr ha hs hn (o := o) ?_ ⟨_, _, o, rfl, orders_of hr ho, rfl⟩ (fun _ => trivial) he h2 h3
        (arrive_plain (change_plain (board_plain h hr _) (by simp)) hb.plain)
      rintro tag sym ⟨o', _, a, b⟩
      rw [orders_of hr ho] at a; cases a
      exact b.symm
  | replaceWith id o =>
    unfold Exchange.call
    simp only
    cases hn : g.refusal (.replaceWith id o) with
    | some c =>
      have hn' : g.refusal (.deleteOrder id) = some c := hn
      have hk := C43_refused hr hn ha
      rw [hs] at hk
      obtain ⟨rfl, rfl⟩ : g' = g ∧ e = c := by cases hk; exact ⟨rfl, rfl⟩
      cases List.self_eq_append_right.1 hev
      obtain ⟨s1, s2, s3⟩ := h.delete hr (C43_refused hr hn' trivial) (evs := []) (by simp)
      have hcn : e ≠ .ok := by
        rintro rfl
        simp only [Mgr.refusal] at hn'
        unfold Mgr.orderRefusal at hn'
        repeat' split at hn'
        all_goals cases hn'
      generalize x.delete id = r at s1 s2 s3
      obtain ⟨c', xs, x'⟩ := r
      have s1 : c' = e := s1
      subst s1
      split
      · rename_i heq
        cases heq; exact absurd rfl hcn
      · exact ⟨rfl, s2, s3⟩
    | none =>
      obtain ⟨g1, d1, d2⟩ := C43_replaceWith hr hn hs
      have had : g.Admissible (.deleteOrder id) := trivial
      have hr1 := hr.step had d1
      obtain ⟨evs1, hev1⟩ := events_appended hr had d1
      obtain ⟨g1', e1', f1, f2, f3⟩ := deleteOrder_mgr hi id
      have hs1 : g.step (.deleteOrder id) = .ok (g1', e1') := f1
      rw [d1] at hs1; cases hs1
      have ha1 : g1.Admissible (.addOrder o) := ⟨ha.1, fun b hb => by
        obtain ⟨b0, h1, h2⟩ := f3 _ b hb
        have := ha.2 b0 h1; omega⟩
      obtain ⟨evs2, hev2⟩ := events_appended hr1 ha1 d2
      obtain ⟨s1, s2, s3⟩ := h.delete hr d1 hev1
      have hfr : g1.getOrder o.id = none := by
        obtain ⟨o1, k1, _, _, _, _, k2⟩ := delete_call hi d1
        rw [(k2 (h.quiet hr _)).2.2]
        by_cases e : o.id = id
        · simp [e]
        · simp only [if_neg e]
          rcases hc.2 with h' | h'
          · exact absurd h' e
          · rw [← h.find hr]; exact h'
      generalize x.delete id = r at s1 s2 s3
      obtain ⟨c', xs, x'⟩ := r
      have s1 : c' = .ok := s1
      subst s1
      obtain ⟨t1, t2, t3⟩ := Agree.add (x := x') s3 hr1 ha1 d2 hev2 hc.1 hfr
      refine ⟨t1, ?_, t3⟩
      have : evs = evs1 ++ evs2 := by
        rw [hev2, hev1, List.append_assoc] at hev
        exact (List.append_cancel_left hev).symm
      rw [this, execsOf_append]
      show xs ++ (x'.add o).2.1 = _
      rw [t2, show xs = execsOf evs1 from s2]
  | deleteOrder id => exact h.delete hr hs hev
  | executeOrder id q =>
    refine withQty_case h hr ha hs hev (fun _ => trivial) trivial rfl ?_ (by simp) ?_ ?_ ?_
    · rintro tag sym ⟨_, on⟩; exact on
    · intro o ho; exact ⟨_, _, rfl, o, orders_of hr ho, rfl⟩
    · rintro o ho _ rfl _
      obtain ⟨a, _, b⟩ := C34_execute hr ho (.inl ⟨rfl, rfl⟩) hs hev (h.quiet hr _)
      exact ⟨a, b⟩
    · intro o ho
      refine change_plain (board_plain h hr _) ?_
      intro y hy
      split at hy <;> cases hy
      exact h.plain id o ho
  | executeOrderAt id p q =>
    refine withQty_case h hr ha hs hev (fun _ => trivial) trivial rfl ?_ (by simp) ?_ ?_ ?_
    · rintro tag sym ⟨_, on⟩; exact on
    · intro o ho; exact ⟨_, _, rfl, o, orders_of hr ho, rfl⟩
    · rintro o ho _ rfl _
      obtain ⟨a, _, b⟩ := C34_execute hr ho (.inr rfl) hs hev (h.quiet hr _)
      exact ⟨a, b⟩
    · intro o ho
      refine change_plain (board_plain h hr _) ?_
      intro y hy
      split at hy <;> cases hy
      exact h.plain id o ho
  | enableMatching =>
    have hq : ∀ i, (g.lines i).quiet := fun i => h.settled_quiet hr hc i
    obtain ⟨g1, a1, a2, a3, a4, a5, a6, a7, a8⟩ := matchFrom_idle (List.range g.books.length) (g := { g with matching := true })
      ⟨hi.orders, hi.books, hi.symbols⟩ hq
    have hstep : g.step .enableMatching = .ok (g1, .ok) := by
      simp only [Mgr.step, Mgr.matchAll]
      rw [a1]; rfl
    rw [hs] at hstep; cases hstep
    have : evs = [] := List.self_eq_append_right.1 (a3.symm.trans hev)
    subst this
    exact ⟨rfl, rfl, h.idle hr a2 a4 a5 a6 a7.symm (a8.trans rfl) hq⟩
  | disableMatching =>
    cases hs
    have : evs = [] := List.self_eq_append_right.1 hev
    subst this
    exact ⟨rfl, rfl, rfl, h.symbols, h.books, h.lines, h.kept, h.plain, fun h => by cases h⟩
  | matchAll =>
    have hq : ∀ i, (g.lines i).quiet := fun i => h.settled_quiet hr hc i
    obtain ⟨g1, a1, a2, a3, a4, a5, a6, a7, a8⟩ := matchFrom_idle (List.range g.books.length) hi hq
    have hstep : g.step .matchAll = .ok (g1, .ok) := by
      simp only [Mgr.step, Mgr.matchAll]
      rw [a1]; rfl
    rw [hs] at hstep; cases hstep
    have : evs = [] := List.self_eq_append_right.1 (a3.symm.trans hev)
    subst this
    exact ⟨rfl, rfl, h.idle hr a2 a4 a5 a6 (h.matching.trans a7.symm) a8 hq⟩

end CppTrader
