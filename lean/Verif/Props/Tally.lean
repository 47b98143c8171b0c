import Verif.Proof.Tally
/-
C65: the statistics of the performance programs.
-/

namespace CppTrader
open Itch
open Opt (Note)

/-- Callbacks with these notes were made. -/
def Notes (a b : List Event) (ns : List Note) : Prop := ∃ evs, b = a ++ evs ∧ evs.filterMap Event.note = ns ∧
  ∀ e ∈ evs, e.note = none → ∃ sym top, e = .updateBook sym top

theorem Notes.refl (a : List Event) : Notes a a [] := ⟨[], by simp, rfl, by simp⟩

theorem Notes.trans {a b c : List Event} {m n : List Note} (h : Notes a b m) (h' : Notes b c n) : Notes a c (m ++ n) := by
  obtain ⟨e1, h1, h2, h3⟩ := h
  obtain ⟨e2, h4, h5, h6⟩ := h'
  refine ⟨e1 ++ e2, by rw [h4, h1, List.append_assoc], by rw [List.filterMap_append, h2, h5], ?_⟩
  intro e he
  rcases List.mem_append.1 he with he | he
  · exact h3 e he
  · exact h6 e he

theorem Notes.one (a : List Event) {e : Event} {n : Note} (h : e.note = some n) : Notes a (a ++ [e]) [n] :=
  ⟨[e], rfl, by simp [h], by simp [h]⟩

theorem Core.updateLevel_notes (s : Core) (u : LevelUpdate) : Notes s.ev (s.updateLevel u).ev [.level] := by
  obtain ⟨e, h1, h2⟩ := updateLevel_ev s u
  have hn : e.note = some .level := by rw [h2]; cases u.type <;> rfl
  refine ⟨_, h1, ?_, ?_⟩
  · rw [List.filterMap_cons_some hn, List.filterMap_cons_none rfl]; rfl
  · intro e' he' hne
    rcases List.mem_cons.1 he' with rfl | he'
    · rw [hn] at hne; cases hne
    · rcases List.mem_cons.1 he' with rfl | he'
      · exact ⟨_, _, rfl⟩
      · cases he'

theorem limit_kind {o : Order} (h : o.type = .limit) : ∃ k, o.kind = some k ∧ k.isLimit = true := by
  unfold Order.kind
  rw [h]
  refine ⟨_, rfl, ?_⟩
  cases o.isBuy <;> rfl

theorem link_notes {s s' : Core} {o : Order} (h : o.type = .limit) (run : s.link o = .ok s') : Notes s.ev s'.ev [.level] := by
  obtain ⟨k, hk, hl⟩ := limit_kind h
  unfold Core.link at run
  rw [hk] at run
  simp only [hl, if_true] at run
  cases run
  exact Core.updateLevel_notes _ _

theorem unlink_notes {s s' : Core} {o : Order} (h : o.type = .limit) (run : s.unlink o = .ok s') : Notes s.ev s'.ev [.level] := by
  obtain ⟨k, hk, hl⟩ := limit_kind h
  unfold Core.unlink at run
  rw [hk] at run
  simp only [hl, if_true] at run
  cases hd : s.book.deleteOrder k o with
  | error e => rw [hd] at run; cases run
  | ok x =>
    rw [hd] at run
    cases run
    exact Core.updateLevel_notes _ _

theorem shrink_notes {s s' : Core} {o : Order} {q h v : Nat} (ho : o.type = .limit) (run : s.shrink o q h v = .ok s') :
    Notes s.ev s'.ev [.level] := by
  obtain ⟨k, hk, hl⟩ := limit_kind ho
  unfold Core.shrink at run
  rw [hk] at run
  simp only [hl, if_true] at run
  cases hd : s.book.reduceOrder k o q h v with
  | error e => rw [hd] at run; cases run
  | ok x =>
    rw [hd] at run
    cases run
    exact Core.updateLevel_notes _ _

theorem finish_off {s s' : Core} {e : ErrorCode} (run : s.finish false = .ok (s', e)) : s'.ev = s.ev := by
  unfold Core.finish at run
  simp only [Bool.false_eq_true, if_false] at run
  cases run
  rfl

theorem onBook_ev {g g' : Mgr} {sym : Nat} {f} {e : ErrorCode} {b : Book} (hb : slot g.books sym = some b)
    (run : g.onBook sym f = .ok (g', e)) : ∃ c, f ⟨g.orders, b, g.ev⟩ = .ok (c, e) ∧ g'.ev = c.ev := by
  unfold Mgr.onBook at run
  simp only [hb] at run
  obtain ⟨⟨c, e'⟩, h1, h2⟩ := bind_inv run
  cases h2
  exact ⟨c, h1, rfl⟩

/-- A limit order is stored: what the calls without matching report. -/
structure Stored (g : Mgr) (id : Nat) (o : Order) : Prop where
  off : g.matching = false
  here : g.orders id = some o
  limit : o.type = .limit
  book : ∃ b, slot g.books o.symbolId = some b

theorem exec_notes {g g' : Mgr} {id p q : Nat} {o : Order} (h : Stored g id o) {e : ErrorCode} {px : Order → Nat}
    (run : g.onOrder id (fun o c => c.executeOp g.matching o (px o) q) = .ok (g', e)) :
    Notes g.ev g'.ev [.trade, .level, if q < o.leaves then .change else .gone] := by
  obtain ⟨b, hb⟩ := h.book
  unfold Mgr.onOrder at run
  simp only [h.here] at run
  obtain ⟨c, h1, h2⟩ := onBook_ev hb run
  rw [h2]
  unfold Core.executeOp at h1
  rw [h.off] at h1
  obtain ⟨s1, h3, h4⟩ := bind_inv h1
  have h5 := finish_off h4
  rw [h5]
  have a := shrink_notes (by exact h.limit) h3
  have b' := (Notes.one g.ev (e := .exec o (px o) (min q o.leaves)) (n := .trade) rfl).trans a
  refine b'.trans (Notes.one _ ?_)
  by_cases hlt : q < o.leaves
  · rw [if_pos hlt, Nat.min_eq_left (by omega), if_pos (by show o.leaves - q > 0; omega)]; rfl
  · rw [if_neg hlt, Nat.min_eq_right (by omega), if_neg (by show ¬ o.leaves - o.leaves > 0; omega)]; rfl

theorem reduce_notes {g g' : Mgr} {id q : Nat} {o : Order} (h : Stored g id o) {e : ErrorCode}
    (run : g.onOrder id (fun o c => c.reduceOp g.matching o q) = .ok (g', e)) :
    Notes g.ev g'.ev [if q < o.leaves then .change else .gone, .level] := by
  obtain ⟨b, hb⟩ := h.book
  unfold Mgr.onOrder at run
  simp only [h.here] at run
  obtain ⟨c, h1, h2⟩ := onBook_ev hb run
  rw [h2]
  unfold Core.reduceOp at h1
  rw [h.off] at h1
  obtain ⟨s1, h3, h4⟩ := bind_inv h1
  have h5 := finish_off h4
  rw [h5]
  unfold Core.reduceBody at h3
  have a := shrink_notes (by exact h.limit) h3
  refine Notes.trans (Notes.one g.ev ?_) a
  by_cases hlt : q < o.leaves
  · rw [if_pos hlt, Nat.min_eq_left (by omega), if_pos (by show o.leaves - q > 0; omega)]; rfl
  · rw [if_neg hlt, Nat.min_eq_right (by omega), if_neg (by show ¬ o.leaves - o.leaves > 0; omega)]; rfl

theorem delete_notes {g g' : Mgr} {id : Nat} {o : Order} (h : Stored g id o) {e : ErrorCode}
    (run : g.onOrder id (fun o c => c.deleteOp g.matching o) = .ok (g', e)) : Notes g.ev g'.ev [.level, .gone] := by
  obtain ⟨b, hb⟩ := h.book
  unfold Mgr.onOrder at run
  simp only [h.here] at run
  obtain ⟨c, h1, h2⟩ := onBook_ev hb run
  rw [h2]
  unfold Core.deleteOp Core.deleteBody at h1
  rw [h.off] at h1
  obtain ⟨s1, h3, h4⟩ := bind_inv h1
  obtain ⟨s2, h6, h7⟩ := bind_inv h3
  have h5 := finish_off h4
  rw [h5]
  cases h7
  exact (unlink_notes h.limit h6).trans (Notes.one _ rfl)

theorem insert_notes {s s' : Core} {o : Order} {e : ErrorCode} (ho : o.type = .limit) (hn : s.orders o.id = none)
    (run : s.insertNew false o = .ok (s', e)) : Notes s.ev s'.ev [.level] := by
  unfold Core.insertNew at run
  rw [hn] at run
  obtain ⟨s1, h1, h2⟩ := bind_inv run
  rw [finish_off h2]
  exact link_notes ho h1

theorem replace_notes {g g' : Mgr} (hi : MInv g) {id n p q : Nat} {o : Order} (h : Stored g id o) (h0 : id ≠ 0) (hn0 : n ≠ 0) (hq : 0 < q) {e : ErrorCode}
    (hn : n = id ∨ g.orders n = none) (run : g.replaceOrder id n p q = .ok (g', e)) : Notes g.ev g'.ev [.level, .gone, .order, .level] := by
  obtain ⟨b, hb⟩ := h.book
  unfold Mgr.replaceOrder at run
  rw [if_neg h0, if_neg hn0, if_neg (by omega)] at run
  simp only [h.here] at run
  rw [if_pos (by unfold Order.isLimit; rw [h.limit]; rfl)] at run
  obtain ⟨c, h1, h2⟩ := onBook_ev hb run
  rw [h2]
  unfold Core.replaceOp at h1
  rw [h.off] at h1
  obtain ⟨s1, h3, h4⟩ := bind_inv h1
  have a := unlink_notes h.limit h3
  have hs1 : s1.orders n = none := by
    obtain ⟨k, hk, hl⟩ := limit_kind h.limit
    unfold Core.unlink at h3
    rw [hk] at h3
    simp only [hl, if_true] at h3
    have hid : o.id = id := (hi.orders id o h.here).1
    cases hd : Book.deleteOrder b k o with
    | error e => rw [hd] at h3; cases h3
    | ok x =>
      rw [hd] at h3
      cases h3
      show setO g.orders o.id none n = none
      rcases hn with rfl | hn
      · rw [hid]; exact if_pos rfl
      · unfold setO
        by_cases e : n = o.id
        · rw [if_pos e]
        · rw [if_neg e]; exact hn
  simp only [Core.matchIf, Bool.false_eq_true, if_false, Except.bind_ok] at h4
  rw [if_pos (by exact hq)] at h4
  have b1 := insert_notes (by exact h.limit) (by exact hs1) h4
  exact (((a.trans (Notes.one _ (e := .deleteOrder o) rfl)).trans (Notes.one _ rfl))).trans b1

theorem add_notes {g g' : Mgr} {o : Order} (hm : g.matching = false) (hv : o.validate = .ok) (ht : o.type = .limit) (hf : o.tif = .gtc)
    (hq : 0 < o.leaves) {b : Book} (hb : slot g.books o.symbolId = some b) (hn : g.orders o.id = none) {e : ErrorCode}
    (run : g.addOrder o = .ok (g', e)) : Notes g.ev g'.ev [.order, .level] := by
  unfold Mgr.addOrder at run
  rw [if_neg (by rw [hv]; simp)] at run
  obtain ⟨c, h1, h2⟩ := onBook_ev hb run
  rw [h2]
  unfold Core.addAny at h1
  rw [ht, hm] at h1
  simp only [Core.addLimit, Core.matchIf, Bool.false_eq_true, if_false, Except.bind_ok, Core.restOrCancel] at h1
  rw [if_pos (by simp [Order.isIOC, Order.isFOK, hf]; omega)] at h1
  exact (Notes.one _ rfl).trans (insert_notes ht (by exact hn) h1)

theorem resize_none {α : Type} {v : List (Option α)} {i n : Nat} {y : α} (h : v.length ≤ i) (hy : (resizeTo v n)[i]? = some (some y)) : False := by
  unfold resizeTo at hy
  rw [List.getElem?_append_right (by rw [List.length_take]; omega), List.getElem?_replicate] at hy
  split at hy <;> cases hy

theorem book_notes {g g1 g2 : Mgr} {x : Symbol} {e1 e2 : ErrorCode} (h1 : g.getSymbol x.id = none) (h2 : g.getBook x.id = none)
    (r1 : g.addSymbol x = .ok (g1, e1)) (r2 : g1.addOrderBook x = .ok (g2, e2)) : Notes g.ev g2.ev [.symbol, .book] := by
  have a : Notes g.ev g1.ev [.symbol] ∧ g1.books = g.books ∧ slot g1.symbols x.id ≠ none := by
    unfold Mgr.addSymbol at r1
    simp only at r1
    split at r1
    · cases r1
    · rename_i y hy
      exfalso
      unfold Mgr.getSymbol slot at h1
      by_cases hl : g.symbols.length ≤ x.id
      · rw [if_pos hl] at hy
        exact resize_none hl hy
      · rw [if_neg hl] at hy
        rw [hy] at h1; cases h1
    · rename_i hy
      cases r1
      refine ⟨Notes.one _ rfl, rfl, ?_⟩
      have := (List.getElem?_eq_some_iff.1 hy).1
      show slot (List.set _ x.id (some x)) x.id ≠ none
      unfold slot
      rw [List.getElem?_set_self this]
      simp
  obtain ⟨a1, a2, a3⟩ := a
  refine a1.trans ?_
  unfold Mgr.addOrderBook at r2
  cases hs : slot g1.symbols x.id with
  | none => exact absurd hs a3
  | some reg =>
    rw [hs] at r2
    simp only at r2
    split at r2
    · cases r2
    · rename_i y hy
      exfalso
      unfold Mgr.getBook slot at h2
      rw [a2] at hy
      by_cases hl : g.books.length ≤ x.id
      · rw [if_pos hl] at hy
        exact resize_none hl hy
      · rw [if_neg hl] at hy
        rw [hy] at h2; cases h2
    · cases r2
      exact Notes.one _ rfl

theorem Mgr.Records.split {a b : List Op} : ∀ {g g' : Mgr} {l}, Mgr.Records g l g' → l.map (·.1) = a ++ b →
    ∃ l1 l2 g1, Mgr.Records g l1 g1 ∧ l1.map (·.1) = a ∧ Mgr.Records g1 l2 g' ∧ l2.map (·.1) = b := by
  induction a with
  | nil => intro g g' l h he; exact ⟨[], l, g, .nil, rfl, h, he⟩
  | cons op a ih =>
    intro g g' l h he
    cases h with
    | nil => cases he
    | cons ha hs hev hr =>
      simp only [List.map_cons, List.cons_append, List.cons.injEq] at he
      obtain ⟨l1, l2, g1, h1, h2, h3, h4⟩ := ih hr he.2
      refine ⟨_ :: l1, l2, g1, .cons ha hs hev h1, ?_, h3, h4⟩
      simp only [List.map_cons, h2, he.1]

theorem Mgr.Records.one {g g' : Mgr} {l} {op : Op} (h : Mgr.Records g l g') (he : l.map (·.1) = [op]) : ∃ e, g.step op = .ok (g', e) := by
  cases h with
  | nil => cases he
  | cons ha hs hev hr =>
    simp only [List.map_cons, List.cons.injEq, List.map_eq_nil_iff] at he
    obtain ⟨rfl, rfl⟩ := he
    cases hr
    exact ⟨_, hs⟩

theorem Mgr.Records.two {g g' : Mgr} {l} {op op' : Op} (h : Mgr.Records g l g') (he : l.map (·.1) = [op, op']) :
    ∃ g1 e e', g.step op = .ok (g1, e) ∧ g1.step op' = .ok (g', e') := by
  cases h with
  | nil => cases he
  | cons ha hs hev hr =>
    simp only [List.map_cons, List.cons.injEq] at he
    obtain ⟨rfl, he⟩ := he
    obtain ⟨e', h2⟩ := hr.one he
    exact ⟨_, _, _, hs, h2⟩

theorem Held.stored {x : Exchange} {ann t} (h : Held x ann t) {g : Mgr} (hA : Agree x g) (hr : g.Reachable) {id : Nat} {r : Ticket}
    (hf : t.find id = some r) : ∃ o, Stored g id o ∧ o.leaves = r.qty ∧ id ≠ 0 := by
  obtain ⟨o, h1, h2, h3, h4⟩ := h.find hf
  have hid := h.id_ne h1
  rw [hA.find hr] at h1
  have hb := hA.kept id o h1
  obtain ⟨b, hb⟩ := Option.ne_none_iff_exists'.1 hb
  rw [hr.minv.getOrder] at h1
  refine ⟨o, ⟨by rw [← hA.matching]; exact h.off, h1, (h.wf _ _ _ h3).2.2.1, b, hb⟩, ?_, hid⟩
  rw [← h2]; rfl

/-- One message. -/
theorem msg_notes {x : Exchange} {ann t} (h : Held x ann t) {g g' : Mgr} (hA : Agree x g) (hr : g.Reachable) {m : Msg} {k : Report}
    (hm : m.report = some k) (hc : t.Consistent k.plain) (hs : Tape.Strict ann k.plain) {l} (hl : Mgr.Records g l g')
    (he : l.map (·.1) = m.ops) : Notes g.ev g'.ev (Opt.msgNotes t k) := by
  have stay : ∀ {id q r o}, t.find id = some r → o = r.qty → (if q < o then Note.change else Note.gone) = Opt.stays t id q := by
    rintro id q r o h1 rfl
    unfold Opt.stays
    rw [h1]
  have addc : ∀ {ref loc side pr sh l}, Tape.Consistent t (.add ⟨ref, loc, side, pr, sh⟩) → Tape.Strict ann (.add ⟨ref, loc, side, pr, sh⟩) →
      Mgr.Records g l g' → l.map (·.1) = [Op.addOrder (.mkLimit ref loc side pr sh)] → Notes g.ev g'.ev [.order, .level] := by
    intro ref loc side pr sh l hc hs hl he
    obtain ⟨e, hstep⟩ := hl.one he
    obtain ⟨_, _, _, _, f5, _, f7⟩ := hc
    obtain ⟨s1, s2⟩ := hs
    have f5 : 0 < sh := f5
    have s2 : ref ≠ 0 := s2
    have hsh : sh ≠ 0 := by omega
    have hv : (Order.mkLimit ref loc side pr sh).validate = .ok := by
      simp [Order.mkLimit, Order.mk', Order.validate, s2, hsh, Order.isMarket, Order.isStop, Order.isStopLimit, Order.isTrailingStop,
        Order.isTrailingStopLimit, Order.isSlippage]
    have hb := (hA.books loc).1 (by rw [h.books]; exact s1)
    obtain ⟨b, hb⟩ := Option.ne_none_iff_exists'.1 hb
    refine add_notes (by rw [← hA.matching]; exact h.off) hv rfl rfl f5 (o := .mkLimit ref loc side pr sh) hb ?_ hstep
    have := h.find_none f7
    rw [hA.find hr, hr.minv.getOrder] at this
    exact this
  cases m <;> simp only [Msg.report, Msg.tick, Option.map, Option.some.injEq, reduceCtorEq] at hm <;> subst hm
  case stockDirectory hd st _ _ _ _ _ _ _ _ _ _ _ _ _ =>
    obtain ⟨g1, e1, e2, r1, r2⟩ := hl.two he
    have n1 : g.getSymbol hd.locate = none := by
      cases hx : g.getSymbol hd.locate with
      | none => rfl
      | some y => exact absurd (by rw [← h.syms]; exact (hA.symbols _).2 (by rw [hx]; simp)) hs
    have n2 : g.getBook hd.locate = none := by
      cases hx : g.getBook hd.locate with
      | none => rfl
      | some y => exact absurd (by rw [← h.books]; exact (hA.books _).2 (by rw [hx]; simp)) hs
    exact book_notes (x := ⟨hd.locate, beVal st⟩) n1 n2 r1 r2
  case addOrder => exact addc hc hs hl he
  case addOrderMPID => exact addc hc hs hl he
  case orderExecuted hd ref sh mn =>
    obtain ⟨e, hstep⟩ := hl.one he
    obtain ⟨r, h1, _⟩ := hc
    obtain ⟨o, so, hq, h0⟩ := h.stored hA hr h1
    have hs : 0 < sh := hs
    simp only [Mgr.step, Mgr.executeOrder] at hstep
    rw [if_neg h0, if_neg (by omega)] at hstep
    have := exec_notes (px := (·.price)) (p := 0) so hstep
    rw [stay h1 hq] at this
    exact this
  case orderExecutedWithPrice hd ref sh mn pr px =>
    obtain ⟨e, hstep⟩ := hl.one he
    obtain ⟨r, h1, _⟩ := hc
    obtain ⟨o, so, hq, h0⟩ := h.stored hA hr h1
    have hs : 0 < sh := hs
    simp only [Mgr.step, Mgr.executeOrderAt] at hstep
    rw [if_neg h0, if_neg (by omega)] at hstep
    have := exec_notes (px := fun _ => px) (p := 0) so hstep
    rw [stay h1 hq] at this
    exact this
  case orderCancel hd ref sh =>
    obtain ⟨e, hstep⟩ := hl.one he
    obtain ⟨r, h1, _⟩ := hc
    obtain ⟨o, so, hq, h0⟩ := h.stored hA hr h1
    have hs : 0 < sh := hs
    simp only [Mgr.step, Mgr.reduceOrder] at hstep
    rw [if_neg h0, if_neg (by omega)] at hstep
    have := reduce_notes so hstep
    rw [stay h1 hq] at this
    exact this
  case orderDelete hd ref =>
    obtain ⟨e, hstep⟩ := hl.one he
    obtain ⟨r, h1⟩ := hc
    obtain ⟨o, so, hq, h0⟩ := h.stored hA hr h1
    simp only [Mgr.step, Mgr.deleteOrder] at hstep
    rw [if_neg h0] at hstep
    exact delete_notes so hstep
  case orderReplace hd orig new sh pr =>
    obtain ⟨e, hstep⟩ := hl.one he
    obtain ⟨r, h1, h2, _⟩ := hc
    obtain ⟨o, so, hq, h0⟩ := h.stored hA hr h1
    obtain ⟨h3, h4⟩ := hs
    obtain ⟨_, _, _, _, _, _, f7⟩ := h2 h4
    show Notes g.ev g'.ev (if 0 < sh then _ else _)
    rw [if_pos h4]
    refine replace_notes hr.minv so h0 h3 h4 ?_ hstep
    rcases without_find f7 with h | h'
    · exact .inl h
    · right
      have := h.find_none h'
      rw [hA.find hr, hr.minv.getOrder] at this
      exact this

theorem report_plain (m : Msg) : m.report.map Report.plain = m.tick := by cases m <;> rfl

theorem reports_plain (ms : List Msg) : (ms.filterMap Msg.report).map Report.plain = ms.filterMap Msg.tick := by
  rw [List.map_filterMap]
  congr 1
  funext m
  exact report_plain m

theorem strict_target {t : Tape} {k : Report} (hc : t.Consistent k.plain) : ∀ id, k.target = some id → ∃ r, t.find id = some r := by
  intro id hid
  rcases k with k | ⟨i, q⟩
  · cases k <;> simp only [Report.target, Option.some.injEq, reduceCtorEq] at hid <;> subst hid
    · obtain ⟨r, h, _⟩ := hc; exact ⟨r, h⟩
    · exact hc
    · obtain ⟨r, h, _⟩ := hc; exact ⟨r, h⟩
    · obtain ⟨r, h, _⟩ := hc; exact ⟨r, h⟩
  · simp only [Report.target, Option.some.injEq] at hid; subst hid
    obtain ⟨r, h, _⟩ := hc; exact ⟨r, h⟩

/-- The market manager counts a stream. -/
theorem mgr_stats (ms : List Msg) : ∀ {x ann t} {g g' : Mgr} {l} {T : Tally}, Held x ann t → Agree x g → g.Reachable → Mgr.Records g l g' →
    l.map (·.1) = ms.flatMap Msg.ops → t.ConsistentAll (ms.filterMap Msg.tick) → Tape.StrictAll ann (ms.filterMap Msg.tick) →
    g.stats.Is T → T.Ok → T.orders = t.length → T.updates + 4 * (ms.filterMap Msg.report).length < W64 →
    g'.stats.Is (T.after t (ms.filterMap Msg.report)) := by
  induction ms with
  | nil =>
    intro x ann t g g' l T _ _ _ hl he _ _ hT _ _ _
    cases hl with
    | nil => exact hT
    | cons => cases he
  | cons m ms ih =>
    intro x ann t g g' l T h hA hr hl he hc hs hI hT ho hw
    rw [List.flatMap_cons] at he
    obtain ⟨l1, l2, g1, r1, e1, r2, e2⟩ := hl.split he
    cases hk : m.report with
    | none =>
      have htick : m.tick = none := by have := report_plain m; rw [hk] at this; exact this.symm
      rw [List.filterMap_cons_none htick] at hc hs
      rw [List.filterMap_cons_none hk] at hw ⊢
      have hops : m.ops = [] := by cases m <;> first | rfl | cases hk
      rw [hops] at e1
      cases r1 with
      | nil => exact ih h hA hr r2 e2 hc hs hI hT ho hw
      | cons => cases e1
    | some k =>
      have htick : m.tick = some k.plain := by have := report_plain m; rw [hk] at this; exact this.symm
      rw [List.filterMap_cons_some htick] at hc hs
      rw [List.filterMap_cons_some hk] at hw ⊢
      rw [List.length_cons] at hw
      obtain ⟨c1, c2⟩ := h.msg m (by rw [htick]; intro k' e; cases e; exact ⟨hc.1, hs.1⟩)
      rw [htick] at c2
      obtain ⟨_, hr1, hA1⟩ := hA.records hr r1 (by rw [e1]; exact c1)
      rw [e1] at hA1
      obtain ⟨evs, n1, n2, n3⟩ := msg_notes h hA hr hk hc.1 hs.1 r1 e1
      obtain ⟨q1, q2, q3, q4⟩ := hI.report hT h.ids (x := k) (strict_target hc.1) ho (by omega)
      have hst : g1.stats.Is (T.next t k) := by
        unfold Mgr.stats
        rw [n1, List.foldl_append, mgr_fold evs n3, n2]
        exact q1
      exact ih c2 hA1 hr1 r2 e2 hc.2 hs.2 hst q2 q4 (by omega)

/-- The optimised manager counts a stream. -/
theorem opt_stats (ms : List Msg) : ∀ {s : Opt.St} {z : Seen} {t : Tape} {T : Tally}, Opt.Inv s z → Opt.Blind z.tape t →
    z.ConsistentAll (ms.filterMap Msg.report) → (Opt.stats s).Is T → T.Ok → T.orders = t.length →
    T.updates + 4 * (ms.filterMap Msg.report).length < W64 →
    ∃ s', Opt.reactAll s ms = .ok s' ∧ (Opt.stats s').Is (T.after t (ms.filterMap Msg.report)) := by
  induction ms with
  | nil => intro s z t T _ _ _ hI _ _ _; exact ⟨s, rfl, hI⟩
  | cons m ms ih =>
    intro s z t T h hb hc hI hT ho hw
    unfold Opt.reactAll
    cases hk : m.report with
    | none =>
      rw [List.filterMap_cons_none hk] at hc hw ⊢
      rw [Opt.react_none hk, Except.bind_ok]
      exact ih h hb hc hI hT ho hw
    | some k =>
      rw [List.filterMap_cons_some hk] at hc hw ⊢
      rw [List.length_cons] at hw
      obtain ⟨s1, h1, h2, evs, n1, n2, n3⟩ := h.react hk hc.1
      rw [h1, Except.bind_ok]
      have hid : t.map (·.id) = z.tape.map (·.id) := by
        have e : ∀ a : Tape, a.map (·.id) = (a.map Opt.blind).map (·.id) := by intro a; rw [List.map_map]; rfl
        rw [e, e z.tape, ← hb]
      have hn : (t.map (·.id)).Nodup := by rw [hid]; exact h.ids
      have htgt : ∀ id, k.target = some id → ∃ r, z.tape.find id = some r := by
        intro id hid
        have hc1 := hc.1
        rcases k with k | ⟨i, q⟩
        · cases k <;> simp only [Report.target, Option.some.injEq, reduceCtorEq] at hid <;> subst hid
          · exact hc1
          · exact hc1
          · obtain ⟨r, h, _⟩ := hc1; exact ⟨r, h⟩
          · obtain ⟨r, h, _⟩ := hc1; exact ⟨r, h⟩
        · simp only [Report.target, Option.some.injEq] at hid; subst hid; exact hc1
      have hstays : ∀ id q, Opt.stays z.tape id q = Opt.stays t id q := by
        intro id q
        unfold Opt.stays
        cases hf : z.tape.find id with
        | none => rw [hb.find_none hf]
        | some r =>
          obtain ⟨r', f1, f2⟩ := hb.find_some hf
          rw [f1]
          simp only [(Opt.blind_eq f2).2.2.2]
      have hnotes : Opt.msgNotes z.tape k = Opt.msgNotes t k := by
        rcases k with k | ⟨i, q⟩
        · cases k <;> simp only [Opt.msgNotes, Opt.notes, hstays]
        · simp only [Opt.msgNotes, Opt.notes, hstays]
      obtain ⟨q1, q2, q3, q4⟩ := hI.report hT hn (x := k) (fun id hid => by
        obtain ⟨r, hr⟩ := htgt id hid
        obtain ⟨r', f1, _⟩ := hb.find_some hr
        exact ⟨r', f1⟩) ho (by omega)
      have hst : (Opt.stats s1).Is (T.next t k) := by
        refine Stats.Is.flat q1 ?_
        unfold Opt.stats
        rw [n1, List.foldl_append, opt_fold evs n3, n2, hnotes]
      exact ih h2 (hb.next k) hc.2 hst q2 q4 (by omega)

theorem zero_ok : Tally.zero.Ok := ⟨Nat.le_refl _, Nat.le_refl _, Nat.le_refl _, Nat.le_refl _, Nat.le_refl _, Nat.le_refl _, Nat.le_refl _, Nat.le_refl _⟩

theorem zero_is : Stats.zero.Is Tally.zero := ⟨rfl, rfl, rfl, rfl, rfl, rfl, rfl, rfl, rfl, rfl, rfl⟩

/-- C65. After a consistent and strict stream of well-formed messages, wire-encoded, framed and cut into any chunks, with fewer than
2^32 shares and 2^62 messages, both performance programs, the one with the market manager and the one with the optimised manager, have
counted the same: the statistics of the feed (Tally.lean). (The highest number of levels of a book is not part of it: the optimised
manager has other levels.) -/
theorem C65_statistics (ms : List (Msg × List UInt8)) (chunks : List (List UInt8))
    (hm : ∀ x ∈ ms, x.1.Fits ∧ x.2.length = 3)
    (hc : chunks.flatten = (ms.map (fun x => frame (x.1.wire x.2))).flatten)
    (hq : ((ms.flatMap (fun x => x.1.ops)).map Op.quantity).sum < 2 ^ 64)
    (ht : Tape.ConsistentAll [] (ms.filterMap (fun x => x.1.tick)))
    (hs : Tape.StrictAll [] (ms.filterMap (fun x => x.1.tick)))
    (hsh : ((ms.filterMap (fun x => x.1.report)).map Report.entered).sum < 2 ^ 32)
    (hlen : ms.length < 2 ^ 62) :
    ∃ p g s, Feeder.main chunks (St.init, Mgr.init) = .ok (p, g) ∧ Opt.main chunks (St.init, Opt.init) = .ok (p, s) ∧
      g.stats.Is (Tally.zero.after [] (ms.filterMap (fun x => x.1.report))) ∧
      (Opt.stats s).Is (Tally.zero.after [] (ms.filterMap (fun x => x.1.report))) := by
  have he : (ms.map (fun x => x.1.mapHdr Hdr.cut)).flatMap Msg.ops = ms.flatMap (fun x => x.1.ops) := by
    rw [List.flatMap_map]; simp only [cut_ops]
  have het : (ms.map (fun x => x.1.mapHdr Hdr.cut)).filterMap Msg.tick = ms.filterMap (fun x => x.1.tick) := by
    rw [List.filterMap_map]; congr 1; funext x; exact cut_tick x.1
  have her : (ms.map (fun x => x.1.mapHdr Hdr.cut)).filterMap Msg.report = ms.filterMap (fun x => x.1.report) := by
    rw [List.filterMap_map]; congr 1; funext x; exact Opt.cut_report x.1
  have hstream := stream_roundtrip ms chunks hm hc
  obtain ⟨g, h1, h2⟩ := Feeder.main_chunks chunks Feeder.inv_init hstream (by rw [he]; exact hq)
  obtain ⟨l, h3, h4⟩ := h2.records
  rw [← het] at ht hs
  rw [← her] at hsh ⊢
  have hl62 : Tally.zero.updates + 4 * ((ms.map (fun x => x.1.mapHdr Hdr.cut)).filterMap Msg.report).length < W64 := by
    have := List.length_filterMap_le Msg.report (ms.map (fun x => x.1.mapHdr Hdr.cut))
    rw [List.length_map] at this
    show 0 + _ < _
    omega
  have hc' : Seen.blank.ConsistentAll ((ms.map (fun x => x.1.mapHdr Hdr.cut)).filterMap Msg.report) :=
    Opt.ordinary _ (t := []) (ann := []) rfl (by intro r hr; cases hr) (by rw [reports_plain]; exact ht) (by rw [reports_plain]; exact hs)
      (by show 0 + _ < _; omega)
  obtain ⟨s, s1, s2⟩ := opt_stats _ (t := []) Opt.inv_init rfl hc' (T := .zero) zero_is zero_ok rfl hl62
  refine ⟨_, g, s, h1, Opt.opt_chunks chunks Feeder.inv_init.any hstream (new := ms.map (fun x => x.1.mapHdr Hdr.cut)) (by simp [Itch.St.init]) s1, ?_, s2⟩
  exact mgr_stats _ held_init agree_init .init h3 h4 ht hs zero_is zero_ok rfl hl62

end CppTrader
