import Verif.Model.Bench
import Verif.Requests
import Verif.Props.Feeder
import Verif.Props.Trades
import Verif.Props.Prices
/-
C68: the matching benchmark.
-/

namespace CppTrader
open Itch

/-- Either all calls of the other handler, or none. -/
theorem orders_ops (m : Msg) : m.orders = m.ops ∨ m.orders = [] := by cases m <;> first | exact .inl rfl | exact .inr rfl

theorem orders_sub {m : Msg} {op : Op} (h : op ∈ m.orders) : op ∈ m.ops := by
  rcases orders_ops m with e | e <;> rw [e] at h
  · exact h
  · cases h

theorem orders_not_exec {m : Msg} {op : Op} (h : op ∈ m.orders) : op.isExecute = false := by
  cases m <;> simp only [Msg.orders, List.mem_cons, List.not_mem_nil, or_false] at h
  case stockDirectory => rcases h with rfl | rfl <;> rfl
  all_goals (subst h; rfl)

theorem orders_noAON {m : Msg} {op : Op} (h : op ∈ m.orders) (sym : Nat) : op.noAON sym := by
  cases m <;> simp only [Msg.orders, List.mem_cons, List.not_mem_nil, or_false] at h
  case stockDirectory => rcases h with rfl | rfl <;> trivial
  case addOrder => subst h; intro _ h; cases h
  case addOrderMPID => subst h; intro _ h; cases h
  all_goals (subst h; trivial)

theorem orders_quantity (log : List Msg) : ((log.flatMap Msg.orders).map Op.quantity).sum ≤ ((log.flatMap Msg.ops).map Op.quantity).sum := by
  induction log with
  | nil => exact Nat.le_refl _
  | cons m log ih =>
    rw [List.flatMap_cons, List.flatMap_cons, List.map_append, List.map_append, List.sum_append, List.sum_append]
    rcases orders_ops m with e | e <;> rw [e]
    · omega
    · simp only [List.map_nil, List.sum_nil]; omega

/-- All calls of the program. -/
def Bench.calls (log : List Msg) : List Op := .enableMatching :: log.flatMap Msg.orders

theorem bench_run {log : List Msg} (h : ∀ m ∈ log, Harmless m) (hq : ((log.flatMap Msg.orders).map Op.quantity).sum < 2 ^ 64) :
    ∃ g es, Mgr.init.run (Bench.calls log) = .ok (g, es) ∧ g.Reachable ∧
      ∃ l, Mgr.Records Mgr.init l g ∧ l.map (·.1) = Bench.calls log := by
  have hh : ∀ op ∈ Bench.calls log, op.representable ∧ ∀ id, op ≠ .deleteOrderBook id := by
    intro op ho
    rcases List.mem_cons.1 ho with rfl | ho
    · exact ⟨trivial, by intro id h; cases h⟩
    · obtain ⟨m, hm, ho⟩ := List.mem_flatMap.1 ho
      have := h m hm op (orders_sub ho)
      exact ⟨this.1, this.2.2.1⟩
  obtain ⟨g, es, h1, _, h2, l, h3, h4, _⟩ := run_init (Bench.calls log) (fun op ho => (hh op ho).1)
    (by unfold Bench.calls; rw [List.map_cons, List.sum_cons]; show 0 + _ < _; omega) (noRevival_of fun op ho => (hh op ho).2)
  exact ⟨g, es, h1, h2, l, h3, h4⟩

/-- What holds between two chunks. -/
structure Bench.Inv (x : Itch.St × Mgr) : Prop where
  any : Any x.1
  harmless : ∀ m ∈ x.1.log, Harmless m
  run : ∃ es, Mgr.init.run (Bench.calls x.1.log) = .ok (x.2, es)
  reach : x.2.Reachable
  records : ∃ l, Mgr.Records Mgr.init l x.2 ∧ l.map (·.1) = Bench.calls x.1.log

theorem Bench.chunk_ok {x : Itch.St × Mgr} (hx : Bench.Inv x) (c : List UInt8)
    (hq : ∀ r s, process (fun _ _ => true) x.1 c = .ok (r, s) → ((s.log.flatMap Msg.orders).map Op.quantity).sum < 2 ^ 64) :
    ∃ r y, Bench.chunk x c = .ok y ∧ Bench.Inv y ∧ process (fun _ _ => true) x.1 c = .ok (r, y.1) ∧
      Grows (fun _ _ => true) x.1 y.1 c.length := by
  obtain ⟨r, s, h1, h2⟩ := process_total (fun _ _ => true) x.1 c hx.any
  obtain ⟨new, e1, e2⟩ := h2.log
  have hh : ∀ m ∈ s.log, Harmless m := by
    intro m hm
    rw [e1] at hm
    rcases List.mem_append.1 hm with hm | hm
    · exact hx.harmless m hm
    · obtain ⟨p, hp⟩ := e2 m hm; exact decode_harmless hp
  obtain ⟨g, es, g1, g2, g3⟩ := bench_run hh (hq r s h1)
  obtain ⟨es0, hr⟩ := hx.run
  have g1' := g1
  rw [e1] at g1'
  unfold Bench.calls at g1' hr
  rw [List.flatMap_append, ← List.cons_append] at g1'
  obtain ⟨g0, _, es2, k1, k2, _⟩ := run_append g1'
  rw [hr] at k1; cases k1
  have hd : s.log.drop x.1.log.length = new := by rw [e1]; simp
  refine ⟨r, (s, g), ?_, ⟨h2.any, hh, ⟨es, g1⟩, g2, g3⟩, h1, h2⟩
  unfold Bench.chunk
  rw [h1, Except.bind_ok]
  simp only [hd, k2, Except.bind_ok]

theorem bench_init : ∃ g e, Mgr.init.step .enableMatching = .ok (g, e) ∧ Bench.Inv (Itch.St.init, g) := by
  obtain ⟨g, es, g1, g2, g3⟩ := bench_run (log := []) (by simp) (by simp)
  obtain ⟨l, l1, l2⟩ := g3
  have g1' := g1
  unfold Bench.calls at g1'
  unfold Mgr.run at g1'
  obtain ⟨⟨g0, e⟩, k1, k2⟩ := bind_inv g1'
  obtain ⟨⟨g3, es'⟩, k3, k4⟩ := bind_inv k2
  cases k4
  cases k3
  exact ⟨g, e, k1, .inl ⟨rfl, by simp [Itch.St.init]⟩, by simp [Itch.St.init], ⟨_, g1⟩, g2, l, l1, l2⟩

theorem Bench.loop_ok (cs : List (List UInt8)) : ∀ {x : Itch.St × Mgr}, Bench.Inv x →
    Itch.weight x.1.log + x.1.cache.length + cs.flatten.length < 2 ^ 37 →
    ∃ y, Bench.loop cs x = .ok y ∧ Bench.Inv y := by
  induction cs with
  | nil => intro x hx _; exact ⟨x, rfl, hx⟩
  | cons c cs ih =>
    intro x hx hl
    rw [List.flatten_cons, List.length_append] at hl
    obtain ⟨r, y, h1, h2, h3, h4⟩ := Bench.chunk_ok hx c (by
      intro r s hs
      obtain ⟨r', s', k1, k2⟩ := process_total (fun _ _ => true) x.1 c hx.any
      rw [hs] at k1; cases k1
      obtain ⟨new, e1, e2⟩ := k2.log
      have := k2.bound fun _ _ => rfl
      have := log_quantity (log := s.log) (by
        intro m hm
        rw [e1] at hm
        rcases List.mem_append.1 hm with hm | hm
        · exact hx.harmless m hm
        · obtain ⟨p, hp⟩ := e2 m hm; exact decode_harmless hp)
      have := orders_quantity s.log
      omega)
    have := h4.bound fun _ _ => rfl
    obtain ⟨z, k1, k2⟩ := ih h2 (by omega)
    refine ⟨z, ?_, k2⟩
    unfold Bench.loop
    rw [h1, Except.bind_ok, k1]

/-- From a list of calls with their executions: the history, and what all executions have in common. -/
theorem records_facts {g g' : Mgr} {l} (h : Mgr.Records g l g') : ∀ {hist : List (Op × ErrorCode)}, Mgr.History hist g →
    ∃ hist', Mgr.History (hist ++ hist') g' ∧ hist'.map (·.1) = l.map (·.1) := by
  induction h with
  | nil => intro hist hh; exact ⟨[], by rw [List.append_nil]; exact hh, rfl⟩
  | @cons g g1 g' op e evs l ha hs _ _ ih =>
    intro hist hh
    obtain ⟨hist', h1, h2⟩ := ih (hh.snoc ha hs)
    exact ⟨(op, e) :: hist', by rw [List.append_assoc] at h1; exact h1, by rw [List.map_cons, List.map_cons, h2]⟩

theorem records_fair {g g' : Mgr} {l} (h : Mgr.Records g l g') (hr : g.Reachable) {sym : Nat} (hn : g.NoAON sym)
    (hl : ∀ op ∈ l.map (·.1), op.noAON sym ∧ op.isExecute = false) :
    ∃ evs, g'.ev = g.ev ++ evs ∧ sideTotal .buy (execsOn sym (execsOf evs)) = sideTotal .sell (execsOn sym (execsOf evs)) ∧
      ∀ x ∈ execsOf evs, x.1.symbolId = sym → (x.1.side = .buy → x.2.1 ≤ x.1.price) ∧ (x.1.side = .sell → x.1.price ≤ x.2.1) := by
  induction h with
  | nil => exact ⟨[], by simp, rfl, by intro x hx; cases hx⟩
  | @cons g g1 g' op e evs l ha hs hev _ ih =>
    obtain ⟨n1, n2⟩ := hl op (by simp)
    obtain ⟨evs2, i1, i2, i3⟩ := ih (hr.step ha hs) (noAON_kept hr ha hs hn n1) (fun op ho => hl op (by rw [List.map_cons]; exact .tail _ ho))
    refine ⟨evs ++ evs2, by rw [i1, hev, List.append_assoc], ?_, ?_⟩
    · have := C09_conservation hr ha hs hev n2 hn n1
      rw [execsOf_append]
      unfold execsOn at this i2 ⊢
      rw [List.filter_append, sideTotal_append, sideTotal_append, this, i2]
    · intro x hx
      rw [execsOf_append] at hx
      rcases List.mem_append.1 hx with hx | hx
      · exact C10_limit_price hr ha hs hev n2 hn n1 x hx
      · exact i3 x hx

/-- C68: whatever bytes arrive, in whatever chunks, up to 2^37 of them, the matching benchmark never performs undefined behaviour; and for
every symbol it leaves no bid that meets an ask, has executed the same quantity of buy and sell orders, and no buy order above or sell
order below its limit price. -/
theorem C68_any_bytes (chunks : List (List UInt8)) (h : chunks.flatten.length < 2 ^ 37) :
    ∃ s g, Bench.main chunks = .ok (s, g) ∧ g.Reachable ∧ g.matching = true ∧ ∀ sym,
      (∀ p q, g.levels sym true p ≠ none → g.levels sym false q ≠ none → p < q) ∧
      sideTotal .buy (execsOn sym (execsOf g.ev)) = sideTotal .sell (execsOn sym (execsOf g.ev)) ∧
      ∀ x ∈ execsOf g.ev, x.1.symbolId = sym → (x.1.side = .buy → x.2.1 ≤ x.1.price) ∧ (x.1.side = .sell → x.1.price ≤ x.2.1) := by
  obtain ⟨g0, e0, h1, h2⟩ := bench_init
  obtain ⟨⟨s, g⟩, h3, h4⟩ := Bench.loop_ok chunks h2 (by simpa [Itch.St.init, Itch.weight] using h)
  obtain ⟨l, l1, l2⟩ := h4.records
  have hops : ∀ op ∈ l.map (·.1), ∀ sym, op.noAON sym ∧ op.isExecute = false := by
    intro op ho sym
    rw [l2] at ho
    rcases List.mem_cons.1 ho with rfl | ho
    · exact ⟨trivial, rfl⟩
    · obtain ⟨m, _, ho⟩ := List.mem_flatMap.1 ho
      exact ⟨orders_noAON ho sym, orders_not_exec ho⟩
  have hmode : g.matching = true := by
    cases l1 with
    | nil => cases l2
    | @cons _ g1 _ op e evs l ha hs hev hl =>
      rw [List.map_cons] at l2
      obtain ⟨e1, e2⟩ := List.cons.inj l2
      have e1 : op = .enableMatching := e1
      have hr1 : g1.Reachable := .step .init ha hs
      have hm1 : g1.matching = true := (C50_mode .init ha hs).2.1 e1
      clear ha hs hev l2 hops
      have key : ∀ {g g' : Mgr} {l}, Mgr.Records g l g' → g.Reachable → g.matching = true → (∀ op ∈ l.map (·.1), op ≠ .disableMatching) →
          g'.matching = true := by
        intro g g' l h hr hm hl
        induction h with
        | nil => exact hm
        | cons ha hs _ _ ih =>
          refine ih (hr.step ha hs) ?_ fun op ho => hl op (by simp at ho ⊢; exact .inr ho)
          obtain ⟨_, h1, h2, h3⟩ := C50_mode hr ha hs
          rename_i op _ _ _ _ _ _
          by_cases hd : op = .enableMatching
          · exact h1 hd
          · rw [h3 hd (hl op (by simp))]; exact hm
      refine key hl hr1 hm1 ?_
      intro op ho
      rw [e2] at ho
      obtain ⟨m, _, ho⟩ := List.mem_flatMap.1 ho
      rintro rfl
      cases m <;> simp [Msg.orders] at ho
  refine ⟨s, g, ?_, h4.reach, hmode, ?_⟩
  · unfold Bench.main
    rw [h1, Except.bind_ok]
    exact h3
  intro sym
  obtain ⟨hist, k1, k2⟩ := records_facts l1 .nil
  obtain ⟨evs, f1, f2, f3⟩ := records_fair l1 .init (noAON_init sym) (fun op ho => hops op ho sym)
  have f1 : g.ev = evs := f1
  rw [f1]
  refine ⟨?_, f2, f3⟩
  intro p q hp hq
  refine C12_uncrossed k1 (sym := sym) ?_ hmode hp hq
  intro x hx
  refine (hops x.1 ?_ sym).1
  rw [← k2]
  exact List.mem_map.2 ⟨x, hx, rfl⟩

theorem Bench.loop_chunks (cs : List (List UInt8)) : ∀ {x : Itch.St × Mgr} {s' : Itch.St}, Bench.Inv x →
    processChunks (fun _ _ => true) x.1 cs = .ok (true, s') →
    ((s'.log.flatMap Msg.orders).map Op.quantity).sum < 2 ^ 64 → ∃ g, Bench.loop cs x = .ok (s', g) ∧ Bench.Inv (s', g) := by
  have mono : ∀ (cs : List (List UInt8)) (s s' : Itch.St), Any s → processChunks (fun _ _ => true) s cs = .ok (true, s') →
      ∃ new, s'.log = s.log ++ new := by
    intro cs
    induction cs with
    | nil => intro s s' _ h; cases h; exact ⟨[], by simp⟩
    | cons c cs ih =>
      intro s s' ha h
      obtain ⟨r, s1, h1, h2⟩ := process_total (fun _ _ => true) s c ha
      unfold processChunks at h
      rw [h1] at h
      obtain ⟨new, e1, _⟩ := h2.log
      cases r with
      | false => cases h
      | true =>
        obtain ⟨new', e2⟩ := ih s1 s' h2.any h
        exact ⟨new ++ new', by rw [e2, e1, List.append_assoc]⟩
  induction cs with
  | nil => intro x s' hx h _; cases h; exact ⟨x.2, rfl, hx⟩
  | cons c cs ih =>
    intro x s' hx h hq
    unfold processChunks at h
    obtain ⟨r, y, h1, h2, h3, h4⟩ := Bench.chunk_ok hx c (by
      intro r s hs
      obtain ⟨r', s1, k1, k2⟩ := process_total (fun _ _ => true) x.1 c hx.any
      rw [hs] at k1; cases k1
      rw [hs] at h
      cases r with
      | false => cases h
      | true =>
        obtain ⟨new, e⟩ := mono cs s s' k2.any h
        rw [e, List.flatMap_append, List.map_append, List.sum_append] at hq
        omega)
    rw [h3] at h
    cases r with
    | false => cases h
    | true =>
      obtain ⟨g, k1, k2⟩ := ih h2 h hq
      refine ⟨g, ?_, k2⟩
      unfold Bench.loop
      rw [h1, Except.bind_ok, k1]

theorem cut_orders (m : Msg) : (m.mapHdr Hdr.cut).orders = m.orders := by cases m <;> rfl

/-- As C68_book, with the calls of the handler. Over a stream of well-formed messages, wire-encoded, framed and cut into any chunks, the matching benchmark is a textbook
exchange (Textbook.lean) that matches, to which the orders, cancellations, deletions and replacements of the stream are given: the same
lines of orders, the same orders by id, the same executions in the same order. -/
theorem bench_book (ms : List (Msg × List UInt8)) (chunks : List (List UInt8))
    (hm : ∀ x ∈ ms, x.1.Fits ∧ x.2.length = 3)
    (hc : chunks.flatten = (ms.map (fun x => frame (x.1.wire x.2))).flatten)
    (hq : ((ms.flatMap (fun x => x.1.orders)).map Op.quantity).sum < 2 ^ 64)
    (hx : Exchange.init.CoversAll (.enableMatching :: ms.flatMap (fun x => x.1.orders))) :
    ∃ s g, Bench.main chunks = .ok (s, g) ∧
      g.lines = (Exchange.init.after (.enableMatching :: ms.flatMap (fun x => x.1.orders))).lines ∧
      g.getOrder = (Exchange.init.after (.enableMatching :: ms.flatMap (fun x => x.1.orders))).find ∧
      execsOf g.ev = (Exchange.init.results (.enableMatching :: ms.flatMap (fun x => x.1.orders))).flatMap (·.2) := by
  have he : (ms.map (fun x => x.1.mapHdr Hdr.cut)).flatMap Msg.orders = ms.flatMap (fun x => x.1.orders) := by
    rw [List.flatMap_map]; simp only [cut_orders]
  obtain ⟨g0, e0, i1, i2⟩ := bench_init
  obtain ⟨g, h1, h2⟩ := Bench.loop_chunks chunks i2 (stream_roundtrip ms chunks hm hc) (by rw [he]; exact hq)
  obtain ⟨l, h3, h4⟩ := h2.records
  unfold Bench.calls at h4
  rw [he] at h4
  obtain ⟨k1, k2, k3⟩ := C51_textbook h3 (by rw [h4]; exact hx)
  rw [h4] at k1 k2 k3
  refine ⟨_, g, by unfold Bench.main; rw [i1, Except.bind_ok]; exact h1, k2, k3, ?_⟩
  rw [← k1, records_execs h3, List.flatMap_map]
  rfl

/-- The call with the names of symbols blanked. -/
def Op.unname : Op → Op
  | .addSymbol s => .addSymbol ⟨s.id, 0⟩
  | .addOrderBook s => .addOrderBook ⟨s.id, 0⟩
  | op => op

theorem unname_call (x : Exchange) (op : Op) : x.call op.unname = x.call op := by cases op <;> rfl
theorem unname_covers (x : Exchange) (op : Op) : x.Covers op.unname = x.Covers op := by cases op <;> rfl

theorem unname_all (ops : List Op) : ∀ x : Exchange, x.after (ops.map Op.unname) = x.after ops ∧
    x.results (ops.map Op.unname) = x.results ops ∧ (x.CoversAll (ops.map Op.unname) ↔ x.CoversAll ops) := by
  induction ops with
  | nil => intro x; exact ⟨rfl, rfl, Iff.rfl⟩
  | cons op ops ih =>
    intro x
    obtain ⟨h1, h2, h3⟩ := ih (x.call op).2.2
    rw [List.map_cons]
    refine ⟨?_, ?_, ?_⟩
    · show ((x.call op.unname).2.2).after _ = _; rw [unname_call, h1]; rfl
    · show (_, _) :: ((x.call op.unname).2.2).results _ = _; rw [unname_call, h2]; rfl
    · show _ ∧ ((x.call op.unname).2.2).CoversAll _ ↔ _; rw [unname_call, unname_covers, h3]; exact Iff.rfl

theorem unname_requests (ms : List Msg) : (ms.flatMap Msg.orders).map Op.unname = requests ms := by
  unfold requests
  induction ms with
  | nil => rfl
  | cons m ms ih =>
    rw [List.flatMap_cons, List.map_append, ih]
    cases m <;> rfl

theorem requests_quantity (ms : List Msg) :
    ((requests ms).map Op.quantity).sum = ((ms.flatMap Msg.orders).map Op.quantity).sum := by
  rw [← unname_requests, List.map_map]
  congr 2
  funext op
  cases op <;> rfl

/-- C68, the book: over a stream of well-formed messages, wire-encoded, framed and cut into any chunks, the matching benchmark is a textbook
exchange (Textbook.lean) that matches, to which the orders, cancellations, deletions and replacements of the stream are given
(Requests.lean): the same lines of orders, the same orders by id, the same executions in the same order. -/
theorem C68_book (ms : List (Msg × List UInt8)) (chunks : List (List UInt8))
    (hm : ∀ x ∈ ms, x.1.Fits ∧ x.2.length = 3)
    (hc : chunks.flatten = (ms.map (fun x => frame (x.1.wire x.2))).flatten)
    (hq : ((requests (ms.map (·.1))).map Op.quantity).sum < 2 ^ 64)
    (hx : Exchange.init.CoversAll (.enableMatching :: requests (ms.map (·.1)))) :
    ∃ s g, Bench.main chunks = .ok (s, g) ∧
      g.lines = (Exchange.init.after (.enableMatching :: requests (ms.map (·.1)))).lines ∧
      g.getOrder = (Exchange.init.after (.enableMatching :: requests (ms.map (·.1)))).find ∧
      execsOf g.ev = (Exchange.init.results (.enableMatching :: requests (ms.map (·.1)))).flatMap (·.2) := by
  have he : ms.flatMap (fun x => x.1.orders) = (ms.map (·.1)).flatMap Msg.orders := by rw [List.flatMap_map]
  have hu : (Op.enableMatching :: requests (ms.map (·.1))) = (Op.enableMatching :: ms.flatMap (fun x => x.1.orders)).map Op.unname := by
    rw [List.map_cons, he, unname_requests]; rfl
  obtain ⟨u1, u2, u3⟩ := unname_all (Op.enableMatching :: ms.flatMap (fun x => x.1.orders)) Exchange.init
  rw [hu] at hx ⊢
  rw [u1, u2]
  exact bench_book ms chunks hm hc (by rw [he, ← requests_quantity]; exact hq) (u3.1 hx)

/-- The stream of C54, and then a sell order that meets both bids. -/
def benchDay : List (Msg × List UInt8) :=
  itchDay ++ [(.addOrder ⟨65, 1, 0, 14⟩ 1006 83 80 [65, 65, 80, 76, 32, 32, 32, 32] 1499900, [0, 0, 0])]

/-- C68_book applies to it: the new order trades 50 and 30 shares at the prices of the bids. (The execution of 120 shares in the stream is
ignored.) -/
example : (∀ x ∈ benchDay, x.1.Fits ∧ x.2.length = 3) ∧ ((requests (benchDay.map (·.1))).map Op.quantity).sum < 2 ^ 64 ∧
    Exchange.init.CoversAll (.enableMatching :: requests (benchDay.map (·.1))) ∧
    ((Exchange.init.results (.enableMatching :: requests (benchDay.map (·.1)))).flatMap (·.2)).map (fun x => (x.1.id, x.2)) =
      [(1003, 1500000, 50), (1006, 1500000, 50), (1004, 1499900, 30), (1006, 1499900, 30)] ∧
    ((Exchange.init.after (.enableMatching :: requests (benchDay.map (·.1)))).lines 1 .bid).map (fun o => (o.id, o.price, o.leaves)) =
      [(1004, 1499900, 40)] := by
  refine ⟨?_, by decide +kernel, by decide +kernel, by decide +kernel, by decide +kernel⟩
  simp [benchDay, itchDay, Msg.Fits, Hdr.Fits, known]

/-- C68_any_bytes applies to garbage. -/
example : ∃ s g, Bench.main [[0, 5, 65, 1, 2], [3, 4, 9], [9, 9]] = .ok (s, g) ∧ g.Reachable ∧ g.matching = true := by
  obtain ⟨s, g, h1, h2, h3, _⟩ := C68_any_bytes [[0, 5, 65, 1, 2], [3, 4, 9], [9, 9]] (by decide)
  exact ⟨s, g, h1, h2, h3⟩

end CppTrader
