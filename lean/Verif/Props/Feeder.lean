import Verif.Model.Feeder
import Verif.Props.ItchRobust
import Verif.Props.Sequence
import Verif.Props.Textbook
import Verif.Props.Client
/-
C53, C54: the example program that feeds an ITCH stream into a market manager.
-/

namespace CppTrader
open Itch

theorem gives_hdr : Gives hdr fun h => h.locate < 65536 :=
  (gives_any chr).bind fun _ _ => (gives_uint 2).bind fun _ h => (gives_any _).bind fun _ _ => (gives_any _).bind fun _ _ =>
    gives_pure (by simpa using h)

/-- The calls made for a message are harmless: representable, for less than 2^32 shares, no book is deleted, matching not switched on. -/
def Harmless (m : Msg) : Prop := ∀ op ∈ m.ops, op.representable ∧ op.quantity < 4294967296 ∧ (∀ id, op ≠ .deleteOrderBook id) ∧ op ≠ .enableMatching

theorem mkLimit_repr {id sym p q : Nat} {sd : Side} (h1 : id < W64) (h2 : sym < 4294967296) (h3 : p < 4294967296) (h4 : q < 4294967296) :
    (Order.mkLimit id sym sd p q).Repr64 := by
  simp [Order.Repr64, Order.mkLimit, Order.mk']; omega

theorem harmless_nil {m : Msg} (h : m.ops = []) : Harmless m := by rintro op ho; rw [h] at ho; cases ho

theorem harmless_add {id sym p q : Nat} {sd : Side} (h1 : id < 256 ^ 8) (h2 : sym < 65536) (h3 : p < 256 ^ 4) (h4 : q < 256 ^ 4)
    {m : Msg} (hm : m.ops = [.addOrder (.mkLimit id sym sd p q)]) : Harmless m := by
  rintro op ho
  rw [hm, List.mem_singleton] at ho; subst ho
  exact ⟨mkLimit_repr h1 (by omega) h3 h4, h4, by simp, by simp⟩

/-- Readers of messages the program does not react to. -/
macro "dull" : tactic => `(tactic| (
  repeat (refine (gives_any _).bind fun _ _ => ?_)
  exact gives_pure (harmless_nil rfl)))

theorem decode_harmless {d : List UInt8} {m : Msg} (h : decode d = .ok (some m)) : Harmless m := by
  have g1 : Gives rdSystemEvent Harmless := by unfold rdSystemEvent; dull
  have g2 : Gives rdStockDirectory Harmless := by
    unfold rdStockDirectory
    refine gives_hdr.bind fun h hh => ?_
    repeat (refine (gives_any _).bind fun _ _ => ?_)
    refine gives_pure ?_
    intro op ho
    simp only [Msg.ops, List.mem_cons, List.mem_singleton, List.not_mem_nil, or_false] at ho
    rcases ho with rfl | rfl
    · exact ⟨by show h.locate < _; omega, by show 0 < _; omega, by simp, by simp⟩
    · exact ⟨trivial, by show 0 < _; omega, by simp, by simp⟩
  have g3 : Gives rdTradingAction Harmless := by unfold rdTradingAction; dull
  have g4 : Gives rdRegSHO Harmless := by unfold rdRegSHO; dull
  have g5 : Gives rdParticipantPosition Harmless := by unfold rdParticipantPosition; dull
  have g6 : Gives rdMwcbDecline Harmless := by unfold rdMwcbDecline; dull
  have g7 : Gives rdMwcbStatus Harmless := by unfold rdMwcbStatus; dull
  have g8 : Gives rdIpoQuoting Harmless := by unfold rdIpoQuoting; dull
  have g9 : Gives rdAddOrder Harmless := by
    unfold rdAddOrder
    exact gives_hdr.bind fun h hh => (gives_uint 8).bind fun ref h1 => (gives_any _).bind fun sd _ => (gives_uint 4).bind fun q h2 =>
      (gives_any _).bind fun st _ => (gives_uint 4).bind fun p h3 => gives_pure (harmless_add h1 hh h3 h2 rfl)
  have g10 : Gives rdAddOrderMPID Harmless := by
    unfold rdAddOrderMPID
    exact gives_hdr.bind fun h hh => (gives_uint 8).bind fun ref h1 => (gives_any _).bind fun sd _ => (gives_uint 4).bind fun q h2 =>
      (gives_any _).bind fun st _ => (gives_uint 4).bind fun p h3 => (gives_any _).bind fun at' _ => gives_pure (harmless_add h1 hh h3 h2 rfl)
  have g11 : Gives rdOrderExecuted Harmless := by
    unfold rdOrderExecuted
    repeat (refine (gives_any _).bind fun _ _ => ?_)
    refine gives_pure ?_
    intro op ho
    rw [show op = _ from List.mem_singleton.1 ho]
    exact ⟨trivial, by show 0 < _; omega, by simp, by simp⟩
  have g12 : Gives rdOrderExecutedWithPrice Harmless := by
    unfold rdOrderExecutedWithPrice
    repeat (refine (gives_any _).bind fun _ _ => ?_)
    refine gives_pure ?_
    intro op ho
    rw [show op = _ from List.mem_singleton.1 ho]
    exact ⟨trivial, by show 0 < _; omega, by simp, by simp⟩
  have g13 : Gives rdOrderCancel Harmless := by
    unfold rdOrderCancel
    repeat (refine (gives_any _).bind fun _ _ => ?_)
    refine gives_pure ?_
    intro op ho
    rw [show op = _ from List.mem_singleton.1 ho]
    exact ⟨trivial, by show 0 < _; omega, by simp, by simp⟩
  have g14 : Gives rdOrderDelete Harmless := by
    unfold rdOrderDelete
    repeat (refine (gives_any _).bind fun _ _ => ?_)
    refine gives_pure ?_
    intro op ho
    rw [show op = _ from List.mem_singleton.1 ho]
    exact ⟨trivial, by show 0 < _; omega, by simp, by simp⟩
  have g15 : Gives rdOrderReplace Harmless := by
    unfold rdOrderReplace
    refine (gives_any _).bind fun _ _ => (gives_any _).bind fun _ _ => (gives_uint 8).bind fun n h1 => (gives_uint 4).bind fun q h2 =>
      (gives_uint 4).bind fun p h3 => gives_pure ?_
    intro op ho
    rw [show op = _ from List.mem_singleton.1 ho]
    exact ⟨⟨h1, by omega, by omega⟩, h2, by simp, by simp⟩
  have g16 : Gives rdTrade Harmless := by unfold rdTrade; dull
  have g17 : Gives rdCrossTrade Harmless := by unfold rdCrossTrade; dull
  have g18 : Gives rdBrokenTrade Harmless := by unfold rdBrokenTrade; dull
  have g19 : Gives rdNoii Harmless := by unfold rdNoii; dull
  have g20 : Gives rdRpii Harmless := by unfold rdRpii; dull
  have g21 : Gives rdLuldCollar Harmless := by unfold rdLuldCollar; dull
  cases d with
  | nil => cases h
  | cons t d =>
    rw [decode_cons t (t :: d) rfl] at h
    by_cases c1 : t = 83
    · rw [if_pos c1] at h; exact (sized_gives g1 h).1
    rw [if_neg c1] at h
    by_cases c1 : t = 82
    · rw [if_pos c1] at h; exact (sized_gives g2 h).1
    rw [if_neg c1] at h
    by_cases c1 : t = 72
    · rw [if_pos c1] at h; exact (sized_gives g3 h).1
    rw [if_neg c1] at h
    by_cases c1 : t = 89
    · rw [if_pos c1] at h; exact (sized_gives g4 h).1
    rw [if_neg c1] at h
    by_cases c1 : t = 76
    · rw [if_pos c1] at h; exact (sized_gives g5 h).1
    rw [if_neg c1] at h
    by_cases c1 : t = 86
    · rw [if_pos c1] at h; exact (sized_gives g6 h).1
    rw [if_neg c1] at h
    by_cases c1 : t = 87
    · rw [if_pos c1] at h; exact (sized_gives g7 h).1
    rw [if_neg c1] at h
    by_cases c1 : t = 75
    · rw [if_pos c1] at h; exact (sized_gives g8 h).1
    rw [if_neg c1] at h
    by_cases c1 : t = 65
    · rw [if_pos c1] at h; exact (sized_gives g9 h).1
    rw [if_neg c1] at h
    by_cases c1 : t = 70
    · rw [if_pos c1] at h; exact (sized_gives g10 h).1
    rw [if_neg c1] at h
    by_cases c1 : t = 69
    · rw [if_pos c1] at h; exact (sized_gives g11 h).1
    rw [if_neg c1] at h
    by_cases c1 : t = 67
    · rw [if_pos c1] at h; exact (sized_gives g12 h).1
    rw [if_neg c1] at h
    by_cases c1 : t = 88
    · rw [if_pos c1] at h; exact (sized_gives g13 h).1
    rw [if_neg c1] at h
    by_cases c1 : t = 68
    · rw [if_pos c1] at h; exact (sized_gives g14 h).1
    rw [if_neg c1] at h
    by_cases c1 : t = 85
    · rw [if_pos c1] at h; exact (sized_gives g15 h).1
    rw [if_neg c1] at h
    by_cases c1 : t = 80
    · rw [if_pos c1] at h; exact (sized_gives g16 h).1
    rw [if_neg c1] at h
    by_cases c1 : t = 81
    · rw [if_pos c1] at h; exact (sized_gives g17 h).1
    rw [if_neg c1] at h
    by_cases c1 : t = 66
    · rw [if_pos c1] at h; exact (sized_gives g18 h).1
    rw [if_neg c1] at h
    by_cases c1 : t = 73
    · rw [if_pos c1] at h; exact (sized_gives g19 h).1
    rw [if_neg c1] at h
    by_cases c1 : t = 78
    · rw [if_pos c1] at h; exact (sized_gives g20 h).1
    rw [if_neg c1] at h
    by_cases c1 : t = 74
    · rw [if_pos c1] at h; exact (sized_gives g21 h).1
    rw [if_neg c1] at h
    cases h; exact harmless_nil rfl

/-! ### Running the calls -/

theorem run_append {g : Mgr} {a b : List Op} {g' es} (h : g.run (a ++ b) = .ok (g', es)) :
    ∃ g1 es1 es2, g.run a = .ok (g1, es1) ∧ g1.run b = .ok (g', es2) ∧ es = es1 ++ es2 := by
  induction a generalizing g es with
  | nil => exact ⟨g, [], es, rfl, h, rfl⟩
  | cons op a ih =>
    rw [List.cons_append] at h
    unfold Mgr.run at h
    obtain ⟨⟨g1, e⟩, h1, h2⟩ := bind_inv h
    obtain ⟨⟨g2, es'⟩, h3, h4⟩ := bind_inv h2
    cases h4
    obtain ⟨g3, es1, es2, k1, k2, rfl⟩ := ih h3
    refine ⟨g3, e :: es1, es2, ?_, k2, rfl⟩
    show (g.run (op :: a)) = _
    unfold Mgr.run
    rw [h1, Except.bind_ok]
    simp only [k1, Except.bind_ok]

theorem harmless_ops {log : List Msg} (h : ∀ m ∈ log, Harmless m) (op : Op) (ho : op ∈ log.flatMap Msg.ops) :
    op.representable ∧ op.quantity < 4294967296 ∧ (∀ id, op ≠ .deleteOrderBook id) ∧ op ≠ .enableMatching := by
  obtain ⟨m, hm, ho⟩ := List.mem_flatMap.1 ho
  exact h m hm op ho

theorem noRevival_of {ops : List Op} (h : ∀ op ∈ ops, ∀ id, op ≠ .deleteOrderBook id) : noRevival ops := by
  unfold noRevival
  induction ops with
  | nil => exact .nil
  | cons op ops ih =>
    exact List.pairwise_cons.2 ⟨fun b _ s _ => h op (by simp) _, ih fun o ho => h o (by simp [ho])⟩

theorem msg_quantity {m : Msg} (h : Harmless m) : 35 * (m.ops.map Op.quantity).sum ≤ m.weight * 4294967295 := by
  have key : ∀ op, m.ops = [op] → (m.ops.map Op.quantity).sum ≤ 4294967295 := by
    intro op ho
    have := (h op (by rw [ho]; simp)).2.1
    rw [ho]; simp; omega
  cases m
  case addOrder => have := key _ rfl; simp only [Msg.weight]; omega
  case addOrderMPID => have := key _ rfl; simp only [Msg.weight]; omega
  case orderReplace => have := key _ rfl; simp only [Msg.weight]; omega
  all_goals exact Nat.zero_le _

theorem log_quantity {log : List Msg} (h : ∀ m ∈ log, Harmless m) :
    35 * ((log.flatMap Msg.ops).map Op.quantity).sum ≤ Itch.weight log * 4294967295 := by
  induction log with
  | nil => simp
  | cons m log ih =>
    have h1 := msg_quantity (h m (by simp))
    have h2 := ih fun x hx => h x (by simp [hx])
    simp only [List.flatMap_cons, List.map_append, List.sum_append, Itch.weight, List.map_cons, List.sum_cons] at h2 ⊢
    rw [Nat.mul_add, Nat.add_mul]
    omega

theorem log_run {log : List Msg} (h : ∀ m ∈ log, Harmless m) (hq : ((log.flatMap Msg.ops).map Op.quantity).sum < 2 ^ 64) :
    ∃ g es, Mgr.init.run (log.flatMap Msg.ops) = .ok (g, es) ∧ g.Reachable ∧
      ∃ l, Mgr.Records Mgr.init l g ∧ l.map (·.1) = log.flatMap Msg.ops := by
  obtain ⟨g, es, h1, _, h2, l, h3, h4, _⟩ := run_init (log.flatMap Msg.ops) (fun op ho => (harmless_ops h op ho).1) hq
    (noRevival_of fun op ho => (harmless_ops h op ho).2.2.1)
  exact ⟨g, es, h1, h2, l, h3, h4⟩

/-- What holds between two chunks. -/
structure Feeder.Inv (x : St × Mgr) : Prop where
  any : Any x.1
  harmless : ∀ m ∈ x.1.log, Harmless m
  run : ∃ es, Mgr.init.run (x.1.log.flatMap Msg.ops) = .ok (x.2, es)
  reach : x.2.Reachable
  records : ∃ l, Mgr.Records Mgr.init l x.2 ∧ l.map (·.1) = x.1.log.flatMap Msg.ops

theorem Feeder.chunk_ok {x : St × Mgr} (hx : Feeder.Inv x) (c : List UInt8)
    (hq : ∀ r s, process (fun _ _ => true) x.1 c = .ok (r, s) → ((s.log.flatMap Msg.ops).map Op.quantity).sum < 2 ^ 64) :
    ∃ r y, Feeder.chunk x c = .ok y ∧ Feeder.Inv y ∧ process (fun _ _ => true) x.1 c = .ok (r, y.1) ∧
      Grows (fun _ _ => true) x.1 y.1 c.length := by
  obtain ⟨r, s, h1, h2⟩ := process_total (fun _ _ => true) x.1 c hx.any
  obtain ⟨new, e1, e2⟩ := h2.log
  have hh : ∀ m ∈ s.log, Harmless m := by
    intro m hm
    rw [e1] at hm
    rcases List.mem_append.1 hm with hm | hm
    · exact hx.harmless m hm
    · obtain ⟨p, hp⟩ := e2 m hm; exact decode_harmless hp
  obtain ⟨g, es, g1, g2, g3⟩ := log_run hh (hq r s h1)
  obtain ⟨es0, hr⟩ := hx.run
  have g1' := g1
  rw [e1, List.flatMap_append] at g1'
  obtain ⟨g0, _, es2, k1, k2, _⟩ := run_append g1'
  rw [hr] at k1; cases k1
  have hd : s.log.drop x.1.log.length = new := by rw [e1]; simp
  refine ⟨r, (s, g), ?_, ⟨h2.any, hh, ⟨es, g1⟩, g2, g3⟩, h1, h2⟩
  unfold Feeder.chunk
  rw [h1, Except.bind_ok]
  simp only [hd, k2, Except.bind_ok]

theorem Feeder.inv_init : Feeder.Inv (St.init, Mgr.init) :=
  ⟨.inl ⟨rfl, by simp [St.init]⟩, by simp [St.init], ⟨[], rfl⟩, .init, [], .nil, rfl⟩

theorem Feeder.main_ok (cs : List (List UInt8)) : ∀ {x : St × Mgr}, Feeder.Inv x →
    Itch.weight x.1.log + x.1.cache.length + cs.flatten.length < 2 ^ 37 →
    ∃ y, Feeder.main cs x = .ok y ∧ Feeder.Inv y := by
  induction cs with
  | nil => intro x hx _; exact ⟨x, rfl, hx⟩
  | cons c cs ih =>
    intro x hx hl
    rw [List.flatten_cons, List.length_append] at hl
    obtain ⟨r, y, h1, h2, h3, h4⟩ := Feeder.chunk_ok hx c (by
      intro r s hs
      obtain ⟨r', s', k1, k2⟩ := process_total (fun _ _ => true) x.1 c hx.any
      rw [hs] at k1; cases k1
      obtain ⟨new, e1, e2⟩ := k2.log
      have := k2.bound fun _ _ => rfl
      have := log_quantity (log := s.log) (by
        intro m hm
        rw [e1] at hm
        rcases List.mem_append.1 hm with hm | hm
        · exact hx.harmless m hm
        · obtain ⟨p, hp⟩ := e2 m hm; exact decode_harmless hp)
      omega)
    have := h4.bound fun _ _ => rfl
    obtain ⟨z, k1, k2⟩ := ih h2 (by omega)
    refine ⟨z, ?_, k2⟩
    unfold Feeder.main
    rw [h1, Except.bind_ok, k1]

theorem records_mode {g g' : Mgr} {l} (h : Mgr.Records g l g') (hr : g.Reachable) (hm : g.matching = false)
    (hl : ∀ op ∈ l.map (·.1), op ≠ .enableMatching) : g'.matching = false := by
  induction h with
  | nil => exact hm
  | cons ha hs _ _ ih =>
    refine ih (hr.step ha hs) ?_ fun op ho => hl op (by simp at ho ⊢; exact .inr ho)
    obtain ⟨_, h1, h2, h3⟩ := C50_mode hr ha hs
    rename_i op _ _ _ _ _ _
    by_cases hd : op = .disableMatching
    · exact h2 hd
    · rw [h3 (hl op (by simp)) hd]; exact hm

/-- C53: whatever bytes arrive (malformed frames, unknown messages, inconsistent orders), in whatever chunks, up to
2^37 of them, the program never performs undefined behaviour and reaches a state of the market manager to which all the
other properties apply. -/
theorem C53_any_bytes (chunks : List (List UInt8)) (h : chunks.flatten.length < 2 ^ 37) :
    ∃ s g, Feeder.main chunks (St.init, Mgr.init) = .ok (s, g) ∧ g.Reachable ∧ g.matching = false := by
  obtain ⟨⟨s, g⟩, h1, h2⟩ := Feeder.main_ok chunks Feeder.inv_init (by simpa [St.init, Itch.weight] using h)
  obtain ⟨l, h3, h4⟩ := h2.records
  exact ⟨s, g, h1, h2.reach, records_mode h3 .init rfl fun op ho => (harmless_ops h2.harmless op (by rw [← h4]; exact ho)).2.2.2⟩

/-! ### C54 -/

theorem Feeder.main_chunks (cs : List (List UInt8)) : ∀ {x : St × Mgr} {s' : St}, Feeder.Inv x →
    processChunks (fun _ _ => true) x.1 cs = .ok (true, s') →
    ((s'.log.flatMap Msg.ops).map Op.quantity).sum < 2 ^ 64 → ∃ g, Feeder.main cs x = .ok (s', g) ∧ Feeder.Inv (s', g) := by
  have mono : ∀ (cs : List (List UInt8)) (s s' : St), Any s → processChunks (fun _ _ => true) s cs = .ok (true, s') →
      ∃ new, s'.log = s.log ++ new := by
    intro cs
    induction cs with
    | nil => intro s s' _ h; cases h; exact ⟨[], by simp⟩
    | cons c cs ih =>
      intro s s' ha h
      obtain ⟨r, s1, h1, h2⟩ := process_total (fun _ _ => true) s c ha
      unfold processChunks at h
      rw [h1] at h
      obtain ⟨new, e1, _⟩ := h2.log
      cases r with
      | false => cases h
      | true =>
        obtain ⟨new', e2⟩ := ih s1 s' h2.any h
        exact ⟨new ++ new', by rw [e2, e1, List.append_assoc]⟩
  induction cs with
  | nil => intro x s' hx h _; cases h; exact ⟨x.2, rfl, hx⟩
  | cons c cs ih =>
    intro x s' hx h hq
    unfold processChunks at h
    obtain ⟨r, y, h1, h2, h3, h4⟩ := Feeder.chunk_ok hx c (by
      intro r s hs
      obtain ⟨r', s1, k1, k2⟩ := process_total (fun _ _ => true) x.1 c hx.any
      rw [hs] at k1; cases k1
      rw [hs] at h
      cases r with
      | false => cases h
      | true =>
        obtain ⟨new, e⟩ := mono cs s s' k2.any h
        rw [e, List.flatMap_append, List.map_append, List.sum_append] at hq
        omega)
    rw [h3] at h
    cases r with
    | false => cases h
    | true =>
      obtain ⟨g, k1, k2⟩ := ih h2 h hq
      refine ⟨g, ?_, k2⟩
      unfold Feeder.main
      rw [h1, Except.bind_ok, k1]

/-- The calls a list of messages stands for do not depend on the timestamps. -/
theorem cut_ops (m : Msg) : (m.mapHdr Hdr.cut).ops = m.ops := by cases m <;> rfl

theorem records_execs {g g' : Mgr} {l} (h : Mgr.Records g l g') : execsOf g'.ev = execsOf g.ev ++ l.flatMap (·.2.2) := by
  induction h with
  | nil => simp
  | cons _ _ hev _ ih => rw [ih, hev, execsOf_append, List.flatMap_cons, List.append_assoc]

/-- C54: a stream of well-formed messages, wire-encoded, framed, and cut into any chunks, leaves the market manager in the
state in which the textbook exchange is after the same adds, executions, cancels, deletes and replacements: the same
orders, in every book in the same priority, and the same executions reported. The messages must be consistent (no order added under a reference number in
use) and the shares add up to less than 2^64. -/
theorem C54_itch_book (ms : List (Msg × List UInt8)) (chunks : List (List UInt8))
    (hm : ∀ x ∈ ms, x.1.Fits ∧ x.2.length = 3)
    (hc : chunks.flatten = (ms.map (fun x => frame (x.1.wire x.2))).flatten)
    (hq : ((ms.flatMap (fun x => x.1.ops)).map Op.quantity).sum < 2 ^ 64)
    (hx : Exchange.init.CoversAll (ms.flatMap (fun x => x.1.ops))) :
    ∃ s g, Feeder.main chunks (St.init, Mgr.init) = .ok (s, g) ∧
      g.lines = (Exchange.init.after (ms.flatMap (fun x => x.1.ops))).lines ∧
      g.getOrder = (Exchange.init.after (ms.flatMap (fun x => x.1.ops))).find ∧
      execsOf g.ev = (Exchange.init.results (ms.flatMap (fun x => x.1.ops))).flatMap (·.2) := by
  have he : (ms.map (fun x => x.1.mapHdr Hdr.cut)).flatMap Msg.ops = ms.flatMap (fun x => x.1.ops) := by
    rw [List.flatMap_map]; simp only [cut_ops]
  obtain ⟨g, h1, h2⟩ := Feeder.main_chunks chunks Feeder.inv_init (stream_roundtrip ms chunks hm hc) (by rw [he]; exact hq)
  obtain ⟨l, h3, h4⟩ := h2.records
  rw [he] at h4
  obtain ⟨k1, k2, k3⟩ := C51_textbook h3 (by rw [h4]; exact hx)
  rw [h4] at k1 k2 k3
  refine ⟨_, g, h1, k2, k3, ?_⟩
  rw [← k1, records_execs h3, List.flatMap_map]
  rfl

/-- A stream with two symbols, adds on both sides, an execution, a cancel, a replacement and an ignored message. -/
def itchDay : List (Msg × List UInt8) :=
  [(.stockDirectory ⟨82, 1, 0, 5⟩ [65, 65, 80, 76, 32, 32, 32, 32] 81 78 100 78 67 [90, 32] 80 78 78 49 78 0 78, [0, 0, 0]),
   (.stockDirectory ⟨82, 2, 0, 6⟩ [77, 83, 70, 84, 32, 32, 32, 32] 81 78 100 78 67 [90, 32] 80 78 78 49 78 0 78, [0, 0, 0]),
   (.addOrder ⟨65, 1, 0, 7⟩ 1001 66 300 [65, 65, 80, 76, 32, 32, 32, 32] 1500000, [0, 0, 0]),
   (.addOrderMPID ⟨70, 1, 0, 8⟩ 1002 83 200 [65, 65, 80, 76, 32, 32, 32, 32] 1510000 77, [1, 2, 3]),
   (.addOrder ⟨65, 1, 0, 9⟩ 1003 66 50 [65, 65, 80, 76, 32, 32, 32, 32] 1500000, [0, 0, 0]),
   (.orderExecuted ⟨69, 1, 0, 10⟩ 1001 120 1, [0, 0, 0]),
   (.trade ⟨80, 1, 0, 10⟩ 0 66 10 [65, 65, 80, 76, 32, 32, 32, 32] 1505000 2, [0, 0, 0]),
   (.orderCancel ⟨88, 1, 0, 11⟩ 1002 50, [0, 0, 0]),
   (.orderReplace ⟨85, 1, 0, 12⟩ 1001 1004 70 1499900, [0, 0, 0]),
   (.addOrder ⟨65, 2, 0, 13⟩ 1005 83 10 [77, 83, 70, 84, 32, 32, 32, 32] 4000000, [0, 0, 0])]

/-- C54 applies to it, and the book it leaves is not trivial. -/
example : (∀ x ∈ itchDay, x.1.Fits ∧ x.2.length = 3) ∧ ((itchDay.flatMap (fun x => x.1.ops)).map Op.quantity).sum < 2 ^ 64 ∧
    Exchange.init.CoversAll (itchDay.flatMap (fun x => x.1.ops)) ∧
    ((Exchange.init.after (itchDay.flatMap (fun x => x.1.ops))).lines 1 .bid).map (fun o => (o.id, o.price, o.leaves)) =
      [(1003, 1500000, 50), (1004, 1499900, 70)] ∧
    ((Exchange.init.after (itchDay.flatMap (fun x => x.1.ops))).lines 1 .ask).map (fun o => (o.id, o.price, o.leaves)) =
      [(1002, 1510000, 150)] := by
  refine ⟨?_, by decide +kernel, by decide +kernel, by decide +kernel, by decide +kernel⟩
  simp [itchDay, Msg.Fits, Hdr.Fits, known]

/-- C53 applies to garbage; here a frame of the wrong size, then bytes that are read out of step. -/
example : ∃ s g, Feeder.main [[0, 5, 65, 1, 2], [3, 4, 9], [9, 9]] (St.init, Mgr.init) = .ok (s, g) ∧ g.Reachable ∧ g.matching = false :=
  C53_any_bytes _ (by decide)

end CppTrader
