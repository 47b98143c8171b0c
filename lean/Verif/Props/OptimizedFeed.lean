import Verif.Props.Optimized
/-
C64 for ITCH streams, and for feeds that are consistent in the ordinary sense.
-/

namespace CppTrader.Opt
open Itch

/-- A symbol is registered. -/
theorem Inv.symbol {s : St} {z : Seen} (h : Inv s z) {sym : Nat} (hs : sym < 10000) (name : Nat) :
    ∃ s', addSymbol s sym name = .ok s' ∧ Inv s' z ∧ Adds s s' [.symbol] := by
  unfold addSymbol
  rw [getBook_ok hs, Except.bind_ok]
  refine ⟨_, rfl, ⟨h.struct.congr rfl rfl rfl, h.small, h.ids, h.fit, h.ord, h.noted⟩, ((Adds.refl _).emit rfl).of_ev rfl⟩

/-- The notes of a report of an ITCH stream: a symbol is registered with its book. -/
def msgNotes (t : Tape) : Report → List Note
  | .tick (.book _) => [.symbol, .book]
  | x => notes t x

/-- One message. -/
theorem Inv.react {s : St} {z : Seen} (h : Inv s z) {m : Msg} {x : Report} (hm : m.report = some x) (hx : z.Consistent x) :
    ∃ s', Opt.react s m = .ok s' ∧ Inv s' (z.next x) ∧ Adds s s' (msgNotes z.tape x) := by
  cases m <;> simp only [Msg.report, Msg.tick, Option.map, Option.some.injEq, reduceCtorEq] at hm <;> subst hm
  case stockDirectory hd st _ _ _ _ _ _ _ _ _ _ _ _ _ =>
    obtain ⟨s1, a1, a2, a3⟩ := h.symbol hx.1 (beVal st)
    obtain ⟨s2, b1, b2, b3⟩ := a2.call hx
    refine ⟨s2, ?_, b2, a3.trans b3⟩
    show (addSymbol s hd.locate (beVal st) >>= fun s => addOrderBook s hd.locate) = _
    rw [a1, Except.bind_ok]
    exact b1
  case orderExecutedWithPrice hd ref shares mn pr price =>
    obtain ⟨r, hr⟩ := hx
    obtain ⟨s', a1, a2, a3⟩ := h.execute (q := shares) hr (fun _ => price)
    refine ⟨s', a1, a2, ?_⟩
    have a4 := (a3 price fun _ => rfl).adds
    rw [List.map_map, show Story.note ∘ Story.at price = Story.note from by funext x; cases x <;> rfl] at a4
    have a5 := news_notes (z := z) (x := .tick (.take ref shares)) ⟨r, hr⟩
    unfold Seen.news at a5
    simp only [hr] at a5
    rw [a5] at a4
    exact a4
  all_goals exact h.call hx

theorem react_none {s : St} {m : Msg} (hm : m.report = none) : Opt.react s m = .ok s := by
  cases m <;> first | rfl | cases hm

theorem Inv.reactAll (ms : List Msg) : ∀ {s : St} {z : Seen}, Inv s z → z.ConsistentAll (ms.filterMap Msg.report) →
    ∃ s', Opt.reactAll s ms = .ok s' ∧ Inv s' (z.after (ms.filterMap Msg.report)) := by
  induction ms with
  | nil => intro s z h _; exact ⟨s, rfl, h⟩
  | cons m ms ih =>
    intro s z h hc
    unfold Opt.reactAll
    cases hk : m.report with
    | none =>
      rw [List.filterMap_cons_none hk] at hc ⊢
      rw [react_none hk, Except.bind_ok]
      exact ih h hc
    | some k =>
      rw [List.filterMap_cons_some hk] at hc ⊢
      obtain ⟨s1, h1, h2, _⟩ := h.react hk hc.1
      rw [h1, Except.bind_ok]
      exact ih h2 hc.2

theorem reactAll_append (a b : List Msg) : ∀ s : St, Opt.reactAll s (a ++ b) = (Opt.reactAll s a).bind fun s => Opt.reactAll s b := by
  induction a with
  | nil => intro s; rfl
  | cons m a ih =>
    intro s
    show (Opt.react s m >>= fun s => Opt.reactAll s (a ++ b)) = (Opt.react s m >>= fun s => Opt.reactAll s a).bind _
    cases Opt.react s m with
    | error e => rfl
    | ok s' => exact ih s'

/-- The chunks are as good as the messages. -/
theorem opt_chunks (cs : List (List UInt8)) : ∀ {p p' : Itch.St} {s s' : St} {new : List Msg}, Itch.Any p →
    processChunks (fun _ _ => true) p cs = .ok (true, p') → p'.log = p.log ++ new → Opt.reactAll s new = .ok s' →
    Opt.main cs (p, s) = .ok (p', s') := by
  have mono : ∀ (cs : List (List UInt8)) (s s' : Itch.St), Any s → processChunks (fun _ _ => true) s cs = .ok (true, s') →
      ∃ new, s'.log = s.log ++ new := by
    intro cs
    induction cs with
    | nil => intro s s' _ h; cases h; exact ⟨[], by simp⟩
    | cons c cs ih =>
      intro s s' ha h
      obtain ⟨r, s1, h1, h2⟩ := process_total (fun _ _ => true) s c ha
      unfold processChunks at h
      rw [h1] at h
      obtain ⟨new, e1, _⟩ := h2.log
      cases r with
      | false => cases h
      | true =>
        obtain ⟨new', e2⟩ := ih s1 s' h2.any h
        exact ⟨new ++ new', by rw [e2, e1, List.append_assoc]⟩
  induction cs with
  | nil =>
    intro p p' s s' new _ h hl hr
    cases h
    have : new = [] := by simpa using hl
    subst this
    cases hr
    rfl
  | cons c cs ih =>
    intro p p' s s' new ha h hl hr
    obtain ⟨r, p1, h1, h2⟩ := process_total (fun _ _ => true) p c ha
    unfold processChunks at h
    rw [h1] at h
    obtain ⟨new1, e1, _⟩ := h2.log
    cases r with
    | false => cases h
    | true =>
      obtain ⟨new2, e2⟩ := mono cs p1 p' h2.any h
      rw [e1, List.append_assoc, hl] at e2
      have e2 := List.append_cancel_left e2
      subst e2
      rw [reactAll_append] at hr
      cases hs : Opt.reactAll s new1 with
      | error e => rw [hs] at hr; cases hr
      | ok s1 =>
        rw [hs] at hr
        unfold Opt.main Opt.chunk
        simp only [h1, Except.bind_ok, e1, List.drop_left, hs]
        exact ih h2.any h (by rw [hl, e1, List.append_assoc]) hr

theorem cut_report (m : Msg) : (m.mapHdr Hdr.cut).report = m.report := by cases m <;> rfl

/-- C64 for the program: a stream of well-formed messages, wire-encoded, framed and cut into any chunks, that is consistent for
the optimised manager, leaves it showing exactly the levels of what is seen. -/
theorem C64_stream (ms : List (Msg × List UInt8)) (chunks : List (List UInt8))
    (hm : ∀ x ∈ ms, x.1.Fits ∧ x.2.length = 3)
    (hc : chunks.flatten = (ms.map (fun x => frame (x.1.wire x.2))).flatten)
    (ht : Seen.blank.ConsistentAll (ms.filterMap (fun x => x.1.report))) :
    ∃ p s, Opt.main chunks (St.init, Opt.init) = .ok (p, s) ∧
      ∀ sym sd, (Seen.blank.after (ms.filterMap (fun x => x.1.report))).Levels sym sd (levels s sym sd) := by
  have het : (ms.map (fun x => x.1.mapHdr Hdr.cut)).filterMap Msg.report = ms.filterMap (fun x => x.1.report) := by
    rw [List.filterMap_map]; congr 1; funext x; exact cut_report x.1
  have hstream := stream_roundtrip ms chunks hm hc
  rw [← het] at ht ⊢
  obtain ⟨s, s1, s2⟩ := Inv.reactAll _ inv_init ht
  exact ⟨_, s, opt_chunks chunks Feeder.inv_init.any hstream (new := ms.map (fun x => x.1.mapHdr Hdr.cut)) (by simp [Itch.St.init]) s1, s2.levels⟩

/-! ### Ordinary feeds -/

/-- Without the price. -/
def blind (r : Ticket) : Ticket := { r with price := 0 }

/-- The same orders, up to prices. -/
def Blind (a b : Tape) : Prop := a.map blind = b.map blind

theorem Blind.find {a b : Tape} (h : Blind a b) (id : Nat) : (a.find id).map blind = (b.find id).map blind := by
  have key : ∀ t : Tape, (t.find id).map blind = Tape.find (t.map blind) id := by
    intro t
    unfold Tape.find
    rw [List.find?_map]
    rfl
  rw [key, key]; exact congrArg (fun t => Tape.find t id) h

theorem Blind.without {a b : Tape} (h : Blind a b) (id : Nat) : Blind (a.without id) (b.without id) := by
  have key : ∀ t : Tape, (t.without id).map blind = Tape.without (t.map blind) id := by
    intro t
    unfold Tape.without
    rw [List.filter_map]
    rfl
  unfold Blind
  rw [key, key]; exact congrArg (fun t => Tape.without t id) h

theorem Blind.cons {a b : Tape} (h : Blind a b) {r r' : Ticket} (hr : blind r = blind r') : Blind (r :: a) (r' :: b) := by
  unfold Blind; rw [List.map_cons, List.map_cons, hr, h]

theorem Blind.find_some {a b : Tape} (h : Blind a b) {id : Nat} {r : Ticket} (hr : a.find id = some r) :
    ∃ r', b.find id = some r' ∧ blind r = blind r' := by
  have := h.find id
  rw [hr] at this
  cases hb : b.find id with
  | none => rw [hb] at this; cases this
  | some r' => rw [hb] at this; exact ⟨r', rfl, Option.some.inj this⟩

theorem Blind.find_none {a b : Tape} (h : Blind a b) {id : Nat} (hr : a.find id = none) : b.find id = none := by
  have := h.find id
  rw [hr] at this
  cases hb : b.find id with
  | none => rfl
  | some r' => rw [hb] at this; cases this

theorem Blind.symm {a b : Tape} (h : Blind a b) : Blind b a := Eq.symm h

theorem blind_eq {r r' : Ticket} (h : blind r = blind r') : r'.id = r.id ∧ r'.sym = r.sym ∧ r'.side = r.side ∧ r'.qty = r.qty := by
  cases r; cases r'
  simp only [blind, Ticket.mk.injEq] at h
  obtain ⟨rfl, rfl, rfl, _, rfl⟩ := h
  exact ⟨rfl, rfl, rfl, rfl⟩

theorem blind_mk {a b : Ticket} (h1 : a.id = b.id) (h2 : a.sym = b.sym) (h3 : a.side = b.side) (h4 : a.qty = b.qty) : blind a = blind b := by
  cases a; cases b
  simp only at h1 h2 h3 h4
  subst h1 h2 h3 h4; rfl

/-- Up to prices, what is seen rests. -/
theorem Blind.next {z : Seen} {t : Tape} (h : Blind z.tape t) (x : Report) : Blind (z.next x).tape (t.next x.plain) := by
  cases x with
  | cancel id q =>
    show Blind (Seen.next z (.cancel id q)).tape (t.next (.take id q))
    unfold Seen.next Tape.next
    cases hf : z.tape.find id with
    | none => simp only [h.find_none hf, hf]; exact h
    | some r =>
      obtain ⟨r', h1, h2⟩ := h.find_some hf
      obtain ⟨e1, e2, e3, e4⟩ := blind_eq h2
      simp only [h1, hf]
      by_cases hlt : q < r.qty
      · rw [if_pos hlt, if_pos (by omega)]
        exact (h.without id).cons (blind_mk e1.symm e2.symm e3.symm (by simp only; omega))
      · rw [if_neg hlt, if_neg (by omega)]
        exact h.without id
  | tick x =>
    cases x with
    | book _ => exact h
    | add r => exact h.cons (blind_mk rfl rfl rfl rfl)
    | take id q =>
      show Blind (z.tape.next (.take id q)) (t.next (.take id q))
      unfold Tape.next
      cases hf : z.tape.find id with
      | none => simp only [h.find_none hf, hf]; exact h
      | some r =>
        obtain ⟨r', h1, h2⟩ := h.find_some hf
        obtain ⟨e1, e2, e3, e4⟩ := blind_eq h2
        simp only [h1, hf]
        by_cases hlt : q < r.qty
        · rw [if_pos hlt, if_pos (by omega)]
          exact (h.without id).cons (blind_mk e1.symm e2.symm e3.symm (by simp only; omega))
        · rw [if_neg hlt, if_neg (by omega)]
          exact h.without id
    | delete id => exact h.without id
    | modify id p q =>
      show Blind (z.tape.next (.modify id p q)) (t.next (.modify id p q))
      unfold Tape.next
      cases hf : z.tape.find id with
      | none => simp only [h.find_none hf, hf]; exact h
      | some r =>
        obtain ⟨r', h1, h2⟩ := h.find_some hf
        obtain ⟨e1, e2, e3, e4⟩ := blind_eq h2
        simp only [h1, hf]
        by_cases hq : 0 < q
        · rw [if_pos hq, if_pos hq]
          exact (h.without id).cons (blind_mk e1.symm e2.symm e3.symm rfl)
        · rw [if_neg hq, if_neg hq]
          exact h.without id
    | replace id n p q =>
      have : (z.next (.tick (.replace id n p q))).tape = z.tape.next (.replace id n p q) := by
        unfold Seen.next
        simp only
        by_cases hq : 0 < q
        · rw [if_pos hq]; rfl
        · rw [if_neg hq]
      rw [this]
      show Blind (z.tape.next (.replace id n p q)) (t.next (.replace id n p q))
      unfold Tape.next
      cases hf : z.tape.find id with
      | none => simp only [h.find_none hf, hf]; exact h
      | some r =>
        obtain ⟨r', h1, h2⟩ := h.find_some hf
        obtain ⟨e1, e2, e3, e4⟩ := blind_eq h2
        simp only [h1, hf]
        by_cases hq : 0 < q
        · rw [if_pos hq, if_pos hq]
          exact (h.without id).cons (blind_mk rfl e2.symm e3.symm rfl)
        · rw [if_neg hq, if_neg hq]
          exact h.without id

theorem Blind.after (xs : List Report) : ∀ {z : Seen} {t : Tape}, Blind z.tape t → Blind (z.after xs).tape (t.after (xs.map Report.plain)) := by
  induction xs with
  | nil => intro z t h; exact h
  | cons x xs ih => intro z t h; exact ih (h.next x)

/-- C64, in terms of the feed: whatever is seen of the prices, for every order that rests `GetOrder` gives its symbol, its side and
the quantity that is left of it. -/
theorem C64_rests (xs : List Report) (h : Seen.blank.ConsistentAll xs) :
    ∃ s, run init xs = .ok s ∧ ∀ r ∈ Tape.after [] (xs.map Report.plain), ∃ o, getOrd s r.id = .ok o ∧
      o.id = r.id ∧ o.symbol = r.sym ∧ o.side = r.side ∧ o.quantity = r.qty := by
  obtain ⟨s, h1, h2⟩ := C64_orders xs h
  refine ⟨s, h1, ?_⟩
  intro r hr
  have hb : Blind (Seen.blank.after xs).tape (Tape.after [] (xs.map Report.plain)) := Blind.after xs rfl
  have hm : blind r ∈ (Tape.after [] (xs.map Report.plain)).map blind := List.mem_map.2 ⟨r, hr, rfl⟩
  rw [← hb] at hm
  obtain ⟨r', a1, a2⟩ := List.mem_map.1 hm
  obtain ⟨e1, e2, e3, e4⟩ := blind_eq a2
  obtain ⟨o, b1, b2, b3, b4, _, b5, _⟩ := h2 r' a1
  exact ⟨o, by rw [e1]; exact b1, by rw [e1]; exact b2, by rw [e2]; exact b3, by rw [e3]; exact b4, by rw [e4]; exact b5⟩

/-- The quantity a report brings in. -/
def _root_.CppTrader.Report.entered : Report → Nat
  | .tick (.add r) => r.qty
  | .tick (.modify _ _ q) => q
  | .tick (.replace _ _ _ q) => q
  | _ => 0

/-- All quantities of a tape. -/
def total (t : Tape) : Nat := (t.map (·.qty)).sum

theorem volume_le (t : Tape) (sym : Nat) (sd : Side) (p : Nat) : t.volume sym sd p ≤ total t := by
  unfold Tape.volume total
  induction t with
  | nil => exact Nat.zero_le _
  | cons r t ih =>
    rw [List.filter_cons]
    simp only [List.map_cons, List.sum_cons]
    by_cases h : (decide (r.sym = sym ∧ r.side = sd ∧ r.price = p)) = true
    · rw [if_pos h]; simp only [List.map_cons, List.sum_cons]; omega
    · rw [if_neg h]; omega

theorem total_cons (r : Ticket) (t : Tape) : total (r :: t) = r.qty + total t := rfl

theorem total_append (a b : Tape) : total (a ++ b) = total a + total b := by
  unfold total; rw [List.map_append, List.sum_append_nat]

theorem total_without_le (t : Tape) (id : Nat) : total (t.without id) ≤ total t := by
  unfold Tape.without
  induction t with
  | nil => exact Nat.le_refl _
  | cons y t ih =>
    rw [List.filter_cons]
    by_cases hy : decide (y.id ≠ id) = true
    · rw [if_pos hy, total_cons, total_cons]; omega
    · rw [if_neg hy, total_cons]; omega

theorem total_find {t : Tape} {id : Nat} {r : Ticket} (h : t.find id = some r) : r.qty + total (t.without id) ≤ total t := by
  induction t with
  | nil => cases h
  | cons x t ih =>
    by_cases hx : x.id = id
    · have e : Tape.find (x :: t) id = some x := by unfold Tape.find; rw [List.find?_cons_of_pos (by simpa using hx)]
      rw [e] at h
      have hxr := Option.some.inj h
      subst hxr
      have : Tape.without (x :: t) id = Tape.without t id := by unfold Tape.without; rw [List.filter_cons_of_neg (by simpa using hx)]
      rw [this, total_cons]
      have := total_without_le t id
      omega
    · have e : Tape.find (x :: t) id = Tape.find t id := by unfold Tape.find; rw [List.find?_cons_of_neg (by simpa using hx)]
      rw [e] at h
      have : Tape.without (x :: t) id = x :: Tape.without t id := by unfold Tape.without; rw [List.filter_cons_of_pos (by simpa using hx)]
      rw [this, total_cons, total_cons]
      have := ih h
      omega

theorem total_next (z : Seen) (x : Report) : total (z.next x).all ≤ total z.all + x.entered := by
  have hb : ∀ {t : Tape} {k : Tick}, (k = k → total (t.next k) ≤ total t + (Report.tick k).entered) := by
    intro t k _
    cases k with
    | book _ => exact Nat.le_refl _
    | add r => show total (r :: t) ≤ total t + r.qty; rw [total_cons]; omega
    | take id q =>
      unfold Tape.next
      cases hf : t.find id with
      | none => simp only [hf]; exact Nat.le_add_right _ _
      | some r =>
        have := total_find hf
        simp only [hf]
        by_cases hlt : q < r.qty
        · rw [if_pos hlt, total_cons]; simp only; omega
        · rw [if_neg hlt]; omega
    | delete id => exact Nat.le_trans (total_without_le t id) (Nat.le_add_right _ _)
    | modify id p q =>
      unfold Tape.next
      cases hf : t.find id with
      | none => simp only [hf]; exact Nat.le_add_right _ _
      | some r =>
        have := total_find hf
        simp only [hf, Report.entered]
        by_cases hq : 0 < q
        · rw [if_pos hq, total_cons]; simp only; omega
        · rw [if_neg hq]; omega
    | replace id n p q =>
      unfold Tape.next
      cases hf : t.find id with
      | none => simp only [hf]; exact Nat.le_add_right _ _
      | some r =>
        have := total_find hf
        simp only [hf, Report.entered]
        by_cases hq : 0 < q
        · rw [if_pos hq, total_cons]; simp only; omega
        · rw [if_neg hq]; omega
  cases x with
  | cancel id q =>
    unfold Seen.next
    cases hf : z.tape.find id with
    | none => simp only [hf]; exact Nat.le_add_right _ _
    | some r =>
      have := total_find hf
      simp only [hf]
      by_cases hlt : q < r.qty
      · rw [if_pos hlt]; simp only [Seen.all]; rw [total_append, total_append, total_cons]; simp only; omega
      · rw [if_neg hlt]; simp only [Seen.all]; rw [total_append, total_append, total_cons]; omega
  | tick k =>
    have key := hb (t := z.tape) (k := k) rfl
    have e : (z.next (.tick k)).all = (z.next (.tick k)).tape ++ z.stuck := by
      cases k with
      | replace id n p q =>
        unfold Seen.next
        simp only
        by_cases hq : 0 < q
        · rw [if_pos hq]; rfl
        · rw [if_neg hq]; rfl
      | _ => rfl
    rw [e, total_append, Seen.all, total_append]
    have e' : total (z.next (.tick k)).tape ≤ total z.tape + (Report.tick k).entered := by
      cases k with
      | replace id n p q =>
        have : (z.next (.tick (.replace id n p q))).tape = z.tape.next (.replace id n p q) := by
          unfold Seen.next
          simp only
          by_cases hq : 0 < q
          · rw [if_pos hq]; rfl
          · rw [if_neg hq]
        rw [this]; exact key
      | add r => show total (_ :: z.tape) ≤ _; rw [total_cons]; simp only [Report.entered]; omega
      | book _ => exact key
      | take _ _ => exact key
      | delete _ => exact key
      | modify _ _ _ => exact key
    omega

/-- The symbols of what is seen are announced. -/
theorem syms_next {z : Seen} {ann : List Nat} (h : ∀ r ∈ z.all, r.sym ∈ ann) {x : Report} (hs : Tape.Strict ann x.plain) :
    ∀ r ∈ (z.next x).all, r.sym ∈ Tape.announced ann x.plain := by
  have hfind : ∀ {id r}, z.tape.find id = some r → r.sym ∈ ann := fun hf => h _ (List.mem_append_left _ (find_mem hf).1)
  have hw : ∀ {id r}, r ∈ z.tape.without id → r.sym ∈ ann := fun hf => h _ (List.mem_append_left _ (mem_without.1 hf).1)
  have hst : ∀ {r}, r ∈ z.stuck → r.sym ∈ ann := fun hf => h _ (List.mem_append_right _ hf)
  cases x with
  | cancel id q =>
    show ∀ r ∈ (z.next (.cancel id q)).all, r.sym ∈ ann
    unfold Seen.next
    cases hf : z.tape.find id with
    | none => simp only [hf]; exact h
    | some r =>
      simp only [hf]
      intro r' hr'
      by_cases hlt : q < r.qty
      · rw [if_pos hlt] at hr'
        rcases List.mem_append.1 hr' with hr' | hr'
        · rcases List.mem_cons.1 hr' with rfl | hr'
          · exact show r.sym ∈ ann from hfind hf
          · exact hw hr'
        · exact hst hr'
      · rw [if_neg hlt] at hr'
        rcases List.mem_append.1 hr' with hr' | hr'
        · exact hw hr'
        · rcases List.mem_cons.1 hr' with rfl | hr'
          · exact hfind hf
          · exact hst hr'
  | tick k =>
    cases k with
    | book sym => intro r hr; exact List.mem_cons_of_mem _ (h r hr)
    | add r =>
      intro r' hr'
      rcases List.mem_cons.1 hr' with rfl | hr'
      · exact hs.1
      · exact h _ hr'
    | take id q =>
      intro r' hr'
      show r'.sym ∈ ann
      rcases List.mem_append.1 hr' with hr' | hr'
      · simp only [Seen.next, Tape.next] at hr'
        cases hf : z.tape.find id with
        | none => rw [hf] at hr'; exact h _ (List.mem_append_left _ hr')
        | some r =>
          rw [hf] at hr'
          simp only at hr'
          by_cases hlt : q < r.qty
          · rw [if_pos hlt] at hr'
            rcases List.mem_cons.1 hr' with rfl | hr'
            · exact show r.sym ∈ ann from hfind hf
            · exact hw hr'
          · rw [if_neg hlt] at hr'; exact hw hr'
      · exact hst hr'
    | delete id =>
      intro r' hr'
      rcases List.mem_append.1 hr' with hr' | hr'
      · exact hw hr'
      · exact hst hr'
    | modify id p q =>
      intro r' hr'
      show r'.sym ∈ ann
      rcases List.mem_append.1 hr' with hr' | hr'
      · simp only [Seen.next, Tape.next, Seen.note] at hr'
        cases hf : z.tape.find id with
        | none => rw [hf] at hr'; exact h _ (List.mem_append_left _ hr')
        | some r =>
          rw [hf] at hr'
          simp only at hr'
          by_cases hlt : 0 < q
          · rw [if_pos hlt] at hr'
            rcases List.mem_cons.1 hr' with rfl | hr'
            · exact show r.sym ∈ ann from hfind hf
            · exact hw hr'
          · rw [if_neg hlt] at hr'; exact hw hr'
      · exact hst hr'
    | replace id n p q =>
      obtain ⟨_, hq⟩ := hs
      intro r' hr'
      show r'.sym ∈ ann
      simp only [Seen.next] at hr'
      rw [if_pos hq] at hr'
      rcases List.mem_append.1 hr' with hr' | hr'
      · simp only [Tape.next, Seen.note] at hr'
        cases hf : z.tape.find id with
        | none => rw [hf] at hr'; exact h _ (List.mem_append_left _ hr')
        | some r =>
          rw [hf] at hr'
          simp only at hr'
          rw [if_pos hq] at hr'
          rcases List.mem_cons.1 hr' with rfl | hr'
          · exact show r.sym ∈ ann from hfind hf
          · exact hw hr'
      · exact hst hr'

/-- A feed that is consistent and strict in the ordinary sense is consistent for the optimised manager, if its quantities
do not exceed 32 bits in total. -/
theorem ordinary (xs : List Report) : ∀ {z : Seen} {t : Tape} {ann : List Nat}, Blind z.tape t → (∀ r ∈ z.all, r.sym ∈ ann) →
    t.ConsistentAll (xs.map Report.plain) → Tape.StrictAll ann (xs.map Report.plain) →
    total z.all + (xs.map Report.entered).sum < 4294967296 → z.ConsistentAll xs := by
  induction xs with
  | nil => intros; trivial
  | cons x xs ih =>
    intro z t ann hb hsym hc hs ht
    simp only [List.map_cons, List.sum_cons] at hc hs ht
    have hn := total_next z x
    refine ⟨?_, ih (hb.next x) (syms_next hsym hs.1) hc.2 hs.2 (by omega)⟩
    have back : ∀ {id r}, t.find id = some r → ∃ r', z.tape.find id = some r' ∧ blind r = blind r' := fun hf => hb.symm.find_some hf
    have vol : ∀ (z' : Seen) a b c, z'.all.volume a b c ≤ total z'.all := fun z' a b c => volume_le _ a b c
    obtain ⟨hc1, _⟩ := hc
    obtain ⟨hs1, _⟩ := hs
    cases x with
    | cancel id q =>
      obtain ⟨r, h1, _⟩ := hc1
      obtain ⟨r', h2, _⟩ := back h1
      exact ⟨r', h2⟩
    | tick k =>
      cases k with
      | book sym =>
        refine ⟨hc1.1, fun r hr he => hs1 ?_⟩
        rw [← he]; exact hsym r hr
      | add r =>
        obtain ⟨f1, f2, _, _, f5, _, f7⟩ := hc1
        refine ⟨f1, f2, f5, ?_, hb.symm.find_none f7⟩
        have := vol z r.sym r.side (z.noted r.id)
        simp only [Report.entered] at ht
        simp only
        omega
      | take id q =>
        obtain ⟨r, h1, _⟩ := hc1
        obtain ⟨r', h2, _⟩ := back h1
        exact ⟨r', h2⟩
      | delete id =>
        obtain ⟨r, h1⟩ := hc1
        obtain ⟨r', h2, _⟩ := back h1
        exact ⟨r', h2⟩
      | modify id p q =>
        obtain ⟨r, h1, h3, _⟩ := hc1
        obtain ⟨r', h2, h4⟩ := back h1
        obtain ⟨e1, e2, e3, e4⟩ := blind_eq h4
        refine ⟨r', h2, fun hq => ?_⟩
        obtain ⟨f1, f2, _, _, f5, _, f7⟩ := h3 hq
        have hw := (hb.symm.without id).find_none f7
        refine ⟨by simp only [e1]; exact f1, by simp only [e2]; exact f2, hq, ?_, by simp only [e1]; exact hw⟩
        have := vol { z with tape := z.tape.without id } r'.sym r'.side p
        have h5 := total_without_le z.tape id
        simp only [Seen.all, total_append, Report.entered] at this ht ⊢
        omega
      | replace id n p q =>
        obtain ⟨r, h1, h3, _⟩ := hc1
        obtain ⟨r', h2, h4⟩ := back h1
        obtain ⟨e1, e2, e3, e4⟩ := blind_eq h4
        refine ⟨r', h2, fun hq => ?_⟩
        obtain ⟨f1, f2, _, _, f5, _, f7⟩ := h3 hq
        have hw := (hb.symm.without id).find_none f7
        refine ⟨f1, by simp only [e2]; exact f2, hq, ?_, hw⟩
        have := vol { z with tape := z.tape.without id } r'.sym r'.side p
        have h5 := total_without_le z.tape id
        simp only [Seen.all, total_append, Report.entered] at this ht ⊢
        omega

/-- C64 for ordinary feeds: consistent and strict, with less than 2^32 shares in total. -/
theorem C64_ordinary (xs : List Report) (hc : Tape.ConsistentAll [] (xs.map Report.plain)) (hs : Tape.StrictAll [] (xs.map Report.plain))
    (ht : (xs.map Report.entered).sum < 2 ^ 32) :
    ∃ s, run init xs = .ok s ∧ (∀ sym sd, (Seen.blank.after xs).Levels sym sd (levels s sym sd)) ∧
      ∀ r ∈ Tape.after [] (xs.map Report.plain), ∃ o, getOrd s r.id = .ok o ∧
        o.id = r.id ∧ o.symbol = r.sym ∧ o.side = r.side ∧ o.quantity = r.qty := by
  have h : Seen.blank.ConsistentAll xs := ordinary xs (t := []) (ann := []) rfl (by intro r hr; cases hr) hc hs
    (by show 0 + _ < _; omega)
  obtain ⟨s, h1, h2⟩ := C64_levels xs h
  obtain ⟨s', h3, h4⟩ := C64_rests xs h
  rw [h1] at h3
  cases h3
  exact ⟨s, h1, h2, h4⟩

/-! ### It is not vacuous, and the prices are wrong -/

instance (z : Seen) (r : Ticket) : Decidable (z.Fits r) := by unfold Seen.Fits; infer_instance

instance (z : Seen) (x : Report) : Decidable (z.Consistent x) := by
  rcases x with x | _
  · cases x <;> unfold Seen.Consistent <;> infer_instance
  · unfold Seen.Consistent; infer_instance

instance decSeenAll : (z : Seen) → (xs : List Report) → Decidable (Seen.ConsistentAll z xs)
  | _, [] => isTrue trivial
  | z, x :: xs => by
    unfold Seen.ConsistentAll
    have := decSeenAll (z.next x) xs
    infer_instance

/-- Two books, bids at 100 and 101, asks at 105 and 104, a partial execution, a partial and a full cancellation, a
replacement, a modification, a deletion. -/
def reportDay : List Report :=
  [.tick (.book 1), .tick (.book 2), .tick (.add ⟨11, 1, .buy, 100, 5⟩), .tick (.add ⟨12, 1, .buy, 101, 7⟩),
   .tick (.add ⟨13, 1, .buy, 100, 6⟩), .tick (.add ⟨14, 1, .sell, 105, 9⟩), .tick (.add ⟨15, 2, .sell, 50, 4⟩),
   .tick (.add ⟨16, 1, .sell, 104, 2⟩), .tick (.take 13 2), .cancel 15 1, .tick (.replace 11 21 99 3), .cancel 12 7,
   .tick (.modify 14 106 8), .tick (.delete 16)]

/-- C64 applies to it. What is shown: the bid of 4 shares of order 13 at price 0 instead of 100, together with the 7 shares of the cancelled
order 12; the replaced order 21 and the modified order 14 at their right prices. -/
theorem C64_price_witness : Tape.ConsistentAll [] (reportDay.map Report.plain) ∧ Tape.StrictAll [] (reportDay.map Report.plain) ∧
    Seen.blank.ConsistentAll reportDay ∧
    (run init reportDay).toOption.map (fun s => (levels s 1 .buy, levels s 1 .sell, levels s 2 .sell)) =
      some ([(99, 3, 1), (0, 11, 1)], [(106, 8, 1)], [(0, 3, 1)]) := by
  exact ⟨by decide +kernel, by decide +kernel, by decide +kernel, by decide +kernel⟩

/-- A cancelled order leaves its quantity behind for good: a price level without orders. -/
theorem C64_ghost_witness : (run init [.tick (.book 1), .tick (.add ⟨11, 1, .buy, 100, 5⟩), .cancel 11 5]).toOption.map
    (fun s => levels s 1 .buy) = some [(0, 5, 0)] := by decide +kernel

/-- Deleting an order twice damages whatever took its level. -/
theorem C64_unchecked_witness : (run init [.tick (.book 1), .tick (.book 2), .tick (.add ⟨11, 1, .buy, 100, 5⟩), .tick (.delete 11),
    .tick (.add ⟨12, 2, .sell, 70, 8⟩), .tick (.delete 11)]).toOption.map (fun s => levels s 2 .sell) = some [(0, 3, 0)] := by decide +kernel

/-- C64: the six-argument form of `ReplaceOrder`, which no program in the repository calls, deletes the old order and adds the
new one as `AddOrder` does, but with its price; a quantity of zero only deletes. -/
theorem C64_replace_with (s : St) (id new sym : Nat) (sd : Side) (price qty : Nat) :
    replaceWith s id new sym sd price qty = (deleteOrder s id >>= fun t =>
      if qty > 0 then addOrder (setOrd t new { t.orders new with price := price }) new sym sd price qty else .ok t) := by
  unfold replaceWith deleteOrder addOrder
  simp only [bind_assoc]
  cases getOrd s id with
  | error e => rfl
  | ok o =>
    simp only [Except.bind_ok]
    cases bookDelete s o.symbol o with
    | error e => rfl
    | ok t =>
      simp only [Except.bind_ok]
      by_cases hq : qty > 0
      · rw [if_pos hq, if_pos hq]
        unfold getOrd
        by_cases hn : new < 300000000
        · rw [if_pos hn, if_pos hn]
          simp [Except.bind_ok, setOrd, emit]
          congr 2
          funext j
          by_cases hj : j = new <;> simp [hj]
        · rw [if_neg hn, if_neg hn]; rfl
      · rw [if_neg hq, if_neg hq]

/-- Concretely: order 11 is replaced by order 12 at price 101 on the other symbol and side. -/
example : ((run init [.tick (.book 1), .tick (.book 2), .tick (.add ⟨11, 1, .buy, 100, 5⟩)]) >>= fun s =>
    replaceWith s 11 12 2 .sell 101 3).toOption.map (fun s => (levels s 1 .buy, levels s 2 .sell)) = some ([], [(101, 3, 1)]) := by
  decide +kernel

end CppTrader.Opt
