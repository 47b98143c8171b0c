import Verif.Props.Tally
import Verif.News
/-
C64, C65: the callbacks of the optimised manager, and the highest number of price levels.
-/

namespace CppTrader.Opt
open Itch

/-- C64, the callbacks: after every consistent feed, a call for a consistent report makes exactly the callbacks that tell the news of it
(News.lean): the orders with their symbols, sides, prices and quantities, the executions, and for every price level that changes whether
it is new, changed or gone, what it shows now, whether it is the best one, and the numbers of price levels of the book. -/
theorem C64_news (xs : List Report) (x : Report) (h : Seen.blank.ConsistentAll xs) (hx : (Seen.blank.after xs).Consistent x) :
    ∃ s s' evs, run init xs = .ok s ∧ call s x = .ok s' ∧ s'.ev = s.ev ++ evs ∧ AllTold ((Seen.blank.after xs).news x) evs := by
  obtain ⟨s, h1, h2⟩ := Inv.run xs inv_init h
  obtain ⟨s', a1, _, evs, a2, a3⟩ := h2.call_news hx
  exact ⟨s, s', evs, h1, a1, a2, a3⟩

/-- It applies to the example feed and, next, an execution that takes all of order 21: an execution, a price level that goes while it was the
best one, one price level left on the side, and the order that goes. -/
example : Seen.blank.ConsistentAll reportDay ∧ (Seen.blank.after reportDay).Consistent (.tick (.take 21 3)) ∧
    (do let s ← run init reportDay
        let s' ← call s (.tick (.take 21 3))
        .ok (s'.ev.drop s.ev.length)).toOption =
      some [.exec ⟨21, 1, .buy, 99, 3, 3⟩ 99 3, .level .delete ⟨.buy, 99, 0, 0⟩ true, .updateBook 1 1 true, .deleteOrder ⟨21, 1, .buy, 99, 0, 3⟩] := by
  exact ⟨by decide +kernel, by decide +kernel, by decide +kernel⟩

theorem take_at {z : Seen} {id q : Nat} {r : Ticket} (hr : z.tape.find id = some r) (p : Nat) :
    (z.tell (.tick (.take id q)) r).map (Story.at p) = (z.news (.tick (.take id q))).map (Story.at p) := by
  unfold Seen.news
  simp only [hr]

/-- One message. -/
theorem Inv.react_news {s : St} {z : Seen} (h : Inv s z) {m : Msg} {x : Report} (hm : m.report = some x) (hx : z.Consistent x) :
    ∃ s', Opt.react s m = .ok s' ∧ Inv s' (z.next x) ∧ Tell s s' (m.news z) := by
  cases m <;> simp only [Msg.report, Msg.tick, Option.map, Option.some.injEq, reduceCtorEq] at hm <;> subst hm
  case stockDirectory hd st _ _ _ _ _ _ _ _ _ _ _ _ _ =>
    have a := h.symbol hx.1 (beVal st)
    obtain ⟨s1, a1, a2, _⟩ := a
    have a3 : Tell s s1 [.symbol hd.locate] := by
      unfold addSymbol at a1
      rw [getBook_ok hx.1, Except.bind_ok] at a1
      cases a1
      exact ((Tell.refl _).emit (.symbol _)).of_ev rfl
    obtain ⟨s2, b1, b2, b3⟩ := a2.call_news hx
    refine ⟨s2, ?_, b2, a3.trans b3⟩
    show (addSymbol s hd.locate (beVal st) >>= fun s => addOrderBook s hd.locate) = _
    rw [a1, Except.bind_ok]
    exact b1
  case orderExecutedWithPrice hd ref shares mn pr price =>
    obtain ⟨r, hr⟩ := hx
    obtain ⟨s', a1, a2, a3⟩ := h.execute (q := shares) hr (fun _ => price)
    refine ⟨s', a1, a2, ?_⟩
    have a3 := a3 price fun _ => rfl
    rw [take_at hr] at a3
    exact a3
  all_goals exact h.call_news hx

theorem news_none {z : Seen} {m : Msg} (hm : m.report = none) : m.news z = [] := by
  cases m <;> first | rfl | cases hm

theorem Inv.reactAll_news (ms : List Msg) : ∀ {s : St} {z : Seen}, Inv s z → z.ConsistentAll (ms.filterMap Msg.report) →
    ∃ s', Opt.reactAll s ms = .ok s' ∧ Tell s s' (Msg.allNews z ms) := by
  induction ms with
  | nil => intro s z h _; exact ⟨s, rfl, .refl _⟩
  | cons m ms ih =>
    intro s z h hc
    unfold Opt.reactAll Msg.allNews
    cases hk : m.report with
    | none =>
      rw [List.filterMap_cons_none hk] at hc
      rw [react_none hk, Except.bind_ok, news_none hk]
      exact ih h hc
    | some k =>
      rw [List.filterMap_cons_some hk] at hc
      obtain ⟨s1, h1, h2, h3⟩ := h.react_news hk hc.1
      rw [h1, Except.bind_ok]
      obtain ⟨s2, h4, h5⟩ := ih h2 hc.2
      exact ⟨s2, h4, h3.trans h5⟩

theorem cut_news (z : Seen) (m : Msg) : (m.mapHdr Hdr.cut).news z = m.news z := by cases m <;> rfl

theorem cut_allNews (ms : List Msg) : ∀ z : Seen, Msg.allNews z (ms.map (fun m => m.mapHdr Hdr.cut)) = Msg.allNews z ms := by
  induction ms with
  | nil => intro z; rfl
  | cons m ms ih =>
    intro z
    unfold Msg.allNews
    rw [List.map_cons]
    show Msg.news _ _ ++ Msg.allNews _ _ = _
    rw [cut_news, cut_report, ih]

/-- C64 for the program, the callbacks: over a stream of well-formed messages, wire-encoded, framed and cut into any chunks, that is
consistent for the optimised manager, the callbacks made are exactly those that tell the news of the messages, in their order. -/
theorem C64_stream_news (ms : List (Msg × List UInt8)) (chunks : List (List UInt8))
    (hm : ∀ x ∈ ms, x.1.Fits ∧ x.2.length = 3)
    (hc : chunks.flatten = (ms.map (fun x => frame (x.1.wire x.2))).flatten)
    (ht : Seen.blank.ConsistentAll (ms.filterMap (fun x => x.1.report))) :
    ∃ p s, Opt.main chunks (St.init, Opt.init) = .ok (p, s) ∧ AllTold (Msg.allNews .blank (ms.map (·.1))) s.ev := by
  have het : (ms.map (fun x => x.1.mapHdr Hdr.cut)).filterMap Msg.report = ms.filterMap (fun x => x.1.report) := by
    rw [List.filterMap_map]; congr 1; funext x; exact cut_report x.1
  have hstream := stream_roundtrip ms chunks hm hc
  rw [← het] at ht
  obtain ⟨s, s1, evs, s2, s3⟩ := Inv.reactAll_news _ inv_init ht
  refine ⟨_, s, opt_chunks chunks Feeder.inv_init.any hstream (new := ms.map (fun x => x.1.mapHdr Hdr.cut)) (by simp [Itch.St.init]) s1, ?_⟩
  rw [s2]
  have := cut_allNews (ms.map (·.1)) .blank
  rw [List.map_map] at this
  rw [← this]
  exact s3

/-! ### The highest number of price levels -/

theorem length_le_of_nodup {l : List Nat} : ∀ {l' : List Nat}, l.Nodup → (∀ x ∈ l, x ∈ l') → l.length ≤ l'.length := by
  induction l with
  | nil => intro _ _ _; exact Nat.zero_le _
  | cons a l ih =>
    intro l' hn hs
    have ha := hs a (.head _)
    have hl := List.nodup_cons.1 hn
    have := ih (l' := l'.erase a) hl.2 (fun x hx => (List.mem_erase_of_ne (fun h => hl.1 (by rw [← h]; exact hx))).2 (hs x (.tail _ hx)))
    rw [List.length_erase_of_mem ha] at this
    have : 0 < l'.length := List.length_pos_of_mem ha
    rw [List.length_cons]; omega

theorem Levels.nodup {z : Seen} {sym : Nat} {sd : Side} {L : List (Nat × Nat × Nat)} (h : z.Levels sym sd L) : (L.map (·.1)).Nodup := by
  unfold List.Nodup
  rw [List.pairwise_map]
  refine h.1.imp ?_
  intro a b hab he
  cases sd <;> simp only [he] at hab <;> omega

/-- Where more prices are shown there are more price levels. -/
theorem Levels.le {z z' : Seen} {sym : Nat} {sd : Side} {L L' : List (Nat × Nat × Nat)} (h : z.Levels sym sd L) (h' : z'.Levels sym sd L')
    (hv : ∀ p, 0 < z.all.volume sym sd p → 0 < z'.all.volume sym sd p) : L.length ≤ L'.length := by
  have := length_le_of_nodup (Levels.nodup h) (l' := L'.map (·.1)) (by
    intro p hp
    obtain ⟨⟨p, v, n⟩, hx, rfl⟩ := List.mem_map.1 hp
    obtain ⟨e1, _, e3⟩ := (h.2 p v n).1 hx
    subst e1
    exact List.mem_map.2 ⟨(p, z'.all.volume sym sd p, z'.number sym sd p), (h'.2 _ _ _).2 ⟨rfl, rfl, hv p e3⟩, rfl⟩)
  simpa using this

/-- The highest number of levels after callbacks. -/
theorem told_max {st : List Story} {evs : List Ev} (h : AllTold st evs) : ∀ c : Stats, ∃ M, (evs.foldl Ev.count c).maxLevels = M ∧ c.maxLevels ≤ M ∧
    (∀ z z' sym sd p, Story.level z z' sym sd p ∈ st → ∀ sd', ∃ L, z'.Levels sym sd' L ∧ L.length ≤ M) ∧
    (M = c.maxLevels ∨ ∃ z z' sym sd p, Story.level z z' sym sd p ∈ st ∧ ∃ sd' L, z'.Levels sym sd' L ∧ L.length = M) := by
  induction h with
  | nil => intro c; exact ⟨_, rfl, Nat.le_refl _, (by intro _ _ _ _ _ h; cases h), .inl rfl⟩
  | @cons x xs e es hx _ ih =>
    intro c
    rw [List.foldl_append]
    obtain ⟨M, m1, m2, m3, m4⟩ := ih (e.foldl Ev.count c)
    refine ⟨M, m1, ?_⟩
    cases hx with
    | level hmv =>
      rename_i z z' sym sd p ch l top bids asks
      obtain ⟨Lb, b1, b2⟩ := hmv.bids
      obtain ⟨La, a1, a2⟩ := hmv.asks
      have hmax : ([Ev.level ch l top, .updateBook bids asks top].foldl Ev.count c).maxLevels = max (max bids asks) c.maxLevels := rfl
      rw [hmax] at m2 m4
      refine ⟨by omega, ?_, ?_⟩
      · intro z0 z0' sym0 sd0 p0 hmem sd'
        rcases List.mem_cons.1 hmem with he | hmem
        · cases he
          cases sd' with
          | buy => exact ⟨Lb, b1, by omega⟩
          | sell => exact ⟨La, a1, by omega⟩
        · exact m3 _ _ _ _ _ hmem _
      · rcases m4 with he | ⟨z0, z0', sym0, sd0, p0, hmem, r⟩
        · by_cases hM : M = c.maxLevels
          · exact .inl hM
          · refine .inr ⟨_, _, _, _, _, .head _, ?_⟩
            by_cases hb : M = bids
            · exact ⟨.buy, Lb, b1, by omega⟩
            · exact ⟨.sell, La, a1, by omega⟩
        · exact .inr ⟨_, _, _, _, _, .tail _ hmem, r⟩
    | _ =>
      refine ⟨m2, ?_, ?_⟩
      · intro z0 z0' sym0 sd0 p0 hmem
        rcases List.mem_cons.1 hmem with he | hmem
        · cases he
        · exact m3 _ _ _ _ _ hmem
      · rcases m4 with he | ⟨z0, z0', sym0, sd0, p0, hmem, r⟩
        · exact .inl he
        · exact .inr ⟨_, _, _, _, _, .tail _ hmem, r⟩

theorem level_at {st : List Story} {q : Nat} {z z' : Seen} {sym : Nat} {sd : Side} {p : Nat} :
    Story.level z z' sym sd p ∈ st.map (Story.at q) ↔ Story.level z z' sym sd p ∈ st := by
  rw [List.mem_map]
  constructor
  · rintro ⟨x, hx, he⟩
    cases x <;> cases he
    exact hx
  · intro h; exact ⟨_, h, rfl⟩

/-- The levels in the news of a message are those of its report. -/
theorem level_report {m : Msg} {x : Report} {z0 : Seen} (hm : m.report = some x) {z z' : Seen} {sym : Nat} {sd : Side} {p : Nat} :
    Story.level z z' sym sd p ∈ m.news z0 ↔ Story.level z z' sym sd p ∈ z0.news x := by
  cases m <;> simp only [Msg.report, Msg.tick, Option.map, Option.some.injEq, reduceCtorEq] at hm <;> subst hm
  case stockDirectory => simp [Msg.news, Seen.news]
  case orderExecutedWithPrice => exact level_at
  all_goals exact Iff.rfl

theorem other_cons {r : Ticket} {t : Tape} {a : Nat} (h : a ≠ r.sym) (c : Side) (b : Nat) : Tape.volume (r :: t) a c b = t.volume a c b := by
  have := congrFun (congrFun (congrFun (vol_cons r t) a) c) b
  unfold vol chg at this
  rw [this, if_neg (fun hh => h hh.1)]

theorem le_cons (r : Ticket) (t : Tape) (a : Nat) (c : Side) (b : Nat) : t.volume a c b ≤ Tape.volume (r :: t) a c b := by
  unfold Tape.volume
  rw [List.filter_cons]
  split
  · rw [List.map_cons, List.sum_cons]; omega
  · exact Nat.le_refl _

theorem all_split {z : Seen} (hn : (z.tape.map (·.id)).Nodup) {id : Nat} {r : Ticket} (hr : z.tape.find id = some r) (a : Nat) (c : Side) (b : Nat) :
    z.all.volume a c b = Tape.volume (r :: (z.tape.without id ++ z.stuck)) a c b := by
  have hp := (Aggr.find_perm hn hr).1
  have := vol_perm (hp.append_right z.stuck)
  exact congrFun (congrFun (congrFun this a) c) b

/-- The levels in the news of a report: the numbers told are those after the report, or no higher than those before it. -/
theorem news_old {z : Seen} (hn : (z.tape.map (·.id)).Nodup) {x : Report} (hx : z.Consistent x) {za zb : Seen} {sym : Nat} {sd : Side} {p : Nat}
    (h : Story.level za zb sym sd p ∈ z.news x) : zb.all = (z.next x).all ∨ ∀ a c b, zb.all.volume a c b ≤ z.all.volume a c b := by
  have key : ∀ {id r}, z.tape.find id = some r → ∀ a c b, (Seen.all { z with tape := z.tape.without r.id }).volume a c b ≤ z.all.volume a c b := by
    intro id r hr a c b
    have hid := (Aggr.find_perm hn hr).2
    rw [all_split hn hr, hid]
    exact le_cons _ _ _ _ _
  cases x with
  | cancel id q =>
    obtain ⟨r, hr⟩ := hx
    unfold Seen.news Seen.tell at h
    simp only [hr] at h
    rcases List.mem_cons.1 h with h | h
    · by_cases hq : q < r.qty
      · rw [if_pos hq] at h; cases h
      · rw [if_neg hq] at h; cases h
    · rcases List.mem_cons.1 h with h | h
      · cases h; exact .inl rfl
      · cases h
  | tick x =>
  cases x with
  | book _ => rcases List.mem_cons.1 h with h | h <;> cases h
  | add r =>
    rcases List.mem_cons.1 h with h | h
    · cases h
    · rcases List.mem_cons.1 h with h | h
      · cases h; exact .inl rfl
      · cases h
  | take id q =>
    obtain ⟨r, hr⟩ := hx
    unfold Seen.news Seen.tell at h
    simp only [hr] at h
    rcases List.mem_cons.1 h with h | h
    · cases h
    · rcases List.mem_cons.1 h with h | h
      · cases h; exact .inl rfl
      · by_cases hq : q < r.qty
        · rw [if_pos hq] at h; rcases List.mem_cons.1 h with h | h <;> cases h
        · rw [if_neg hq] at h; rcases List.mem_cons.1 h with h | h <;> cases h
  | delete id =>
    obtain ⟨r, hr⟩ := hx
    unfold Seen.news Seen.tell at h
    simp only [hr] at h
    rcases List.mem_cons.1 h with h | h
    · cases h; exact .inr (key hr)
    · rcases List.mem_cons.1 h with h | h <;> cases h
  | modify id p' q =>
    obtain ⟨r, hr, _⟩ := hx
    unfold Seen.news Seen.tell at h
    simp only [hr] at h
    by_cases hq : 0 < q
    · rw [if_pos hq] at h
      rcases List.mem_cons.1 h with h | h
      · cases h; exact .inr (key hr)
      · rcases List.mem_cons.1 h with h | h
        · cases h
        · rcases List.mem_cons.1 h with h | h
          · cases h; exact .inl rfl
          · cases h
    · rw [if_neg hq] at h
      rcases List.mem_cons.1 h with h | h
      · cases h; exact .inr (key hr)
      · rcases List.mem_cons.1 h with h | h <;> cases h
  | replace id n p' q =>
    obtain ⟨r, hr, _⟩ := hx
    unfold Seen.news Seen.tell at h
    simp only [hr] at h
    by_cases hq : 0 < q
    · rw [if_pos hq] at h
      rcases List.mem_cons.1 h with h | h
      · cases h; exact .inr (key hr)
      · rcases List.mem_cons.1 h with h | h
        · cases h
        · rcases List.mem_cons.1 h with h | h
          · cases h
          · rcases List.mem_cons.1 h with h | h
            · cases h; exact .inl rfl
            · cases h
    · rw [if_neg hq] at h
      rcases List.mem_cons.1 h with h | h
      · cases h; exact .inr (key hr)
      · rcases List.mem_cons.1 h with h | h <;> cases h

/-- What is shown of a symbol is as before, or told. -/
theorem news_new {z : Seen} (hn : (z.tape.map (·.id)).Nodup) {x : Report} (hx : z.Consistent x) (a : Nat) :
    (∀ c b, (z.next x).all.volume a c b = z.all.volume a c b) ∨
      ∃ za zb sd p, Story.level za zb a sd p ∈ z.news x ∧ zb.all = (z.next x).all := by
  cases x with
  | cancel id q =>
    obtain ⟨r, hr⟩ := hx
    by_cases ha : a = r.sym
    · subst ha
      refine .inr ⟨z, z.next (.cancel id q), r.side, r.price, ?_, rfl⟩
      unfold Seen.news Seen.tell
      simp only [hr]
      exact .tail _ (.head _)
    · refine .inl fun c b => ?_
      rw [all_split hn hr, other_cons ha]
      unfold Seen.next Seen.all
      simp only [hr]
      by_cases hq : q < r.qty
      · simp only [if_pos hq]
        exact other_cons (r := { r with qty := r.qty - q }) ha c b
      · simp only [if_neg hq]
        have := vol_perm (List.perm_middle (a := r) (l₁ := z.tape.without id) (l₂ := z.stuck))
        rw [show Tape.volume (z.tape.without id ++ r :: z.stuck) a c b = _ from congrFun (congrFun (congrFun this a) c) b]
        exact other_cons ha c b
  | tick x =>
  cases x with
  | book _ => exact .inl fun _ _ => rfl
  | add r =>
    by_cases ha : a = r.sym
    · subst ha
      exact .inr ⟨_, _, _, _, .tail _ (.head _), rfl⟩
    · exact .inl fun c b => other_cons (r := { r with price := z.noted r.id }) ha c b
  | take id q =>
    obtain ⟨r, hr⟩ := hx
    by_cases ha : a = r.sym
    · subst ha
      refine .inr ⟨z, z.next (.tick (.take id q)), r.side, r.price, ?_, rfl⟩
      unfold Seen.news Seen.tell
      simp only [hr]
      exact .tail _ (.head _)
    · refine .inl fun c b => ?_
      rw [all_split hn hr, other_cons ha]
      unfold Seen.next Seen.all Tape.next
      simp only [hr]
      by_cases hq : q < r.qty
      · simp only [if_pos hq]
        exact other_cons (r := { r with qty := r.qty - q }) ha c b
      · simp only [if_neg hq]
  | delete id =>
    obtain ⟨r, hr⟩ := hx
    by_cases ha : a = r.sym
    · subst ha
      refine .inr ⟨z, { z with tape := z.tape.without r.id }, r.side, r.price, ?_, ?_⟩
      · unfold Seen.news Seen.tell
        simp only [hr]
        exact .head _
      · rw [(Aggr.find_perm hn hr).2]; rfl
    · refine .inl fun c b => ?_
      rw [all_split hn hr, other_cons ha]; rfl
  | modify id p' q =>
    obtain ⟨r, hr, _⟩ := hx
    have hid := (Aggr.find_perm hn hr).2
    by_cases ha : a = r.sym
    · subst ha
      by_cases hq : 0 < q
      · refine .inr ⟨{ z with tape := z.tape.without r.id }, z.next (.tick (.modify id p' q)), r.side, p', ?_, rfl⟩
        unfold Seen.news Seen.tell
        simp only [hr, if_pos hq]
        exact .tail _ (.tail _ (.head _))
      · refine .inr ⟨z, { z with tape := z.tape.without r.id }, r.side, r.price, ?_, ?_⟩
        · unfold Seen.news Seen.tell
          simp only [hr, if_neg hq]
          exact .head _
        · unfold Seen.next Seen.all Seen.note Tape.next
          simp only [hr, if_neg hq, hid]
    · refine .inl fun c b => ?_
      rw [all_split hn hr, other_cons ha]
      unfold Seen.next Seen.all Seen.note Tape.next
      simp only [hr]
      by_cases hq : 0 < q
      · simp only [if_pos hq]
        exact other_cons (r := { r with price := p', qty := q }) ha c b
      · simp only [if_neg hq]
  | replace id n p' q =>
    obtain ⟨r, hr, _⟩ := hx
    have hid := (Aggr.find_perm hn hr).2
    by_cases ha : a = r.sym
    · subst ha
      by_cases hq : 0 < q
      · refine .inr ⟨{ z with tape := z.tape.without r.id }, z.next (.tick (.replace id n p' q)), r.side, p', ?_, rfl⟩
        unfold Seen.news Seen.tell
        simp only [hr, if_pos hq]
        exact .tail _ (.tail _ (.tail _ (.head _)))
      · refine .inr ⟨z, { z with tape := z.tape.without r.id }, r.side, r.price, ?_, ?_⟩
        · unfold Seen.news Seen.tell
          simp only [hr, if_neg hq]
          exact .head _
        · unfold Seen.next Seen.all Tape.next
          simp only [hr, if_neg hq, hid]
    · refine .inl fun c b => ?_
      rw [all_split hn hr, other_cons ha]
      unfold Seen.next Seen.all Seen.note Tape.next
      simp only [hr]
      by_cases hq : 0 < q
      · simp only [if_pos hq]
        exact other_cons (r := { r with id := n, price := p', qty := q }) ha c b
      · simp only [if_neg hq]

/-- What a stream leaves of the highest number of levels. -/
theorem max_levels (ms : List Msg) : ∀ {s : St} {z : Seen}, Inv s z → z.ConsistentAll (ms.filterMap Msg.report) →
    (∀ sym sd L, z.Levels sym sd L → L.length ≤ (stats s).maxLevels) →
    ∃ s', Opt.reactAll s ms = .ok s' ∧ (stats s).maxLevels ≤ (stats s').maxLevels ∧
      (∀ a b, ms = a ++ b → ∀ sym sd L, (z.after (a.filterMap Msg.report)).Levels sym sd L → L.length ≤ (stats s').maxLevels) ∧
      ((stats s').maxLevels = (stats s).maxLevels ∨
        ∃ a b, ms = a ++ b ∧ ∃ sym sd L, (z.after (a.filterMap Msg.report)).Levels sym sd L ∧ L.length = (stats s').maxLevels) := by
  induction ms with
  | nil =>
    intro s z h _ hM
    refine ⟨s, rfl, Nat.le_refl _, ?_, .inl rfl⟩
    intro a b hab
    obtain ⟨rfl, rfl⟩ := List.append_eq_nil_iff.1 hab.symm
    exact hM
  | cons m ms ih =>
    intro s z h hc hM
    unfold Opt.reactAll
    cases hk : m.report with
    | none =>
      rw [List.filterMap_cons_none hk] at hc
      rw [react_none hk, Except.bind_ok]
      obtain ⟨s', c1, c2, c3, c4⟩ := ih h hc hM
      refine ⟨s', c1, c2, ?_, ?_⟩
      · intro a b hab
        cases a with
        | nil => intro sym sd L hL; exact Nat.le_trans (hM sym sd L hL) c2
        | cons m' a =>
          obtain ⟨rfl, hab'⟩ := List.cons.inj hab
          rw [List.filterMap_cons_none hk]
          exact c3 a b hab'
      · rcases c4 with he | ⟨a, b, hab, r⟩
        · exact .inl he
        · refine .inr ⟨m :: a, b, by rw [hab]; rfl, ?_⟩
          rw [List.filterMap_cons_none hk]
          exact r
    | some x =>
      rw [List.filterMap_cons_some hk] at hc
      obtain ⟨s1, h1, h2, evs, e1, e2⟩ := h.react_news hk hc.1
      rw [h1, Except.bind_ok]
      obtain ⟨M, m1, m2, m3, m4⟩ := told_max e2 (stats s)
      have hs1 : (stats s1).maxLevels = M := by
        unfold stats at m1 ⊢
        rw [e1, List.foldl_append]; exact m1
      have hM1 : ∀ sym sd L, (z.next x).Levels sym sd L → L.length ≤ (stats s1).maxLevels := by
        intro sym sd L hL
        rw [hs1]
        rcases news_new h.ids hc.1 sym with hv | ⟨za, zb, sd', p, hmem, hall⟩
        · have := Levels.le hL (h.levels sym sd) (fun p hp => by rw [hv] at hp; exact hp)
          exact Nat.le_trans this (Nat.le_trans (hM _ _ _ (h.levels sym sd)) m2)
        · obtain ⟨L', l1, l2⟩ := m3 _ _ _ _ _ ((level_report hk).2 hmem) sd
          exact Nat.le_trans (Levels.le hL l1 (fun p hp => by rw [hall]; exact hp)) l2
      have hM2 : (stats s1).maxLevels = (stats s).maxLevels ∨ ∃ sym sd L, (z.next x).Levels sym sd L ∧ L.length = (stats s1).maxLevels := by
        rw [hs1]
        rcases m4 with he | ⟨za, zb, sym, sd, p, hmem, sd', L, l1, l2⟩
        · exact .inl he
        · rcases news_old h.ids hc.1 ((level_report hk).1 hmem) with hall | hle
          · have hL := h2.levels sym sd'
            refine .inr ⟨sym, sd', _, hL, ?_⟩
            have a1 := Levels.le hL l1 (fun p hp => by rw [hall]; exact hp)
            have a2 := Levels.le l1 hL (fun p hp => by rw [← hall]; exact hp)
            omega
          · have hL := h.levels sym sd'
            have a1 := Levels.le l1 hL (fun p hp => by have := hle sym sd' p; omega)
            have a2 := hM _ _ _ hL
            exact .inl (by omega)
      obtain ⟨s', c1, c2, c3, c4⟩ := ih h2 hc.2 hM1
      refine ⟨s', c1, by omega, ?_, ?_⟩
      · intro a b hab
        cases a with
        | nil => intro sym sd L hL; exact Nat.le_trans (hM sym sd L hL) (by omega)
        | cons m' a =>
          obtain ⟨rfl, hab'⟩ := List.cons.inj hab
          rw [List.filterMap_cons_some hk]
          exact c3 a b hab'
      · rcases c4 with he | ⟨a, b, hab, r⟩
        · rcases hM2 with he2 | r
          · exact .inl (by omega)
          · refine .inr ⟨[m], ms, rfl, ?_⟩
            rw [List.filterMap_cons_some hk, he]
            exact r
        · refine .inr ⟨m :: a, b, by rw [hab]; rfl, ?_⟩
          rw [List.filterMap_cons_some hk]
          exact r

/-- C65, the highest number of price levels: over a stream of well-formed messages, wire-encoded, framed and cut into any chunks, that is
consistent for the optimised manager, the program of the optimised manager reports exactly the highest number of price levels that any side of
any book has shown after any of the messages. -/
theorem C65_levels (ms : List (Msg × List UInt8)) (chunks : List (List UInt8))
    (hm : ∀ x ∈ ms, x.1.Fits ∧ x.2.length = 3)
    (hc : chunks.flatten = (ms.map (fun x => frame (x.1.wire x.2))).flatten)
    (ht : Seen.blank.ConsistentAll (ms.filterMap (fun x => x.1.report))) :
    ∃ p s, Opt.main chunks (St.init, Opt.init) = .ok (p, s) ∧
      (∀ a b, ms = a ++ b → ∀ sym sd L, (Seen.blank.after (a.filterMap (fun x => x.1.report))).Levels sym sd L → L.length ≤ (stats s).maxLevels) ∧
      ∃ a b, ms = a ++ b ∧ ∃ sym sd L, (Seen.blank.after (a.filterMap (fun x => x.1.report))).Levels sym sd L ∧ L.length = (stats s).maxLevels := by
  have het : ∀ l : List (Msg × List UInt8), (l.map (fun x => x.1.mapHdr Hdr.cut)).filterMap Msg.report = l.filterMap (fun x => x.1.report) := by
    intro l
    rw [List.filterMap_map]; congr 1; funext x; exact cut_report x.1
  have hstream := stream_roundtrip ms chunks hm hc
  rw [← het] at ht
  have h0 : ∀ sym sd L, Seen.blank.Levels sym sd L → L.length ≤ (stats init).maxLevels := by
    intro sym sd L hL
    cases L with
    | nil => exact Nat.zero_le _
    | cons x L =>
      obtain ⟨p, v, n⟩ := x
      obtain ⟨h1, _, h2⟩ := (hL.2 p v n).1 (.head _)
      rw [h1] at h2
      simp [Seen.all, Seen.blank, Tape.volume] at h2
  obtain ⟨s, s1, _, s2, s3⟩ := max_levels _ inv_init ht h0
  refine ⟨_, s, opt_chunks chunks Feeder.inv_init.any hstream (new := ms.map (fun x => x.1.mapHdr Hdr.cut)) (by simp [Itch.St.init]) s1, ?_, ?_⟩
  · intro a b hab
    have := s2 (a.map (fun x => x.1.mapHdr Hdr.cut)) (b.map (fun x => x.1.mapHdr Hdr.cut)) (by rw [hab, List.map_append])
    rw [het] at this
    exact this
  · rcases s3 with he | ⟨a, b, hab, r⟩
    · refine ⟨[], ms, rfl, 0, .buy, [], ⟨.nil, ?_⟩, by rw [he]; rfl⟩
      intro p v n
      constructor
      · intro h; cases h
      · rintro ⟨rfl, _, h⟩
        simp [Seen.after, Seen.all, Seen.blank, Tape.volume] at h
    · obtain ⟨a', b', e1, e2, _⟩ := List.map_eq_append_iff.1 hab
      refine ⟨a', b', e1, ?_⟩
      rw [← e2, het] at r
      exact r

/-- The theorems about streams apply to the stream of C54; the highest number of levels is 2. -/
example : (∀ x ∈ itchDay, x.1.Fits ∧ x.2.length = 3) ∧ Seen.blank.ConsistentAll (itchDay.filterMap (fun x => x.1.report)) ∧
    (reactAll init (itchDay.map (·.1))).toOption.map (fun s => ((stats s).maxLevels, s.ev.length)) = some (2, 29) := by
  refine ⟨?_, by decide +kernel, by decide +kernel⟩
  simp [itchDay, Msg.Fits, Hdr.Fits, known]

end CppTrader.Opt
