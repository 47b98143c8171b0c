import Verif.Model.Console
import Verif.Console
import Verif.Props.Cli
import Verif.Proof.Text
/-
C71: what the command-line matching engine complains about.
-/

namespace CppTrader.Cli

theorem contains_iff (w : List Char) : ∀ l : List Char, contains w l = true ↔ ∃ a b, l = a ++ w ++ b
  | [] => by
    simp only [contains, List.isPrefixOf_iff_prefix]
    constructor
    · rintro ⟨t, h⟩; exact ⟨[], t, by simpa using h.symm⟩
    · rintro ⟨a, b, h⟩
      have := congrArg List.length h
      simp only [List.length_nil, List.length_append] at this
      have h1 : w = [] := List.length_eq_zero_iff.1 (by omega)
      subst h1; exact ⟨[], rfl⟩
  | c :: l => by
    simp only [contains, Bool.or_eq_true, List.isPrefixOf_iff_prefix]
    constructor
    · rintro (⟨t, h⟩ | h)
      · exact ⟨[], t, by simpa using h.symm⟩
      · obtain ⟨a, b, rfl⟩ := (contains_iff w l).1 h
        exact ⟨c :: a, b, by simp⟩
    · rintro ⟨a, b, h⟩
      cases a with
      | nil => exact .inl ⟨b, by simpa using h.symm⟩
      | cons d a =>
        simp only [List.cons_append, List.cons.injEq] at h
        exact .inr ((contains_iff w l).2 ⟨a, b, h.2⟩)

theorem tried_beginnings : tried = beginnings := rfl

theorem mentions_iff (line : List Char) (w : String) : contains w.toList line = true ↔ Mentions line w := contains_iff _ _

theorem handler_some {line : List Char} {w : String} (h : handler line = some w) : FirstMentioned line w := by
  obtain ⟨h1, a, b, h2, h3⟩ := List.find?_eq_some_iff_append.1 h
  refine ⟨a, b, h2, (mentions_iff _ _).1 h1, fun v hv hm => ?_⟩
  have := h3 v hv
  rw [(mentions_iff _ _).2 hm] at this; simp at this

theorem handler_none {line : List Char} (h : handler line = none) : ∀ w ∈ beginnings, ¬ Mentions line w := by
  intro w hw hm
  have := List.find?_eq_none.1 h w hw
  exact this ((mentions_iff _ _).2 hm)

/-- `w` is the first of the strings that can occur in a line that begins with `p` and goes on with digits and blanks. -/
def picks (w : String) (p : List Char) : List String → Bool
  | [] => false
  | v :: ws => if v = w then w.toList.isPrefixOf p else away v.toList p && picks w p ws

theorem picks_find {p r : List Char} (hr : Quiet r) {w : String} : ∀ ws : List String, picks w p ws = true →
    ws.find? (fun v => contains v.toList (p ++ r)) = some w
  | [], h => by cases h
  | v :: ws, h => by
    unfold picks at h
    by_cases hv : v = w
    · rw [if_pos hv] at h
      subst hv
      obtain ⟨t, rfl⟩ := List.isPrefixOf_iff_prefix.1 h
      have : contains v.toList (v.toList ++ t ++ r) = true := by rw [List.append_assoc]; exact contains_self _ _
      simp only [List.find?, this]
    · rw [if_neg hv, Bool.and_eq_true] at h
      simp only [List.find?, contains_no hr h.1]
      exact picks_find hr ws h.2

/-- A command is given to the handler of its own words. -/
theorem handler_spelled {c : Command} {line : List Char} (h : Spells c line) (h1 : c ≠ .enable) (h2 : c ≠ .disable) :
    handler line = some c.words := by
  obtain ⟨⟨l, hl, rfl⟩, hname⟩ := h
  obtain ⟨ds, rfl, hd, hv⟩ := written_iff.1 hl
  have hq := quiet_blanked hd
  have key : c.name? = none → picks c.words (c.words.toList ++ sideText c.side?) tried = true →
      handler (c.words.toList ++ sideText c.side? ++ blanked ds ++ nameText c.name?) = some c.words := by
    intro hn hp
    rw [hn]
    simp only [nameText, List.append_nil]
    exact picks_find hq tried hp
  cases c
  case enable => exact absurd rfl h1
  case disable => exact absurd rfl h2
  case addSymbol id name =>
    simp only [Command.words, Command.side?, sideText, List.append_nil, List.append_assoc, handler, tried, List.find?, contains_self]
  case market s _ _ _ => exact key rfl (by cases s <;> simp only [Command.words, Command.side?] <;> decide +kernel)
  case slippageMarket s _ _ _ _ => exact key rfl (by cases s <;> simp only [Command.words, Command.side?] <;> decide +kernel)
  case limit s _ _ _ _ => exact key rfl (by cases s <;> simp only [Command.words, Command.side?] <;> decide +kernel)
  case iocLimit s _ _ _ _ => exact key rfl (by cases s <;> simp only [Command.words, Command.side?] <;> decide +kernel)
  case fokLimit s _ _ _ _ => exact key rfl (by cases s <;> simp only [Command.words, Command.side?] <;> decide +kernel)
  case aonLimit s _ _ _ _ => exact key rfl (by cases s <;> simp only [Command.words, Command.side?] <;> decide +kernel)
  case stop s _ _ _ _ => exact key rfl (by cases s <;> simp only [Command.words, Command.side?] <;> decide +kernel)
  case stopLimit s _ _ _ _ _ => exact key rfl (by cases s <;> simp only [Command.words, Command.side?] <;> decide +kernel)
  case trailingStop s _ _ _ _ _ _ => exact key rfl (by cases s <;> simp only [Command.words, Command.side?] <;> decide +kernel)
  case trailingStopLimit s _ _ _ _ _ _ _ => exact key rfl (by cases s <;> simp only [Command.words, Command.side?] <;> decide +kernel)
  all_goals exact key rfl (by simp only [Command.words, Command.side?]; decide +kernel)

theorem switch_ok {g g' : Mgr} {e : ErrorCode} {c : Command} {pack : List Char → Nat} {r : List Char} (hc : c = .enable ∨ c = .disable)
    (h : g.step (c.meaning pack r) = .ok (g', e)) : e = .ok := by
  rcases hc with rfl | rfl
  · simp only [Command.meaning, Mgr.step] at h
    obtain ⟨g1, h1, h⟩ := bind_inv h
    injection h with h; injection h with _ h; exact h.symm
  · simp only [Command.meaning, Mgr.step] at h
    injection h with h; injection h with _ h; exact h.symm

theorem idle_iff (line : List Char) : Idle line ↔ (line = "help".toList ∨ ("#".toList.isPrefixOf line ∨ line = [])) := by
  have : "#".toList.isPrefixOf line = true ↔ ∃ l, line = '#' :: l := by
    cases line with
    | nil => simp
    | cons c l =>
      simp only [List.cons.injEq]
      constructor
      · intro h
        have : '#' = c := by simpa [List.isPrefixOf] using h
        exact ⟨l, this.symm, rfl⟩
      · rintro ⟨l', rfl, _⟩; rfl
  unfold Idle
  rw [this]
  constructor
  · rintro (h | h | h)
    · exact .inl h
    · exact .inr (.inr h)
    · exact .inr (.inl h)
  · rintro (h | h | h)
    · exact .inl h
    · exact .inr (.inr h)
    · exact .inr (.inl h)

theorem not_idle {c : Command} {line : List Char} (h : Spells c line) : ¬ Idle line := by
  intro hi
  have h1 : react (fun _ => 0) [] line = .nothing := by
    unfold react
    rcases (idle_iff line).1 hi with h' | h'
    · rw [if_pos h']
    · by_cases h2 : line = "help".toList
      · rw [if_pos h2]
      · have h3 : ¬ (line = "exit".toList ∨ line = "quit".toList) := by
          rintro (rfl | rfl) <;> revert h' <;> decide
        rw [if_neg h2, if_neg h3, if_pos h']
  exact ((C56_nothing_iff _ _ _).1 h1).1 c h

theorem talk_nothing {pack : List Char → Nat} {line junk : List Char} {rest : List (List Char × List Char)} {g : Mgr} {x : End}
    {out : List (List Char)} (h : react pack junk line = .nothing) (hr : talk pack rest g = .ok (x, out)) :
    talk pack ((line, junk) :: rest) g = .ok (x, rebuke line ++ out) := by
  unfold talk
  simp only [h]
  rw [hr]
  exact Except.bind_ok _ _

theorem talk_call {pack : List Char → Nat} {line junk : List Char} {rest : List (List Char × List Char)} {g g1 : Mgr} {x : End}
    {out : List (List Char)} {op : Op} {e : ErrorCode} (h : react pack junk line = .call op) (hs : g.step op = .ok (g1, e))
    (hr : talk pack rest g1 = .ok (x, out)) :
    talk pack ((line, junk) :: rest) g = .ok (x, report line e ++ out) := by
  unfold talk
  simp only [h]
  rw [hs, Except.bind_ok]
  simp only
  rw [hr, Except.bind_ok]

theorem rebuke_idle {line : List Char} (hi : Idle line) : rebuke line = [] := by
  unfold rebuke
  rcases (idle_iff line).1 hi with h' | h'
  · rw [if_pos h']
  · by_cases h2 : line = "help".toList
    · rw [if_pos h2]
    · rw [if_neg h2, if_pos h']

theorem rebuke_busy {line : List Char} (hi : ¬ Idle line) : (∀ w, handler line = some w → rebuke line = [(Complaint.invalid w line).text]) ∧
    (handler line = none → rebuke line = [(Complaint.unknown line).text]) := by
  rw [idle_iff, not_or] at hi
  obtain ⟨h1, h2⟩ := hi
  unfold rebuke
  rw [if_neg h1, if_neg h2]
  constructor
  · intro w hw
    rw [hw]; rfl
  · intro hw
    rw [hw]; rfl

theorem report_failed {c : Command} {line : List Char} (h : handler line = some c.words) {e : ErrorCode} (he : e ≠ .ok) :
    report line e = [(Complaint.failed c.words e).text] := by
  unfold report
  rw [if_neg he, h]; rfl

/-- C71, one run: the program makes the calls C57 tells, and complains as specified about its lines and their results. -/
theorem C71_complaints (pack : List Char → Nat) : ∀ (lines : List (List Char × List Char)) (ops : List Op) (b : Bool), Session pack lines ops b →
    ∀ (g x : Mgr) (es : List ErrorCode), g.run ops = .ok (x, es) →
      ∃ cs, Complaints (lines.map (·.1)) es cs ∧
        talk pack lines g = .ok (if b then .aborted x else .normal x, cs.map Complaint.text) := by
  intro lines ops b h
  induction h with
  | eof =>
    intro g x es h
    simp only [Mgr.run] at h
    injection h with h; injection h with h1 h2; subst h1; subst h2
    exact ⟨[], .eof, rfl⟩
  | @quit line junk rest hq =>
    intro g x es h
    simp only [Mgr.run] at h
    injection h with h; injection h with h1 h2; subst h1; subst h2
    exact ⟨[], .quit hq, by simp [talk, react_quit hq]⟩
  | @tooLarge line junk rest c hc hs =>
    intro g x es h
    simp only [Mgr.run] at h
    injection h with h; injection h with h1 h2; subst h1; subst h2
    exact ⟨[], .tooLarge hc hs, by simp [talk, (react_spelled pack junk hc).2 hs]⟩
  | @command line junk rest c ops b hc hs hr ih =>
    intro g x es h
    simp only [Mgr.run] at h
    obtain ⟨⟨g1, e⟩, h1, h⟩ := bind_inv h
    obtain ⟨⟨g2, es'⟩, h2, h⟩ := bind_inv h
    injection h with h; injection h with h3 h4; subst h3; subst h4
    obtain ⟨cs, i1, i2⟩ := ih g1 g2 es' h2
    have hs1 : g.step (c.meaning pack (leftover junk c)) = .ok (g1, e) := h1
    have hrun := talk_call ((react_spelled pack junk hc).1 hs) hs1 i2
    by_cases he : e = .ok
    · subst he
      refine ⟨cs, .done hc hs i1, ?_⟩
      rw [hrun]; rfl
    · refine ⟨.failed c.words e :: cs, .refused hc hs he i1, ?_⟩
      have hsw : c ≠ .enable ∧ c ≠ .disable :=
        ⟨fun h => he (switch_ok (.inl h) hs1), fun h => he (switch_ok (.inr h) hs1)⟩
      rw [hrun, report_failed (handler_spelled hc hsw.1 hsw.2) he]
      rfl
  | @skip line junk rest ops b hn q1 q2 hr ih =>
    intro g x es h
    obtain ⟨cs, i1, i2⟩ := ih g x es h
    have hre := (C56_nothing_iff pack junk line).2 ⟨hn, q1, q2⟩
    have hrun := talk_nothing hre i2
    by_cases hi : Idle line
    · refine ⟨cs, .idle hi i1, ?_⟩
      rw [hrun, rebuke_idle hi]
      rfl
    · cases hh : handler line with
      | some w =>
        refine ⟨.invalid w line :: cs, .misspelt hn q1 q2 hi (handler_some hh) i1, ?_⟩
        rw [hrun, (rebuke_busy hi).1 w hh]
        rfl
      | none =>
        refine ⟨.unknown line :: cs, .unknown hn q1 q2 hi (handler_none hh) i1, ?_⟩
        rw [hrun, (rebuke_busy hi).2 hh]
        rfl

/-! The lines of the input. -/

theorem getlinesFrom_spec : ∀ (t cur : List Char), '\n' ∉ cur → LinesOf (cur.reverse ++ t) (getlinesFrom cur t)
  | [], cur, hc => by
    unfold getlinesFrom
    cases cur with
    | nil => exact ⟨by simp, .inl (by simp)⟩
    | cons c cur =>
      simp only [List.isEmpty_cons, Bool.false_eq_true, if_false, List.append_nil]
      refine ⟨?_, .inr ⟨[], (c :: cur).reverse, rfl, by simp, rfl⟩⟩
      intro l hl
      rw [List.mem_singleton] at hl
      subst hl
      rw [List.mem_reverse]
      exact hc
  | c :: t, cur, hc => by
    unfold getlinesFrom
    by_cases h : c = '\n'
    · rw [if_pos h]
      subst h
      obtain ⟨i1, i2⟩ := getlinesFrom_spec t [] (by simp)
      simp only [List.reverse_nil, List.nil_append] at i2
      refine ⟨?_, ?_⟩
      · intro l hl
        rcases List.mem_cons.1 hl with rfl | hl
        · simpa using hc
        · exact i1 l hl
      · rcases i2 with i2 | ⟨init, last, e1, e2, e3⟩
        · left
          rw [List.flatMap_cons, ← i2]; simp
        · right
          refine ⟨cur.reverse :: init, last, by rw [e1]; rfl, e2, ?_⟩
          rw [List.flatMap_cons, e3]; simp
    · rw [if_neg h]
      have := getlinesFrom_spec t (c :: cur) (by simp only [List.mem_cons, not_or]; exact ⟨fun e => h e.symm, hc⟩)
      simpa using this

/-- C71, the input: every text has exactly one list of lines, and it is the one the program reads. -/
theorem C71_lines (t : List Char) : LinesOf t (getlines t) ∧ ∀ ls, LinesOf t ls → ls = getlines t := by
  have ex := getlinesFrom_spec t [] (by simp)
  refine ⟨ex, ?_⟩
  have ex : LinesOf t (getlines t) := ex
  have key : ∀ (ls ls' : List (List Char)) (t : List Char), LinesOf t ls → LinesOf t ls' → ls = ls' := by
    intro ls
    induction ls with
    | nil =>
      intro ls' t h h'
      have ht : t = [] := by
        rcases h.2 with h | ⟨init, last, e, _⟩
        · exact h
        · cases init <;> cases e
      subst ht
      rcases h'.2 with h | ⟨init, last, e, e2, e3⟩
      · cases ls' with
        | nil => rfl
        | cons l ls' => simp at h
      · have := (List.append_eq_nil_iff.1 e3.symm).2
        exact absurd this e2
    | cons l ls ih =>
      intro ls' t h h'
      have split : ∀ {l : List Char} {ls : List (List Char)} {t : List Char}, LinesOf t (l :: ls) →
          (∃ t1, t = l ++ '\n' :: t1 ∧ '\n' ∉ l ∧ LinesOf t1 ls) ∨ (ls = [] ∧ t = l ∧ '\n' ∉ l ∧ l ≠ []) := by
        intro l ls t h
        obtain ⟨h1, h2⟩ := h
        rcases h2 with h2 | ⟨init, last, e1, e2, e3⟩
        · left
          refine ⟨ls.flatMap (· ++ ['\n']), ?_, h1 l (.head _), fun x hx => h1 x (.tail _ hx), .inl rfl⟩
          rw [h2, List.flatMap_cons]; simp
        · cases init with
          | nil =>
            injection e1 with e1 e4
            subst e1
            exact .inr ⟨e4, by simpa using e3, h1 _ (.head _), e2⟩
          | cons a init =>
            injection e1 with e1 e4
            subst e1
            left
            refine ⟨init.flatMap (· ++ ['\n']) ++ last, ?_, h1 l (.head _), fun x hx => h1 x (.tail _ hx), .inr ⟨init, last, e4, e2, rfl⟩⟩
            rw [e3, List.flatMap_cons]; simp
      cases ls' with
      | nil =>
        have ht : t = [] := by
          rcases h'.2 with h | ⟨init, last, e, _⟩
          · exact h
          · cases init <;> cases e
        subst ht
        rcases split h with ⟨t1, e, _⟩ | ⟨_, e, _, e2⟩
        · simp at e
        · exact absurd e.symm e2
      | cons l' ls' =>
        rcases split h with ⟨t1, e, n, r⟩ | ⟨e0, e, n, _⟩ <;> rcases split h' with ⟨t1', e', n', r'⟩ | ⟨e0', e', n', _⟩
        · obtain ⟨rfl, rfl⟩ := Text.cut n n' (e.symm.trans e')
          rw [ih ls' _ r r']
        · exact absurd (by rw [← e', e]; simp) n'
        · exact absurd (by rw [← e, e']; simp) n
        · rw [e0, e0', ← e, ← e']
  exact fun ls h => key ls _ t h ex

/-! The complaints. -/

/-- C71, refusals: the codes in the complaints about failed commands are the results other than `OK`, in order; no other complaint
is about a call. -/
theorem C71_failures {lines : List (List Char)} {es : List ErrorCode} {cs : List Complaint} (h : Complaints lines es cs) :
    cs.filterMap (fun c => match c with | .failed _ e => some e | _ => none) = es.filter (fun e => e != .ok) := by
  induction h with
  | eof => rfl
  | quit _ => rfl
  | tooLarge _ _ => rfl
  | done _ _ _ ih => simpa using ih
  | refused _ _ he _ ih =>
    rw [List.filterMap_cons, List.filter_cons]
    simp only [bne_iff_ne, ne_eq, he, not_false_eq_true, if_true, ih]
  | idle _ _ ih => exact ih
  | misspelt _ _ _ _ _ _ ih => exact ih
  | unknown _ _ _ _ _ _ ih => exact ih

theorem FirstMentioned.unique {line : List Char} {v w : String} (hv : FirstMentioned line v) (hw : FirstMentioned line w) : v = w := by
  have key : ∀ {w : String}, FirstMentioned line w → beginnings.find? (fun w => contains w.toList line) = some w := by
    rintro w ⟨a, b, h1, h2, h3⟩
    rw [List.find?_eq_some_iff_append]
    refine ⟨(mentions_iff _ _).2 h2, a, b, h1, fun v hv => ?_⟩
    cases hc : contains v.toList line with
    | false => rfl
    | true => exact absurd ((mentions_iff _ _).1 hc) (h3 v hv)
  have := (key hv).symm.trans (key hw)
  injection this

theorem switch_line {c : Command} {line : List Char} (h : Spells c line) (hc : c = .enable ∨ c = .disable) :
    line = c.words.toList ∧ handler line = none := by
  obtain ⟨⟨l, hl, rfl⟩, _⟩ := h
  rcases hc with rfl | rfl <;> cases hl <;> exact ⟨rfl, by decide +kernel⟩

theorem spells_words {c c' : Command} {line : List Char} (h : Spells c line) (h' : Spells c' line) : c.words = c'.words := by
  by_cases hs : c = .enable ∨ c = .disable <;> by_cases hs' : c' = .enable ∨ c' = .disable
  · obtain ⟨h1, _⟩ := switch_line h hs
    obtain ⟨h2, _⟩ := switch_line h' hs'
    exact String.toList_inj.1 (h1.symm.trans h2)
  · have h1 := (switch_line h hs).2
    rw [not_or] at hs'
    rw [handler_spelled h' hs'.1 hs'.2] at h1; cases h1
  · have h1 := (switch_line h' hs').2
    rw [not_or] at hs
    rw [handler_spelled h hs.1 hs.2] at h1; cases h1
  · rw [not_or] at hs hs'
    have := (handler_spelled h hs.1 hs.2).symm.trans (handler_spelled h' hs'.1 hs'.2)
    injection this

/-- C71: the complaints are determined by the lines and the results. -/
theorem C71_deterministic {lines : List (List Char)} {es : List ErrorCode} {cs cs' : List Complaint} (h : Complaints lines es cs)
    (h' : Complaints lines es cs') : cs = cs' := by
  have quitIdle : ∀ {line : List Char}, line = "exit".toList ∨ line = "quit".toList → ¬ Idle line := by
    rintro line hq hi
    rcases hi with hi | hi | ⟨l, hi⟩ <;> rcases hq with rfl | rfl <;> revert hi <;> simp
  induction h generalizing cs' with
  | eof => cases h'; rfl
  | quit hq =>
    cases h' with
    | quit _ => rfl
    | tooLarge _ _ => rfl
    | idle hi _ => exact absurd hi (quitIdle hq)
    | misspelt _ q1 q2 _ _ _ => exact (hq.elim q1 q2).elim
    | unknown _ q1 q2 _ _ _ => exact (hq.elim q1 q2).elim
  | tooLarge hc hs =>
    cases h' with
    | quit _ => rfl
    | tooLarge _ _ => rfl
    | idle hi _ => exact absurd hi (not_idle hc)
    | misspelt hn _ _ _ _ _ => exact absurd hc (hn _)
    | unknown hn _ _ _ _ _ => exact absurd hc (hn _)
  | done hc hs _ ih =>
    cases h' with
    | done _ _ h2 => exact ih h2
    | refused _ _ he _ => exact absurd rfl he
    | idle hi _ => exact absurd hi (not_idle hc)
    | misspelt hn _ _ _ _ _ => exact absurd hc (hn _)
    | unknown hn _ _ _ _ _ => exact absurd hc (hn _)
  | refused hc hs he _ ih =>
    cases h' with
    | done _ _ h2 => exact absurd rfl he
    | refused hc' _ _ h2 => rw [ih h2, spells_words hc hc']
    | idle hi _ => exact absurd hi (not_idle hc)
    | misspelt hn _ _ _ _ _ => exact absurd hc (hn _)
    | unknown hn _ _ _ _ _ => exact absurd hc (hn _)
  | idle hi _ ih =>
    cases h' with
    | quit hq => exact absurd hi (quitIdle hq)
    | tooLarge hc _ => exact absurd hi (not_idle hc)
    | done hc _ _ => exact absurd hi (not_idle hc)
    | refused hc _ _ _ => exact absurd hi (not_idle hc)
    | idle _ h2 => exact ih h2
    | misspelt _ _ _ hn _ _ => exact absurd hi hn
    | unknown _ _ _ hn _ _ => exact absurd hi hn
  | misspelt hn q1 q2 hi hm _ ih =>
    cases h' with
    | quit hq => exact (hq.elim q1 q2).elim
    | tooLarge hc _ => exact absurd hc (hn _)
    | done hc _ _ => exact absurd hc (hn _)
    | refused hc _ _ _ => exact absurd hc (hn _)
    | idle hi' _ => exact absurd hi' hi
    | misspelt _ _ _ _ hm' h2 => rw [ih h2, hm.unique hm']
    | unknown _ _ _ _ hm' _ =>
      obtain ⟨a, b, h1, h2, _⟩ := hm
      exact absurd h2 (hm' _ (by rw [h1]; simp))
  | unknown hn q1 q2 hi hm _ ih =>
    cases h' with
    | quit hq => exact (hq.elim q1 q2).elim
    | tooLarge hc _ => exact absurd hc (hn _)
    | done hc _ _ => exact absurd hc (hn _)
    | refused hc _ _ _ => exact absurd hc (hn _)
    | idle hi' _ => exact absurd hi' hi
    | misspelt _ _ _ _ hm' _ =>
      obtain ⟨a, b, h1, h2, _⟩ := hm'
      exact absurd h2 (hm _ (by rw [h1]; simp))
    | unknown _ _ _ _ _ h2 => rw [ih h2]

/-- The words a complaint quotes are the words of a command, and what it repeats is one line. -/
def Complaint.Proper : Complaint → Prop
  | .unknown line => '\n' ∉ line
  | .invalid w line => '\'' ∉ w.toList ∧ '\n' ∉ w.toList ∧ '\n' ∉ line
  | .failed w _ => '\'' ∉ w.toList ∧ '\n' ∉ w.toList

theorem words_proper (c : Command) : '\'' ∉ c.words.toList ∧ '\n' ∉ c.words.toList := by
  cases c <;> simp only [Command.words] <;> decide

theorem beginnings_proper : ∀ w ∈ beginnings, '\'' ∉ w.toList ∧ '\n' ∉ w.toList := by decide +kernel

theorem Complaints.proper {lines : List (List Char)} {es : List ErrorCode} {cs : List Complaint} (h : Complaints lines es cs)
    (hl : ∀ l ∈ lines, '\n' ∉ l) : ∀ c ∈ cs, c.Proper := by
  induction h with
  | eof => intro c hc; cases hc
  | quit _ => intro c hc; cases hc
  | tooLarge _ _ => intro c hc; cases hc
  | done _ _ _ ih => exact ih fun l h => hl l (.tail _ h)
  | refused _ _ _ _ ih =>
    intro c hc
    rcases List.mem_cons.1 hc with rfl | hc
    · exact words_proper _
    · exact ih (fun l h => hl l (.tail _ h)) c hc
  | idle _ _ ih => exact ih fun l h => hl l (.tail _ h)
  | @misspelt line rest w es cs _ _ _ _ hm _ ih =>
    intro c hc
    rcases List.mem_cons.1 hc with rfl | hc
    · obtain ⟨a, b, h1, _⟩ := hm
      have := beginnings_proper w (by rw [h1]; simp)
      exact ⟨this.1, this.2, hl _ (.head _)⟩
    · exact ih (fun l h => hl l (.tail _ h)) c hc
  | unknown _ _ _ _ _ _ ih =>
    intro c hc
    rcases List.mem_cons.1 hc with rfl | hc
    · exact hl _ (.head _)
    · exact ih (fun l h => hl l (.tail _ h)) c hc

theorem error_lf (e : ErrorCode) : '\n' ∉ Text.error e := by cases e <;> decide

theorem text_lf {c : Complaint} (h : c.Proper) : '\n' ∉ c.text := by
  have app : ∀ {a b : List Char}, '\n' ∉ a → '\n' ∉ b → '\n' ∉ a ++ b := fun ha hb hx => (List.mem_append.1 hx).elim ha hb
  cases c with
  | unknown line => exact app (by decide) h
  | invalid w line => exact app (by decide) (app h.2.1 (app (by decide) h.2.2))
  | failed w e => exact app (by decide) (app h.2 (app (by decide) (error_lf e)))

theorem text_inj {c d : Complaint} (hc : c.Proper) (hd : d.Proper) (h : c.text = d.text) : c = d := by
  have head : ∀ {a b : Char} {x y : List Char}, a ≠ b → a :: x = b :: y → False := fun hn h => hn (by injection h)
  cases c with
  | unknown line =>
    cases d with
    | unknown line' => rw [List.append_cancel_left (show "Unknown command: ".toList ++ line = "Unknown command: ".toList ++ line' from h)]
    | invalid w' line' => exact (head (by decide) h).elim
    | failed w' e' => exact (head (by decide) h).elim
  | invalid w line =>
    cases d with
    | unknown line' => exact (head (by decide) h).elim
    | invalid w' line' =>
      have h := List.append_cancel_left (show "Invalid '".toList ++ _ = "Invalid '".toList ++ _ from h)
      obtain ⟨h1, h2⟩ := Text.cut hc.1 hd.1 (show w.toList ++ '\'' :: (" command: ".toList ++ line) = w'.toList ++ '\'' :: (" command: ".toList ++ line') from h)
      rw [String.toList_inj.1 h1, List.append_cancel_left h2]
    | failed w' e' => exact (head (by decide) h).elim
  | failed w e =>
    cases d with
    | unknown line' => exact (head (by decide) h).elim
    | invalid w' line' => exact (head (by decide) h).elim
    | failed w' e' =>
      have h := List.append_cancel_left (show "Failed '".toList ++ _ = "Failed '".toList ++ _ from h)
      obtain ⟨h1, h2⟩ := Text.cut hc.1 hd.1 (show w.toList ++ '\'' :: (" command: ".toList ++ Text.error e) = w'.toList ++ '\'' :: (" command: ".toList ++ Text.error e') from h)
      rw [String.toList_inj.1 h1, Text.error_inj (List.append_cancel_left h2)]

theorem texts_inj : ∀ {cs ds : List Complaint}, (∀ c ∈ cs, c.Proper) → (∀ d ∈ ds, d.Proper) →
    cs.flatMap (fun c => c.text ++ ['\n']) = ds.flatMap (fun c => c.text ++ ['\n']) → cs = ds
  | [], [], _, _, _ => rfl
  | [], d :: ds, _, _, h => by simp at h
  | c :: cs, [], _, _, h => by simp at h
  | c :: cs, d :: ds, hc, hd, h => by
    have e : ∀ (x : Complaint) l, (x :: l).flatMap (fun c => c.text ++ ['\n']) = x.text ++ '\n' :: l.flatMap (fun c => c.text ++ ['\n']) := by
      intro x l; simp
    rw [e, e] at h
    obtain ⟨h1, h2⟩ := Text.cut (text_lf (hc c (.head _))) (text_lf (hd d (.head _))) h
    rw [text_inj (hc c (.head _)) (hd d (.head _)) h1, texts_inj (fun x hx => hc x (.tail _ hx)) (fun x hx => hd x (.tail _ hx)) h2]

/-- C71, the text is unambiguous: whoever reads the error stream of any two sessions can tell the complaints apart: equal texts are
equal complaints, whatever was typed. -/
theorem C71_readable {lines lines' : List (List Char)} {es es' : List ErrorCode} {cs cs' : List Complaint} (h : Complaints lines es cs)
    (h' : Complaints lines' es' cs') (hl : ∀ l ∈ lines, '\n' ∉ l) (hl' : ∀ l ∈ lines', '\n' ∉ l)
    (ht : cs.flatMap (fun c => c.text ++ ['\n']) = cs'.flatMap (fun c => c.text ++ ['\n'])) : cs = cs' :=
  texts_inj (h.proper hl) (h'.proper hl') ht

theorem withJunk_lines (junk : Nat → List Char) : ∀ (n : Nat) (ls : List (List Char)), (withJunk junk n ls).map (·.1) = ls
  | _, [] => rfl
  | n, l :: ls => by rw [withJunk, List.map_cons, withJunk_lines junk (n + 1) ls]

/-- C71: the program as a whole, from the text it reads to the text it writes to its error stream. For every input of up to 2^33
lines that creates no book again after deleting it, whatever the uninitialised memory holds: the program reads the lines of the text;
makes the calls they spell; and writes exactly the complaints about those lines and the results of those calls, each on a line. -/
theorem C71_program (pack : List Char → Nat) (junk : Nat → List Char) (input : List Char) (ls : List (List Char)) (hl : LinesOf input ls)
    (hn : ls.length ≤ 2 ^ 33) {ops : List Op} {b : Bool} (hs : Session pack (withJunk junk 0 ls) ops b) (hrev : noRevival ops) :
    ∃ g es cs, Mgr.init.run ops = .ok (g, es) ∧ g.Reachable ∧ Complaints ls es cs ∧
      program pack junk input = .ok (if b then .aborted g else .normal g, cs.flatMap fun c => c.text ++ ['\n']) := by
  have hlen : (withJunk junk 0 ls).length = ls.length := by
    have := congrArg List.length (withJunk_lines junk 0 ls)
    simpa using this
  obtain ⟨g, es, h1, _, h2, _⟩ := C57_any_text hs (by rw [hlen]; exact hn) hrev
  obtain ⟨cs, h3, h4⟩ := C71_complaints pack _ ops b hs Mgr.init g es h1
  rw [withJunk_lines] at h3
  refine ⟨g, es, cs, h1, h2, h3, ?_⟩
  unfold program
  rw [← (C71_lines input).2 ls hl, h4, Except.bind_ok]
  simp only [List.flatMap_map]

/-- C71 on a session: a comment, a misspelt line, a line nobody knows, a refused command, a line that mentions two commands, and a
command the program no longer reads. -/
theorem C71_witness : (match program (fun _ => 0) (fun _ => []) ("# demo\nadd symbol 1 EURUSD\nadd book 1\nadd limit buy 7 1 10\nbuy low" ++
    "\ndelete order 7\nenable matching\ndelete order add symbol\nquit\nfoo").toList with
    | .ok (.normal _, t) => t == ("Invalid 'add limit' command: add limit buy 7 1 10\nUnknown command: buy low\n" ++
        "Failed 'delete order' command: ORDER_NOT_FOUND\nInvalid 'add symbol' command: delete order add symbol\n").toList
    | _ => false) = true := by decide +kernel

end CppTrader.Cli
