import Verif.Model.ItchText
import Verif.Proof.Text
import Verif.Props.ItchStream
import Verif.Props.ItchRobust
/-
C67: the printed messages.
-/

namespace CppTrader.Itch

/-- Nothing that is written of the values of the message contains a semicolon or a line feed. -/
def Msg.Plain (w : Writer) (m : Msg) : Prop :=
  ∀ x ∈ ("Type", Val.char m.parts.2.1) :: m.parts.2.2, ';' ∉ x.2.text w ∧ '\n' ∉ x.2.text w

/-- `WriteChar` writes different characters differently, and `WriteString` different arrays of the same size. -/
structure Writer.Faithful (w : Writer) : Prop where
  char : ∀ {a b}, w.char a = w.char b → a = b
  str : ∀ {a b}, a.length = b.length → w.str a = w.str b → a = b

/-- Kind of a value, and the size of an array. -/
def Val.shape : Val → Nat × Nat
  | .num _ => (0, 0)
  | .char _ => (1, 0)
  | .str s => (2, s.length)
  | .raw _ => (3, 0)

theorem byte_char {a b : UInt8} (h1 : Char.ofNat a.toNat = Char.ofNat b.toNat) : a = b := by
  have h2 : ∀ n, n < 256 → (Char.ofNat n).toNat = n := by
    intro n hn
    have : n.isValidChar := by left; omega
    rw [Char.ofNat, dif_pos this]
    exact (UInt32.toNat_ofNatLT ..)
  have h3 := congrArg Char.toNat h1
  rw [h2 _ (UInt8.toNat_lt a), h2 _ (UInt8.toNat_lt b)] at h3
  exact UInt8.toNat_inj.1 h3

theorem val_inj {w : Writer} (hw : w.Faithful) {a b : Val} (hs : a.shape = b.shape) (h : a.text w = b.text w) : a = b := by
  cases a <;> cases b <;> first | (cases hs; done) | skip
  · exact congrArg _ (Text.num_inj h)
  · exact congrArg _ (hw.char h)
  · refine congrArg _ (hw.str ?_ h)
    have := congrArg Prod.snd hs
    exact this
  · rename_i a b
    refine congrArg _ ?_
    exact byte_char (List.head_eq_of_cons_eq h)

/-- The values, given their kinds and labels, are determined by the text. -/
theorem fields_inj {w : Writer} (hw : w.Faithful) : ∀ {x y : Val} {a b : List (String × Val)},
    (x.shape = y.shape) → (a.map (fun z => (z.1, z.2.shape)) = b.map (fun z => (z.1, z.2.shape))) →
    (';' ∉ x.text w) → (';' ∉ y.text w) → (∀ z ∈ a, ';' ∉ z.2.text w) → (∀ z ∈ b, ';' ∉ z.2.text w) →
    x.text w ++ fieldsText w a = y.text w ++ fieldsText w b → x = y ∧ a = b
  | x, y, [], [], hs, _, _, _, _, _, h => ⟨val_inj hw hs (List.append_cancel_right h), rfl⟩
  | _, _, [], _ :: _, _, hl, _, _, _, _, _ => by cases hl
  | _, _, _ :: _, [], _, hl, _, _, _, _, _ => by cases hl
  | x, y, (l, u) :: a, (l', v) :: b, hs, hl, hx, hy, ha, hb, h => by
    obtain ⟨h1, h2⟩ := Text.cut hx hy (show x.text w ++ ';' :: _ = y.text w ++ ';' :: _ from h)
    rw [List.map_cons, List.map_cons] at hl
    injection hl with hl1 hl2
    injection hl1 with hl3 hl4
    have hl3 : l = l' := hl3
    subst hl3
    have h3 := List.append_cancel_left (List.tail_eq_of_cons_eq h2)
    obtain ⟨h4, h5⟩ := fields_inj hw hl4 hl2 (ha _ (.head _)) (hb _ (.head _)) (fun z hz => ha z (.tail _ hz)) (fun z hz => hb z (.tail _ hz))
      (List.tail_eq_of_cons_eq h3)
    exact ⟨val_inj hw hs h1, by have h4 : u = v := h4; rw [h4, h5]⟩

/-- The name of the class, as a number. -/
def Msg.kind : Msg → Fin 22
  | .systemEvent .. => 0
  | .stockDirectory .. => 1
  | .tradingAction .. => 2
  | .regSHO .. => 3
  | .participantPosition .. => 4
  | .mwcbDecline .. => 5
  | .mwcbStatus .. => 6
  | .ipoQuoting .. => 7
  | .addOrder .. => 8
  | .addOrderMPID .. => 9
  | .orderExecuted .. => 10
  | .orderExecutedWithPrice .. => 11
  | .orderCancel .. => 12
  | .orderDelete .. => 13
  | .orderReplace .. => 14
  | .trade .. => 15
  | .crossTrade .. => 16
  | .brokenTrade .. => 17
  | .noii .. => 18
  | .rpii .. => 19
  | .luldCollar .. => 20
  | .unknown .. => 21

def kindName : Fin 22 → List Char
  | 0 => "SystemEventMessage".toList
  | 1 => "StockDirectoryMessage".toList
  | 2 => "StockTradingActionMessage".toList
  | 3 => "RegSHOMessage".toList
  | 4 => "MarketParticipantPositionMessage".toList
  | 5 => "MWCBDeclineMessage".toList
  | 6 => "MWCBStatusMessage".toList
  | 7 => "IPOQuotingMessage".toList
  | 8 => "AddOrderMessage".toList
  | 9 => "AddOrderMPIDMessage".toList
  | 10 => "OrderExecutedMessage".toList
  | 11 => "OrderExecutedWithPriceMessage".toList
  | 12 => "OrderCancelMessage".toList
  | 13 => "OrderDeleteMessage".toList
  | 14 => "OrderReplaceMessage".toList
  | 15 => "TradeMessage".toList
  | 16 => "CrossTradeMessage".toList
  | 17 => "BrokenTradeMessage".toList
  | 18 => "NOIIMessage".toList
  | 19 => "RPIIMessage".toList
  | 20 => "LULDAuctionCollarMessage".toList
  | _ => "UnknownMessage".toList

theorem parts_kind (m : Msg) : m.parts.1.toList = kindName m.kind := by cases m <;> rfl
theorem kind_free : ∀ k, '(' ∉ kindName k ∧ '\n' ∉ kindName k := by decide +kernel
theorem kind_inj : ∀ k l, kindName k = kindName l → k = l := by decide +kernel

theorem parts_shape {m m' : Msg} (hf : m.Fits) (hf' : m'.Fits) (h : m.kind = m'.kind) :
    m.parts.2.2.map (fun z => (z.1, z.2.shape)) = m'.parts.2.2.map (fun z => (z.1, z.2.shape)) := by
  cases m <;> cases m' <;> first
    | (exfalso; revert h; simp only [Msg.kind]; decide; done)
    | rfl
    | (simp only [Msg.Fits] at hf hf'; simp [Msg.parts, Hdr.fields, Val.shape, hf, hf']; done)

theorem parts_inj {m m' : Msg} (h : m.kind = m'.kind) (h1 : m.parts.2.1 = m'.parts.2.1) (h2 : m.parts.2.2 = m'.parts.2.2) : m = m' := by
  have hd : ∀ (a b : Hdr) (r s : List (String × Val)), a.type = b.type → a.fields r = b.fields s → a = b ∧ r = s := by
    intro a b r s ht hf
    simp only [Hdr.fields, List.cons.injEq, Prod.mk.injEq, true_and, Val.num.injEq] at hf
    obtain ⟨e1, e2, e3, e4⟩ := hf
    cases a; cases b
    cases ht; cases e1; cases e2; cases e3
    exact ⟨rfl, e4⟩
  cases m <;> cases m' <;> first
    | (exfalso; revert h; simp only [Msg.kind]; decide; done)
    | (have h1 : _ = _ := h1; subst h1; rfl)
    | (obtain ⟨e1, e2⟩ := hd _ _ _ _ h1 h2
       subst e1
       simp only [List.cons.injEq, Prod.mk.injEq, true_and, and_true, Val.num.injEq, Val.char.injEq, Val.str.injEq, Val.raw.injEq] at e2
       simp only [e2])

/-- The text of a message determines it. -/
theorem text_inj {w : Writer} (hw : w.Faithful) {m m' : Msg} (hf : m.Fits) (hf' : m'.Fits) (hp : m.Plain w) (hp' : m'.Plain w)
    (h : m.text w = m'.text w) : m = m' := by
  unfold Msg.text at h
  rw [parts_kind, parts_kind] at h
  obtain ⟨h1, h2⟩ := Text.cut (kind_free _).1 (kind_free _).1 h
  have hk := kind_inj _ _ h1
  obtain ⟨h3, h4⟩ := fields_inj (x := .char m.parts.2.1) (y := .char m'.parts.2.1) hw rfl (parts_shape hf hf' hk) (hp _ (.head _)).1 (hp' _ (.head _)).1 (fun z hz => (hp z (.tail _ hz)).1)
    (fun z hz => (hp' z (.tail _ hz)).1) (List.append_cancel_left h2)
  injection h3 with h3
  exact parts_inj hk h3 h4

theorem cut_fits {m : Msg} (h : m.Fits) : (m.mapHdr Hdr.cut).Fits := by
  have hd : ∀ (h : Hdr) c, h.Fits c → h.cut.Fits c := fun h c ⟨a, b, d, e⟩ => ⟨a, b, d, Nat.lt_of_le_of_lt (Nat.div_le_self _ _) e⟩
  cases m <;> first
    | exact h
    | exact hd _ _ h
    | exact ⟨hd _ _ h.1, h.2⟩

/-- The text of a message is one line. -/
theorem text_line {w : Writer} {m : Msg} (hp : m.Plain w) : '\n' ∉ m.text w := by
  have l : ∀ {a b : List Char}, '\n' ∉ a → '\n' ∉ b → '\n' ∉ a ++ b := by
    intro a b ha hb h
    rcases List.mem_append.1 h with h | h
    · exact ha h
    · exact hb h
  have c : ∀ {d : Char} {a : List Char}, '\n' ≠ d → '\n' ∉ a → '\n' ∉ d :: a := by
    intro d a h1 h2 h
    rcases List.mem_cons.1 h with h | h
    · exact h1 h
    · exact h2 h
  have lab : ∀ x ∈ m.parts.2.2, '\n' ∉ x.1.toList := by
    cases m <;> simp only [Msg.parts, Hdr.fields, List.forall_mem_cons] <;> first
      | (intro x hx; cases hx; done)
      | (repeat' apply And.intro) <;> first | decide | (intro x hx; cases hx; done)
  have fs : ∀ r : List (String × Val), (∀ x ∈ r, '\n' ∉ x.1.toList) → (∀ x ∈ r, '\n' ∉ x.2.text w) → '\n' ∉ fieldsText w r := by
    intro r
    induction r with
    | nil => intro _ _; exact c (by decide) List.not_mem_nil
    | cons x r ih =>
      intro h1 h2
      exact c (by decide) (c (by decide) (l (h1 x (.head _)) (c (by decide) (l (h2 x (.head _))
        (ih (fun z hz => h1 z (.tail _ hz)) (fun z hz => h2 z (.tail _ hz)))))))
  unfold Msg.text
  rw [parts_kind]
  exact l (kind_free _).2 (c (by decide) (l (by decide) (l (hp _ (.head _)).2 (fs _ lab (fun x hx => (hp x (.tail _ hx)).2)))))

theorem printed_inj {w : Writer} (hw : w.Faithful) : ∀ {a b : List Msg}, (∀ m ∈ a, m.Fits ∧ m.Plain w) → (∀ m ∈ b, m.Fits ∧ m.Plain w) →
    printed w a = printed w b → a = b
  | [], [], _, _, _ => rfl
  | [], y :: b, _, _, h => by simp [printed] at h
  | x :: a, [], _, _, h => by simp [printed] at h
  | x :: a, y :: b, ha, hb, h => by
    have e : ∀ (x : Msg) l, printed w (x :: l) = x.text w ++ '\n' :: printed w l := by intro x l; simp [printed]
    rw [e, e] at h
    obtain ⟨h1, h2⟩ := Text.cut (text_line (ha x (.head _)).2) (text_line (hb y (.head _)).2) h
    rw [text_inj hw (ha x (.head _)).1 (hb y (.head _)).1 (ha x (.head _)).2 (hb y (.head _)).2 h1,
      printed_inj hw (fun x hx => ha x (.tail _ hx)) (fun x hx => hb x (.tail _ hx)) h2]

theorem readAll_chunks : ∀ {s s' : St} {chunks : List (List UInt8)}, processChunks (fun _ _ => true) s chunks = .ok (true, s') →
    readAll s chunks = .ok s'
  | s, s', [], h => by cases h; rfl
  | s, s', c :: cs, h => by
    unfold processChunks at h
    unfold readAll
    cases hp : process (fun _ _ => true) s c with
    | error e => rw [hp] at h; cases h
    | ok r =>
      obtain ⟨b, t⟩ := r
      rw [hp] at h
      cases b with
      | false => cases h
      | true => exact readAll_chunks h

theorem messageCount_eq {log : List Msg} (h : log.length < W64) :
    messageCount log = (log.filter (fun m => m.kind ≠ 21)).length ∧ errorCount log = (log.filter (fun m => m.kind = 21)).length := by
  have key : ∀ (log : List Msg) (n k : Nat), n + log.length < W64 → k + log.length < W64 →
      log.foldl (fun n m => match m with | .unknown _ => n | _ => add64 n 1) n = n + (log.filter (fun m => m.kind ≠ 21)).length ∧
      log.foldl (fun n m => match m with | .unknown _ => add64 n 1 | _ => n) k = k + (log.filter (fun m => m.kind = 21)).length := by
    intro log
    induction log with
    | nil => intro n k _ _; exact ⟨rfl, rfl⟩
    | cons m log ih =>
      intro n k hn hk
      rw [List.length_cons] at hn hk
      have e : ∀ n, n + (log.length + 1) < W64 → add64 n 1 = n + 1 := fun n h => Nat.mod_eq_of_lt (by omega)
      have other : m.kind ≠ 21 → (m :: log).foldl (fun n m => match m with | .unknown _ => n | _ => add64 n 1) n =
            log.foldl (fun n m => match m with | .unknown _ => n | _ => add64 n 1) (n + 1) ∧
          (m :: log).foldl (fun n m => match m with | .unknown _ => add64 n 1 | _ => n) k =
            log.foldl (fun n m => match m with | .unknown _ => add64 n 1 | _ => n) k := by
        intro hm
        rw [← e n hn]
        cases m <;> first | exact ⟨rfl, rfl⟩ | exact absurd rfl hm
      by_cases hm : m.kind = 21
      · have : ∃ t, m = .unknown t := by
          cases m <;> first | exact ⟨_, rfl⟩ | (exfalso; revert hm; simp only [Msg.kind]; decide)
        obtain ⟨t, rfl⟩ := this
        obtain ⟨h1, h2⟩ := ih n (k + 1) (by omega) (by omega)
        refine ⟨?_, ?_⟩
        · rw [List.foldl_cons, h1, List.filter_cons_of_neg (by simp [hm])]
        · rw [List.foldl_cons, show (match Msg.unknown t with | .unknown _ => add64 k 1 | _ => k) = k + 1 from e k hk, h2,
            List.filter_cons_of_pos (by simp [hm]), List.length_cons]
          omega
      · obtain ⟨h1, h2⟩ := ih (n + 1) k (by omega) (by omega)
        rw [(other hm).1, (other hm).2, h1, h2, List.filter_cons_of_pos (by simp [hm]), List.filter_cons_of_neg (by simp [hm]), List.length_cons]
        omega
  have := key log 0 0 (by omega) (by omega)
  rw [Nat.zero_add, Nat.zero_add] at this
  exact this

/-- C67: examples/itch_handler.cpp, fed with any well-formed messages, framed and cut into any buffers, prints the text of each message, in this
order, one per line; performance/itch_handler.cpp counts the known and the unknown ones. (The timestamps are cut, C42.) -/
theorem C67_printed (w : Writer) (ms : List (Msg × List UInt8)) (chunks : List (List UInt8)) (hm : ∀ x ∈ ms, x.1.Fits ∧ x.2.length = 3)
    (hc : chunks.flatten = (ms.map (fun x => frame (x.1.wire x.2))).flatten) :
    ∃ s, readAll St.init chunks = .ok s ∧
      printed w s.log = (ms.map (fun x => (x.1.mapHdr Hdr.cut).text w ++ ['\n'])).flatten ∧
      (ms.length < W64 → messageCount s.log = (ms.filter (fun x => x.1.kind ≠ 21)).length ∧
        errorCount s.log = (ms.filter (fun x => x.1.kind = 21)).length) := by
  refine ⟨_, readAll_chunks (stream_roundtrip ms chunks hm hc), ?_, ?_⟩
  · show printed w (ms.map _) = _
    rw [printed, List.flatMap_map, List.flatMap_def]
  · intro hl
    have hk : ∀ m : Msg, (m.mapHdr Hdr.cut).kind = m.kind := by intro m; cases m <;> rfl
    obtain ⟨h1, h2⟩ := messageCount_eq (log := ms.map (fun x => x.1.mapHdr Hdr.cut)) (by rw [List.length_map]; exact hl)
    refine ⟨h1.trans ?_, h2.trans ?_⟩ <;>
      · rw [List.filter_map, List.length_map]
        refine congrArg List.length (List.filter_congr fun x _ => ?_)
        simp [hk]

/-- C67, lossless: if the texts that `WriteChar` and `WriteString` write tell the values and contain neither semicolons nor line feeds, then two
streams of which the same is printed are the same messages, up to the lower half of the timestamps (C42). -/
theorem C67_lossless {w : Writer} (hw : w.Faithful) {ms ms' : List (Msg × List UInt8)} {chunks chunks' : List (List UInt8)} {s s' : St}
    (hm : ∀ x ∈ ms, x.1.Fits ∧ x.2.length = 3) (hm' : ∀ x ∈ ms', x.1.Fits ∧ x.2.length = 3)
    (hp : ∀ x ∈ ms, x.1.Plain w) (hp' : ∀ x ∈ ms', x.1.Plain w)
    (hc : chunks.flatten = (ms.map (fun x => frame (x.1.wire x.2))).flatten)
    (hc' : chunks'.flatten = (ms'.map (fun x => frame (x.1.wire x.2))).flatten)
    (hs : readAll St.init chunks = .ok s) (hs' : readAll St.init chunks' = .ok s') (same : printed w s.log = printed w s'.log) :
    ms.map (fun x => x.1.mapHdr Hdr.cut) = ms'.map (fun x => x.1.mapHdr Hdr.cut) := by
  rw [readAll_chunks (stream_roundtrip ms chunks hm hc)] at hs
  rw [readAll_chunks (stream_roundtrip ms' chunks' hm' hc')] at hs'
  cases hs; cases hs'
  have pl : ∀ m : Msg, m.Plain w → (m.mapHdr Hdr.cut).Plain w := by
    intro m h
    have hd : ∀ (h : Hdr) (r : List (String × Val)) (t : UInt8), (∀ x ∈ ("Type", Val.char t) :: h.fields r, ';' ∉ x.2.text w ∧ '\n' ∉ x.2.text w) →
        ∀ x ∈ ("Type", Val.char t) :: h.cut.fields r, ';' ∉ x.2.text w ∧ '\n' ∉ x.2.text w := by
      intro h r t h1 x hx
      simp only [Hdr.fields, List.mem_cons] at hx h1
      rcases hx with rfl | rfl | rfl | rfl | hx
      · exact h1 _ (.inl rfl)
      · exact h1 _ (.inr (.inl rfl))
      · exact h1 _ (.inr (.inr (.inl rfl)))
      · exact ⟨Text.num_free (by decide) _, Text.num_free (by decide) _⟩
      · exact h1 _ (.inr (.inr (.inr (.inr hx))))
    cases m <;> first | exact hd _ _ _ h | exact h
  refine printed_inj hw ?_ ?_ same
  · intro m h
    obtain ⟨x, hx, rfl⟩ := List.mem_map.1 h
    exact ⟨cut_fits (hm x hx).1, pl _ (hp x hx)⟩
  · intro m h
    obtain ⟨x, hx, rfl⟩ := List.mem_map.1 h
    exact ⟨cut_fits (hm' x hx).1, pl _ (hp' x hx)⟩

/-- C67, any input: whatever the bytes and however they are cut, the program reads to the end; what is printed is never taken back. -/
theorem C67_any (chunks more : List (List UInt8)) :
    ∃ s s', readAll St.init chunks = .ok s ∧ readAll St.init (chunks ++ more) = .ok s' ∧ s.log <+: s'.log := by
  have key : ∀ (cs : List (List UInt8)) (s : St), Any s → ∃ s', readAll s cs = .ok s' ∧ Any s' ∧ s.log <+: s'.log := by
    intro cs
    induction cs with
    | nil => intro s hs; exact ⟨s, rfl, hs, List.prefix_refl _⟩
    | cons c cs ih =>
      intro s hs
      obtain ⟨b, s1, h1, h2, h3⟩ := process_total (fun _ _ => true) s c hs
      obtain ⟨s', g1, g2, g3⟩ := ih s1 h2
      obtain ⟨new, e, _⟩ := h3
      exact ⟨s', by simp only [readAll, h1]; exact g1, g2, List.IsPrefix.trans ⟨new, e.symm⟩ g3⟩
  have app : ∀ (cs : List (List UInt8)) (s s' : St), readAll s cs = .ok s' → readAll s (cs ++ more) = readAll s' more := by
    intro cs
    induction cs with
    | nil => intro s s' h; cases h; rfl
    | cons c cs ih =>
      intro s s' h
      rw [List.cons_append]
      cases hp : process (fun _ _ => true) s c with
      | error e => simp only [readAll, hp] at h; cases h
      | ok r =>
        simp only [readAll, hp] at h
        have := ih _ _ h
        rw [← this]
        simp only [readAll, hp]
  obtain ⟨s, h1, h2, _⟩ := key chunks St.init (.inl ⟨rfl, Nat.zero_le _⟩)
  obtain ⟨s', h3, _, h4⟩ := key more s h2
  exact ⟨s, s', h1, by rw [app chunks _ _ h1]; exact h3, h4⟩

/-- C67, refused messages: a message of a wrong size, received with its whole frame, is not printed, nor is anything after it in the same
buffer; the program goes on with the next buffer, as if the length of the refused message had been announced again. Received in two pieces
it ends all printing. -/
theorem C67_refused (p : List UInt8) (log : List Msg) (h1 : p ≠ []) (h2 : p.length < 65536) (hp : decode p = .ok none) (rest : List UInt8)
    (cs : List (List UInt8)) :
    readAll ⟨0, [], log⟩ ((frame p ++ rest) :: cs) = readAll ⟨p.length, [], log⟩ cs ∧
    ∀ i, 0 < i → i < p.length →
      ∃ s, readAll ⟨0, [], log⟩ ((be 2 p.length ++ p.take i) :: (p.drop i ++ rest) :: cs) = .ok s ∧ s.log = log := by
  constructor
  · simp only [readAll, (C55_one_piece (fun _ _ => true) p rest log h1 h2 hp).1]
  · intro i hi hi'
    obtain ⟨s1, s2, g1, g2, g3, g4, _⟩ := C55_two_pieces (fun _ _ => true) p rest log h2 hp i hi hi'
    refine ⟨s2, ?_, g3⟩
    simp only [readAll, g1, g2]
    have key : ∀ cs : List (List UInt8), readAll s2 cs = .ok s2 := by
      intro cs
      induction cs with
      | nil => rfl
      | cons c cs ih =>
        unfold readAll
        cases c with
        | nil =>
          have : process (fun _ _ => true) s2 [] = .ok (true, s2) := rfl
          rw [this]; exact ih
        | cons x xs => rw [g4 (x :: xs) (List.cons_ne_nil _ _)]; exact ih
    exact key cs

/-- The hypotheses are met: a delete message that is one byte short; the message at the beginning of the next buffer is printed. -/
example : decode (68 :: List.replicate 17 0) = .ok none ∧
    (readAll St.init [frame (68 :: List.replicate 17 0) ++ [1, 2, 3], 122 :: List.replicate 17 0]).toOption.map (fun s => s.log) =
      some [.unknown 122] := by
  constructor <;> decide +kernel

/-- A writer that writes the bytes themselves. -/
def plainWriter : Writer := ⟨fun c => [Char.ofNat c.toNat], fun s => s.map (fun c => Char.ofNat c.toNat)⟩

/-- The hypotheses are met by a stream with a new order, an execution and an unknown message, cut in the middle of the order. -/
example : (∃ ms : List (Msg × List UInt8), ∃ chunks : List (List UInt8), ms.length = 3 ∧ (∀ x ∈ ms, x.1.Fits ∧ x.2.length = 3) ∧
    (∀ x ∈ ms, x.1.Plain plainWriter) ∧ chunks.flatten = (ms.map (fun x => frame (x.1.wire x.2))).flatten ∧ chunks.length = 2 ∧
    (readAll St.init chunks).toOption.map (fun s => printed plainWriter s.log) = some
      ("AddOrderMessage(Type=A; StockLocate=1; TrackingNumber=2; Timestamp=0; OrderReferenceNumber=9; BuySellIndicator=B; Shares=100; Stock=ABC     ; Price=5000)\n" ++
       "OrderExecutedMessage(Type=E; StockLocate=1; TrackingNumber=2; Timestamp=0; OrderReferenceNumber=9; ExecutedShares=60; MatchNumber=7)\n" ++
       "UnknownMessage(Type=z)\n").toList) := by
  refine ⟨[(.addOrder ⟨65, 1, 2, 3⟩ 9 66 100 [65, 66, 67, 32, 32, 32, 32, 32] 5000, [0, 0, 0]), (.orderExecuted ⟨69, 1, 2, 3⟩ 9 60 7, [0, 0, 0]),
    (.unknown 122, [0, 0, 0])],
    [(([(.addOrder ⟨65, 1, 2, 3⟩ 9 66 100 [65, 66, 67, 32, 32, 32, 32, 32] 5000, [0, 0, 0]), (.orderExecuted ⟨69, 1, 2, 3⟩ 9 60 7, [0, 0, 0]),
      (.unknown 122, [0, 0, 0])] : List (Msg × List UInt8)).map (fun x => frame (x.1.wire x.2))).flatten.take 10,
     (([(.addOrder ⟨65, 1, 2, 3⟩ 9 66 100 [65, 66, 67, 32, 32, 32, 32, 32] 5000, [0, 0, 0]), (.orderExecuted ⟨69, 1, 2, 3⟩ 9 60 7, [0, 0, 0]),
      (.unknown 122, [0, 0, 0])] : List (Msg × List UInt8)).map (fun x => frame (x.1.wire x.2))).flatten.drop 10],
    rfl, ?_, ?_, by decide +kernel, rfl, by decide +kernel⟩
  · simp [Msg.Fits, Hdr.Fits, known]
  · unfold Msg.Plain; decide +kernel

theorem plainWriter_faithful : plainWriter.Faithful where
  char h := byte_char (List.head_eq_of_cons_eq h)
  str {a b} _ h := by
    have inj : ∀ {a b : List UInt8}, a.map (fun c => Char.ofNat c.toNat) = b.map (fun c => Char.ofNat c.toNat) → a = b := by
      intro a
      induction a with
      | nil => intro b h; cases b with
        | nil => rfl
        | cons => cases h
      | cons x a ih =>
        intro b h
        cases b with
        | nil => cases h
        | cons y b =>
          rw [List.map_cons, List.map_cons] at h
          injection h with h1 h2
          rw [byte_char h1, ih h2]
    exact inj h

end CppTrader.Itch
