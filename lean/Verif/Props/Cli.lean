import Verif.Proof.Cli
import Verif.Props.Sequence
/-
C56, C57: the command-line matching engine.
-/

namespace CppTrader.Cli

/-- A check that `w` cannot begin inside `p`, nor in blanks and digits after it. -/
def away (w p : List Char) : Bool :=
  (match w with | [] => false | c :: _ => c != ' ' && !digit c) && noStart w p

theorem contains_no {p r : List Char} (hr : Quiet r) {w : List Char} (h : away w p = true) : contains w (p ++ r) = false := by
  cases w with
  | nil => simp [away] at h
  | cons c w =>
    simp only [away, Bool.and_eq_true, Bool.not_eq_true', bne_iff_ne] at h
    exact contains_append hr (contains_quiet h.1 hr) p h.2

theorem not_contains {p r : List Char} (hr : Quiet r) {w : List Char} (h : away w p = true) : ¬ contains w (p ++ r) = true := by
  rw [contains_no hr h]; decide

theorem append_ne {p r w : List Char} (h : p.isPrefixOf w = false) : p ++ r ≠ w := by
  rintro rfl
  have : p.isPrefixOf (p ++ r) = true := by simp [List.isPrefixOf_iff_prefix]
  rw [h] at this; cases this

/-- What the program does with the line of a command: the command's own handler gets it. -/
theorem dispatch (pack : List Char → Nat) (junk : List Char) {r : List Char} (hr : Quiet r) (p : List Char) :
    (p = "delete symbol".toList → react pack junk (p ++ r) = deleteSymbol (p ++ r)) ∧
    (p = "add book".toList → react pack junk (p ++ r) = addBook pack (p ++ r)) ∧
    (p = "delete book".toList → react pack junk (p ++ r) = deleteBook (p ++ r)) ∧
    (p = "reduce order".toList → react pack junk (p ++ r) = reduceOrder (p ++ r)) ∧
    (p = "modify order".toList → react pack junk (p ++ r) = modifyOrder (p ++ r)) ∧
    (p = "mitigate order".toList → react pack junk (p ++ r) = mitigateOrder (p ++ r)) ∧
    (p = "replace order".toList → react pack junk (p ++ r) = replaceOrder (p ++ r)) ∧
    (p = "delete order".toList → react pack junk (p ++ r) = deleteOrder (p ++ r)) := by
  refine ⟨?_, ?_, ?_, ?_, ?_, ?_, ?_, ?_⟩ <;>
  · rintro rfl
    unfold react
    rw [if_neg (append_ne (by decide)), if_neg (not_or.2 ⟨append_ne (by decide), append_ne (by decide)⟩),
      if_neg (by simp), if_neg (append_ne (by decide)), if_neg (append_ne (by decide))]
    repeat rw [if_neg (not_contains hr (by decide))]
    rw [if_pos (contains_self _ _)]

theorem dispatch_side (pack : List Char → Nat) (junk : List Char) {r : List Char} (hr : Quiet r) (s : Side) (w p : List Char)
    (hp : p = w ++ sideText (some s)) :
    (w = "add market".toList → react pack junk (p ++ r) = addMarket (p ++ r)) ∧
    (w = "add slippage market".toList → react pack junk (p ++ r) = addSlippageMarket (p ++ r)) ∧
    (w = "add limit".toList → react pack junk (p ++ r) = addLimit (p ++ r)) ∧
    (w = "add ioc limit".toList → react pack junk (p ++ r) = addIocLimit (p ++ r)) ∧
    (w = "add fok limit".toList → react pack junk (p ++ r) = addFokLimit (p ++ r)) ∧
    (w = "add aon limit".toList → react pack junk (p ++ r) = addAonLimit (p ++ r)) ∧
    (w = "add stop-limit".toList → react pack junk (p ++ r) = addStopLimit (p ++ r)) ∧
    (w = "add stop".toList → react pack junk (p ++ r) = addStop (p ++ r)) ∧
    (w = "add trailing stop-limit".toList → react pack junk (p ++ r) = addTrailingStopLimit (p ++ r)) ∧
    (w = "add trailing stop".toList → react pack junk (p ++ r) = addTrailingStop (p ++ r)) := by
  subst hp
  cases s <;> refine ⟨?_, ?_, ?_, ?_, ?_, ?_, ?_, ?_, ?_, ?_⟩ <;>
  · rintro rfl
    unfold react
    rw [if_neg (append_ne (by decide)), if_neg (not_or.2 ⟨append_ne (by decide), append_ne (by decide)⟩),
      if_neg (by simp), if_neg (append_ne (by decide)), if_neg (append_ne (by decide))]
    repeat rw [if_neg (not_contains hr (by decide))]
    rw [if_pos (by rw [List.append_assoc]; exact contains_self _ _)]

theorem dispatch_symbol (pack : List Char → Nat) (junk r : List Char) :
    react pack junk ("add symbol".toList ++ r) = addSymbol pack junk ("add symbol".toList ++ r) := by
  unfold react
  rw [if_neg (append_ne (by decide)), if_neg (not_or.2 ⟨append_ne (by decide), append_ne (by decide)⟩),
    if_neg (by simp), if_neg (append_ne (by decide)), if_neg (append_ne (by decide)), if_pos (contains_self _ _)]

theorem onPlain_spelled {w : String} {ds : List (List Char)} (h : ∀ d ∈ ds, Digits d) (n : Nat) (hn : ds.length = n)
    (f : List Nat → Action) : onPlain w n (w.toList ++ blanked ds) f =
      if ∀ k ∈ ds.map value, k ≤ 2147483647 then f (ds.map value) else .abort := by
  unfold onPlain
  rw [plain_iff.2 ⟨rfl, hn, h⟩]
  exact convert_eq ds f

theorem onSided_spelled {w : String} {s : Side} {ds : List (List Char)} (h : ∀ d ∈ ds, Digits d) (n : Nat) (hn : ds.length = n)
    (f : Side → List Nat → Action) : onSided w n (w.toList ++ sideText (some s) ++ blanked ds) f =
      if ∀ k ∈ ds.map value, k ≤ 2147483647 then f s (ds.map value) else .abort := by
  unfold onSided
  rw [sided_iff.2 ⟨rfl, hn, h⟩]
  exact convert_eq ds (f s)

/-- The bytes of a symbol name beyond the text of its command. -/
def leftover (junk : List Char) (c : Command) : List Char := (junk.take 8).drop ((c.name?.getD []).length)

theorem react_spelled (pack : List Char → Nat) (junk : List Char) {c : Command} {line : List Char} (h : Spells c line) :
    (c.small → react pack junk line = .call (c.meaning pack (leftover junk c))) ∧
    (¬ c.small → react pack junk line = .abort) := by
  obtain ⟨⟨l, hl, rfl⟩, hname⟩ := h
  obtain ⟨ds, rfl, hd, hv⟩ := written_iff.1 hl
  have hq := quiet_blanked hd
  have hlen : ds.length = c.args.length := by rw [hv]; simp
  have key : ∀ {x : Action}, x = (if ∀ k ∈ ds.map value, k ≤ 2147483647 then .call (c.meaning pack (leftover junk c)) else .abort) →
      (c.small → x = .call (c.meaning pack (leftover junk c))) ∧ (¬ c.small → x = .abort) := by
    rintro x rfl
    unfold Command.small
    rw [hv]
    exact ⟨fun h => if_pos h, fun h => if_neg h⟩
  cases c
  case addSymbol id name =>
    cases ds with
    | nil => cases hlen
    | cons d ds =>
    cases ds with
    | cons e ds => cases hlen
    | nil =>
    apply key
    obtain ⟨n1, n2, n3⟩ := hname name rfl
    have hd' : Digits d := hd d (by simp)
    have hv' : id = value d := by simpa [Command.args] using hv
    simp only [Command.words, Command.side?, Command.name?, sideText, nameText, blanked, List.append_nil, List.append_assoc]
    rw [dispatch_symbol]
    unfold addSymbol
    rw [(lit_iff _ _ _).2 rfl]
    simp only
    rw [number_iff.2 ⟨rfl, hd', fun c t h => by cases h; rfl⟩]
    simp only
    rw [(lit_iff [' '] (' ' :: name) name).2 rfl]
    simp only
    rw [if_pos (by
      simp only [Bool.and_eq_true, Bool.not_eq_true', List.all_eq_true, bne_iff_ne]
      refine ⟨by simpa using n1, fun c hc => ⟨?_, ?_⟩⟩
      · rintro rfl; exact n2 hc
      · rintro rfl; exact n3 hc)]
    by_cases hs : value d ≤ 2147483647
    · rw [if_pos (by simpa using hs)]
      simp [stoi, hs, Command.meaning, leftover, symbolName, hv', Command.name?]
    · rw [if_neg (by simpa using hs)]
      simp [stoi, hs]
  case enable =>
    have : ds = [] := List.length_eq_zero_iff.1 hlen
    subst this
    refine ⟨fun _ => rfl, fun h => absurd ?_ h⟩
    intro n hn; cases hn
  case disable =>
    have : ds = [] := List.length_eq_zero_iff.1 hlen
    subst this
    refine ⟨fun _ => rfl, fun h => absurd ?_ h⟩
    intro n hn; cases hn
  case deleteSymbol =>
    apply key
    simp only [Command.words, Command.side?, Command.name?, sideText, nameText, List.append_nil]
    rw [(dispatch pack junk hq _).1 rfl]
    unfold deleteSymbol; rw [onPlain_spelled hd _ (by exact hlen), ← hv]; rfl
  case addBook =>
    apply key
    simp only [Command.words, Command.side?, Command.name?, sideText, nameText, List.append_nil]
    rw [(dispatch pack junk hq _).2.1 rfl]
    unfold addBook; rw [onPlain_spelled hd _ (by exact hlen), ← hv]; rfl
  case deleteBook =>
    apply key
    simp only [Command.words, Command.side?, Command.name?, sideText, nameText, List.append_nil]
    rw [(dispatch pack junk hq _).2.2.1 rfl]
    unfold deleteBook; rw [onPlain_spelled hd _ (by exact hlen), ← hv]; rfl
  case reduce =>
    apply key
    simp only [Command.words, Command.side?, Command.name?, sideText, nameText, List.append_nil]
    rw [(dispatch pack junk hq _).2.2.2.1 rfl]
    unfold reduceOrder; rw [onPlain_spelled hd _ (by exact hlen), ← hv]; rfl
  case modify =>
    apply key
    simp only [Command.words, Command.side?, Command.name?, sideText, nameText, List.append_nil]
    rw [(dispatch pack junk hq _).2.2.2.2.1 rfl]
    unfold modifyOrder; rw [onPlain_spelled hd _ (by exact hlen), ← hv]; rfl
  case mitigate =>
    apply key
    simp only [Command.words, Command.side?, Command.name?, sideText, nameText, List.append_nil]
    rw [(dispatch pack junk hq _).2.2.2.2.2.1 rfl]
    unfold mitigateOrder; rw [onPlain_spelled hd _ (by exact hlen), ← hv]; rfl
  case replace =>
    apply key
    simp only [Command.words, Command.side?, Command.name?, sideText, nameText, List.append_nil]
    rw [(dispatch pack junk hq _).2.2.2.2.2.2.1 rfl]
    unfold replaceOrder; rw [onPlain_spelled hd _ (by exact hlen), ← hv]; rfl
  case delete =>
    apply key
    simp only [Command.words, Command.side?, Command.name?, sideText, nameText, List.append_nil]
    rw [(dispatch pack junk hq _).2.2.2.2.2.2.2 rfl]
    unfold deleteOrder; rw [onPlain_spelled hd _ (by exact hlen), ← hv]; rfl
  case market =>
    apply key
    simp only [Command.words, Command.side?, Command.name?, nameText, List.append_nil]
    rw [(dispatch_side pack junk hq _ _ _ rfl).1 rfl]
    unfold addMarket; rw [onSided_spelled hd _ (by exact hlen), ← hv]; rfl
  case slippageMarket =>
    apply key
    simp only [Command.words, Command.side?, Command.name?, nameText, List.append_nil]
    rw [(dispatch_side pack junk hq _ _ _ rfl).2.1 rfl]
    unfold addSlippageMarket; rw [onSided_spelled hd _ (by exact hlen), ← hv]; rfl
  case limit =>
    apply key
    simp only [Command.words, Command.side?, Command.name?, nameText, List.append_nil]
    rw [(dispatch_side pack junk hq _ _ _ rfl).2.2.1 rfl]
    unfold addLimit; rw [onSided_spelled hd _ (by exact hlen), ← hv]; rfl
  case iocLimit =>
    apply key
    simp only [Command.words, Command.side?, Command.name?, nameText, List.append_nil]
    rw [(dispatch_side pack junk hq _ _ _ rfl).2.2.2.1 rfl]
    unfold addIocLimit; rw [onSided_spelled hd _ (by exact hlen), ← hv]; rfl
  case fokLimit =>
    apply key
    simp only [Command.words, Command.side?, Command.name?, nameText, List.append_nil]
    rw [(dispatch_side pack junk hq _ _ _ rfl).2.2.2.2.1 rfl]
    unfold addFokLimit; rw [onSided_spelled hd _ (by exact hlen), ← hv]; rfl
  case aonLimit =>
    apply key
    simp only [Command.words, Command.side?, Command.name?, nameText, List.append_nil]
    rw [(dispatch_side pack junk hq _ _ _ rfl).2.2.2.2.2.1 rfl]
    unfold addAonLimit; rw [onSided_spelled hd _ (by exact hlen), ← hv]; rfl
  case stopLimit =>
    apply key
    simp only [Command.words, Command.side?, Command.name?, nameText, List.append_nil]
    rw [(dispatch_side pack junk hq _ _ _ rfl).2.2.2.2.2.2.1 rfl]
    unfold addStopLimit; rw [onSided_spelled hd _ (by exact hlen), ← hv]; rfl
  case stop =>
    apply key
    simp only [Command.words, Command.side?, Command.name?, nameText, List.append_nil]
    rw [(dispatch_side pack junk hq _ _ _ rfl).2.2.2.2.2.2.2.1 rfl]
    unfold addStop; rw [onSided_spelled hd _ (by exact hlen), ← hv]; rfl
  case trailingStopLimit =>
    apply key
    simp only [Command.words, Command.side?, Command.name?, nameText, List.append_nil]
    rw [(dispatch_side pack junk hq _ _ _ rfl).2.2.2.2.2.2.2.2.1 rfl]
    unfold addTrailingStopLimit; rw [onSided_spelled hd _ (by exact hlen), ← hv]; rfl
  case trailingStop =>
    apply key
    simp only [Command.words, Command.side?, Command.name?, nameText, List.append_nil]
    rw [(dispatch_side pack junk hq _ _ _ rfl).2.2.2.2.2.2.2.2.2 rfl]
    unfold addTrailingStop; rw [onSided_spelled hd _ (by exact hlen), ← hv]; rfl

theorem onPlain_inv {w : String} {n : Nat} {line : List Char} {f : List Nat → Action} (h : onPlain w n line f ≠ .nothing) :
    ∃ ns l, ns.length = n ∧ Written ns l ∧ line = w.toList ++ l := by
  unfold onPlain at h
  split at h
  · exact absurd rfl h
  · rename_i ds hp
    obtain ⟨h1, h2, h3⟩ := plain_iff.1 hp
    exact ⟨ds.map value, blanked ds, by simpa using h2, written_iff.2 ⟨ds, rfl, h3, rfl⟩, h1⟩

theorem onSided_inv {w : String} {n : Nat} {line : List Char} {f : Side → List Nat → Action} (h : onSided w n line f ≠ .nothing) :
    ∃ s ns l, ns.length = n ∧ Written ns l ∧ line = w.toList ++ sideText (some s) ++ l := by
  unfold onSided at h
  split at h
  · exact absurd rfl h
  · rename_i s ds hp
    obtain ⟨h1, h2, h3⟩ := sided_iff.1 hp
    exact ⟨s, ds.map value, blanked ds, by simpa using h2, written_iff.2 ⟨ds, rfl, h3, rfl⟩, h1⟩

theorem spells_plain {c : Command} {l : List Char} (h1 : c.side? = none) (h2 : c.name? = none) (h3 : Written c.args l) :
    Spells c (c.words.toList ++ l) := by
  refine ⟨⟨l, h3, ?_⟩, fun n hn => ?_⟩
  · rw [h1, h2]; simp [sideText, nameText]
  · rw [h2] at hn; cases hn

theorem spells_sided {c : Command} {s : Side} {l : List Char} (h1 : c.side? = some s) (h2 : c.name? = none) (h3 : Written c.args l) :
    Spells c (c.words.toList ++ sideText (some s) ++ l) := by
  refine ⟨⟨l, h3, ?_⟩, fun n hn => ?_⟩
  · rw [h1, h2]; simp [nameText]
  · rw [h2] at hn; cases hn

theorem addSymbol_inv {pack : List Char → Nat} {junk line : List Char} (h : addSymbol pack junk line ≠ .nothing) :
    ∃ c, Spells c line := by
  unfold addSymbol at h
  split at h
  · exact absurd rfl h
  · rename_i l1 h1
    split at h
    · exact absurd rfl h
    · rename_i d l2 h2
      split at h
      · exact absurd rfl h
      · rename_i name h3
        obtain ⟨b1, b2, b3⟩ := number_iff.1 h2
        by_cases hn : (!name.isEmpty && name.all (fun c => c != '\n' && c != '\r')) = true
        · simp only [Bool.and_eq_true, Bool.not_eq_true', List.all_eq_true, bne_iff_ne] at hn
          refine ⟨.addSymbol (value d) name, ⟨' ' :: d, ?_, ?_⟩, ?_⟩
          · exact written_iff.2 ⟨[d], by simp [blanked], by simpa using b2, rfl⟩
          · rw [(lit_iff _ _ _).1 h1, b1, (lit_iff _ _ _).1 h3]; simp [Command.words, Command.side?, Command.name?, sideText, nameText]
          · intro m hm
            cases hm
            exact ⟨by simpa using hn.1, fun hc => (hn.2 _ hc).1 rfl, fun hc => (hn.2 _ hc).2 rfl⟩
        · rw [if_neg hn] at h; exact absurd rfl h

theorem deleteSymbol_inv {line : List Char} (h : deleteSymbol line ≠ .nothing) : ∃ c, Spells c line := by
  obtain ⟨ns, l, hn, hw, rfl⟩ := onPlain_inv h
  match ns, hn, hw with
  | [a0], _, hw => exact ⟨.deleteSymbol a0, spells_plain rfl rfl hw⟩

theorem addBook_inv {pack : List Char → Nat} {line : List Char} (h : addBook pack line ≠ .nothing) : ∃ c, Spells c line := by
  obtain ⟨ns, l, hn, hw, rfl⟩ := onPlain_inv h
  match ns, hn, hw with
  | [a0], _, hw => exact ⟨.addBook a0, spells_plain rfl rfl hw⟩

theorem deleteBook_inv {line : List Char} (h : deleteBook line ≠ .nothing) : ∃ c, Spells c line := by
  obtain ⟨ns, l, hn, hw, rfl⟩ := onPlain_inv h
  match ns, hn, hw with
  | [a0], _, hw => exact ⟨.deleteBook a0, spells_plain rfl rfl hw⟩

theorem addMarket_inv {line : List Char} (h : addMarket line ≠ .nothing) : ∃ c, Spells c line := by
  obtain ⟨s, ns, l, hn, hw, rfl⟩ := onSided_inv h
  match ns, hn, hw with
  | [a0, a1, a2], _, hw => exact ⟨.market s a0 a1 a2, spells_sided rfl rfl hw⟩

theorem addSlippageMarket_inv {line : List Char} (h : addSlippageMarket line ≠ .nothing) : ∃ c, Spells c line := by
  obtain ⟨s, ns, l, hn, hw, rfl⟩ := onSided_inv h
  match ns, hn, hw with
  | [a0, a1, a2, a3], _, hw => exact ⟨.slippageMarket s a0 a1 a2 a3, spells_sided rfl rfl hw⟩

theorem addLimit_inv {line : List Char} (h : addLimit line ≠ .nothing) : ∃ c, Spells c line := by
  obtain ⟨s, ns, l, hn, hw, rfl⟩ := onSided_inv h
  match ns, hn, hw with
  | [a0, a1, a2, a3], _, hw => exact ⟨.limit s a0 a1 a2 a3, spells_sided rfl rfl hw⟩

theorem addIocLimit_inv {line : List Char} (h : addIocLimit line ≠ .nothing) : ∃ c, Spells c line := by
  obtain ⟨s, ns, l, hn, hw, rfl⟩ := onSided_inv h
  match ns, hn, hw with
  | [a0, a1, a2, a3], _, hw => exact ⟨.iocLimit s a0 a1 a2 a3, spells_sided rfl rfl hw⟩

theorem addFokLimit_inv {line : List Char} (h : addFokLimit line ≠ .nothing) : ∃ c, Spells c line := by
  obtain ⟨s, ns, l, hn, hw, rfl⟩ := onSided_inv h
  match ns, hn, hw with
  | [a0, a1, a2, a3], _, hw => exact ⟨.fokLimit s a0 a1 a2 a3, spells_sided rfl rfl hw⟩

theorem addAonLimit_inv {line : List Char} (h : addAonLimit line ≠ .nothing) : ∃ c, Spells c line := by
  obtain ⟨s, ns, l, hn, hw, rfl⟩ := onSided_inv h
  match ns, hn, hw with
  | [a0, a1, a2, a3], _, hw => exact ⟨.aonLimit s a0 a1 a2 a3, spells_sided rfl rfl hw⟩

theorem addStopLimit_inv {line : List Char} (h : addStopLimit line ≠ .nothing) : ∃ c, Spells c line := by
  obtain ⟨s, ns, l, hn, hw, rfl⟩ := onSided_inv h
  match ns, hn, hw with
  | [a0, a1, a2, a3, a4], _, hw => exact ⟨.stopLimit s a0 a1 a2 a3 a4, spells_sided rfl rfl hw⟩

theorem addStop_inv {line : List Char} (h : addStop line ≠ .nothing) : ∃ c, Spells c line := by
  obtain ⟨s, ns, l, hn, hw, rfl⟩ := onSided_inv h
  match ns, hn, hw with
  | [a0, a1, a2, a3], _, hw => exact ⟨.stop s a0 a1 a2 a3, spells_sided rfl rfl hw⟩

theorem addTrailingStopLimit_inv {line : List Char} (h : addTrailingStopLimit line ≠ .nothing) : ∃ c, Spells c line := by
  obtain ⟨s, ns, l, hn, hw, rfl⟩ := onSided_inv h
  match ns, hn, hw with
  | [a0, a1, a2, a3, a4, a5, a6], _, hw => exact ⟨.trailingStopLimit s a0 a1 a2 a3 a4 a5 a6, spells_sided rfl rfl hw⟩

theorem addTrailingStop_inv {line : List Char} (h : addTrailingStop line ≠ .nothing) : ∃ c, Spells c line := by
  obtain ⟨s, ns, l, hn, hw, rfl⟩ := onSided_inv h
  match ns, hn, hw with
  | [a0, a1, a2, a3, a4, a5], _, hw => exact ⟨.trailingStop s a0 a1 a2 a3 a4 a5, spells_sided rfl rfl hw⟩

theorem reduceOrder_inv {line : List Char} (h : reduceOrder line ≠ .nothing) : ∃ c, Spells c line := by
  obtain ⟨ns, l, hn, hw, rfl⟩ := onPlain_inv h
  match ns, hn, hw with
  | [a0, a1], _, hw => exact ⟨.reduce a0 a1, spells_plain rfl rfl hw⟩

theorem modifyOrder_inv {line : List Char} (h : modifyOrder line ≠ .nothing) : ∃ c, Spells c line := by
  obtain ⟨ns, l, hn, hw, rfl⟩ := onPlain_inv h
  match ns, hn, hw with
  | [a0, a1, a2], _, hw => exact ⟨.modify a0 a1 a2, spells_plain rfl rfl hw⟩

theorem mitigateOrder_inv {line : List Char} (h : mitigateOrder line ≠ .nothing) : ∃ c, Spells c line := by
  obtain ⟨ns, l, hn, hw, rfl⟩ := onPlain_inv h
  match ns, hn, hw with
  | [a0, a1, a2], _, hw => exact ⟨.mitigate a0 a1 a2, spells_plain rfl rfl hw⟩

theorem replaceOrder_inv {line : List Char} (h : replaceOrder line ≠ .nothing) : ∃ c, Spells c line := by
  obtain ⟨ns, l, hn, hw, rfl⟩ := onPlain_inv h
  match ns, hn, hw with
  | [a0, a1, a2, a3], _, hw => exact ⟨.replace a0 a1 a2 a3, spells_plain rfl rfl hw⟩

theorem deleteOrder_inv {line : List Char} (h : deleteOrder line ≠ .nothing) : ∃ c, Spells c line := by
  obtain ⟨ns, l, hn, hw, rfl⟩ := onPlain_inv h
  match ns, hn, hw with
  | [a0], _, hw => exact ⟨.delete a0, spells_plain rfl rfl hw⟩

/-- A line that has an effect is `exit`, `quit` or a command. -/
theorem react_inv {pack : List Char → Nat} {junk line : List Char} (h : react pack junk line ≠ .nothing) :
    (line = "exit".toList ∨ line = "quit".toList) ∨ ∃ c, Spells c line := by
  unfold react at h
  by_cases h1 : line = "help".toList
  · rw [if_pos h1] at h; exact absurd rfl h
  rw [if_neg h1] at h; clear h1
  by_cases h1 : line = "exit".toList ∨ line = "quit".toList
  · rw [if_pos h1] at h; exact .inl h1
  rw [if_neg h1] at h; clear h1
  by_cases h1 : "#".toList.isPrefixOf line ∨ line = []
  · rw [if_pos h1] at h; exact absurd rfl h
  rw [if_neg h1] at h; clear h1
  by_cases h1 : line = "enable matching".toList
  · rw [if_pos h1] at h; refine .inr ⟨.enable, ⟨[], .nil, ?_⟩, by intro n hn; cases hn⟩; rw [h1]; rfl
  rw [if_neg h1] at h; clear h1
  by_cases h1 : line = "disable matching".toList
  · rw [if_pos h1] at h; refine .inr ⟨.disable, ⟨[], .nil, ?_⟩, by intro n hn; cases hn⟩; rw [h1]; rfl
  rw [if_neg h1] at h; clear h1
  by_cases h1 : contains "add symbol".toList line = true
  · rw [if_pos h1] at h; exact .inr (addSymbol_inv h)
  rw [if_neg h1] at h; clear h1
  by_cases h1 : contains "delete symbol".toList line = true
  · rw [if_pos h1] at h; exact .inr (deleteSymbol_inv h)
  rw [if_neg h1] at h; clear h1
  by_cases h1 : contains "add book".toList line = true
  · rw [if_pos h1] at h; exact .inr (addBook_inv h)
  rw [if_neg h1] at h; clear h1
  by_cases h1 : contains "delete book".toList line = true
  · rw [if_pos h1] at h; exact .inr (deleteBook_inv h)
  rw [if_neg h1] at h; clear h1
  by_cases h1 : contains "add market".toList line = true
  · rw [if_pos h1] at h; exact .inr (addMarket_inv h)
  rw [if_neg h1] at h; clear h1
  by_cases h1 : contains "add slippage market".toList line = true
  · rw [if_pos h1] at h; exact .inr (addSlippageMarket_inv h)
  rw [if_neg h1] at h; clear h1
  by_cases h1 : contains "add limit".toList line = true
  · rw [if_pos h1] at h; exact .inr (addLimit_inv h)
  rw [if_neg h1] at h; clear h1
  by_cases h1 : contains "add ioc limit".toList line = true
  · rw [if_pos h1] at h; exact .inr (addIocLimit_inv h)
  rw [if_neg h1] at h; clear h1
  by_cases h1 : contains "add fok limit".toList line = true
  · rw [if_pos h1] at h; exact .inr (addFokLimit_inv h)
  rw [if_neg h1] at h; clear h1
  by_cases h1 : contains "add aon limit".toList line = true
  · rw [if_pos h1] at h; exact .inr (addAonLimit_inv h)
  rw [if_neg h1] at h; clear h1
  by_cases h1 : contains "add stop-limit".toList line = true
  · rw [if_pos h1] at h; exact .inr (addStopLimit_inv h)
  rw [if_neg h1] at h; clear h1
  by_cases h1 : contains "add stop".toList line = true
  · rw [if_pos h1] at h; exact .inr (addStop_inv h)
  rw [if_neg h1] at h; clear h1
  by_cases h1 : contains "add trailing stop-limit".toList line = true
  · rw [if_pos h1] at h; exact .inr (addTrailingStopLimit_inv h)
  rw [if_neg h1] at h; clear h1
  by_cases h1 : contains "add trailing stop".toList line = true
  · rw [if_pos h1] at h; exact .inr (addTrailingStop_inv h)
  rw [if_neg h1] at h; clear h1
  by_cases h1 : contains "reduce order".toList line = true
  · rw [if_pos h1] at h; exact .inr (reduceOrder_inv h)
  rw [if_neg h1] at h; clear h1
  by_cases h1 : contains "modify order".toList line = true
  · rw [if_pos h1] at h; exact .inr (modifyOrder_inv h)
  rw [if_neg h1] at h; clear h1
  by_cases h1 : contains "mitigate order".toList line = true
  · rw [if_pos h1] at h; exact .inr (mitigateOrder_inv h)
  rw [if_neg h1] at h; clear h1
  by_cases h1 : contains "replace order".toList line = true
  · rw [if_pos h1] at h; exact .inr (replaceOrder_inv h)
  rw [if_neg h1] at h; clear h1
  by_cases h1 : contains "delete order".toList line = true
  · rw [if_pos h1] at h; exact .inr (deleteOrder_inv h)
  rw [if_neg h1] at h; clear h1
  exact absurd rfl h

theorem react_quit {pack : List Char → Nat} {junk line : List Char} (h : line = "exit".toList ∨ line = "quit".toList) :
    react pack junk line = .stop := by
  rcases h with rfl | rfl <;> rfl

/-- `exit` and `quit` are not commands. -/
theorem not_quit {c : Command} {line : List Char} (h : Spells c line) : ¬ (line = "exit".toList ∨ line = "quit".toList) := by
  intro h'
  have h1 := react_quit (pack := fun _ => 0) (junk := []) h'
  have h2 := react_spelled (fun _ => 0) [] h
  by_cases hs : c.small
  · rw [h2.1 hs] at h1; cases h1
  · rw [h2.2 hs] at h1; cases h1

/-- C56: for every line of text, of any length and content: the program makes the call `op` exactly if the line is a command
with that meaning whose numbers all fit an `int`. -/
theorem C56_call_iff (pack : List Char → Nat) (junk line : List Char) (op : Op) :
    react pack junk line = .call op ↔ ∃ c, Spells c line ∧ c.small ∧ op = c.meaning pack (leftover junk c) := by
  constructor
  · intro h
    rcases react_inv (by rw [h]; exact Action.noConfusion) with h1 | ⟨c, hc⟩
    · rw [react_quit h1] at h; cases h
    · have := react_spelled pack junk hc
      by_cases hs : c.small
      · rw [this.1 hs] at h; cases h; exact ⟨c, hc, hs, rfl⟩
      · rw [this.2 hs] at h; cases h
  · rintro ⟨c, hc, hs, rfl⟩
    exact (react_spelled pack junk hc).1 hs

/-- C56: the program dies exactly at a command with a number that does not fit an `int`. -/
theorem C56_abort_iff (pack : List Char → Nat) (junk line : List Char) :
    react pack junk line = .abort ↔ ∃ c, Spells c line ∧ ¬ c.small := by
  constructor
  · intro h
    rcases react_inv (by rw [h]; exact Action.noConfusion) with h1 | ⟨c, hc⟩
    · rw [react_quit h1] at h; cases h
    · have := react_spelled pack junk hc
      by_cases hs : c.small
      · rw [this.1 hs] at h; cases h
      · exact ⟨c, hc, hs⟩
  · rintro ⟨c, hc, hs⟩
    exact (react_spelled pack junk hc).2 hs

/-- C56: the program stops exactly at `exit` and `quit`. -/
theorem C56_stop_iff (pack : List Char → Nat) (junk line : List Char) :
    react pack junk line = .stop ↔ line = "exit".toList ∨ line = "quit".toList := by
  constructor
  · intro h
    rcases react_inv (by rw [h]; exact Action.noConfusion) with h1 | ⟨c, hc⟩
    · exact h1
    · have := react_spelled pack junk hc
      by_cases hs : c.small
      · rw [this.1 hs] at h; cases h
      · rw [this.2 hs] at h; cases h
  · exact react_quit

/-- C56: every other line has no effect. -/
theorem C56_nothing_iff (pack : List Char → Nat) (junk line : List Char) :
    react pack junk line = .nothing ↔ (∀ c, ¬ Spells c line) ∧ line ≠ "exit".toList ∧ line ≠ "quit".toList := by
  constructor
  · intro h
    refine ⟨fun c hc => ?_, fun h' => ?_, fun h' => ?_⟩
    · have := react_spelled pack junk hc
      by_cases hs : c.small
      · rw [this.1 hs] at h; cases h
      · rw [this.2 hs] at h; cases h
    · rw [react_quit (.inl h')] at h; cases h
    · rw [react_quit (.inr h')] at h; cases h
  · rintro ⟨h1, h2, h3⟩
    cases hr : react pack junk line with
    | nothing => rfl
    | _ =>
      rcases react_inv (pack := pack) (junk := junk) (line := line) (by rw [hr]; exact Action.noConfusion) with (h | h) | ⟨c, hc⟩
      · exact absurd h h2
      · exact absurd h h3
      · exact absurd hc (h1 c)

/-- C56: the effect of a line is unambiguous: if it spells two commands, they have the same meaning. -/
theorem C56_unambiguous {c c' : Command} {line : List Char} (h : Spells c line) (h' : Spells c' line) :
    (c.small ↔ c'.small) ∧ (c.small → ∀ pack junk, c.meaning pack (leftover junk c) = c'.meaning pack (leftover junk c')) := by
  have key : ∀ {c c' : Command}, Spells c line → Spells c' line → c.small → c'.small := by
    intro c c' h h' hs
    have h1 := (react_spelled (fun _ => 0) [] h).1 hs
    refine Classical.byContradiction fun hn => ?_
    rw [(react_spelled (fun _ => 0) [] h').2 hn] at h1; exact Action.noConfusion h1
  refine ⟨⟨key h h', key h' h⟩, fun hs pack junk => ?_⟩
  have h1 := (react_spelled pack junk h).1 hs
  rw [(react_spelled pack junk h').1 (key h h' hs)] at h1
  injection h1 with h1
  exact h1.symm

/-- Every input determines the calls the program makes. -/
theorem C57_session (pack : List Char → Nat) (lines : List (List Char × List Char)) :
    ∃ ops b, Session pack lines ops b ∧ ∀ g : Mgr, main pack lines g =
      (g.run ops).bind fun x => .ok (if b then .aborted x.1 else .normal x.1) := by
  induction lines with
  | nil => exact ⟨[], false, .eof, fun g => rfl⟩
  | cons x rest ih =>
    obtain ⟨line, junk⟩ := x
    obtain ⟨ops, b, h1, h2⟩ := ih
    cases hr : react pack junk line with
    | nothing =>
      obtain ⟨a1, a2, a3⟩ := (C56_nothing_iff pack junk line).1 hr
      refine ⟨ops, b, .skip a1 a2 a3 h1, fun g => ?_⟩
      rw [← h2]; simp [main, hr]
    | stop => exact ⟨[], false, .quit ((C56_stop_iff pack junk line).1 hr), fun g => by simp [main, hr, Mgr.run, Except.bind]⟩
    | abort =>
      obtain ⟨c, hc, hs⟩ := (C56_abort_iff pack junk line).1 hr
      exact ⟨[], true, .tooLarge hc hs, fun g => by simp [main, hr, Mgr.run, Except.bind]⟩
    | call op =>
      obtain ⟨c, hc, hs, rfl⟩ := (C56_call_iff pack junk line op).1 hr
      refine ⟨_, b, .command hc hs h1, fun g => ?_⟩
      show main pack ((line, junk) :: rest) g = _
      simp only [main, hr, Mgr.run]
      cases hg : g.step (c.meaning pack (leftover junk c)) with
      | error e => 
        have : g.step (c.meaning pack ((junk.take 8).drop ((c.name?.getD []).length))) = .error e := hg
        rw [this]; rfl
      | ok y =>
        have : g.step (c.meaning pack ((junk.take 8).drop ((c.name?.getD []).length))) = .ok y := hg
        rw [this]
        obtain ⟨g1, e⟩ := y
        simp only [Except.bind_ok, h2]
        cases g1.run ops <;> rfl

theorem meaning_small {pack : List Char → Nat} {r : List Char} {c : Command} (h : c.small) :
    (c.meaning pack r).representable ∧ (c.meaning pack r).quantity ≤ 2147483647 := by
  cases c <;>
    simp only [Command.small, Command.args, List.mem_cons, List.not_mem_nil, or_false, forall_eq_or_imp, forall_eq] at h <;>
    simp only [Command.meaning, Op.representable, Op.quantity, Order.Repr64, Order.mkLimit, Order.mkMarket, Order.mkStop,
      Order.mkStopLimit, Order.mkTrailingStop, Order.mkTrailingStopLimit, Order.mk', true_and] <;> omega

theorem Session.small {pack : List Char → Nat} {lines : List (List Char × List Char)} {ops : List Op} {b : Bool}
    (h : Session pack lines ops b) : ops.length ≤ lines.length ∧ ∀ op ∈ ops, op.representable ∧ op.quantity ≤ 2147483647 := by
  induction h with
  | eof => simp
  | quit _ => simp
  | command _ hs _ ih =>
    refine ⟨by simpa using ih.1, fun op ho => ?_⟩
    rcases List.mem_cons.1 ho with rfl | ho
    · exact meaning_small hs
    · exact ih.2 op ho
  | tooLarge _ _ => simp
  | skip _ _ _ _ ih => exact ⟨Nat.le_succ_of_le ih.1, ih.2⟩

theorem sum_le {ops : List Op} (h : ∀ op ∈ ops, op.quantity ≤ 2147483647) : (ops.map Op.quantity).sum ≤ ops.length * 2147483647 := by
  induction ops with
  | nil => simp
  | cons o ops ih =>
    have h1 := h o (by simp)
    have h2 := ih fun x hx => h x (by simp [hx])
    simp only [List.map_cons, List.sum_cons, List.length_cons]
    rw [Nat.succ_mul]; omega

/-- The calls of a session are determined by its input. -/
theorem C57_deterministic {pack : List Char → Nat} {lines : List (List Char × List Char)} {ops ops' : List Op} {b b' : Bool}
    (h : Session pack lines ops b) (h' : Session pack lines ops' b') : ops = ops' ∧ b = b' := by
  induction h generalizing ops' b' with
  | eof => cases h'; exact ⟨rfl, rfl⟩
  | quit hq =>
    cases h' with
    | quit _ => exact ⟨rfl, rfl⟩
    | command hc _ _ => exact absurd hq (not_quit hc)
    | tooLarge hc _ => exact absurd hq (not_quit hc)
    | skip _ h2 h3 _ => exact (hq.elim h2 h3).elim
  | command hc hs _ ih =>
    cases h' with
    | quit hq => exact absurd hq (not_quit hc)
    | command hc' hs' h2 =>
      obtain ⟨rfl, rfl⟩ := ih h2
      exact ⟨congrArg (· :: _) ((C56_unambiguous hc hc').2 hs _ _), rfl⟩
    | tooLarge hc' hn => exact absurd ((C56_unambiguous hc hc').1.1 hs) hn
    | skip hn _ _ _ => exact absurd hc (hn _)
  | tooLarge hc hn =>
    cases h' with
    | quit hq => exact absurd hq (not_quit hc)
    | command hc' hs' h2 => exact absurd ((C56_unambiguous hc hc').1.2 hs') hn
    | tooLarge _ _ => exact ⟨rfl, rfl⟩
    | skip hn _ _ _ => exact absurd hc (hn _)
  | skip hn h2 h3 _ ih =>
    cases h' with
    | quit hq => exact (hq.elim h2 h3).elim
    | command hc _ _ => exact absurd hc (hn _)
    | tooLarge hc _ => exact absurd hc (hn _)
    | skip _ _ _ h4 => exact ih h4

/-- C57: whatever text the program is fed, up to 2^33 lines: if no book is created again after it was deleted, the program
never runs into undefined behaviour; it makes exactly the calls its input spells, in order, and then ends normally, or dies
at the first command with a number above `INT_MAX`. -/
theorem C57_any_text {pack : List Char → Nat} {lines : List (List Char × List Char)} {ops : List Op} {b : Bool}
    (h : Session pack lines ops b) (hn : lines.length ≤ 2 ^ 33) (hrev : noRevival ops) :
    ∃ g es, Mgr.init.run ops = .ok (g, es) ∧ es.length = ops.length ∧ g.Reachable ∧
      main pack lines Mgr.init = .ok (if b then .aborted g else .normal g) := by
  obtain ⟨h1, h2⟩ := h.small
  have h3 := sum_le fun op ho => (h2 op ho).2
  obtain ⟨g, es, a1, a2, a3⟩ := C01_sequence ops (fun op ho => (h2 op ho).1) (by
    have : ops.length * 2147483647 ≤ 2 ^ 33 * 2147483647 := Nat.mul_le_mul_right _ (Nat.le_trans h1 hn)
    omega) hrev
  refine ⟨g, es, a1, a2, a3, ?_⟩
  obtain ⟨ops', b', s', hm⟩ := C57_session pack lines
  obtain ⟨rfl, rfl⟩ := C57_deterministic h s'
  rw [hm, a1]; rfl

/-- Lines of text, with some content of the uninitialised array. -/
def text (ls : List String) : List (List Char × List Char) := ls.map fun l => (l.toList, "????????".toList)

/-- C57 needs its condition: six lines of input that make the program follow dangling pointers. -/
theorem C57_revival_witness : (match main (fun _ => 0) (text ["add symbol 1 EURUSD", "add book 1", "add limit buy 7 1 10 5",
    "delete book 1", "add book 1", "delete order 7"]) Mgr.init with
    | .error .ub => true
    | _ => false) = true := by decide +kernel

/-- One line of input that kills the program. -/
theorem C57_abort_witness : (match main (fun _ => 0) (text ["add book 2147483648", "add symbol 1 EURUSD"]) Mgr.init with
    | .ok (.aborted g) => g.getSymbol 1 == none
    | _ => false) = true := by decide +kernel

/-- C57 applies to a session with comments, unknown, malformed, and refused commands. -/
example : (match main (fun _ => 0) (text ["# demo", "help", "add symbol 1 EURUSD", "add book 1", "enable matching", "",
    "add limit buy 7 1 0010 5", "add limit sell 8 1 9 3", "nonsense", " add limit buy 9 1 1 1", "add limit buy 9 1 1",
    "delete order 77", "quit", "delete order 7"]) Mgr.init with
    | .ok (.normal g) => (g.getOrder 7).map (·.leaves) == some 2 && g.getOrder 8 == none && g.getOrder 9 == none
    | _ => false) = true := by decide +kernel

/-- Numerals may have leading zeros; the sides and blanks are as written. -/
example : Spells (.limit .buy 7 1 10 5) "add limit buy 7 1 0010 5".toList := by
  refine ⟨⟨" 7 1 0010 5".toList, ?_, rfl⟩, fun n hn => by cases hn⟩
  have n7 : Numeral 7 ['7'] := Numeral.digit (d := 7) (by decide)
  have n1 : Numeral 1 ['1'] := Numeral.digit (d := 1) (by decide)
  have n5 : Numeral 5 ['5'] := Numeral.digit (d := 5) (by decide)
  have n10 : Numeral 10 ['0', '0', '1', '0'] :=
    .more (n := 1) (d := 0) (.more (n := 0) (d := 1) (.more (n := 0) (d := 0) (.digit (d := 0) (by decide)) (by decide))
      (by decide)) (by decide)
  exact .cons n7 (.cons n1 (.cons n10 (.cons n5 .nil)))

end CppTrader.Cli
