import Verif.Props.ItchDecode
import Verif.Util
/- Properties C25 (chunking independence) and C42 (framing) of `ITCHHandler::Process`. -/

namespace CppTrader.Itch

/-! ### Specification -/

/-- What a caller can rely on after `Process`: the result, the callbacks, and, if the result is `true`, the parser state. -/
structure Obs where
  ok : Bool
  log : List Msg
  state : Option (Nat × List UInt8)
  deriving DecidableEq

def obs (r : Bool × St) : Obs := ⟨r.1, r.2.log, if r.1 then some (r.2.size, r.2.cache) else none⟩

/-- Feed a stream chunk by chunk, stopping at the first chunk for which `Process` returns `false`. -/
def processChunks (h : Handler) : St → List (List UInt8) → Except Err (Bool × St)
  | s, [] => .ok (true, s)
  | s, c :: cs =>
    match process h s c with
    | .error e => .error e
    | .ok (false, s') => .ok (false, s')
    | .ok (true, s') => processChunks h s' cs

/-- A frame of the stream: two bytes of length, big-endian, then the message. -/
def frame (p : List UInt8) : List UInt8 := be 2 p.length ++ p

/-- Hand messages to `ProcessMessage` one after the other, stopping at the first that is not accepted. -/
def deliverAll (h : Handler) : List Msg → List (List UInt8) → Except Err (Bool × List Msg)
  | log, [] => .ok (true, log)
  | log, p :: ps =>
    match processMessage h log p with
    | .error e => .error e
    | .ok (false, log') => .ok (false, log')
    | .ok (true, log') => deliverAll h log' ps

/-! ### A byte-at-a-time machine -/

def deliver (h : Handler) (s : St) : Except Err (Bool × St) :=
  if s.cache.length < s.size then .ok (true, s)
  else match processMessage h s.log s.cache with
    | .error e => .error e
    | .ok (false, log) => .ok (false, { s with log := log })
    | .ok (true, log) => .ok (true, ⟨0, [], log⟩)

def feed1 (h : Handler) (s : St) (b : UInt8) : Except Err (Bool × St) :=
  if s.size = 0 then
    if s.cache.length < 2 then .ok (true, { s with cache := s.cache ++ [b] })
    else if beVal s.cache = 0 then .ok (true, { s with cache := [b] })
    else deliver h { s with size := beVal s.cache, cache := [b] }
  else deliver h { s with cache := s.cache ++ [b] }

def feedAll (h : Handler) : St → List UInt8 → Except Err (Bool × St)
  | s, [] => .ok (true, s)
  | s, b :: d =>
    match feed1 h s b with
    | .error e => .error e
    | .ok (false, s') => .ok (false, s')
    | .ok (true, s') => feedAll h s' d

/-- States between two calls of `Process`. -/
def Good (s : St) : Prop :=
  (s.size = 0 ∧ s.cache.length ≤ 2) ∨ (s.cache ≠ [] ∧ s.cache.length < s.size ∧ s.size < 65536)

theorem feedAll_append (h : Handler) (s : St) (a b : List UInt8) :
    feedAll h s (a ++ b) = match feedAll h s a with
      | .error e => .error e
      | .ok (false, s') => .ok (false, s')
      | .ok (true, s') => feedAll h s' b := by
  induction a generalizing s with
  | nil => rfl
  | cons x a ih =>
    simp only [List.cons_append, feedAll]
    cases hx : feed1 h s x with
    | error e => rfl
    | ok r =>
      obtain ⟨b', s'⟩ := r
      cases b' with
      | false => rfl
      | true => exact ih s'

theorem feed_short (h : Handler) (n : Nat) (log : List Msg) (c xs : List UInt8) (hn : 0 < n)
    (hl : c.length + xs.length < n) : feedAll h ⟨n, c, log⟩ xs = .ok (true, ⟨n, c ++ xs, log⟩) := by
  induction xs generalizing c with
  | nil => simp [feedAll]
  | cons x xs ih =>
    simp only [List.length_cons] at hl
    have h0 : n ≠ 0 := by omega
    have h1 : (c ++ [x]).length < n := by simp; omega
    have : feed1 h ⟨n, c, log⟩ x = .ok (true, ⟨n, c ++ [x], log⟩) := by
      simp only [feed1, h0, if_false, deliver, h1, if_true]
    simp only [feedAll, this]
    rw [ih _ (by simp; omega)]; simp

theorem feed_full (h : Handler) (n : Nat) (log : List Msg) (c xs : List UInt8)
    (hc : c.length < n) (hl : n ≤ c.length + xs.length) :
    feedAll h ⟨n, c, log⟩ xs =
      match processMessage h log (c ++ xs.take (n - c.length)) with
      | .error e => .error e
      | .ok (false, log') => .ok (false, ⟨n, c ++ xs.take (n - c.length), log'⟩)
      | .ok (true, log') => feedAll h ⟨0, [], log'⟩ (xs.drop (n - c.length)) := by
  induction xs generalizing c with
  | nil => simp at hl; omega
  | cons x xs ih =>
    have h0 : n ≠ 0 := by omega
    simp only [List.length_cons] at hl
    by_cases h1 : (c ++ [x]).length < n
    · have : feed1 h ⟨n, c, log⟩ x = .ok (true, ⟨n, c ++ [x], log⟩) := by
        simp only [feed1, h0, if_false, deliver, h1, if_true]
      simp only [feedAll, this]
      rw [ih _ h1 (by simp at h1 ⊢; omega)]
      obtain ⟨k, hk⟩ : ∃ k, n - c.length = k + 1 := ⟨n - c.length - 1, by omega⟩
      have : n - (c ++ [x]).length = k := by simp; omega
      rw [this, hk]; simp
    · have hk : n - c.length = 1 := by simp at h1; omega
      rw [hk]
      simp only [List.take_succ_cons, List.take_zero, List.drop_succ_cons, List.drop_zero]
      simp only [feedAll, feed1, h0, if_false, deliver, h1]
      cases processMessage h log (c ++ [x]) with
      | error e => rfl
      | ok r =>
        obtain ⟨b', l'⟩ := r
        cases b' <;> rfl

theorem feed_size (h : Handler) (log : List Msg) (b0 b1 : UInt8) (x : UInt8) (xs : List UInt8) :
    feedAll h ⟨0, [b0, b1], log⟩ (x :: xs) = feedAll h ⟨beVal [b0, b1], [], log⟩ (x :: xs) := by
  by_cases hz : beVal [b0, b1] = 0
  · simp [feedAll, feed1, hz]
  · simp [feedAll, feed1, hz]

theorem beVal_two (b0 b1 : UInt8) : beVal [b0, b1] < 65536 := by
  have h0 := b0.toNat_lt; have h1 := b1.toNat_lt
  simp [beVal]; omega

/-- The states reached in the middle of the loop: the size is already known. -/
theorem processN_eq (h : Handler) : ∀ (n : Nat) (s : St) (d : List UInt8), Good s →
    2 * d.length + 2 ≤ n ∨ (s.size = 0 ∧ s.cache = [] ∧ 2 * d.length + 1 ≤ n) ∨ (d = [] ∧ 1 ≤ n) →
    ∃ r r', processN h n s d = .ok r ∧ feedAll h s d = .ok r' ∧ obs r = obs r' ∧ (r.1 = true → Good r.2) := by
  intro n
  induction n with
  | zero => intro s d _ hf; omega
  | succ n ih =>
    intro s d hg hf
    -- the message phase, shared by the direct and the cached size
    have phase : ∀ (size : Nat) (log : List Msg) (data : List UInt8), 0 < size → size < 65536 → data ≠ [] →
        2 * data.length + 1 ≤ n + 1 →
        ∃ r r', (if data.length < size then processN h n ⟨size, data, log⟩ []
          else match processMessage h log (data.take size) with
            | .error e => .error e
            | .ok (false, log') => .ok (false, ⟨size, [], log'⟩)
            | .ok (true, log') => processN h n ⟨0, [], log'⟩ (data.drop size)) = .ok r ∧
          feedAll h ⟨size, [], log⟩ data = .ok r' ∧ obs r = obs r' ∧ (r.1 = true → Good r.2) := by
      intro size log data hs hs' hne hfu
      have hpos : 0 < data.length := List.length_pos_iff.2 hne
      by_cases hlt : data.length < size
      · rw [if_pos hlt]
        have hn : ∃ k, n = k + 1 := ⟨n - 1, by omega⟩
        obtain ⟨k, rfl⟩ := hn
        have hfs := feed_short h size log [] data hs (by simpa using hlt)
        refine ⟨(true, ⟨size, data, log⟩), _, rfl, hfs, by simp [obs], fun _ => Or.inr ⟨hne, hlt, hs'⟩⟩
      · rw [if_neg hlt]
        have hff := feed_full h size log [] data (by simpa using hs) (by simp; omega)
        simp only [List.nil_append, List.length_nil, Nat.sub_zero] at hff
        rcases processMessage_callbacks h log (data.take size) with ⟨_, hp⟩ | ⟨m, _, hp⟩
        · rw [hp] at hff
          exact ⟨_, _, by rw [hp], hff, by simp [obs], by simp⟩
        · rw [hp] at hff ⊢
          cases hh : h log m with
          | false => rw [hh] at hff; exact ⟨_, _, rfl, hff, by simp [obs], by simp⟩
          | true =>
            rw [hh] at hff
            simp only at hff ⊢
            obtain ⟨r, r', h1, h2, h3, h4⟩ := ih ⟨0, [], log ++ [m]⟩ (data.drop size) (.inl ⟨rfl, by simp⟩)
              (.inr (.inl ⟨rfl, rfl, by simp; omega⟩))
            exact ⟨r, r', h1, by rw [hff, h2], h3, h4⟩
    cases d with
    | nil => exact ⟨_, _, rfl, rfl, rfl, fun _ => hg⟩
    | cons b d =>
      have hfu : 2 * (b :: d).length + 1 ≤ n + 1 := by
        rcases hf with h | h | h
        · omega
        · exact h.2.2
        · simp at h
      unfold processN
      obtain ⟨size, cache, log⟩ := s
      simp only
      by_cases hcol : size = 0 ∧ ((cache.length = 0 ∧ (b :: d).length < 3) ∨ cache.length = 1)
      · rw [if_pos hcol]
        obtain ⟨hz, hc⟩ := hcol
        subst hz
        have hlt : cache.length < 2 := by omega
        have hfeed : feedAll h ⟨0, cache, log⟩ (b :: d) = feedAll h ⟨0, cache ++ [b], log⟩ d := by
          simp [feedAll, feed1, hlt]
        rw [hfeed]
        refine ih _ _ (.inl ⟨rfl, by simp; omega⟩) ?_
        left; simp at hfu ⊢; omega
      · rw [if_neg hcol]
        by_cases hz : size = 0
        · subst hz
          have hc2 : cache.length ≤ 2 := by
            rcases hg with h | h
            · exact h.2
            · exact absurd h.2.1 (by simp)
          by_cases hce : cache = []
          · -- size read directly from the buffer
            subst hce
            have hd3 : 3 ≤ (b :: d).length := by
              refine Decidable.byContradiction fun hh => hcol ⟨rfl, .inl ⟨rfl, by omega⟩⟩
            obtain ⟨b1, b2, d, rfl⟩ : ∃ b1 b2 d', d = b1 :: b2 :: d' := by
              match d, hd3 with
              | b1 :: b2 :: d', _ => exact ⟨b1, b2, d', rfl⟩
            have hfeed : feedAll h ⟨0, [], log⟩ (b :: b1 :: b2 :: d) =
                feedAll h ⟨beVal [b, b1], [], log⟩ (b2 :: d) := by
              rw [← feed_size]; simp [feedAll, feed1]
            rw [hfeed]
            simp only [if_true, List.take_succ_cons, List.take_zero, List.drop_succ_cons, List.drop_zero]
            by_cases hs0 : beVal [b, b1] = 0
            · simp only [hs0, if_true]
              refine ih _ _ (.inl ⟨rfl, by simp⟩) (.inr (.inl ⟨rfl, rfl, ?_⟩))
              simp at hfu ⊢; omega
            · simp only [hs0, if_false, ne_eq, not_true_eq_false]
              exact phase _ log (b2 :: d) (by omega) (beVal_two _ _) (by simp) (by simp at hfu ⊢; omega)
          · -- size read from the cache
            have hc2' : cache.length = 2 := by
              have : cache.length ≠ 0 := by simpa using hce
              have : cache.length ≠ 1 := fun e => hcol ⟨rfl, .inr e⟩
              omega
            obtain ⟨c0, c1, rfl⟩ : ∃ c0 c1, cache = [c0, c1] := by
              match cache, hc2' with
              | [c0, c1], _ => exact ⟨c0, c1, rfl⟩
            rw [feed_size]
            simp only [if_true, hce, if_false, List.take_succ_cons, List.take_zero]
            by_cases hs0 : beVal [c0, c1] = 0
            · simp only [hs0, if_true]
              refine ih _ _ (.inl ⟨rfl, by simp⟩) (.inr (.inl ⟨rfl, rfl, ?_⟩))
              rcases hf with h | h | h
              · simp at h ⊢; omega
              · simp at h
              · simp at h
            · simp only [hs0, if_false, ne_eq, not_true_eq_false]
              exact phase _ log (b :: d) (by omega) (beVal_two _ _) (by simp) hfu
        · -- message in the cache
          have hg' : cache ≠ [] ∧ cache.length < size ∧ size < 65536 := by
            rcases hg with h | h
            · exact absurd h.1 hz
            · exact h
          obtain ⟨hne, hlt, hs'⟩ := hg'
          have hsub : sub64 size cache.length = size - cache.length := by
            unfold sub64; omega
          simp only [hz, if_false, ne_eq, hne, not_false_eq_true, if_true, hsub]
          by_cases hshort : cache.length + (b :: d).length < size
          · have hmin : min (size - cache.length) (b :: d).length = (b :: d).length := by omega
            simp only [hmin, List.take_length, List.drop_length]
            have hl2 : (cache ++ b :: d).length < size := by simpa using hshort
            rw [if_pos hl2]
            obtain ⟨k, rfl⟩ : ∃ k, n = k + 1 := ⟨n - 1, by simp at hfu; omega⟩
            have hfs := feed_short h size log cache (b :: d) (by omega) hshort
            exact ⟨_, _, rfl, hfs, rfl, fun _ => .inr ⟨by simp, hl2, hs'⟩⟩
          · have hmin : min (size - cache.length) (b :: d).length = size - cache.length := by
              simp only [List.length_cons] at hshort ⊢; omega
            rw [hmin]
            have hl2 : (cache ++ List.take (size - cache.length) (b :: d)).length = size := by
              simp only [List.length_append, List.length_take]
              simp only [List.length_cons] at hshort ⊢; omega
            have hff := feed_full h size log cache (b :: d) hlt (by omega)
            rw [if_neg (by omega), List.take_of_length_le (by omega)]
            rcases processMessage_callbacks h log (cache ++ List.take (size - cache.length) (b :: d)) with
              ⟨_, hp⟩ | ⟨m, _, hp⟩
            · rw [hp] at hff ⊢
              exact ⟨_, _, rfl, hff, by simp [obs], by simp⟩
            · rw [hp] at hff ⊢
              cases hh : h log m with
              | false => rw [hh] at hff; exact ⟨_, _, rfl, hff, by simp [obs], by simp⟩
              | true =>
                rw [hh] at hff
                simp only at hff ⊢
                obtain ⟨r, r', h1, h2, h3, h4⟩ := ih ⟨0, [], log ++ [m]⟩
                  ((b :: d).drop (size - cache.length)) (.inl ⟨rfl, by simp⟩)
                  (.inr (.inl ⟨rfl, rfl, by simp only [List.length_drop]; omega⟩))
                exact ⟨r, r', h1, by rw [hff, h2], h3, h4⟩

theorem process_eq (h : Handler) (s : St) (d : List UInt8) (hg : Good s) :
    ∃ r r', process h s d = .ok r ∧ feedAll h s d = .ok r' ∧ obs r = obs r' ∧ (r.1 = true → Good r.2) :=
  processN_eq h _ s d hg (.inl (Nat.le_refl _))

theorem obs_true {r r' : Bool × St} (h : obs r = obs r') (ht : r.1 = true) : r = r' := by
  obtain ⟨b, ⟨x, y, z⟩⟩ := r
  obtain ⟨b', ⟨x', y', z'⟩⟩ := r'
  simp only at ht; subst ht
  simp only [obs, Obs.mk.injEq] at h
  obtain ⟨h1, h2, h3⟩ := h
  subst h1; subst h2; simp at h3
  rw [h3.1, h3.2]

theorem chunks_eq (h : Handler) (cs : List (List UInt8)) : ∀ s : St, Good s →
    ∃ r r', processChunks h s cs = .ok r ∧ feedAll h s cs.flatten = .ok r' ∧ obs r = obs r' := by
  induction cs with
  | nil => intro s _; exact ⟨_, _, rfl, rfl, rfl⟩
  | cons c cs ih =>
    intro s hg
    obtain ⟨r, r', h1, h2, h3, h4⟩ := process_eq h s c hg
    simp only [processChunks, h1, List.flatten_cons, feedAll_append, h2]
    obtain ⟨b, s1⟩ := r
    cases b with
    | true =>
      have := obs_true h3 rfl
      subst this
      exact ih s1 (h4 rfl)
    | false =>
      obtain ⟨b', s1'⟩ := r'
      have : b' = false := by have := congrArg Obs.ok h3; simpa [obs] using this.symm
      subst this
      exact ⟨_, _, rfl, rfl, h3⟩

/-! ### Properties -/

/-- C25: from a fresh (or reset) handler, feeding a stream in any chunks gives the same result, the same callbacks in the
same order and, unless a message was refused, the same parser state, as feeding it in one piece; and no call reads out of
bounds or fails to terminate. -/
theorem process_chunking (h : Handler) (log : List Msg) (chunks : List (List UInt8)) :
    ∃ r r', processChunks h ⟨0, [], log⟩ chunks = .ok r ∧ process h ⟨0, [], log⟩ chunks.flatten = .ok r' ∧
      obs r = obs r' := by
  have hg : Good ⟨0, [], log⟩ := .inl ⟨rfl, by simp⟩
  obtain ⟨r, r1, h1, h2, h3⟩ := chunks_eq h chunks _ hg
  obtain ⟨r', r2, h4, h5, h6, _⟩ := process_eq h _ chunks.flatten hg
  rw [h2] at h5; cases h5
  exact ⟨r, r', h1, h4, by rw [h3, h6]⟩

/-- C25: two ways to cut the same stream give the same outcome. -/
theorem process_any_two_chunkings (h : Handler) (log : List Msg) (cs cs' : List (List UInt8))
    (he : cs.flatten = cs'.flatten) :
    ∃ r r', processChunks h ⟨0, [], log⟩ cs = .ok r ∧ processChunks h ⟨0, [], log⟩ cs' = .ok r' ∧ obs r = obs r' := by
  obtain ⟨r, q, h1, h2, h3⟩ := process_chunking h log cs
  obtain ⟨r', q', h4, h5, h6⟩ := process_chunking h log cs'
  rw [he, h5] at h2; cases h2
  exact ⟨r, r', h1, h4, by rw [h3, h6]⟩

/-- The same holds when the handler is continued from the state any earlier successful calls left. -/
theorem process_chunking_from (h : Handler) (log : List Msg) (before chunks : List (List UInt8)) (s : St)
    (hs : processChunks h ⟨0, [], log⟩ before = .ok (true, s)) :
    ∃ r r', processChunks h s chunks = .ok r ∧ process h s chunks.flatten = .ok r' ∧ obs r = obs r' := by
  have hg : ∀ (cs : List (List UInt8)) (s0 s : St), Good s0 → processChunks h s0 cs = .ok (true, s) → Good s := by
    intro cs
    induction cs with
    | nil => intro s0 s h0 h1; simp [processChunks] at h1; exact h1 ▸ h0
    | cons c cs ih =>
      intro s0 s h0 h1
      obtain ⟨⟨b, s1⟩, r', h2, _, _, h4⟩ := process_eq h s0 c h0
      simp only [processChunks, h2] at h1
      cases b with
      | true => exact ih s1 s (h4 rfl) h1
      | false => simp at h1
  have hg := hg before _ s (.inl ⟨rfl, by simp⟩) hs
  obtain ⟨r, r1, h1, h2, h3⟩ := chunks_eq h chunks _ hg
  obtain ⟨r', r2, h4, h5, h6, _⟩ := process_eq h _ chunks.flatten hg
  rw [h2] at h5; cases h5
  exact ⟨r, r', h1, h4, by rw [h3, h6]⟩

/-- C25, boundary: after a refused message the internal state does depend on the chunking, so the claim cannot be
extended to the state after `false` (the caller has to `Reset`). -/
theorem state_after_refusal_depends_on_chunking :
    processChunks (fun _ _ => true) St.init [[0, 2, 83, 0]] = .ok (false, ⟨2, [], []⟩) ∧
    processChunks (fun _ _ => true) St.init [[0, 2, 83], [0]] = .ok (false, ⟨2, [83, 0], []⟩) := by
  decide +kernel

-- non-trivial instance: one stream, three cuts, one unknown message delivered
example : (processChunks (fun _ _ => true) St.init [[0, 3, 122, 1, 2, 0]]) = .ok (true, ⟨0, [0], [.unknown 122]⟩) ∧
    (processChunks (fun _ _ => true) St.init [[0], [3], [122, 1], [2, 0]]) = .ok (true, ⟨0, [0], [.unknown 122]⟩) ∧
    (processChunks (fun _ _ => true) St.init [[0, 3], [122], [], [1, 2], [0]]) =
      .ok (true, ⟨0, [0], [.unknown 122]⟩) := by decide +kernel

theorem feed_frame (h : Handler) (log : List Msg) (p rest : List UInt8) (h1 : p ≠ []) (h2 : p.length < 65536) :
    feedAll h ⟨0, [], log⟩ (frame p ++ rest) =
      match processMessage h log p with
      | .error e => .error e
      | .ok (false, log') => .ok (false, ⟨p.length, p, log'⟩)
      | .ok (true, log') => feedAll h ⟨0, [], log'⟩ rest := by
  obtain ⟨x, xs, hx⟩ := List.exists_cons_of_ne_nil h1
  have hb : be 2 p.length = [UInt8.ofNat (p.length / 256 % 256), UInt8.ofNat (p.length % 256)] := by
    simp [be]
  have hv : beVal [UInt8.ofNat (p.length / 256 % 256), UInt8.ofNat (p.length % 256)] = p.length := by
    rw [← hb]; exact beVal_be 2 _ (by simpa using h2)
  have hpos : 0 < p.length := List.length_pos_iff.2 h1
  unfold frame
  rw [hb]
  have : feedAll h ⟨0, [], log⟩ (([UInt8.ofNat (p.length / 256 % 256), UInt8.ofNat (p.length % 256)] ++ p) ++ rest) =
      feedAll h ⟨p.length, [], log⟩ (p ++ rest) := by
    have e := feed_size h log (UInt8.ofNat (p.length / 256 % 256)) (UInt8.ofNat (p.length % 256)) x (xs ++ rest)
    rw [hv] at e
    rw [show p ++ rest = x :: (xs ++ rest) by rw [hx]; rfl, ← e]
    rw [List.append_assoc, show p ++ rest = x :: (xs ++ rest) by rw [hx]; rfl]
    simp [feedAll, feed1]
  rw [this, feed_full h p.length log [] (p ++ rest) (by simpa using hpos) (by simp)]
  simp

/-- C42: a stream of frames delivers exactly its messages to `ProcessMessage`, in order, up to the first refused one,
in whatever chunks the stream arrives. -/
theorem process_frames (h : Handler) (log : List Msg) (ps chunks : List (List UInt8))
    (hps : ∀ p ∈ ps, p ≠ [] ∧ p.length < 65536) (hc : chunks.flatten = (ps.map frame).flatten) :
    ∃ r ok log', processChunks h ⟨0, [], log⟩ chunks = .ok r ∧ deliverAll h log ps = .ok (ok, log') ∧
      r.1 = ok ∧ r.2.log = log' ∧ (ok = true → r.2 = ⟨0, [], log'⟩) := by
  have key : ∀ (ps : List (List UInt8)) (log : List Msg), (∀ p ∈ ps, p ≠ [] ∧ p.length < 65536) →
      ∃ r ok log', feedAll h ⟨0, [], log⟩ (ps.map frame).flatten = .ok r ∧ deliverAll h log ps = .ok (ok, log') ∧
      r.1 = ok ∧ r.2.log = log' ∧ (ok = true → r.2 = ⟨0, [], log'⟩) := by
    intro ps
    induction ps with
    | nil => intro log _; exact ⟨_, _, _, rfl, rfl, rfl, rfl, fun _ => rfl⟩
    | cons p ps ih =>
      intro log hps
      have hp := hps p (by simp)
      simp only [List.map_cons, List.flatten_cons]
      rw [feed_frame h log p _ hp.1 hp.2]
      simp only [deliverAll]
      rcases processMessage_callbacks h log p with ⟨_, e⟩ | ⟨m, _, e⟩
      · rw [e]; exact ⟨_, _, _, rfl, rfl, rfl, rfl, by simp⟩
      · rw [e]
        cases h log m with
        | false => exact ⟨_, _, _, rfl, rfl, rfl, rfl, by simp⟩
        | true => exact ih _ (fun q hq => hps q (by simp [hq]))
  obtain ⟨r, ok, log', h1, h2, h3, h4, h5⟩ := key ps log hps
  obtain ⟨q, q', g1, g2, g3⟩ := chunks_eq h chunks ⟨0, [], log⟩ (.inl ⟨rfl, by simp⟩)
  rw [hc, h1] at g2; cases g2
  have e1 : q.1 = r.1 := congrArg Obs.ok g3
  have e2 : q.2.log = r.2.log := congrArg Obs.log g3
  refine ⟨q, ok, log', g1, h2, by rw [e1, h3], by rw [e2, h4], fun hok => ?_⟩
  have := obs_true g3 (by rw [e1, h3, hok])
  rw [this]; exact h5 hok

theorem wire_length (m : Msg) (tail : List UInt8) (ht : tail.length = 3) (hf : m.Fits) :
    m.wire tail ≠ [] ∧ (m.wire tail).length < 65536 := by
  have : 0 < (m.wire tail).length ∧ (m.wire tail).length < 65536 := by
    cases m <;> simp [Msg.Fits] at hf <;> simp [Msg.wire, ht] <;> omega
  exact ⟨List.length_pos_iff.1 this.1, this.2⟩

/-- C42, end to end: any well-formed messages, encoded in the wire format, framed, and cut into arbitrary chunks, are
received by an always accepting handler as exactly these messages in this order (timestamps cut). -/
theorem stream_roundtrip (ms : List (Msg × List UInt8)) (chunks : List (List UInt8))
    (hm : ∀ x ∈ ms, x.1.Fits ∧ x.2.length = 3)
    (hc : chunks.flatten = (ms.map (fun x => frame (x.1.wire x.2))).flatten) :
    processChunks (fun _ _ => true) St.init chunks =
      .ok (true, ⟨0, [], ms.map (fun x => x.1.mapHdr Hdr.cut)⟩) := by
  have hd : ∀ (ms : List (Msg × List UInt8)) (log : List Msg), (∀ x ∈ ms, x.1.Fits ∧ x.2.length = 3) →
      deliverAll (fun _ _ => true) log (ms.map (fun x => x.1.wire x.2)) =
        .ok (true, log ++ ms.map (fun x => x.1.mapHdr Hdr.cut)) := by
    intro ms
    induction ms with
    | nil => intro log _; simp [deliverAll]
    | cons x ms ih =>
      intro log hm
      have hx := hm x (by simp)
      simp only [List.map_cons, deliverAll, processMessage, decode_wire x.1 x.2 hx.2 hx.1]
      rw [ih _ (fun y hy => hm y (by simp [hy]))]
      simp
  obtain ⟨r, ok, log', h1, h2, h3, h4, h5⟩ := process_frames (fun _ _ => true) [] (ms.map (fun x => x.1.wire x.2)) chunks
    (by
      intro p hp
      obtain ⟨x, hx, rfl⟩ := List.mem_map.1 hp
      exact wire_length x.1 x.2 (hm x hx).2 (hm x hx).1)
    (by rw [hc, List.map_map]; rfl)
  rw [hd ms [] hm] at h2
  simp at h2
  obtain ⟨rfl, rfl⟩ := h2
  show processChunks _ ⟨0, [], []⟩ chunks = _
  rw [h1]
  obtain ⟨b, s⟩ := r
  simp only at h3; subst h3
  have := h5 rfl
  simp only at this
  rw [this]

-- the hypotheses are met by a two-message stream cut inside the length field and inside a message
def sampleMessages : List (Msg × List UInt8) :=
  [(.orderDelete ⟨68, 1, 2, 3⟩ 9, [0, 0, 0]), (.unknown 122, [0, 0, 0])]
def sampleChunks : List (List UInt8) :=
  [[0], [19, 68, 0, 1, 0, 2, 0, 0], [0, 0, 0, 3, 0, 0, 0, 0, 0, 0, 0, 9, 0, 1, 122]]
example : sampleChunks.flatten = (sampleMessages.map (fun x => frame (x.1.wire x.2))).flatten := by decide +kernel
example : ∀ x ∈ sampleMessages, x.1.Fits ∧ x.2.length = 3 := by
  simp [sampleMessages, Msg.Fits, Hdr.Fits, known]

end CppTrader.Itch
