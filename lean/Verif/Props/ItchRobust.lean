import Verif.Props.ItchStream
/-
The ITCH handler on arbitrary bytes, when its result is ignored and it is fed on after refusing a message.
-/

namespace CppTrader.Itch

/-! ### The values decoding can produce -/

/-- Every result of `r` satisfies `P`. -/
def Gives {α : Type} (r : Rd α) (P : α → Prop) : Prop := ∀ d a d', r d = .ok (a, d') → P a

theorem Gives.bind {α β : Type} {r : Rd α} {f : α → Rd β} {P : α → Prop} {Q : β → Prop} (h : Gives r P)
    (h' : ∀ a, P a → Gives (f a) Q) : Gives (r >>= f) Q := by
  intro d b d' hb
  have hb : Rd.bind r f d = .ok (b, d') := hb
  unfold Rd.bind at hb
  cases hr : r d with
  | error e => rw [hr] at hb; cases hb
  | ok x => obtain ⟨a, d1⟩ := x; rw [hr] at hb; exact h' a (h _ _ _ hr) _ _ _ hb

theorem gives_pure {α : Type} {a : α} {P : α → Prop} (h : P a) : Gives (pure a : Rd α) P := by
  intro d x d' hx
  rw [pure_ok] at hx; cases hx; exact h
theorem gives_any {α : Type} (r : Rd α) : Gives r fun _ => True := fun _ _ _ _ => trivial

theorem beVal_lt (bs : List UInt8) : beVal bs < 256 ^ bs.length := by
  have key : ∀ (bs : List UInt8) (acc : Nat), bs.foldl (fun acc b => acc * 256 + b.toNat) acc < (acc + 1) * 256 ^ bs.length := by
    intro bs
    induction bs with
    | nil => intro acc; simp
    | cons b bs ih =>
      intro acc
      have h1 := ih (acc * 256 + b.toNat)
      have h2 : (acc * 256 + b.toNat + 1) * 256 ^ bs.length ≤ ((acc + 1) * 256) * 256 ^ bs.length :=
        Nat.mul_le_mul_right _ (by have := b.toNat_lt; omega)
      simp only [List.foldl_cons, List.length_cons, Nat.pow_succ]
      rw [Nat.mul_comm (256 ^ bs.length) 256, ← Nat.mul_assoc]
      omega
  have := key bs 0
  simpa [beVal] using this

theorem gives_uint (n : Nat) : Gives (uint n) fun v => v < 256 ^ n := by
  intro d a d' h
  unfold uint at h
  by_cases hn : n ≤ d.length
  · rw [if_pos hn] at h; cases h
    have := beVal_lt (d.take n)
    rwa [List.length_take, Nat.min_eq_left hn] at this
  · rw [if_neg hn] at h; cases h

theorem sized_gives {n : Nat} {r : Rd Msg} {P : Msg → Prop} (hr : Gives r P) {d m} (h : sized n r d = .ok (some m)) : P m ∧ d.length = n := by
  unfold sized at h
  by_cases hl : d.length ≠ n
  · rw [if_pos hl] at h; cases h
  · rw [if_neg hl] at h
    cases he : r d with
    | error e => rw [he] at h; cases h
    | ok x => obtain ⟨a, d'⟩ := x; rw [he] at h; cases h; exact ⟨hr _ _ _ he, by omega⟩


/-- The number of bytes of the messages that bring in orders (a lower bound of it for the others). -/
def Msg.weight : Msg → Nat
  | .addOrder .. => 36
  | .addOrderMPID .. => 40
  | .orderReplace .. => 35
  | _ => 0

macro "weigh" : tactic => `(tactic| (
  repeat (refine (gives_any _).bind fun _ _ => ?_)
  exact gives_pure (by simp [Msg.weight])))

theorem decode_weight {d : List UInt8} {m : Msg} (h : decode d = .ok (some m)) : m.weight ≤ d.length := by
  cases d with
  | nil => cases h
  | cons t d =>
    rw [decode_cons t (t :: d) rfl] at h
    by_cases c1 : t = 83
    · rw [if_pos c1] at h
      have hg : Gives rdSystemEvent fun m => m.weight ≤ 12 := by unfold rdSystemEvent; weigh
      have := sized_gives hg h; omega
    rw [if_neg c1] at h
    by_cases c1 : t = 82
    · rw [if_pos c1] at h
      have hg : Gives rdStockDirectory fun m => m.weight ≤ 39 := by unfold rdStockDirectory; weigh
      have := sized_gives hg h; omega
    rw [if_neg c1] at h
    by_cases c1 : t = 72
    · rw [if_pos c1] at h
      have hg : Gives rdTradingAction fun m => m.weight ≤ 25 := by unfold rdTradingAction; weigh
      have := sized_gives hg h; omega
    rw [if_neg c1] at h
    by_cases c1 : t = 89
    · rw [if_pos c1] at h
      have hg : Gives rdRegSHO fun m => m.weight ≤ 20 := by unfold rdRegSHO; weigh
      have := sized_gives hg h; omega
    rw [if_neg c1] at h
    by_cases c1 : t = 76
    · rw [if_pos c1] at h
      have hg : Gives rdParticipantPosition fun m => m.weight ≤ 26 := by unfold rdParticipantPosition; weigh
      have := sized_gives hg h; omega
    rw [if_neg c1] at h
    by_cases c1 : t = 86
    · rw [if_pos c1] at h
      have hg : Gives rdMwcbDecline fun m => m.weight ≤ 35 := by unfold rdMwcbDecline; weigh
      have := sized_gives hg h; omega
    rw [if_neg c1] at h
    by_cases c1 : t = 87
    · rw [if_pos c1] at h
      have hg : Gives rdMwcbStatus fun m => m.weight ≤ 12 := by unfold rdMwcbStatus; weigh
      have := sized_gives hg h; omega
    rw [if_neg c1] at h
    by_cases c1 : t = 75
    · rw [if_pos c1] at h
      have hg : Gives rdIpoQuoting fun m => m.weight ≤ 28 := by unfold rdIpoQuoting; weigh
      have := sized_gives hg h; omega
    rw [if_neg c1] at h
    by_cases c1 : t = 65
    · rw [if_pos c1] at h
      have hg : Gives rdAddOrder fun m => m.weight ≤ 36 := by unfold rdAddOrder; weigh
      have := sized_gives hg h; omega
    rw [if_neg c1] at h
    by_cases c1 : t = 70
    · rw [if_pos c1] at h
      have hg : Gives rdAddOrderMPID fun m => m.weight ≤ 40 := by unfold rdAddOrderMPID; weigh
      have := sized_gives hg h; omega
    rw [if_neg c1] at h
    by_cases c1 : t = 69
    · rw [if_pos c1] at h
      have hg : Gives rdOrderExecuted fun m => m.weight ≤ 31 := by unfold rdOrderExecuted; weigh
      have := sized_gives hg h; omega
    rw [if_neg c1] at h
    by_cases c1 : t = 67
    · rw [if_pos c1] at h
      have hg : Gives rdOrderExecutedWithPrice fun m => m.weight ≤ 36 := by unfold rdOrderExecutedWithPrice; weigh
      have := sized_gives hg h; omega
    rw [if_neg c1] at h
    by_cases c1 : t = 88
    · rw [if_pos c1] at h
      have hg : Gives rdOrderCancel fun m => m.weight ≤ 23 := by unfold rdOrderCancel; weigh
      have := sized_gives hg h; omega
    rw [if_neg c1] at h
    by_cases c1 : t = 68
    · rw [if_pos c1] at h
      have hg : Gives rdOrderDelete fun m => m.weight ≤ 19 := by unfold rdOrderDelete; weigh
      have := sized_gives hg h; omega
    rw [if_neg c1] at h
    by_cases c1 : t = 85
    · rw [if_pos c1] at h
      have hg : Gives rdOrderReplace fun m => m.weight ≤ 35 := by unfold rdOrderReplace; weigh
      have := sized_gives hg h; omega
    rw [if_neg c1] at h
    by_cases c1 : t = 80
    · rw [if_pos c1] at h
      have hg : Gives rdTrade fun m => m.weight ≤ 44 := by unfold rdTrade; weigh
      have := sized_gives hg h; omega
    rw [if_neg c1] at h
    by_cases c1 : t = 81
    · rw [if_pos c1] at h
      have hg : Gives rdCrossTrade fun m => m.weight ≤ 40 := by unfold rdCrossTrade; weigh
      have := sized_gives hg h; omega
    rw [if_neg c1] at h
    by_cases c1 : t = 66
    · rw [if_pos c1] at h
      have hg : Gives rdBrokenTrade fun m => m.weight ≤ 19 := by unfold rdBrokenTrade; weigh
      have := sized_gives hg h; omega
    rw [if_neg c1] at h
    by_cases c1 : t = 73
    · rw [if_pos c1] at h
      have hg : Gives rdNoii fun m => m.weight ≤ 50 := by unfold rdNoii; weigh
      have := sized_gives hg h; omega
    rw [if_neg c1] at h
    by_cases c1 : t = 78
    · rw [if_pos c1] at h
      have hg : Gives rdRpii fun m => m.weight ≤ 20 := by unfold rdRpii; weigh
      have := sized_gives hg h; omega
    rw [if_neg c1] at h
    by_cases c1 : t = 74
    · rw [if_pos c1] at h
      have hg : Gives rdLuldCollar fun m => m.weight ≤ 35 := by unfold rdLuldCollar; weigh
      have := sized_gives hg h; omega
    rw [if_neg c1] at h
    cases h; exact Nat.zero_le _

/-- The bytes the messages of a log account for. -/
def weight (log : List Msg) : Nat := (log.map Msg.weight).sum

theorem weight_snoc (log : List Msg) (m : Msg) : weight (log ++ [m]) = weight log + m.weight := by
  simp [weight]

/-- The states of the handler between calls of `Process`, including those left behind by a refused message. -/
def Any (s : St) : Prop :=
  (s.size = 0 ∧ s.cache.length ≤ 2) ∨ (0 < s.size ∧ s.cache.length ≤ s.size ∧ s.size < 65536)

/-- What one or more callbacks do to the state: the log grows by decoded messages, and as long as the handler accepts
everything by no more bytes than received (`n`). -/
structure Grows (h : Handler) (s s' : St) (n : Nat) : Prop where
  any : Any s'
  log : ∃ new, s'.log = s.log ++ new ∧ ∀ m ∈ new, ∃ p, decode p = .ok (some m)
  bound : (∀ l m, h l m = true) → weight s'.log + s'.cache.length ≤ weight s.log + s.cache.length + n

theorem Grows.trans {h s s1 s2 a b c} (h1 : Grows h s s1 a) (h2 : Grows h s1 s2 b) (hc : a + b ≤ c) : Grows h s s2 c := by
  obtain ⟨n1, e1, d1⟩ := h1.log
  obtain ⟨n2, e2, d2⟩ := h2.log
  refine ⟨h2.any, ⟨n1 ++ n2, by rw [e2, e1, List.append_assoc], ?_⟩, fun hh => ?_⟩
  · intro m hm
    rcases List.mem_append.1 hm with hm | hm
    · exact d1 m hm
    · exact d2 m hm
  · have := h1.bound hh; have := h2.bound hh; omega

/-- A change of size and cache only. -/
theorem Grows.keep {h : Handler} {s s' : St} {n} (ha : Any s') (hl : s'.log = s.log) (hb : s'.cache.length ≤ s.cache.length + n) :
    Grows h s s' n := ⟨ha, ⟨[], by simp [hl], by simp⟩, fun _ => by rw [hl]; omega⟩

theorem processN_total (h : Handler) : ∀ (n : Nat) (s : St) (d : List UInt8), Any s →
    2 * d.length + (if s.cache = [] then 0 else 1) + 1 ≤ n →
    ∃ r s', processN h n s d = .ok (r, s') ∧ Grows h s s' d.length := by
  intro n
  induction n with
  | zero => intro s d _ hf; omega
  | succ n ih =>
    intro s d hg hf
    cases d with
    | nil => exact ⟨_, _, rfl, .keep hg rfl (by simp)⟩
    | cons b d =>
      -- a complete message `p`, taken from the cache and from `k` bytes of the buffer
      have msg : ∀ (s1 : St) (p rest : List UInt8) (k : Nat), s1.log = s.log → Any s1 → s1.cache.length ≤ s.cache.length + k →
          p.length ≤ s.cache.length + k → k + rest.length = (b :: d).length → 2 * rest.length + 1 ≤ n →
          ∃ r s', ((match processMessage h s1.log p with
            | .error e => .error e
            | .ok (false, log) => .ok (false, { s1 with log := log })
            | .ok (true, log) => processN h n { size := 0, cache := [], log := log } rest) : Except Err (Bool × St)) = .ok (r, s') ∧
            Grows h s s' (b :: d).length := by
        intro s1 p rest k hl ha hc hk hr hfu
        rcases processMessage_callbacks h s1.log p with ⟨_, e⟩ | ⟨m, hm, e⟩
        · rw [e]; exact ⟨_, _, rfl, .keep ha hl (Nat.le_trans hc (by omega))⟩
        · rw [e]
          cases hh : h s1.log m with
          | false =>
            refine ⟨_, _, rfl, ⟨ha, ⟨[m], by simp [hl], ?_⟩, fun hall => ?_⟩⟩
            · intro x hx; rw [List.mem_singleton] at hx; subst hx; exact ⟨_, hm⟩
            · rw [hall] at hh; cases hh
          | true =>
            obtain ⟨r, s', h1, h2⟩ := ih ⟨0, [], s1.log ++ [m]⟩ rest (.inl ⟨rfl, by simp⟩) (by simpa using hfu)
            refine ⟨r, s', h1, ?_⟩
            refine Grows.trans (a := k) (s1 := ⟨0, [], s1.log ++ [m]⟩) ⟨.inl ⟨rfl, by simp⟩, ⟨[m], by simp [hl], ?_⟩, fun _ => ?_⟩ h2 (by omega)
            · intro x hx; rw [List.mem_singleton] at hx; subst hx; exact ⟨_, hm⟩
            · have := decode_weight hm
              simp only [weight_snoc, hl, List.length_nil]; omega
      -- no message in the cache: `k` bytes of the buffer are used up already
      have fresh : ∀ (size : Nat) (data : List UInt8) (k : Nat), 0 < size → size < 65536 → k + data.length = (b :: d).length →
          1 ≤ data.length →
          ∃ r s', (if data.length < size then processN h n ⟨size, data, s.log⟩ []
            else match processMessage h s.log (data.take size) with
              | .error e => .error e
              | .ok (false, log') => .ok (false, ⟨size, [], log'⟩)
              | .ok (true, log') => processN h n ⟨0, [], log'⟩ (data.drop size)) = .ok (r, s') ∧
            Grows h s s' (b :: d).length := by
        intro size data k h0 h1 hk hd
        simp only [List.length_cons] at hk hf
        by_cases hlt : data.length < size
        · rw [if_pos hlt]
          have ha : Any ⟨size, data, s.log⟩ := .inr ⟨h0, Nat.le_of_lt hlt, h1⟩
          obtain ⟨r, s', e1, e2⟩ := ih ⟨size, data, s.log⟩ [] ha (by
            simp only [List.length_nil]
            have : (if data = [] then 0 else 1) ≤ 1 := by split <;> omega
            omega)
          refine ⟨r, s', e1, Grows.trans (a := data.length) (.keep ha rfl (by simp only; omega)) e2 ?_⟩
          simp only [List.length_cons, List.length_nil]; omega
        · rw [if_neg hlt]
          refine msg ⟨size, [], s.log⟩ (data.take size) (data.drop size) (k + size) rfl (.inr ⟨h0, by simp, h1⟩) (by simp) (by rw [List.length_take]; omega) ?_ ?_
          · simp only [List.length_drop, List.length_cons]; omega
          · simp only [List.length_drop]; omega
      have hcl : s.cache ≠ [] → 0 < s.cache.length := List.length_pos_iff.2
      unfold processN
      obtain ⟨size, cache, log⟩ := s
      simp only at hcl fresh msg hf ⊢
      by_cases hcol : size = 0 ∧ ((cache.length = 0 ∧ (b :: d).length < 3) ∨ cache.length = 1)
      · rw [if_pos hcol]
        have ha : Any ⟨size, cache ++ [b], log⟩ := .inl ⟨hcol.1, by
          show (cache ++ [b]).length ≤ 2
          simp only [List.length_append, List.length_cons, List.length_nil]; omega⟩
        obtain ⟨r, s', e1, e2⟩ := ih ⟨size, cache ++ [b], log⟩ d ha (by
          simp only [List.length_cons] at hf
          have : (if cache ++ [b] = [] then 0 else 1) ≤ 1 := by split <;> omega
          simp only; omega)
        exact ⟨r, s', e1, Grows.trans (a := 1) (.keep ha rfl (by simp)) e2 (by simp; omega)⟩
      · rw [if_neg hcol]
        by_cases hz : size = 0
        · subst hz
          have hc2 : cache.length ≤ 2 := by
            rcases hg with h | h
            · exact h.2
            · exact absurd h.1 (by simp)
          by_cases hce : cache = []
          · subst hce
            have hd3 : 3 ≤ (b :: d).length := by
              refine Decidable.byContradiction fun hh => hcol ⟨rfl, .inl ⟨rfl, by omega⟩⟩
            obtain ⟨b1, b2, d, rfl⟩ : ∃ b1 b2 d', d = b1 :: b2 :: d' := by
              match d, hd3 with
              | b1 :: b2 :: d', _ => exact ⟨b1, b2, d', rfl⟩
            simp only [if_true, List.take_succ_cons, List.take_zero, List.drop_succ_cons, List.drop_zero]
            by_cases hs0 : beVal [b, b1] = 0
            · simp only [hs0, if_true]
              have ha : Any ⟨0, [], log⟩ := .inl ⟨rfl, by simp⟩
              obtain ⟨r, s', e1, e2⟩ := ih ⟨0, [], log⟩ (b2 :: d) ha (by simp at hf ⊢; omega)
              exact ⟨r, s', e1, Grows.trans (a := 0) (.keep ha rfl (by simp)) e2 (by simp)⟩
            · simp only [hs0, if_false, ne_eq, not_true_eq_false]
              exact fresh _ (b2 :: d) 2 (by omega) (beVal_two _ _) (by simp; omega) (by simp)
          · have hc2' : cache.length = 2 := by
              have := hcl hce
              have : cache.length ≠ 1 := fun e => hcol ⟨rfl, .inr e⟩
              omega
            obtain ⟨c0, c1, rfl⟩ : ∃ c0 c1, cache = [c0, c1] := by
              match cache, hc2' with
              | [c0, c1], _ => exact ⟨c0, c1, rfl⟩
            simp only [if_true, hce, if_false, List.take_succ_cons, List.take_zero]
            by_cases hs0 : beVal [c0, c1] = 0
            · simp only [hs0, if_true]
              have ha : Any ⟨0, [], log⟩ := .inl ⟨rfl, by simp⟩
              obtain ⟨r, s', e1, e2⟩ := ih ⟨0, [], log⟩ (b :: d) ha (by simp at hf ⊢; omega)
              exact ⟨r, s', e1, Grows.trans (a := 0) (.keep ha rfl (by simp)) e2 (by simp)⟩
            · simp only [hs0, if_false, ne_eq, not_true_eq_false]
              exact fresh _ (b :: d) 0 (by omega) (beVal_two _ _) (by simp) (by simp)
        · obtain ⟨h0, hle, hs'⟩ : 0 < size ∧ cache.length ≤ size ∧ size < 65536 := by
            rcases hg with h | h
            · exact absurd h.1 hz
            · exact h
          simp only [hz, if_false, ne_eq]
          by_cases hce : cache = []
          · subst hce
            simp only [not_true_eq_false, if_false]
            exact fresh size (b :: d) 0 h0 hs' (by simp) (by simp)
          · have hsub : sub64 size cache.length = size - cache.length := by
              unfold sub64; omega
            have hpos := hcl hce
            simp only [hce, not_false_eq_true, if_true, hsub]
            generalize hk : min (size - cache.length) (b :: d).length = k
            have hkd : k ≤ (b :: d).length := by omega
            have hlen : (cache ++ (b :: d).take k).length = cache.length + k := by
              rw [List.length_append, List.length_take]; omega
            have ha : Any ⟨size, cache ++ (b :: d).take k, log⟩ := .inr ⟨h0, by
              show (cache ++ (b :: d).take k).length ≤ size
              omega, hs'⟩
            rw [if_neg hce] at hf
            by_cases hshort : (cache ++ (b :: d).take k).length < size
            · rw [if_pos hshort]
              obtain ⟨r, s', e1, e2⟩ := ih ⟨size, cache ++ (b :: d).take k, log⟩ ((b :: d).drop k) ha (by
                have : (if cache ++ (b :: d).take k = [] then 0 else 1) ≤ 1 := by split <;> omega
                simp only [List.length_drop, List.length_cons] at hf hk ⊢; omega)
              refine ⟨r, s', e1, Grows.trans (a := k) (.keep ha rfl (by simp only; omega)) e2 ?_⟩
              simp only [List.length_drop]; omega
            · rw [if_neg hshort]
              refine msg ⟨size, cache ++ (b :: d).take k, log⟩ _ ((b :: d).drop k) k rfl ha (by simp only; omega) (by rw [List.length_take]; omega) ?_ ?_
              · simp only [List.length_drop]; omega
              · simp only [List.length_drop]; omega

/-- From any state in which earlier calls may have left the handler, `Process` returns on any bytes. -/
theorem process_total (h : Handler) (s : St) (d : List UInt8) (hs : Any s) :
    ∃ r s', process h s d = .ok (r, s') ∧ Grows h s s' d.length :=
  processN_total h _ s d hs (by split <;> omega)

/-! ### C55: after a refused message -/

/-- A message waiting in the cache. -/
theorem process_cached (h : Handler) (n : Nat) (c log d) (h0 : 0 < n) (hc : c ≠ []) (hn : c.length ≤ n) (hb : n < 65536) (hd : d ≠ [])
    (hfull : n ≤ c.length + d.length) (hp : decode (c ++ d.take (n - c.length)) = .ok none) :
    process h ⟨n, c, log⟩ d = .ok (false, ⟨n, c ++ d.take (n - c.length), log⟩) := by
  obtain ⟨b, d, rfl⟩ := List.exists_cons_of_ne_nil hd
  have hz : n ≠ 0 := by omega
  have hsub : sub64 n c.length = n - c.length := by unfold sub64; omega
  have hmin : min (n - c.length) (b :: d).length = n - c.length := by omega
  have hlen : (c ++ (b :: d).take (n - c.length)).length = n := by
    rw [List.length_append, List.length_take]; omega
  unfold process processN
  simp only [hz, false_and, if_false, ne_eq, hc, not_false_eq_true, if_true, hsub, hmin]
  rw [if_neg (by omega), List.take_of_length_le (by omega)]
  simp only [processMessage, hp]

/-- A message refused while it was being completed from the cache is never let go: every further call of `Process` with at
least one byte returns `false`, calls no handler and ignores its bytes, whatever they are. -/
theorem C55_stuck (h : Handler) (p : List UInt8) (log : List Msg) (h1 : p ≠ []) (h2 : p.length < 65536) (hp : decode p = .ok none)
    (d : List UInt8) (hd : d ≠ []) : process h ⟨p.length, p, log⟩ d = .ok (false, ⟨p.length, p, log⟩) := by
  have := process_cached h p.length p log d (List.length_pos_iff.2 h1) h1 (Nat.le_refl _) h2 hd (by omega) (by simpa using hp)
  simpa using this

/-- C55, message in two pieces: a message that `ProcessMessage` refuses, framed correctly but received in two pieces
(cut anywhere inside the message), leaves the handler stuck: all later calls return `false` without a callback. `Reset`
frees it. -/
theorem C55_two_pieces (h : Handler) (p rest : List UInt8) (log : List Msg) (h2 : p.length < 65536) (hp : decode p = .ok none)
    (i : Nat) (hi : 0 < i) (hi' : i < p.length) :
    ∃ s1 s2, process h ⟨0, [], log⟩ (be 2 p.length ++ p.take i) = .ok (true, s1) ∧
      process h s1 (p.drop i ++ rest) = .ok (false, s2) ∧ s2.log = log ∧
      (∀ d, d ≠ [] → process h s2 d = .ok (false, s2)) ∧ s2.reset = ⟨0, [], log⟩ := by
  have hpos : 0 < p.length := by omega
  have hne : p ≠ [] := List.length_pos_iff.1 hpos
  have htl : (p.take i).length = i := by rw [List.length_take]; omega
  have htn : p.take i ≠ [] := List.length_pos_iff.1 (by omega)
  refine ⟨⟨p.length, p.take i, log⟩, ⟨p.length, p, log⟩, ?_, ?_, rfl, fun d hd => C55_stuck h p log hne h2 hp d hd, rfl⟩
  · obtain ⟨x, xs, hx⟩ := List.exists_cons_of_ne_nil htn
    have hb : be 2 p.length = [UInt8.ofNat (p.length / 256 % 256), UInt8.ofNat (p.length % 256)] := by
      simp [be]
    have hv : beVal [UInt8.ofNat (p.length / 256 % 256), UInt8.ofNat (p.length % 256)] = p.length := by
      rw [← hb]; exact beVal_be 2 _ (by simpa using h2)
    have hfeed : feedAll h ⟨0, [], log⟩ (be 2 p.length ++ p.take i) = .ok (true, ⟨p.length, p.take i, log⟩) := by
      have e := feed_size h log (UInt8.ofNat (p.length / 256 % 256)) (UInt8.ofNat (p.length % 256)) x xs
      rw [hv] at e
      have e2 := feed_short h p.length log [] (p.take i) hpos (by simp only [List.length_nil]; omega)
      rw [hb, hx]
      rw [hx] at e2
      rw [List.nil_append] at e2
      rw [← e2, ← e]
      simp [feedAll, feed1]
    obtain ⟨r, r', k1, k2, k3, _⟩ := process_eq h ⟨0, [], log⟩ (be 2 p.length ++ p.take i) (.inl ⟨rfl, by simp⟩)
    rw [hfeed] at k2; cases k2
    have ht : r.1 = true := congrArg Obs.ok k3
    rw [k1, obs_true k3 ht]
  · have hdn : p.drop i ++ rest ≠ [] := by
      intro e
      have := congrArg List.length e
      simp only [List.length_append, List.length_drop, List.length_nil] at this; omega
    have hdl : (p.drop i).length = p.length - i := List.length_drop
    have htake : p.take i ++ (p.drop i ++ rest).take (p.length - (p.take i).length) = p := by
      rw [htl, List.take_append_of_le_length (by omega),
        List.take_of_length_le (l := p.drop i) (by omega), List.take_append_drop]
    have := process_cached h p.length (p.take i) log (p.drop i ++ rest) hpos htn (by omega) h2 hdn
      (by simp only [List.length_append]; omega) (by rw [htake]; exact hp)
    rw [htake] at this
    exact this

/-- C55, message in one piece: the same message received in one piece with the bytes after it is refused too; the bytes
after it are lost, and the next bytes, as many as the refused message had, are taken for a message. -/
theorem C55_one_piece (h : Handler) (p rest : List UInt8) (log : List Msg) (h1 : p ≠ []) (h2 : p.length < 65536)
    (hp : decode p = .ok none) :
    process h ⟨0, [], log⟩ (frame p ++ rest) = .ok (false, ⟨p.length, [], log⟩) ∧
    ∀ q more, q.length = p.length → ∀ m, decode q = .ok (some m) → h log m = true →
      ∃ r, process h ⟨p.length, [], log⟩ (q ++ more) = .ok r ∧ [m] <+: r.2.log.drop log.length := by
  have hpos := List.length_pos_iff.2 h1
  have hb : be 2 p.length = [UInt8.ofNat (p.length / 256 % 256), UInt8.ofNat (p.length % 256)] := by
    simp [be]
  have hv : beVal [UInt8.ofNat (p.length / 256 % 256), UInt8.ofNat (p.length % 256)] = p.length := by
    rw [← hb]; exact beVal_be 2 _ (by simpa using h2)
  constructor
  · obtain ⟨x, xs, hx⟩ := List.exists_cons_of_ne_nil h1
    unfold frame process processN
    rw [hb]
    simp only [List.cons_append, List.nil_append, List.length_cons, List.length_append]
    rw [if_neg (by simp; omega)]
    simp only [if_true, List.take_succ_cons, List.take_zero, List.drop_succ_cons, List.drop_zero, hv]
    rw [if_neg (by omega)]
    simp only [ne_eq, not_true_eq_false, if_false]
    rw [if_neg (by rw [List.length_append]; omega)]
    rw [List.take_append_of_le_length (Nat.le_refl _), List.take_length]
    simp only [processMessage, hp]
  · intro q more hq m hm hh
    have hqn : q ≠ [] := List.length_pos_iff.1 (by omega)
    obtain ⟨x, xs, hx⟩ := List.exists_cons_of_ne_nil hqn
    have hz : p.length ≠ 0 := by omega
    obtain ⟨r, s', e1, e2⟩ := processN_total h (2 * (q ++ more).length + 1) ⟨0, [], log ++ [m]⟩ more (.inl ⟨rfl, by simp⟩)
      (by simp only [if_true, List.length_append]; omega)
    refine ⟨(r, s'), ?_, ?_⟩
    · rw [← e1]
      unfold process
      have hqm : q ++ more = x :: (xs ++ more) := by rw [hx]; rfl
      rw [show 2 * (q ++ more).length + 2 = (2 * (q ++ more).length + 1) + 1 from rfl]
      generalize hN : 2 * (q ++ more).length + 1 = N
      rw [hqm]
      conv => lhs; unfold processN
      simp only [hz, false_and, if_false, ne_eq, not_true_eq_false]
      rw [← hqm, if_neg (by rw [List.length_append]; omega)]
      rw [← hq, List.take_append_of_le_length (Nat.le_refl _), List.take_length]
      simp only [processMessage, hm, hh, List.drop_left]
    · obtain ⟨new, e3, _⟩ := e2.log
      rw [e3]
      simp only [List.append_assoc, List.drop_left]
      exact ⟨new, rfl⟩

-- a two-byte system event message, which is refused
example : decode [83, 0] = .ok none ∧ process (fun _ _ => true) ⟨2, [83, 0], []⟩ [0, 1, 122] = .ok (false, ⟨2, [83, 0], []⟩) := by
  decide +kernel

end CppTrader.Itch
