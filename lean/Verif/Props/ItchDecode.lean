import Verif.Model.Itch
/- Properties C26 (decode inverts the wire format), C27 (in bounds), C28 (size and type checks). -/

namespace CppTrader.Itch

/-! ### The wire format, as published for NASDAQ TotalView-ITCH 5.0: fields in wire order. -/

/-- `n`-byte big-endian image. -/
def be : Nat → Nat → List UInt8
  | 0, _ => []
  | n + 1, v => be n (v / 256) ++ [UInt8.ofNat (v % 256)]

/-- Message header on the wire: the timestamp has 48 bits. -/
def Hdr.wire (h : Hdr) : List UInt8 := [h.type] ++ be 2 h.locate ++ be 2 h.tracking ++ be 6 h.timestamp

/-- Wire image of a message. `tail` is what the wire has and the message structures do not: the last three bytes of
the 4-byte fields Reason ('H') and Attribution ('F'). -/
def Msg.wire (tail : List UInt8) : Msg → List UInt8
  | .systemEvent h c => h.wire ++ [c]
  | .stockDirectory h stock mc fs rls rlo ic ist au ss ipo tier etp lev inv =>
    h.wire ++ stock ++ [mc, fs] ++ be 4 rls ++ [rlo, ic] ++ ist ++ [au, ss, ipo, tier, etp] ++ be 4 lev ++ [inv]
  | .tradingAction h stock st rs reason => h.wire ++ stock ++ [st, rs, reason] ++ tail
  | .regSHO h stock a => h.wire ++ stock ++ [a]
  | .participantPosition h mpid stock p m s => h.wire ++ mpid ++ stock ++ [p, m, s]
  | .mwcbDecline h a b c => h.wire ++ be 8 a ++ be 8 b ++ be 8 c
  | .mwcbStatus h l => h.wire ++ [l]
  | .ipoQuoting h stock t q p => h.wire ++ stock ++ be 4 t ++ [q] ++ be 4 p
  | .addOrder h ref side shares stock price => h.wire ++ be 8 ref ++ [side] ++ be 4 shares ++ stock ++ be 4 price
  | .addOrderMPID h ref side shares stock price a =>
    h.wire ++ be 8 ref ++ [side] ++ be 4 shares ++ stock ++ be 4 price ++ [a] ++ tail
  | .orderExecuted h ref shares mn => h.wire ++ be 8 ref ++ be 4 shares ++ be 8 mn
  | .orderExecutedWithPrice h ref shares mn pr price =>
    h.wire ++ be 8 ref ++ be 4 shares ++ be 8 mn ++ [pr] ++ be 4 price
  | .orderCancel h ref shares => h.wire ++ be 8 ref ++ be 4 shares
  | .orderDelete h ref => h.wire ++ be 8 ref
  | .orderReplace h o n shares price => h.wire ++ be 8 o ++ be 8 n ++ be 4 shares ++ be 4 price
  | .trade h ref side shares stock price mn =>
    h.wire ++ be 8 ref ++ [side] ++ be 4 shares ++ stock ++ be 4 price ++ be 8 mn
  | .crossTrade h shares stock price mn ct => h.wire ++ be 8 shares ++ stock ++ be 4 price ++ be 8 mn ++ [ct]
  | .brokenTrade h mn => h.wire ++ be 8 mn
  | .noii h p i d stock far near cur ct pv =>
    h.wire ++ be 8 p ++ be 8 i ++ [d] ++ stock ++ be 4 far ++ be 4 near ++ be 4 cur ++ [ct, pv]
  | .rpii h stock i => h.wire ++ stock ++ [i]
  | .luldCollar h stock r u l e => h.wire ++ stock ++ be 4 r ++ be 4 u ++ be 4 l ++ be 4 e
  | .unknown t => [t]

/-- The message type letters. -/
def known : List UInt8 :=
  ['S', 'R', 'H', 'Y', 'L', 'V', 'W', 'K', 'A', 'F', 'E', 'C', 'X', 'D', 'U', 'P', 'Q', 'B', 'I', 'N', 'J'].map
    (fun c => UInt8.ofNat c.toNat)

/-- Header with the given type letter and field values that fit. -/
def Hdr.Fits (h : Hdr) (c : Char) : Prop :=
  h.type = UInt8.ofNat c.toNat ∧ h.locate < 256 ^ 2 ∧ h.tracking < 256 ^ 2 ∧ h.timestamp < 256 ^ 6

/-- A message whose type letter belongs to its structure and whose field values fit their wire fields. -/
def Msg.Fits : Msg → Prop
  | .systemEvent h _ => h.Fits 'S'
  | .stockDirectory h stock _ _ rls _ _ ist _ _ _ _ _ lev _ =>
    h.Fits 'R' ∧ stock.length = 8 ∧ rls < 256 ^ 4 ∧ ist.length = 2 ∧ lev < 256 ^ 4
  | .tradingAction h stock _ _ _ => h.Fits 'H' ∧ stock.length = 8
  | .regSHO h stock _ => h.Fits 'Y' ∧ stock.length = 8
  | .participantPosition h mpid stock _ _ _ => h.Fits 'L' ∧ mpid.length = 4 ∧ stock.length = 8
  | .mwcbDecline h a b c => h.Fits 'V' ∧ a < 256 ^ 8 ∧ b < 256 ^ 8 ∧ c < 256 ^ 8
  | .mwcbStatus h _ => h.Fits 'W'
  | .ipoQuoting h stock t _ p => h.Fits 'K' ∧ stock.length = 8 ∧ t < 256 ^ 4 ∧ p < 256 ^ 4
  | .addOrder h ref _ shares stock price =>
    h.Fits 'A' ∧ ref < 256 ^ 8 ∧ shares < 256 ^ 4 ∧ stock.length = 8 ∧ price < 256 ^ 4
  | .addOrderMPID h ref _ shares stock price _ =>
    h.Fits 'F' ∧ ref < 256 ^ 8 ∧ shares < 256 ^ 4 ∧ stock.length = 8 ∧ price < 256 ^ 4
  | .orderExecuted h ref shares mn => h.Fits 'E' ∧ ref < 256 ^ 8 ∧ shares < 256 ^ 4 ∧ mn < 256 ^ 8
  | .orderExecutedWithPrice h ref shares mn _ price =>
    h.Fits 'C' ∧ ref < 256 ^ 8 ∧ shares < 256 ^ 4 ∧ mn < 256 ^ 8 ∧ price < 256 ^ 4
  | .orderCancel h ref shares => h.Fits 'X' ∧ ref < 256 ^ 8 ∧ shares < 256 ^ 4
  | .orderDelete h ref => h.Fits 'D' ∧ ref < 256 ^ 8
  | .orderReplace h o n shares price =>
    h.Fits 'U' ∧ o < 256 ^ 8 ∧ n < 256 ^ 8 ∧ shares < 256 ^ 4 ∧ price < 256 ^ 4
  | .trade h ref _ shares stock price mn =>
    h.Fits 'P' ∧ ref < 256 ^ 8 ∧ shares < 256 ^ 4 ∧ stock.length = 8 ∧ price < 256 ^ 4 ∧ mn < 256 ^ 8
  | .crossTrade h shares stock price mn _ =>
    h.Fits 'Q' ∧ shares < 256 ^ 8 ∧ stock.length = 8 ∧ price < 256 ^ 4 ∧ mn < 256 ^ 8
  | .brokenTrade h mn => h.Fits 'B' ∧ mn < 256 ^ 8
  | .noii h p i _ stock far near cur _ _ =>
    h.Fits 'I' ∧ p < 256 ^ 8 ∧ i < 256 ^ 8 ∧ stock.length = 8 ∧ far < 256 ^ 4 ∧ near < 256 ^ 4 ∧ cur < 256 ^ 4
  | .rpii h stock _ => h.Fits 'N' ∧ stock.length = 8
  | .luldCollar h stock r u l e =>
    h.Fits 'J' ∧ stock.length = 8 ∧ r < 256 ^ 4 ∧ u < 256 ^ 4 ∧ l < 256 ^ 4 ∧ e < 256 ^ 4
  | .unknown t => t ∉ known

/-- Only the upper 24 of the 48 timestamp bits are decoded. -/
def Hdr.cut (h : Hdr) : Hdr := { h with timestamp := h.timestamp / 256 ^ 3 }
def Msg.mapHdr (f : Hdr → Hdr) : Msg → Msg
  | .systemEvent h c => .systemEvent (f h) c
  | .stockDirectory h a b c d e g i j k l m n o p => .stockDirectory (f h) a b c d e g i j k l m n o p
  | .tradingAction h a b c d => .tradingAction (f h) a b c d
  | .regSHO h a b => .regSHO (f h) a b
  | .participantPosition h a b c d e => .participantPosition (f h) a b c d e
  | .mwcbDecline h a b c => .mwcbDecline (f h) a b c
  | .mwcbStatus h a => .mwcbStatus (f h) a
  | .ipoQuoting h a b c d => .ipoQuoting (f h) a b c d
  | .addOrder h a b c d e => .addOrder (f h) a b c d e
  | .addOrderMPID h a b c d e g => .addOrderMPID (f h) a b c d e g
  | .orderExecuted h a b c => .orderExecuted (f h) a b c
  | .orderExecutedWithPrice h a b c d e => .orderExecutedWithPrice (f h) a b c d e
  | .orderCancel h a b => .orderCancel (f h) a b
  | .orderDelete h a => .orderDelete (f h) a
  | .orderReplace h a b c d => .orderReplace (f h) a b c d
  | .trade h a b c d e g => .trade (f h) a b c d e g
  | .crossTrade h a b c d e => .crossTrade (f h) a b c d e
  | .brokenTrade h a => .brokenTrade (f h) a
  | .noii h a b c d e g i j k => .noii (f h) a b c d e g i j k
  | .rpii h a b => .rpii (f h) a b
  | .luldCollar h a b c d e => .luldCollar (f h) a b c d e
  | .unknown t => .unknown t

/-! ### Lemmas -/

@[simp] theorem length_be (n v : Nat) : (be n v).length = n := by
  induction n generalizing v with
  | zero => rfl
  | succ n ih => simp [be, ih]

theorem beVal_append (a b : List UInt8) : beVal (a ++ b) = beVal a * 256 ^ b.length + beVal b := by
  unfold beVal
  rw [List.foldl_append]
  generalize List.foldl (fun acc b => acc * 256 + UInt8.toNat b) 0 a = x
  suffices h : ∀ (b : List UInt8) (x : Nat), List.foldl (fun acc b => acc * 256 + UInt8.toNat b) x b =
      x * 256 ^ b.length + List.foldl (fun acc b => acc * 256 + UInt8.toNat b) 0 b from h b x
  intro b
  induction b with
  | nil => intro x; simp
  | cons c b ih =>
    intro x
    simp only [List.foldl_cons, List.length_cons]
    rw [ih (x * 256 + c.toNat), ih (0 * 256 + c.toNat)]
    simp only [Nat.pow_succ, Nat.add_mul, Nat.zero_mul, Nat.zero_add, Nat.mul_assoc, Nat.add_assoc]
    rw [Nat.mul_comm 256 (256 ^ b.length)]

theorem beVal_be (n v : Nat) (h : v < 256 ^ n) : beVal (be n v) = v := by
  induction n generalizing v with
  | zero => simp at h; subst h; rfl
  | succ n ih =>
    rw [be, beVal_append, ih (v / 256) (by rw [Nat.pow_succ] at h; omega)]
    have : beVal [UInt8.ofNat (v % 256)] = v % 256 := by simp [beVal]
    rw [this]; simp; omega

theorem be_add (n m v : Nat) : be (n + m) v = be n (v / 256 ^ m) ++ be m v := by
  induction m generalizing v with
  | zero => simp [be]
  | succ m ih =>
    rw [show n + (m + 1) = (n + m) + 1 by omega, be, be, ih, List.append_assoc, Nat.div_div_eq_div_mul,
      Nat.pow_succ, Nat.mul_comm (256 ^ m) 256]

theorem chr_app (b : UInt8) (d) : chr (b :: d) = .ok (b, d) := rfl
theorem str_app (s d : List UInt8) (n : Nat) (h : s.length = n) : str n (s ++ d) = .ok (s, d) := by
  subst h; simp [str]
theorem uint_app (n v : Nat) (d : List UInt8) (h : v < 256 ^ n) : uint n (be n v ++ d) = .ok (v, d) := by
  unfold uint
  have h1 : n ≤ (be n v ++ d).length := by simp
  have h2 : (be n v ++ d).take n = be n v := by
    have := List.take_left (l₁ := be n v) (l₂ := d); rwa [length_be] at this
  have h3 : (be n v ++ d).drop n = d := by
    have := List.drop_left (l₁ := be n v) (l₂ := d); rwa [length_be] at this
  rw [if_pos h1, h2, h3, beVal_be n v h]
theorem str_end (s : List UInt8) (n : Nat) (h : s.length = n) : str n s = .ok (s, []) := by
  have := str_app s [] n h; rwa [List.append_nil] at this
theorem uint_end (n v : Nat) (h : v < 256 ^ n) : uint n (be n v) = .ok (v, []) := by
  have := uint_app n v [] h; rwa [List.append_nil] at this
theorem ts_app (v : Nat) (d : List UInt8) (h : v < 256 ^ 6) :
    timestamp (be 6 v ++ d) = .ok (v / 256 ^ 3, d) := by
  unfold timestamp
  have h1 : 6 ≤ (be 6 v ++ d).length := by simp
  have h3 : (be 6 v ++ d).drop 6 = d := by
    have := List.drop_left (l₁ := be 6 v) (l₂ := d); rwa [length_be] at this
  have h2 : (be 6 v ++ d).take 3 = be 3 (v / 256 ^ 3) := by
    rw [show (6 : Nat) = 3 + 3 by rfl, be_add, List.append_assoc]
    have := List.take_left (l₁ := be 3 (v / 256 ^ 3)) (l₂ := be 3 v ++ d); rwa [length_be] at this
  rw [if_pos h1, h2, h3, beVal_be _ _ (by omega)]

theorem bind_ok {α β : Type} {r : Rd α} {f : α → Rd β} {d d' : List UInt8} {a : α} (h : r d = .ok (a, d')) :
    (r >>= f) d = f a d' := by
  show Rd.bind r f d = _
  simp [Rd.bind, h]
theorem pure_ok {α : Type} (a : α) (d : List UInt8) : (pure a : Rd α) d = .ok (a, d) := rfl

theorem hdr_app (h : Hdr) (c : Char) (d : List UInt8) (hf : h.Fits c) : hdr (h.wire ++ d) = .ok (h.cut, d) := by
  obtain ⟨h1, h2, h3, h4⟩ := hf
  unfold hdr Hdr.wire
  simp only [List.append_assoc, List.cons_append, List.nil_append]
  rw [bind_ok (chr_app _ _), bind_ok (uint_app 2 _ _ h2), bind_ok (uint_app 2 _ _ h3), bind_ok (ts_app _ _ h4)]
  rfl

@[simp] theorem length_hdr (h : Hdr) : h.wire.length = 11 := by simp [Hdr.wire]

theorem wire_cons (h : Hdr) (d : List UInt8) : ∃ r, h.wire ++ d = h.type :: r := ⟨_, rfl⟩

/-- A sized read of a buffer that has the declared size. -/
theorem sized_ok {n : Nat} {r : Rd Msg} {d d' : List UInt8} {m : Msg} (hl : d.length = n)
    (h : r d = .ok (m, d')) : sized n r d = .ok (some m) := by
  simp [sized, hl, h]

/-- Dispatch on the type letter. -/
theorem decode_cons (t : UInt8) (d : List UInt8) (hd : d.head? = some t) : decode d =
    if t = 83 then sized 12 rdSystemEvent d
    else if t = 82 then sized 39 rdStockDirectory d
    else if t = 72 then sized 25 rdTradingAction d
    else if t = 89 then sized 20 rdRegSHO d
    else if t = 76 then sized 26 rdParticipantPosition d
    else if t = 86 then sized 35 rdMwcbDecline d
    else if t = 87 then sized 12 rdMwcbStatus d
    else if t = 75 then sized 28 rdIpoQuoting d
    else if t = 65 then sized 36 rdAddOrder d
    else if t = 70 then sized 40 rdAddOrderMPID d
    else if t = 69 then sized 31 rdOrderExecuted d
    else if t = 67 then sized 36 rdOrderExecutedWithPrice d
    else if t = 88 then sized 23 rdOrderCancel d
    else if t = 68 then sized 19 rdOrderDelete d
    else if t = 85 then sized 35 rdOrderReplace d
    else if t = 80 then sized 44 rdTrade d
    else if t = 81 then sized 40 rdCrossTrade d
    else if t = 66 then sized 19 rdBrokenTrade d
    else if t = 73 then sized 50 rdNoii d
    else if t = 78 then sized 20 rdRpii d
    else if t = 74 then sized 35 rdLuldCollar d
    else .ok (some (.unknown t)) := by
  cases d with
  | nil => simp at hd
  | cons a d => simp at hd; subst hd; rfl

/-- Run all reads of a message whose parts are laid out in order. -/
local macro "read_all" : tactic => `(tactic|
  ((try simp only [List.append_assoc, List.cons_append, List.nil_append]);
   repeat (first
    | rw [bind_ok (hdr_app _ _ _ (by assumption))]
    | rw [bind_ok (chr_app _ _)]
    | rw [bind_ok (uint_app _ _ _ (by assumption))]
    | rw [bind_ok (str_app _ _ _ (by assumption))]
    | rw [bind_ok (uint_end _ _ (by assumption))]
    | rw [bind_ok (str_end _ _ (by assumption))]);
   rfl))

theorem decode_systemEvent h a (tail : List UInt8) (_ht : tail.length = 3) (hf : (Msg.systemEvent h a).Fits) :
    decode ((Msg.systemEvent h a).wire tail) = .ok (some (.systemEvent h.cut a)) := by
  simp only [Msg.Fits] at hf
  have hh := hf
  have hr : rdSystemEvent ((Msg.systemEvent h a).wire tail) = .ok (.systemEvent h.cut a, []) := by
    unfold rdSystemEvent; simp only [Msg.wire]; read_all
  have hl : ((Msg.systemEvent h a).wire tail).length = 12 := by simp [Msg.wire]
  have key := sized_ok hl hr
  have h0 := hh.1
  generalize hw : Msg.wire tail _ = w at key ⊢
  rw [decode_cons h.type w (by rw [← hw]; rfl)]
  rw [h0, if_pos (by decide)]
  exact key

theorem decode_stockDirectory h a b c d e g i j k l m n o p (tail : List UInt8) (_ht : tail.length = 3) (hf : (Msg.stockDirectory h a b c d e g i j k l m n o p).Fits) :
    decode ((Msg.stockDirectory h a b c d e g i j k l m n o p).wire tail) = .ok (some (.stockDirectory h.cut a b c d e g i j k l m n o p)) := by
  simp only [Msg.Fits] at hf
  obtain ⟨hh, f0, f1, f2, f3⟩ := hf
  have hr : rdStockDirectory ((Msg.stockDirectory h a b c d e g i j k l m n o p).wire tail) = .ok (.stockDirectory h.cut a b c d e g i j k l m n o p, []) := by
    unfold rdStockDirectory; simp only [Msg.wire]; read_all
  have hl : ((Msg.stockDirectory h a b c d e g i j k l m n o p).wire tail).length = 39 := by simp [Msg.wire, f0, f2]
  have key := sized_ok hl hr
  have h0 := hh.1
  generalize hw : Msg.wire tail _ = w at key ⊢
  rw [decode_cons h.type w (by rw [← hw]; rfl)]
  rw [h0, if_neg (by decide), if_pos (by decide)]
  exact key

theorem decode_tradingAction h a b c d (tail : List UInt8) (ht : tail.length = 3) (hf : (Msg.tradingAction h a b c d).Fits) :
    decode ((Msg.tradingAction h a b c d).wire tail) = .ok (some (.tradingAction h.cut a b c d)) := by
  simp only [Msg.Fits] at hf
  obtain ⟨hh, f0⟩ := hf
  have hr : rdTradingAction ((Msg.tradingAction h a b c d).wire tail) = .ok (.tradingAction h.cut a b c d, tail) := by
    unfold rdTradingAction; simp only [Msg.wire]; read_all
  have hl : ((Msg.tradingAction h a b c d).wire tail).length = 25 := by simp [Msg.wire, f0, ht]
  have key := sized_ok hl hr
  have h0 := hh.1
  generalize hw : Msg.wire tail _ = w at key ⊢
  rw [decode_cons h.type w (by rw [← hw]; rfl)]
  rw [h0, if_neg (by decide), if_neg (by decide), if_pos (by decide)]
  exact key

theorem decode_regSHO h a b (tail : List UInt8) (_ht : tail.length = 3) (hf : (Msg.regSHO h a b).Fits) :
    decode ((Msg.regSHO h a b).wire tail) = .ok (some (.regSHO h.cut a b)) := by
  simp only [Msg.Fits] at hf
  obtain ⟨hh, f0⟩ := hf
  have hr : rdRegSHO ((Msg.regSHO h a b).wire tail) = .ok (.regSHO h.cut a b, []) := by
    unfold rdRegSHO; simp only [Msg.wire]; read_all
  have hl : ((Msg.regSHO h a b).wire tail).length = 20 := by simp [Msg.wire, f0]
  have key := sized_ok hl hr
  have h0 := hh.1
  generalize hw : Msg.wire tail _ = w at key ⊢
  rw [decode_cons h.type w (by rw [← hw]; rfl)]
  rw [h0, if_neg (by decide), if_neg (by decide), if_neg (by decide), if_pos (by decide)]
  exact key

theorem decode_participantPosition h a b c d e (tail : List UInt8) (_ht : tail.length = 3) (hf : (Msg.participantPosition h a b c d e).Fits) :
    decode ((Msg.participantPosition h a b c d e).wire tail) = .ok (some (.participantPosition h.cut a b c d e)) := by
  simp only [Msg.Fits] at hf
  obtain ⟨hh, f0, f1⟩ := hf
  have hr : rdParticipantPosition ((Msg.participantPosition h a b c d e).wire tail) = .ok (.participantPosition h.cut a b c d e, []) := by
    unfold rdParticipantPosition; simp only [Msg.wire]; read_all
  have hl : ((Msg.participantPosition h a b c d e).wire tail).length = 26 := by simp [Msg.wire, f0, f1]
  have key := sized_ok hl hr
  have h0 := hh.1
  generalize hw : Msg.wire tail _ = w at key ⊢
  rw [decode_cons h.type w (by rw [← hw]; rfl)]
  rw [h0, if_neg (by decide), if_neg (by decide), if_neg (by decide), if_neg (by decide), if_pos (by decide)]
  exact key

theorem decode_mwcbDecline h a b c (tail : List UInt8) (_ht : tail.length = 3) (hf : (Msg.mwcbDecline h a b c).Fits) :
    decode ((Msg.mwcbDecline h a b c).wire tail) = .ok (some (.mwcbDecline h.cut a b c)) := by
  simp only [Msg.Fits] at hf
  obtain ⟨hh, f0, f1, f2⟩ := hf
  have hr : rdMwcbDecline ((Msg.mwcbDecline h a b c).wire tail) = .ok (.mwcbDecline h.cut a b c, []) := by
    unfold rdMwcbDecline; simp only [Msg.wire]; read_all
  have hl : ((Msg.mwcbDecline h a b c).wire tail).length = 35 := by simp [Msg.wire]
  have key := sized_ok hl hr
  have h0 := hh.1
  generalize hw : Msg.wire tail _ = w at key ⊢
  rw [decode_cons h.type w (by rw [← hw]; rfl)]
  rw [h0, if_neg (by decide), if_neg (by decide), if_neg (by decide), if_neg (by decide), if_neg (by decide), if_pos (by decide)]
  exact key

theorem decode_mwcbStatus h a (tail : List UInt8) (_ht : tail.length = 3) (hf : (Msg.mwcbStatus h a).Fits) :
    decode ((Msg.mwcbStatus h a).wire tail) = .ok (some (.mwcbStatus h.cut a)) := by
  simp only [Msg.Fits] at hf
  have hh := hf
  have hr : rdMwcbStatus ((Msg.mwcbStatus h a).wire tail) = .ok (.mwcbStatus h.cut a, []) := by
    unfold rdMwcbStatus; simp only [Msg.wire]; read_all
  have hl : ((Msg.mwcbStatus h a).wire tail).length = 12 := by simp [Msg.wire]
  have key := sized_ok hl hr
  have h0 := hh.1
  generalize hw : Msg.wire tail _ = w at key ⊢
  rw [decode_cons h.type w (by rw [← hw]; rfl)]
  rw [h0, if_neg (by decide), if_neg (by decide), if_neg (by decide), if_neg (by decide), if_neg (by decide), if_neg (by decide), if_pos (by decide)]
  exact key

theorem decode_ipoQuoting h a b c d (tail : List UInt8) (_ht : tail.length = 3) (hf : (Msg.ipoQuoting h a b c d).Fits) :
    decode ((Msg.ipoQuoting h a b c d).wire tail) = .ok (some (.ipoQuoting h.cut a b c d)) := by
  simp only [Msg.Fits] at hf
  obtain ⟨hh, f0, f1, f2⟩ := hf
  have hr : rdIpoQuoting ((Msg.ipoQuoting h a b c d).wire tail) = .ok (.ipoQuoting h.cut a b c d, []) := by
    unfold rdIpoQuoting; simp only [Msg.wire]; read_all
  have hl : ((Msg.ipoQuoting h a b c d).wire tail).length = 28 := by simp [Msg.wire, f0]
  have key := sized_ok hl hr
  have h0 := hh.1
  generalize hw : Msg.wire tail _ = w at key ⊢
  rw [decode_cons h.type w (by rw [← hw]; rfl)]
  rw [h0, if_neg (by decide), if_neg (by decide), if_neg (by decide), if_neg (by decide), if_neg (by decide), if_neg (by decide), if_neg (by decide), if_pos (by decide)]
  exact key

theorem decode_addOrder h a b c d e (tail : List UInt8) (_ht : tail.length = 3) (hf : (Msg.addOrder h a b c d e).Fits) :
    decode ((Msg.addOrder h a b c d e).wire tail) = .ok (some (.addOrder h.cut a b c d e)) := by
  simp only [Msg.Fits] at hf
  obtain ⟨hh, f0, f1, f2, f3⟩ := hf
  have hr : rdAddOrder ((Msg.addOrder h a b c d e).wire tail) = .ok (.addOrder h.cut a b c d e, []) := by
    unfold rdAddOrder; simp only [Msg.wire]; read_all
  have hl : ((Msg.addOrder h a b c d e).wire tail).length = 36 := by simp [Msg.wire, f2]
  have key := sized_ok hl hr
  have h0 := hh.1
  generalize hw : Msg.wire tail _ = w at key ⊢
  rw [decode_cons h.type w (by rw [← hw]; rfl)]
  rw [h0, if_neg (by decide), if_neg (by decide), if_neg (by decide), if_neg (by decide), if_neg (by decide), if_neg (by decide), if_neg (by decide), if_neg (by decide), if_pos (by decide)]
  exact key

theorem decode_addOrderMPID h a b c d e g (tail : List UInt8) (ht : tail.length = 3) (hf : (Msg.addOrderMPID h a b c d e g).Fits) :
    decode ((Msg.addOrderMPID h a b c d e g).wire tail) = .ok (some (.addOrderMPID h.cut a b c d e g)) := by
  simp only [Msg.Fits] at hf
  obtain ⟨hh, f0, f1, f2, f3⟩ := hf
  have hr : rdAddOrderMPID ((Msg.addOrderMPID h a b c d e g).wire tail) = .ok (.addOrderMPID h.cut a b c d e g, tail) := by
    unfold rdAddOrderMPID; simp only [Msg.wire]; read_all
  have hl : ((Msg.addOrderMPID h a b c d e g).wire tail).length = 40 := by simp [Msg.wire, f2, ht]
  have key := sized_ok hl hr
  have h0 := hh.1
  generalize hw : Msg.wire tail _ = w at key ⊢
  rw [decode_cons h.type w (by rw [← hw]; rfl)]
  rw [h0, if_neg (by decide), if_neg (by decide), if_neg (by decide), if_neg (by decide), if_neg (by decide), if_neg (by decide), if_neg (by decide), if_neg (by decide), if_neg (by decide), if_pos (by decide)]
  exact key

theorem decode_orderExecuted h a b c (tail : List UInt8) (_ht : tail.length = 3) (hf : (Msg.orderExecuted h a b c).Fits) :
    decode ((Msg.orderExecuted h a b c).wire tail) = .ok (some (.orderExecuted h.cut a b c)) := by
  simp only [Msg.Fits] at hf
  obtain ⟨hh, f0, f1, f2⟩ := hf
  have hr : rdOrderExecuted ((Msg.orderExecuted h a b c).wire tail) = .ok (.orderExecuted h.cut a b c, []) := by
    unfold rdOrderExecuted; simp only [Msg.wire]; read_all
  have hl : ((Msg.orderExecuted h a b c).wire tail).length = 31 := by simp [Msg.wire]
  have key := sized_ok hl hr
  have h0 := hh.1
  generalize hw : Msg.wire tail _ = w at key ⊢
  rw [decode_cons h.type w (by rw [← hw]; rfl)]
  rw [h0, if_neg (by decide), if_neg (by decide), if_neg (by decide), if_neg (by decide), if_neg (by decide), if_neg (by decide), if_neg (by decide), if_neg (by decide), if_neg (by decide), if_neg (by decide), if_pos (by decide)]
  exact key

theorem decode_orderExecutedWithPrice h a b c d e (tail : List UInt8) (_ht : tail.length = 3) (hf : (Msg.orderExecutedWithPrice h a b c d e).Fits) :
    decode ((Msg.orderExecutedWithPrice h a b c d e).wire tail) = .ok (some (.orderExecutedWithPrice h.cut a b c d e)) := by
  simp only [Msg.Fits] at hf
  obtain ⟨hh, f0, f1, f2, f3⟩ := hf
  have hr : rdOrderExecutedWithPrice ((Msg.orderExecutedWithPrice h a b c d e).wire tail) = .ok (.orderExecutedWithPrice h.cut a b c d e, []) := by
    unfold rdOrderExecutedWithPrice; simp only [Msg.wire]; read_all
  have hl : ((Msg.orderExecutedWithPrice h a b c d e).wire tail).length = 36 := by simp [Msg.wire]
  have key := sized_ok hl hr
  have h0 := hh.1
  generalize hw : Msg.wire tail _ = w at key ⊢
  rw [decode_cons h.type w (by rw [← hw]; rfl)]
  rw [h0, if_neg (by decide), if_neg (by decide), if_neg (by decide), if_neg (by decide), if_neg (by decide), if_neg (by decide), if_neg (by decide), if_neg (by decide), if_neg (by decide), if_neg (by decide), if_neg (by decide), if_pos (by decide)]
  exact key

theorem decode_orderCancel h a b (tail : List UInt8) (_ht : tail.length = 3) (hf : (Msg.orderCancel h a b).Fits) :
    decode ((Msg.orderCancel h a b).wire tail) = .ok (some (.orderCancel h.cut a b)) := by
  simp only [Msg.Fits] at hf
  obtain ⟨hh, f0, f1⟩ := hf
  have hr : rdOrderCancel ((Msg.orderCancel h a b).wire tail) = .ok (.orderCancel h.cut a b, []) := by
    unfold rdOrderCancel; simp only [Msg.wire]; read_all
  have hl : ((Msg.orderCancel h a b).wire tail).length = 23 := by simp [Msg.wire]
  have key := sized_ok hl hr
  have h0 := hh.1
  generalize hw : Msg.wire tail _ = w at key ⊢
  rw [decode_cons h.type w (by rw [← hw]; rfl)]
  rw [h0, if_neg (by decide), if_neg (by decide), if_neg (by decide), if_neg (by decide), if_neg (by decide), if_neg (by decide), if_neg (by decide), if_neg (by decide), if_neg (by decide), if_neg (by decide), if_neg (by decide), if_neg (by decide), if_pos (by decide)]
  exact key

theorem decode_orderDelete h a (tail : List UInt8) (_ht : tail.length = 3) (hf : (Msg.orderDelete h a).Fits) :
    decode ((Msg.orderDelete h a).wire tail) = .ok (some (.orderDelete h.cut a)) := by
  simp only [Msg.Fits] at hf
  obtain ⟨hh, f0⟩ := hf
  have hr : rdOrderDelete ((Msg.orderDelete h a).wire tail) = .ok (.orderDelete h.cut a, []) := by
    unfold rdOrderDelete; simp only [Msg.wire]; read_all
  have hl : ((Msg.orderDelete h a).wire tail).length = 19 := by simp [Msg.wire]
  have key := sized_ok hl hr
  have h0 := hh.1
  generalize hw : Msg.wire tail _ = w at key ⊢
  rw [decode_cons h.type w (by rw [← hw]; rfl)]
  rw [h0, if_neg (by decide), if_neg (by decide), if_neg (by decide), if_neg (by decide), if_neg (by decide), if_neg (by decide), if_neg (by decide), if_neg (by decide), if_neg (by decide), if_neg (by decide), if_neg (by decide), if_neg (by decide), if_neg (by decide), if_pos (by decide)]
  exact key

theorem decode_orderReplace h a b c d (tail : List UInt8) (_ht : tail.length = 3) (hf : (Msg.orderReplace h a b c d).Fits) :
    decode ((Msg.orderReplace h a b c d).wire tail) = .ok (some (.orderReplace h.cut a b c d)) := by
  simp only [Msg.Fits] at hf
  obtain ⟨hh, f0, f1, f2, f3⟩ := hf
  have hr : rdOrderReplace ((Msg.orderReplace h a b c d).wire tail) = .ok (.orderReplace h.cut a b c d, []) := by
    unfold rdOrderReplace; simp only [Msg.wire]; read_all
  have hl : ((Msg.orderReplace h a b c d).wire tail).length = 35 := by simp [Msg.wire]
  have key := sized_ok hl hr
  have h0 := hh.1
  generalize hw : Msg.wire tail _ = w at key ⊢
  rw [decode_cons h.type w (by rw [← hw]; rfl)]
  rw [h0, if_neg (by decide), if_neg (by decide), if_neg (by decide), if_neg (by decide), if_neg (by decide), if_neg (by decide), if_neg (by decide), if_neg (by decide), if_neg (by decide), if_neg (by decide), if_neg (by decide), if_neg (by decide), if_neg (by decide), if_neg (by decide), if_pos (by decide)]
  exact key

theorem decode_trade h a b c d e g (tail : List UInt8) (_ht : tail.length = 3) (hf : (Msg.trade h a b c d e g).Fits) :
    decode ((Msg.trade h a b c d e g).wire tail) = .ok (some (.trade h.cut a b c d e g)) := by
  simp only [Msg.Fits] at hf
  obtain ⟨hh, f0, f1, f2, f3, f4⟩ := hf
  have hr : rdTrade ((Msg.trade h a b c d e g).wire tail) = .ok (.trade h.cut a b c d e g, []) := by
    unfold rdTrade; simp only [Msg.wire]; read_all
  have hl : ((Msg.trade h a b c d e g).wire tail).length = 44 := by simp [Msg.wire, f2]
  have key := sized_ok hl hr
  have h0 := hh.1
  generalize hw : Msg.wire tail _ = w at key ⊢
  rw [decode_cons h.type w (by rw [← hw]; rfl)]
  rw [h0, if_neg (by decide), if_neg (by decide), if_neg (by decide), if_neg (by decide), if_neg (by decide), if_neg (by decide), if_neg (by decide), if_neg (by decide), if_neg (by decide), if_neg (by decide), if_neg (by decide), if_neg (by decide), if_neg (by decide), if_neg (by decide), if_neg (by decide), if_pos (by decide)]
  exact key

theorem decode_crossTrade h a b c d e (tail : List UInt8) (_ht : tail.length = 3) (hf : (Msg.crossTrade h a b c d e).Fits) :
    decode ((Msg.crossTrade h a b c d e).wire tail) = .ok (some (.crossTrade h.cut a b c d e)) := by
  simp only [Msg.Fits] at hf
  obtain ⟨hh, f0, f1, f2, f3⟩ := hf
  have hr : rdCrossTrade ((Msg.crossTrade h a b c d e).wire tail) = .ok (.crossTrade h.cut a b c d e, []) := by
    unfold rdCrossTrade; simp only [Msg.wire]; read_all
  have hl : ((Msg.crossTrade h a b c d e).wire tail).length = 40 := by simp [Msg.wire, f1]
  have key := sized_ok hl hr
  have h0 := hh.1
  generalize hw : Msg.wire tail _ = w at key ⊢
  rw [decode_cons h.type w (by rw [← hw]; rfl)]
  rw [h0, if_neg (by decide), if_neg (by decide), if_neg (by decide), if_neg (by decide), if_neg (by decide), if_neg (by decide), if_neg (by decide), if_neg (by decide), if_neg (by decide), if_neg (by decide), if_neg (by decide), if_neg (by decide), if_neg (by decide), if_neg (by decide), if_neg (by decide), if_neg (by decide), if_pos (by decide)]
  exact key

theorem decode_brokenTrade h a (tail : List UInt8) (_ht : tail.length = 3) (hf : (Msg.brokenTrade h a).Fits) :
    decode ((Msg.brokenTrade h a).wire tail) = .ok (some (.brokenTrade h.cut a)) := by
  simp only [Msg.Fits] at hf
  obtain ⟨hh, f0⟩ := hf
  have hr : rdBrokenTrade ((Msg.brokenTrade h a).wire tail) = .ok (.brokenTrade h.cut a, []) := by
    unfold rdBrokenTrade; simp only [Msg.wire]; read_all
  have hl : ((Msg.brokenTrade h a).wire tail).length = 19 := by simp [Msg.wire]
  have key := sized_ok hl hr
  have h0 := hh.1
  generalize hw : Msg.wire tail _ = w at key ⊢
  rw [decode_cons h.type w (by rw [← hw]; rfl)]
  rw [h0, if_neg (by decide), if_neg (by decide), if_neg (by decide), if_neg (by decide), if_neg (by decide), if_neg (by decide), if_neg (by decide), if_neg (by decide), if_neg (by decide), if_neg (by decide), if_neg (by decide), if_neg (by decide), if_neg (by decide), if_neg (by decide), if_neg (by decide), if_neg (by decide), if_neg (by decide), if_pos (by decide)]
  exact key

theorem decode_noii h a b c d e g i j k (tail : List UInt8) (_ht : tail.length = 3) (hf : (Msg.noii h a b c d e g i j k).Fits) :
    decode ((Msg.noii h a b c d e g i j k).wire tail) = .ok (some (.noii h.cut a b c d e g i j k)) := by
  simp only [Msg.Fits] at hf
  obtain ⟨hh, f0, f1, f2, f3, f4, f5⟩ := hf
  have hr : rdNoii ((Msg.noii h a b c d e g i j k).wire tail) = .ok (.noii h.cut a b c d e g i j k, []) := by
    unfold rdNoii; simp only [Msg.wire]; read_all
  have hl : ((Msg.noii h a b c d e g i j k).wire tail).length = 50 := by simp [Msg.wire, f2]
  have key := sized_ok hl hr
  have h0 := hh.1
  generalize hw : Msg.wire tail _ = w at key ⊢
  rw [decode_cons h.type w (by rw [← hw]; rfl)]
  rw [h0, if_neg (by decide), if_neg (by decide), if_neg (by decide), if_neg (by decide), if_neg (by decide), if_neg (by decide), if_neg (by decide), if_neg (by decide), if_neg (by decide), if_neg (by decide), if_neg (by decide), if_neg (by decide), if_neg (by decide), if_neg (by decide), if_neg (by decide), if_neg (by decide), if_neg (by decide), if_neg (by decide), if_pos (by decide)]
  exact key

theorem decode_rpii h a b (tail : List UInt8) (_ht : tail.length = 3) (hf : (Msg.rpii h a b).Fits) :
    decode ((Msg.rpii h a b).wire tail) = .ok (some (.rpii h.cut a b)) := by
  simp only [Msg.Fits] at hf
  obtain ⟨hh, f0⟩ := hf
  have hr : rdRpii ((Msg.rpii h a b).wire tail) = .ok (.rpii h.cut a b, []) := by
    unfold rdRpii; simp only [Msg.wire]; read_all
  have hl : ((Msg.rpii h a b).wire tail).length = 20 := by simp [Msg.wire, f0]
  have key := sized_ok hl hr
  have h0 := hh.1
  generalize hw : Msg.wire tail _ = w at key ⊢
  rw [decode_cons h.type w (by rw [← hw]; rfl)]
  rw [h0, if_neg (by decide), if_neg (by decide), if_neg (by decide), if_neg (by decide), if_neg (by decide), if_neg (by decide), if_neg (by decide), if_neg (by decide), if_neg (by decide), if_neg (by decide), if_neg (by decide), if_neg (by decide), if_neg (by decide), if_neg (by decide), if_neg (by decide), if_neg (by decide), if_neg (by decide), if_neg (by decide), if_neg (by decide), if_pos (by decide)]
  exact key

theorem decode_luldCollar h a b c d e (tail : List UInt8) (_ht : tail.length = 3) (hf : (Msg.luldCollar h a b c d e).Fits) :
    decode ((Msg.luldCollar h a b c d e).wire tail) = .ok (some (.luldCollar h.cut a b c d e)) := by
  simp only [Msg.Fits] at hf
  obtain ⟨hh, f0, f1, f2, f3, f4⟩ := hf
  have hr : rdLuldCollar ((Msg.luldCollar h a b c d e).wire tail) = .ok (.luldCollar h.cut a b c d e, []) := by
    unfold rdLuldCollar; simp only [Msg.wire]; read_all
  have hl : ((Msg.luldCollar h a b c d e).wire tail).length = 35 := by simp [Msg.wire, f0]
  have key := sized_ok hl hr
  have h0 := hh.1
  generalize hw : Msg.wire tail _ = w at key ⊢
  rw [decode_cons h.type w (by rw [← hw]; rfl)]
  rw [h0, if_neg (by decide), if_neg (by decide), if_neg (by decide), if_neg (by decide), if_neg (by decide), if_neg (by decide), if_neg (by decide), if_neg (by decide), if_neg (by decide), if_neg (by decide), if_neg (by decide), if_neg (by decide), if_neg (by decide), if_neg (by decide), if_neg (by decide), if_neg (by decide), if_neg (by decide), if_neg (by decide), if_neg (by decide), if_neg (by decide), if_pos (by decide)]
  exact key

/-- C26: decoding the wire image of any message returns that message (with the timestamp cut to its upper 24 bits),
whatever the unread tail bytes of 'H' and 'F' are. -/
theorem decode_wire (m : Msg) (tail : List UInt8) (ht : tail.length = 3) (hf : m.Fits) :
    decode (m.wire tail) = .ok (some (m.mapHdr Hdr.cut)) := by
  cases m with
  | unknown t =>
    simp only [Msg.Fits, known] at hf
    simp at hf
    simp [Msg.wire, decode, hf, Msg.mapHdr]
  | systemEvent => exact decode_systemEvent _ _ tail ht hf
  | stockDirectory => exact decode_stockDirectory _ _ _ _ _ _ _ _ _ _ _ _ _ _ _ tail ht hf
  | tradingAction => exact decode_tradingAction _ _ _ _ _ tail ht hf
  | regSHO => exact decode_regSHO _ _ _ tail ht hf
  | participantPosition => exact decode_participantPosition _ _ _ _ _ _ tail ht hf
  | mwcbDecline => exact decode_mwcbDecline _ _ _ _ tail ht hf
  | mwcbStatus => exact decode_mwcbStatus _ _ tail ht hf
  | ipoQuoting => exact decode_ipoQuoting _ _ _ _ _ tail ht hf
  | addOrder => exact decode_addOrder _ _ _ _ _ _ tail ht hf
  | addOrderMPID => exact decode_addOrderMPID _ _ _ _ _ _ _ tail ht hf
  | orderExecuted => exact decode_orderExecuted _ _ _ _ tail ht hf
  | orderExecutedWithPrice => exact decode_orderExecutedWithPrice _ _ _ _ _ _ tail ht hf
  | orderCancel => exact decode_orderCancel _ _ _ tail ht hf
  | orderDelete => exact decode_orderDelete _ _ tail ht hf
  | orderReplace => exact decode_orderReplace _ _ _ _ _ tail ht hf
  | trade => exact decode_trade _ _ _ _ _ _ _ tail ht hf
  | crossTrade => exact decode_crossTrade _ _ _ _ _ _ tail ht hf
  | brokenTrade => exact decode_brokenTrade _ _ tail ht hf
  | noii => exact decode_noii _ _ _ _ _ _ _ _ _ _ tail ht hf
  | rpii => exact decode_rpii _ _ _ tail ht hf
  | luldCollar => exact decode_luldCollar _ _ _ _ _ _ tail ht hf

/-- C26 as stated in the ITCH specification (full 48-bit timestamp) is false: the low 24 bits are lost, two messages
that differ only in the nanoseconds decode to the same message. -/
theorem decode_timestamp_lossy : ∃ (m m' : Msg), m.Fits ∧ m'.Fits ∧ m ≠ m' ∧
    decode (m.wire [0, 0, 0]) = decode (m'.wire [0, 0, 0]) := by
  refine ⟨.orderDelete ⟨68, 1, 2, 34200000000000⟩ 7, .orderDelete ⟨68, 1, 2, 34200000000001⟩ 7, ?_, ?_, ?_, ?_⟩
  · simp [Msg.Fits, Hdr.Fits]
  · simp [Msg.Fits, Hdr.Fits]
  · simp
  · rw [decode_wire _ _ rfl (by simp [Msg.Fits, Hdr.Fits]), decode_wire _ _ rfl (by simp [Msg.Fits, Hdr.Fits])]
    simp [Msg.mapHdr, Hdr.cut]

-- a concrete message meets the hypotheses of `decode_wire`
example : (Msg.addOrder ⟨65, 1, 2, 34200000000000⟩ 12345 66 100 [65, 65, 80, 76, 32, 32, 32, 32] 1500000).Fits := by
  simp [Msg.Fits, Hdr.Fits]
example : (Msg.noii ⟨73, 1, 2, 0⟩ 1 2 66 [65, 65, 80, 76, 32, 32, 32, 32] 3 4 5 79 32).Fits := by
  simp [Msg.Fits, Hdr.Fits]
example : (Msg.unknown 122).Fits := by simp [Msg.Fits, known]

/-! ### C27: no read outside the message buffer -/

theorem chr_in {d : List UInt8} (h : 1 ≤ d.length) : ∃ b, chr d = .ok (b, d.drop 1) := by
  cases d with
  | nil => simp at h
  | cons b d => exact ⟨b, rfl⟩

/-- `r` reads exactly `n` bytes. -/
def Reads {α : Type} (n : Nat) (r : Rd α) : Prop := ∀ d : List UInt8, n ≤ d.length → ∃ a, r d = .ok (a, d.drop n)

theorem Reads.bind {α β : Type} {n m : Nat} {r : Rd α} {f : α → Rd β} (h : Reads n r) (h' : ∀ a, Reads m (f a)) :
    Reads (n + m) (r >>= f) := by
  intro d hd
  obtain ⟨a, ha⟩ := h d (by omega)
  obtain ⟨b, hb⟩ := h' a (d.drop n) (by simp; omega)
  exact ⟨b, by rw [bind_ok ha, hb, List.drop_drop]⟩
theorem reads_pure {α : Type} (a : α) : Reads 0 (pure a : Rd α) := fun d _ => ⟨a, by simp [pure_ok]⟩
theorem reads_chr : Reads 1 chr := fun _ h => chr_in h
theorem reads_uint (n) : Reads n (uint n) := fun d h => ⟨_, by simp only [uint, h, if_true]; rfl⟩
theorem reads_str (n) : Reads n (str n) := fun d h => ⟨_, by simp only [str, h, if_true]; rfl⟩
theorem reads_ts : Reads 6 timestamp := fun d h => ⟨_, by simp only [timestamp, h, if_true]; rfl⟩
theorem reads_hdr : Reads 11 hdr :=
  reads_chr.bind fun _ => (reads_uint 2).bind fun _ => (reads_uint 2).bind fun _ => reads_ts.bind fun _ => reads_pure _

theorem sized_safe {n k : Nat} {r : Rd Msg} (h : Reads k r) (hk : k ≤ n) (d : List UInt8) :
    (d.length ≠ n ∧ sized n r d = .ok none) ∨ (d.length = n ∧ ∃ m, sized n r d = .ok (some m)) := by
  by_cases hl : d.length = n
  · right
    obtain ⟨m, hm⟩ := h d (by omega)
    exact ⟨hl, m, sized_ok hl hm⟩
  · left; exact ⟨hl, by simp [sized, hl]⟩

theorem reads_systemEvent : Reads 12 rdSystemEvent :=
  reads_hdr.bind fun _ => reads_chr.bind fun _ => reads_pure _
theorem reads_stockDirectory : Reads 39 rdStockDirectory :=
  reads_hdr.bind fun _ => (reads_str 8).bind fun _ => reads_chr.bind fun _ => reads_chr.bind fun _ => (reads_uint 4).bind fun _ => reads_chr.bind fun _ => reads_chr.bind fun _ => (reads_str 2).bind fun _ => reads_chr.bind fun _ => reads_chr.bind fun _ => reads_chr.bind fun _ => reads_chr.bind fun _ => reads_chr.bind fun _ => (reads_uint 4).bind fun _ => reads_chr.bind fun _ => reads_pure _
theorem reads_tradingAction : Reads 22 rdTradingAction :=
  reads_hdr.bind fun _ => (reads_str 8).bind fun _ => reads_chr.bind fun _ => reads_chr.bind fun _ => reads_chr.bind fun _ => reads_pure _
theorem reads_regSHO : Reads 20 rdRegSHO :=
  reads_hdr.bind fun _ => (reads_str 8).bind fun _ => reads_chr.bind fun _ => reads_pure _
theorem reads_participantPosition : Reads 26 rdParticipantPosition :=
  reads_hdr.bind fun _ => (reads_str 4).bind fun _ => (reads_str 8).bind fun _ => reads_chr.bind fun _ => reads_chr.bind fun _ => reads_chr.bind fun _ => reads_pure _
theorem reads_mwcbDecline : Reads 35 rdMwcbDecline :=
  reads_hdr.bind fun _ => (reads_uint 8).bind fun _ => (reads_uint 8).bind fun _ => (reads_uint 8).bind fun _ => reads_pure _
theorem reads_mwcbStatus : Reads 12 rdMwcbStatus :=
  reads_hdr.bind fun _ => reads_chr.bind fun _ => reads_pure _
theorem reads_ipoQuoting : Reads 28 rdIpoQuoting :=
  reads_hdr.bind fun _ => (reads_str 8).bind fun _ => (reads_uint 4).bind fun _ => reads_chr.bind fun _ => (reads_uint 4).bind fun _ => reads_pure _
theorem reads_addOrder : Reads 36 rdAddOrder :=
  reads_hdr.bind fun _ => (reads_uint 8).bind fun _ => reads_chr.bind fun _ => (reads_uint 4).bind fun _ => (reads_str 8).bind fun _ => (reads_uint 4).bind fun _ => reads_pure _
theorem reads_addOrderMPID : Reads 37 rdAddOrderMPID :=
  reads_hdr.bind fun _ => (reads_uint 8).bind fun _ => reads_chr.bind fun _ => (reads_uint 4).bind fun _ => (reads_str 8).bind fun _ => (reads_uint 4).bind fun _ => reads_chr.bind fun _ => reads_pure _
theorem reads_orderExecuted : Reads 31 rdOrderExecuted :=
  reads_hdr.bind fun _ => (reads_uint 8).bind fun _ => (reads_uint 4).bind fun _ => (reads_uint 8).bind fun _ => reads_pure _
theorem reads_orderExecutedWithPrice : Reads 36 rdOrderExecutedWithPrice :=
  reads_hdr.bind fun _ => (reads_uint 8).bind fun _ => (reads_uint 4).bind fun _ => (reads_uint 8).bind fun _ => reads_chr.bind fun _ => (reads_uint 4).bind fun _ => reads_pure _
theorem reads_orderCancel : Reads 23 rdOrderCancel :=
  reads_hdr.bind fun _ => (reads_uint 8).bind fun _ => (reads_uint 4).bind fun _ => reads_pure _
theorem reads_orderDelete : Reads 19 rdOrderDelete :=
  reads_hdr.bind fun _ => (reads_uint 8).bind fun _ => reads_pure _
theorem reads_orderReplace : Reads 35 rdOrderReplace :=
  reads_hdr.bind fun _ => (reads_uint 8).bind fun _ => (reads_uint 8).bind fun _ => (reads_uint 4).bind fun _ => (reads_uint 4).bind fun _ => reads_pure _
theorem reads_trade : Reads 44 rdTrade :=
  reads_hdr.bind fun _ => (reads_uint 8).bind fun _ => reads_chr.bind fun _ => (reads_uint 4).bind fun _ => (reads_str 8).bind fun _ => (reads_uint 4).bind fun _ => (reads_uint 8).bind fun _ => reads_pure _
theorem reads_crossTrade : Reads 40 rdCrossTrade :=
  reads_hdr.bind fun _ => (reads_uint 8).bind fun _ => (reads_str 8).bind fun _ => (reads_uint 4).bind fun _ => (reads_uint 8).bind fun _ => reads_chr.bind fun _ => reads_pure _
theorem reads_brokenTrade : Reads 19 rdBrokenTrade :=
  reads_hdr.bind fun _ => (reads_uint 8).bind fun _ => reads_pure _
theorem reads_noii : Reads 50 rdNoii :=
  reads_hdr.bind fun _ => (reads_uint 8).bind fun _ => (reads_uint 8).bind fun _ => reads_chr.bind fun _ => (reads_str 8).bind fun _ => (reads_uint 4).bind fun _ => (reads_uint 4).bind fun _ => (reads_uint 4).bind fun _ => reads_chr.bind fun _ => reads_chr.bind fun _ => reads_pure _
theorem reads_rpii : Reads 20 rdRpii :=
  reads_hdr.bind fun _ => (reads_str 8).bind fun _ => reads_chr.bind fun _ => reads_pure _
theorem reads_luldCollar : Reads 35 rdLuldCollar :=
  reads_hdr.bind fun _ => (reads_str 8).bind fun _ => (reads_uint 4).bind fun _ => (reads_uint 4).bind fun _ => (reads_uint 4).bind fun _ => (reads_uint 4).bind fun _ => reads_pure _

/-- The declared sizes, per type letter. -/
def declaredSize (t : UInt8) : Option Nat :=
  if t = UInt8.ofNat 'S'.toNat then some 12
  else if t = UInt8.ofNat 'R'.toNat then some 39
  else if t = UInt8.ofNat 'H'.toNat then some 25
  else if t = UInt8.ofNat 'Y'.toNat then some 20
  else if t = UInt8.ofNat 'L'.toNat then some 26
  else if t = UInt8.ofNat 'V'.toNat then some 35
  else if t = UInt8.ofNat 'W'.toNat then some 12
  else if t = UInt8.ofNat 'K'.toNat then some 28
  else if t = UInt8.ofNat 'A'.toNat then some 36
  else if t = UInt8.ofNat 'F'.toNat then some 40
  else if t = UInt8.ofNat 'E'.toNat then some 31
  else if t = UInt8.ofNat 'C'.toNat then some 36
  else if t = UInt8.ofNat 'X'.toNat then some 23
  else if t = UInt8.ofNat 'D'.toNat then some 19
  else if t = UInt8.ofNat 'U'.toNat then some 35
  else if t = UInt8.ofNat 'P'.toNat then some 44
  else if t = UInt8.ofNat 'Q'.toNat then some 40
  else if t = UInt8.ofNat 'B'.toNat then some 19
  else if t = UInt8.ofNat 'I'.toNat then some 50
  else if t = UInt8.ofNat 'N'.toNat then some 20
  else if t = UInt8.ofNat 'J'.toNat then some 35
  else none

/-- C27 + C28: decoding any buffer of any length reads only inside the buffer (never `error`), and
* an empty buffer is rejected without a callback,
* a buffer with a known type letter is rejected when its length is not the declared size and yields one message otherwise,
* a buffer with an unknown type letter yields one unknown-message callback carrying that letter. -/
theorem decode_total (d : List UInt8) :
    (d = [] ∧ decode d = .ok none) ∨
    (∃ t r, d = t :: r ∧
      ((∃ n, declaredSize t = some n ∧ d.length ≠ n ∧ decode d = .ok none) ∨
       (∃ n m, declaredSize t = some n ∧ d.length = n ∧ decode d = .ok (some m)) ∨
       (declaredSize t = none ∧ decode d = .ok (some (.unknown t))))) := by
  cases d with
  | nil => left; exact ⟨rfl, rfl⟩
  | cons t r =>
    right
    refine ⟨t, r, rfl, ?_⟩
    have key : ∀ (n k : Nat) (rd : Rd Msg), Reads k rd → k ≤ n → declaredSize t = some n →
        decode (t :: r) = sized n rd (t :: r) →
      ((∃ n, declaredSize t = some n ∧ (t :: r).length ≠ n ∧ decode (t :: r) = .ok none) ∨
       (∃ n m, declaredSize t = some n ∧ (t :: r).length = n ∧ decode (t :: r) = .ok (some m)) ∨
       (declaredSize t = none ∧ decode (t :: r) = .ok (some (.unknown t)))) := by
      intro n k rd hrd hk hs hd
      rcases sized_safe hrd hk (t :: r) with ⟨h1, h2⟩ | ⟨h1, m, h2⟩
      · exact .inl ⟨n, hs, h1, hd.trans h2⟩
      · exact .inr (.inl ⟨n, m, hs, h1, hd.trans h2⟩)
    have hd := decode_cons t (t :: r) rfl
    by_cases hS : t = 83
    · exact key 12 12 rdSystemEvent reads_systemEvent (by decide) (by subst hS; decide) (by rw [hd, if_pos hS])
    by_cases hR : t = 82
    · exact key 39 39 rdStockDirectory reads_stockDirectory (by decide) (by subst hR; decide) (by rw [hd, if_neg hS, if_pos hR])
    by_cases hH : t = 72
    · exact key 25 22 rdTradingAction reads_tradingAction (by decide) (by subst hH; decide) (by rw [hd, if_neg hS, if_neg hR, if_pos hH])
    by_cases hY : t = 89
    · exact key 20 20 rdRegSHO reads_regSHO (by decide) (by subst hY; decide) (by rw [hd, if_neg hS, if_neg hR, if_neg hH, if_pos hY])
    by_cases hL : t = 76
    · exact key 26 26 rdParticipantPosition reads_participantPosition (by decide) (by subst hL; decide) (by rw [hd, if_neg hS, if_neg hR, if_neg hH, if_neg hY, if_pos hL])
    by_cases hV : t = 86
    · exact key 35 35 rdMwcbDecline reads_mwcbDecline (by decide) (by subst hV; decide) (by rw [hd, if_neg hS, if_neg hR, if_neg hH, if_neg hY, if_neg hL, if_pos hV])
    by_cases hW : t = 87
    · exact key 12 12 rdMwcbStatus reads_mwcbStatus (by decide) (by subst hW; decide) (by rw [hd, if_neg hS, if_neg hR, if_neg hH, if_neg hY, if_neg hL, if_neg hV, if_pos hW])
    by_cases hK : t = 75
    · exact key 28 28 rdIpoQuoting reads_ipoQuoting (by decide) (by subst hK; decide) (by rw [hd, if_neg hS, if_neg hR, if_neg hH, if_neg hY, if_neg hL, if_neg hV, if_neg hW, if_pos hK])
    by_cases hA : t = 65
    · exact key 36 36 rdAddOrder reads_addOrder (by decide) (by subst hA; decide) (by rw [hd, if_neg hS, if_neg hR, if_neg hH, if_neg hY, if_neg hL, if_neg hV, if_neg hW, if_neg hK, if_pos hA])
    by_cases hF : t = 70
    · exact key 40 37 rdAddOrderMPID reads_addOrderMPID (by decide) (by subst hF; decide) (by rw [hd, if_neg hS, if_neg hR, if_neg hH, if_neg hY, if_neg hL, if_neg hV, if_neg hW, if_neg hK, if_neg hA, if_pos hF])
    by_cases hE : t = 69
    · exact key 31 31 rdOrderExecuted reads_orderExecuted (by decide) (by subst hE; decide) (by rw [hd, if_neg hS, if_neg hR, if_neg hH, if_neg hY, if_neg hL, if_neg hV, if_neg hW, if_neg hK, if_neg hA, if_neg hF, if_pos hE])
    by_cases hC : t = 67
    · exact key 36 36 rdOrderExecutedWithPrice reads_orderExecutedWithPrice (by decide) (by subst hC; decide) (by rw [hd, if_neg hS, if_neg hR, if_neg hH, if_neg hY, if_neg hL, if_neg hV, if_neg hW, if_neg hK, if_neg hA, if_neg hF, if_neg hE, if_pos hC])
    by_cases hX : t = 88
    · exact key 23 23 rdOrderCancel reads_orderCancel (by decide) (by subst hX; decide) (by rw [hd, if_neg hS, if_neg hR, if_neg hH, if_neg hY, if_neg hL, if_neg hV, if_neg hW, if_neg hK, if_neg hA, if_neg hF, if_neg hE, if_neg hC, if_pos hX])
    by_cases hD : t = 68
    · exact key 19 19 rdOrderDelete reads_orderDelete (by decide) (by subst hD; decide) (by rw [hd, if_neg hS, if_neg hR, if_neg hH, if_neg hY, if_neg hL, if_neg hV, if_neg hW, if_neg hK, if_neg hA, if_neg hF, if_neg hE, if_neg hC, if_neg hX, if_pos hD])
    by_cases hU : t = 85
    · exact key 35 35 rdOrderReplace reads_orderReplace (by decide) (by subst hU; decide) (by rw [hd, if_neg hS, if_neg hR, if_neg hH, if_neg hY, if_neg hL, if_neg hV, if_neg hW, if_neg hK, if_neg hA, if_neg hF, if_neg hE, if_neg hC, if_neg hX, if_neg hD, if_pos hU])
    by_cases hP : t = 80
    · exact key 44 44 rdTrade reads_trade (by decide) (by subst hP; decide) (by rw [hd, if_neg hS, if_neg hR, if_neg hH, if_neg hY, if_neg hL, if_neg hV, if_neg hW, if_neg hK, if_neg hA, if_neg hF, if_neg hE, if_neg hC, if_neg hX, if_neg hD, if_neg hU, if_pos hP])
    by_cases hQ : t = 81
    · exact key 40 40 rdCrossTrade reads_crossTrade (by decide) (by subst hQ; decide) (by rw [hd, if_neg hS, if_neg hR, if_neg hH, if_neg hY, if_neg hL, if_neg hV, if_neg hW, if_neg hK, if_neg hA, if_neg hF, if_neg hE, if_neg hC, if_neg hX, if_neg hD, if_neg hU, if_neg hP, if_pos hQ])
    by_cases hB : t = 66
    · exact key 19 19 rdBrokenTrade reads_brokenTrade (by decide) (by subst hB; decide) (by rw [hd, if_neg hS, if_neg hR, if_neg hH, if_neg hY, if_neg hL, if_neg hV, if_neg hW, if_neg hK, if_neg hA, if_neg hF, if_neg hE, if_neg hC, if_neg hX, if_neg hD, if_neg hU, if_neg hP, if_neg hQ, if_pos hB])
    by_cases hI : t = 73
    · exact key 50 50 rdNoii reads_noii (by decide) (by subst hI; decide) (by rw [hd, if_neg hS, if_neg hR, if_neg hH, if_neg hY, if_neg hL, if_neg hV, if_neg hW, if_neg hK, if_neg hA, if_neg hF, if_neg hE, if_neg hC, if_neg hX, if_neg hD, if_neg hU, if_neg hP, if_neg hQ, if_neg hB, if_pos hI])
    by_cases hN : t = 78
    · exact key 20 20 rdRpii reads_rpii (by decide) (by subst hN; decide) (by rw [hd, if_neg hS, if_neg hR, if_neg hH, if_neg hY, if_neg hL, if_neg hV, if_neg hW, if_neg hK, if_neg hA, if_neg hF, if_neg hE, if_neg hC, if_neg hX, if_neg hD, if_neg hU, if_neg hP, if_neg hQ, if_neg hB, if_neg hI, if_pos hN])
    by_cases hJ : t = 74
    · exact key 35 35 rdLuldCollar reads_luldCollar (by decide) (by subst hJ; decide) (by rw [hd, if_neg hS, if_neg hR, if_neg hH, if_neg hY, if_neg hL, if_neg hV, if_neg hW, if_neg hK, if_neg hA, if_neg hF, if_neg hE, if_neg hC, if_neg hX, if_neg hD, if_neg hU, if_neg hP, if_neg hQ, if_neg hB, if_neg hI, if_neg hN, if_pos hJ])
    · refine .inr (.inr ⟨?_, by rw [hd, if_neg hS, if_neg hR, if_neg hH, if_neg hY, if_neg hL, if_neg hV, if_neg hW, if_neg hK, if_neg hA, if_neg hF, if_neg hE, if_neg hC, if_neg hX, if_neg hD, if_neg hU, if_neg hP, if_neg hQ, if_neg hB, if_neg hI, if_neg hN, if_neg hJ]⟩)
      simp [declaredSize, hS, hR, hH, hY, hL, hV, hW, hK, hA, hF, hE, hC, hX, hD, hU, hP, hQ, hB, hI, hN, hJ]

/-- C27: decoding never reads outside the buffer. -/
theorem decode_in_bounds (d : List UInt8) : ∃ r, decode d = .ok r := by
  rcases decode_total d with ⟨_, h⟩ | ⟨t, r, _, ⟨n, _, _, h⟩ | ⟨n, m, _, _, h⟩ | ⟨_, h⟩⟩ <;> exact ⟨_, h⟩

/-- C28: `ProcessMessage` calls the handler at most once: not at all when it rejects the buffer, otherwise once, and then
returns what the handler returned. -/
theorem processMessage_callbacks (h : Handler) (log : List Msg) (d : List UInt8) :
    (decode d = .ok none ∧ processMessage h log d = .ok (false, log)) ∨
    (∃ m, decode d = .ok (some m) ∧ processMessage h log d = .ok (h log m, log ++ [m])) := by
  obtain ⟨r, hr⟩ := decode_in_bounds d
  cases r with
  | none => exact .inl ⟨hr, by simp [processMessage, hr]⟩
  | some m => exact .inr ⟨m, hr, by simp [processMessage, hr]⟩

end CppTrader.Itch
