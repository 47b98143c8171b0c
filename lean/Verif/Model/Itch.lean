import Verif.Model.Book
/-
Model of include/trader/providers/nasdaq/itch_handler.h, itch_handler.inl and
source/trader/providers/nasdaq/itch_handler.cpp.
`char` fields are bytes, integers are `Nat`.
-/

namespace CppTrader.Itch

/-- The fields every message starts with (itch_handler.h:28-31 and the same four lines in each struct). -/
structure Hdr where
  type : UInt8
  locate : Nat
  tracking : Nat
  timestamp : Nat
  deriving DecidableEq, Repr

/-- itch_handler.h:25-372, the message structures; the argument order is the order of declaration. -/
inductive Msg where
  /-- itch_handler.h:26-36 -/
  | systemEvent (h : Hdr) (eventCode : UInt8)
  /-- itch_handler.h:39-62 -/
  | stockDirectory (h : Hdr) (stock : List UInt8) (marketCategory financialStatus : UInt8) (roundLotSize : Nat)
      (roundLotsOnly issueClassification : UInt8) (issueSubType : List UInt8)
      (authenticity shortSale ipoFlag luldTier etpFlag : UInt8) (etpLeverage : Nat) (inverse : UInt8)
  /-- itch_handler.h:65-78 -/
  | tradingAction (h : Hdr) (stock : List UInt8) (tradingState reserved reason : UInt8)
  /-- itch_handler.h:81-92 -/
  | regSHO (h : Hdr) (stock : List UInt8) (action : UInt8)
  /-- itch_handler.h:95-109 -/
  | participantPosition (h : Hdr) (mpid stock : List UInt8) (primaryMarketMaker mode state : UInt8)
  /-- itch_handler.h:112-124 -/
  | mwcbDecline (h : Hdr) (level1 level2 level3 : Nat)
  /-- itch_handler.h:127-137 -/
  | mwcbStatus (h : Hdr) (breachedLevel : UInt8)
  /-- itch_handler.h:140-153 -/
  | ipoQuoting (h : Hdr) (stock : List UInt8) (releaseTime : Nat) (qualifier : UInt8) (price : Nat)
  /-- itch_handler.h:156-170 -/
  | addOrder (h : Hdr) (ref : Nat) (side : UInt8) (shares : Nat) (stock : List UInt8) (price : Nat)
  /-- itch_handler.h:173-188 -/
  | addOrderMPID (h : Hdr) (ref : Nat) (side : UInt8) (shares : Nat) (stock : List UInt8) (price : Nat)
      (attribution : UInt8)
  /-- itch_handler.h:191-203 -/
  | orderExecuted (h : Hdr) (ref shares matchNumber : Nat)
  /-- itch_handler.h:206-220 -/
  | orderExecutedWithPrice (h : Hdr) (ref shares matchNumber : Nat) (printable : UInt8) (price : Nat)
  /-- itch_handler.h:223-234 -/
  | orderCancel (h : Hdr) (ref shares : Nat)
  /-- itch_handler.h:237-247 -/
  | orderDelete (h : Hdr) (ref : Nat)
  /-- itch_handler.h:250-263 -/
  | orderReplace (h : Hdr) (originalRef newRef shares price : Nat)
  /-- itch_handler.h:266-281 -/
  | trade (h : Hdr) (ref : Nat) (side : UInt8) (shares : Nat) (stock : List UInt8) (price matchNumber : Nat)
  /-- itch_handler.h:284-298 -/
  | crossTrade (h : Hdr) (shares : Nat) (stock : List UInt8) (price matchNumber : Nat) (crossType : UInt8)
  /-- itch_handler.h:301-311 -/
  | brokenTrade (h : Hdr) (matchNumber : Nat)
  /-- itch_handler.h:314-332 -/
  | noii (h : Hdr) (paired imbalance : Nat) (direction : UInt8) (stock : List UInt8) (far near current : Nat)
      (crossType priceVariation : UInt8)
  /-- itch_handler.h:335-346 -/
  | rpii (h : Hdr) (stock : List UInt8) (interest : UInt8)
  /-- itch_handler.h:349-363 -/
  | luldCollar (h : Hdr) (stock : List UInt8) (reference upper lower extension : Nat)
  /-- itch_handler.h:366-372 -/
  | unknown (type : UInt8)
  deriving DecidableEq, Repr

/-! ### Reading. The state is the rest of the message buffer; reading past its end is undefined behaviour. -/

abbrev Rd (α : Type) := List UInt8 → Except Err (α × List UInt8)

/-- Value of big-endian bytes. -/
def beVal (bs : List UInt8) : Nat := bs.foldl (fun acc b => acc * 256 + b.toNat) 0

/-- `memcpy(dst, data, n); data += n`: the common part of `ReadString` (itch_handler.inl:338-344). -/
def str (n : Nat) : Rd (List UInt8) := fun d =>
  if n ≤ d.length then .ok (d.take n, d.drop n) else .error .ub
/-- `*data++` -/
def chr : Rd UInt8 := fun d =>
  match d with
  | [] => .error .ub
  | b :: d => .ok (b, d)
/-- `CppCommon::Endian::ReadBigEndian(data, value)` for an `n`-byte integer (dependency, assumed). -/
def uint (n : Nat) : Rd Nat := fun d =>
  if n ≤ d.length then .ok (beVal (d.take n), d.drop n) else .error .ub
/-- itch_handler.inl:346-374 `ReadTimestamp`: bytes 0..2 of the buffer become bytes 2..0 of the value (little-endian
branch; the big-endian branch computes the same number), the pointer advances by 6. Modelled with all six bytes inside
the buffer (the C++ touches only three; every caller's size check guarantees six). -/
def timestamp : Rd Nat := fun d =>
  if 6 ≤ d.length then .ok (beVal (d.take 3), d.drop 6) else .error .ub

/-- Sequencing. -/
def Rd.bind {α β : Type} (r : Rd α) (f : α → Rd β) : Rd β := fun d =>
  match r d with
  | .error e => .error e
  | .ok (a, d') => f a d'
def Rd.pure {α : Type} (a : α) : Rd α := fun d => .ok (a, d)
instance : Monad Rd where
  pure := Rd.pure
  bind := Rd.bind

/-- The first four reads of every `Process…Message` (e.g. itch_handler.cpp:174-177). -/
def hdr : Rd Hdr := do
  let type ← chr
  let locate ← uint 2
  let tracking ← uint 2
  let ts ← timestamp
  return ⟨type, locate, tracking, ts⟩

/-- itch_handler.cpp:165-181 -/
def rdSystemEvent : Rd Msg := do
  let h ← hdr
  let eventCode ← chr
  return .systemEvent h eventCode
/-- itch_handler.cpp:183-212 -/
def rdStockDirectory : Rd Msg := do
  let h ← hdr
  let stock ← str 8
  let marketCategory ← chr
  let financialStatus ← chr
  let roundLotSize ← uint 4
  let roundLotsOnly ← chr
  let issueClassification ← chr
  let issueSubType ← str 2
  let authenticity ← chr
  let shortSale ← chr
  let ipoFlag ← chr
  let luldTier ← chr
  let etpFlag ← chr
  let etpLeverage ← uint 4
  let inverse ← chr
  return .stockDirectory h stock marketCategory financialStatus roundLotSize roundLotsOnly issueClassification
    issueSubType authenticity shortSale ipoFlag luldTier etpFlag etpLeverage inverse
/-- itch_handler.cpp:214-233: three of the four reason bytes are left unread. -/
def rdTradingAction : Rd Msg := do
  let h ← hdr
  let stock ← str 8
  let tradingState ← chr
  let reserved ← chr
  let reason ← chr
  return .tradingAction h stock tradingState reserved reason
/-- itch_handler.cpp:235-252 -/
def rdRegSHO : Rd Msg := do
  let h ← hdr
  let stock ← str 8
  let action ← chr
  return .regSHO h stock action
/-- itch_handler.cpp:254-274 -/
def rdParticipantPosition : Rd Msg := do
  let h ← hdr
  let mpid ← str 4
  let stock ← str 8
  let primary ← chr
  let mode ← chr
  let state ← chr
  return .participantPosition h mpid stock primary mode state
/-- itch_handler.cpp:276-294 -/
def rdMwcbDecline : Rd Msg := do
  let h ← hdr
  let l1 ← uint 8
  let l2 ← uint 8
  let l3 ← uint 8
  return .mwcbDecline h l1 l2 l3
/-- itch_handler.cpp:296-312 -/
def rdMwcbStatus : Rd Msg := do
  let h ← hdr
  let level ← chr
  return .mwcbStatus h level
/-- itch_handler.cpp:314-333 -/
def rdIpoQuoting : Rd Msg := do
  let h ← hdr
  let stock ← str 8
  let time ← uint 4
  let qualifier ← chr
  let price ← uint 4
  return .ipoQuoting h stock time qualifier price
/-- itch_handler.cpp:335-355 -/
def rdAddOrder : Rd Msg := do
  let h ← hdr
  let ref ← uint 8
  let side ← chr
  let shares ← uint 4
  let stock ← str 8
  let price ← uint 4
  return .addOrder h ref side shares stock price
/-- itch_handler.cpp:357-378: three of the four attribution bytes are left unread. -/
def rdAddOrderMPID : Rd Msg := do
  let h ← hdr
  let ref ← uint 8
  let side ← chr
  let shares ← uint 4
  let stock ← str 8
  let price ← uint 4
  let attribution ← chr
  return .addOrderMPID h ref side shares stock price attribution
/-- itch_handler.cpp:380-398 -/
def rdOrderExecuted : Rd Msg := do
  let h ← hdr
  let ref ← uint 8
  let shares ← uint 4
  let mn ← uint 8
  return .orderExecuted h ref shares mn
/-- itch_handler.cpp:400-420 -/
def rdOrderExecutedWithPrice : Rd Msg := do
  let h ← hdr
  let ref ← uint 8
  let shares ← uint 4
  let mn ← uint 8
  let printable ← chr
  let price ← uint 4
  return .orderExecutedWithPrice h ref shares mn printable price
/-- itch_handler.cpp:422-439 -/
def rdOrderCancel : Rd Msg := do
  let h ← hdr
  let ref ← uint 8
  let shares ← uint 4
  return .orderCancel h ref shares
/-- itch_handler.cpp:441-457 -/
def rdOrderDelete : Rd Msg := do
  let h ← hdr
  let ref ← uint 8
  return .orderDelete h ref
/-- itch_handler.cpp:459-478 -/
def rdOrderReplace : Rd Msg := do
  let h ← hdr
  let orig ← uint 8
  let new ← uint 8
  let shares ← uint 4
  let price ← uint 4
  return .orderReplace h orig new shares price
/-- itch_handler.cpp:480-501 -/
def rdTrade : Rd Msg := do
  let h ← hdr
  let ref ← uint 8
  let side ← chr
  let shares ← uint 4
  let stock ← str 8
  let price ← uint 4
  let mn ← uint 8
  return .trade h ref side shares stock price mn
/-- itch_handler.cpp:503-523 -/
def rdCrossTrade : Rd Msg := do
  let h ← hdr
  let shares ← uint 8
  let stock ← str 8
  let price ← uint 4
  let mn ← uint 8
  let crossType ← chr
  return .crossTrade h shares stock price mn crossType
/-- itch_handler.cpp:525-541 -/
def rdBrokenTrade : Rd Msg := do
  let h ← hdr
  let mn ← uint 8
  return .brokenTrade h mn
/-- itch_handler.cpp:543-567 -/
def rdNoii : Rd Msg := do
  let h ← hdr
  let paired ← uint 8
  let imbalance ← uint 8
  let direction ← chr
  let stock ← str 8
  let far ← uint 4
  let near ← uint 4
  let current ← uint 4
  let crossType ← chr
  let variation ← chr
  return .noii h paired imbalance direction stock far near current crossType variation
/-- itch_handler.cpp:569-586 -/
def rdRpii : Rd Msg := do
  let h ← hdr
  let stock ← str 8
  let interest ← chr
  return .rpii h stock interest
/-- itch_handler.cpp:588-608 -/
def rdLuldCollar : Rd Msg := do
  let h ← hdr
  let stock ← str 8
  let reference ← uint 4
  let upper ← uint 4
  let lower ← uint 4
  let extension ← uint 4
  return .luldCollar h stock reference upper lower extension

/-- What decoding one buffer gives: rejected without a callback, or one message for the handler. -/
abbrev Decoded := Except Err (Option Msg)

/-- `if (size != n) return false;` followed by the reads. -/
def sized (n : Nat) (r : Rd Msg) (d : List UInt8) : Decoded :=
  if d.length ≠ n then .ok none
  else match r d with
    | .error e => .error e
    | .ok (m, _) => .ok (some m)

/-- itch_handler.cpp:102-157 `ProcessMessage` and 610-622 `ProcessUnknownMessage`, up to the `onMessage` call.
The cases are ASCII codes: 'S' 83, 'R' 82, 'H' 72, 'Y' 89, 'L' 76, 'V' 86, 'W' 87, 'K' 75, 'A' 65, 'F' 70, 'E' 69,
'C' 67, 'X' 88, 'D' 68, 'U' 85, 'P' 80, 'Q' 81, 'B' 66, 'I' 73, 'N' 78, 'J' 74. -/
def decode (d : List UInt8) : Decoded :=
  match d with
  | [] => .ok none
  | t :: _ =>
    if t = 83 then sized 12 rdSystemEvent d
    else if t = 82 then sized 39 rdStockDirectory d
    else if t = 72 then sized 25 rdTradingAction d
    else if t = 89 then sized 20 rdRegSHO d
    else if t = 76 then sized 26 rdParticipantPosition d
    else if t = 86 then sized 35 rdMwcbDecline d
    else if t = 87 then sized 12 rdMwcbStatus d
    else if t = 75 then sized 28 rdIpoQuoting d
    else if t = 65 then sized 36 rdAddOrder d
    else if t = 70 then sized 40 rdAddOrderMPID d
    else if t = 69 then sized 31 rdOrderExecuted d
    else if t = 67 then sized 36 rdOrderExecutedWithPrice d
    else if t = 88 then sized 23 rdOrderCancel d
    else if t = 68 then sized 19 rdOrderDelete d
    else if t = 85 then sized 35 rdOrderReplace d
    else if t = 80 then sized 44 rdTrade d
    else if t = 81 then sized 40 rdCrossTrade d
    else if t = 66 then sized 19 rdBrokenTrade d
    else if t = 73 then sized 50 rdNoii d
    else if t = 78 then sized 20 rdRpii d
    else if t = 74 then sized 35 rdLuldCollar d
    else .ok (some (.unknown t))

/-- The user's `onMessage` overrides: the returned value may depend on the messages received before. -/
abbrev Handler := List Msg → Msg → Bool

/-- itch_handler.cpp:102-157 `ProcessMessage` with the handler call. The log lists the callbacks, oldest first. -/
def processMessage (h : Handler) (log : List Msg) (d : List UInt8) : Except Err (Bool × List Msg) :=
  match decode d with
  | .error e => .error e
  | .ok none => .ok (false, log)
  | .ok (some m) => .ok (h log m, log ++ [m])

/-- itch_handler.h:442-443: `_size`, `_cache`; plus the callback log. -/
structure St where
  size : Nat
  cache : List UInt8
  log : List Msg
  deriving DecidableEq, Repr

/-- itch_handler.cpp:159-163 `Reset` (also the constructor, itch_handler.h:390). -/
def St.reset (s : St) : St := { s with size := 0, cache := [] }
def St.init : St := ⟨0, [], []⟩

/-- itch_handler.cpp:16-100 `Process`, the `while (index < size)` loop; the list is the part of the buffer from `index` on.
The `Nat` bounds the number of iterations. -/
def processN (h : Handler) : Nat → St → List UInt8 → Except Err (Bool × St)
  | 0, _, _ => .error .outOfFuel
  | _ + 1, s, [] => .ok (true, s)
  | n + 1, s, b :: d =>
    if s.size = 0 ∧ ((s.cache.length = 0 ∧ (b :: d).length < 3) ∨ s.cache.length = 1) then
      -- collect message size into the cache
      processN h n { s with cache := s.cache ++ [b] } d
    else
      -- read a new message size, directly or from the cache
      let (s, data) : St × List UInt8 :=
        if s.size = 0 then
          if s.cache = [] then ({ s with size := beVal ((b :: d).take 2) }, (b :: d).drop 2)
          else ({ s with size := beVal (s.cache.take 2), cache := [] }, b :: d)
        else (s, b :: d)
      if s.size = 0 then processN h n s data
      else if s.cache ≠ [] then
        -- complete the message in the cache
        let tail := min (sub64 s.size s.cache.length) data.length
        let s := { s with cache := s.cache ++ data.take tail }
        let data := data.drop tail
        if s.cache.length < s.size then processN h n s data
        else
          match processMessage h s.log (s.cache.take s.size) with
          | .error e => .error e
          | .ok (false, log) => .ok (false, { s with log := log })
          | .ok (true, log) => processN h n { size := 0, cache := [], log := log } data
      else if data.length < s.size then
        -- place the message into the cache
        processN h n { s with cache := data } []
      else
        match processMessage h s.log (data.take s.size) with
        | .error e => .error e
        | .ok (false, log) => .ok (false, { s with log := log })
        | .ok (true, log) => processN h n { size := 0, cache := [], log := log } (data.drop s.size)

/-- `Process(buffer, size)`. -/
def process (h : Handler) (s : St) (d : List UInt8) : Except Err (Bool × St) :=
  processN h (2 * d.length + 2) s d

end CppTrader.Itch
