import Verif.Model.Text
import Verif.Model.Itch
/-
Model of the output operators of include/trader/providers/nasdaq/itch_handler.inl and of the programs examples/itch_handler.cpp, which
prints every message, and performance/itch_handler.cpp, which counts them.
-/

namespace CppTrader.Itch
open Text (num)

/-- A value that an output operator writes. -/
inductive Val where
  /-- a number -/
  | num (n : Nat)
  /-- `CppCommon::WriteChar(c)` -/
  | char (c : UInt8)
  /-- `CppCommon::WriteString(s)` -/
  | str (s : List UInt8)
  /-- a `char` itself -/
  | raw (c : UInt8)
  deriving DecidableEq, Repr

/-- `CppCommon::WriteChar` and `CppCommon::WriteString` are not part of this library. -/
structure Writer where
  char : UInt8 → List Char
  str : List UInt8 → List Char

/-- What is written of a value; a `char` that is streamed itself is that character. -/
def Val.text (w : Writer) : Val → List Char
  | .num n => Text.num n
  | .char c => w.char c
  | .str s => w.str s
  | .raw c => [Char.ofNat c.toNat]

/-- The lines `StockLocate`, `TrackingNumber` and `Timestamp` of each operator, followed by the others. -/
def Hdr.fields (h : Hdr) (r : List (String × Val)) : List (String × Val) :=
  ("StockLocate", .num h.locate) :: ("TrackingNumber", .num h.tracking) :: ("Timestamp", .num h.timestamp) :: r

/-- itch_handler.inl:13-335: the class name, the type, and the other labels with their values, in the order of the operator. -/
def Msg.parts : Msg → String × UInt8 × List (String × Val)
  | .systemEvent h c => ("SystemEventMessage", h.type, h.fields [("EventCode", .char c)])
  | .stockDirectory h stock mc fs rls rlo ic ist au ss ipo luld etp lev inv =>
    ("StockDirectoryMessage", h.type, h.fields [("Stock", .str stock), ("MarketCategory", .char mc), ("FinancialStatusIndicator", .char fs),
      ("RoundLotSize", .num rls), ("RoundLotsOnly", .char rlo), ("IssueClassification", .char ic), ("IssueSubType", .str ist),
      ("Authenticity", .char au), ("ShortSaleThresholdIndicator", .char ss), ("IPOFlag", .char ipo), ("LULDReferencePriceTier", .char luld),
      ("ETPFlag", .char etp), ("ETPLeverageFactor", .num lev), ("InverseIndicator", .char inv)])
  | .tradingAction h stock ts rs r =>
    ("StockTradingActionMessage", h.type, h.fields [("Stock", .str stock), ("TradingState", .char ts), ("Reserved", .char rs), ("Reason", .char r)])
  | .regSHO h stock a => ("RegSHOMessage", h.type, h.fields [("Stock", .str stock), ("RegSHOAction", .char a)])
  | .participantPosition h mpid stock p m s =>
    ("MarketParticipantPositionMessage", h.type, h.fields [("MPID", .str mpid), ("Stock", .str stock), ("PrimaryMarketMaker", .char p),
      ("MarketMakerMode", .char m), ("MarketParticipantState", .char s)])
  | .mwcbDecline h a b c => ("MWCBDeclineMessage", h.type, h.fields [("Level1", .num a), ("Level2", .num b), ("Level3", .num c)])
  | .mwcbStatus h a => ("MWCBStatusMessage", h.type, h.fields [("BreachedLevel", .raw a)])
  | .ipoQuoting h stock t q p =>
    ("IPOQuotingMessage", h.type, h.fields [("Stock", .str stock), ("IPOReleaseTime", .num t), ("IPOReleaseQualifier", .raw q), ("IPOPrice", .num p)])
  | .addOrder h ref side shares stock price =>
    ("AddOrderMessage", h.type, h.fields [("OrderReferenceNumber", .num ref), ("BuySellIndicator", .char side), ("Shares", .num shares),
      ("Stock", .str stock), ("Price", .num price)])
  | .addOrderMPID h ref side shares stock price a =>
    ("AddOrderMPIDMessage", h.type, h.fields [("OrderReferenceNumber", .num ref), ("BuySellIndicator", .char side), ("Shares", .num shares),
      ("Stock", .str stock), ("Price", .num price), ("Attribution", .char a)])
  | .orderExecuted h ref shares mn =>
    ("OrderExecutedMessage", h.type, h.fields [("OrderReferenceNumber", .num ref), ("ExecutedShares", .num shares), ("MatchNumber", .num mn)])
  | .orderExecutedWithPrice h ref shares mn p price =>
    ("OrderExecutedWithPriceMessage", h.type, h.fields [("OrderReferenceNumber", .num ref), ("ExecutedShares", .num shares), ("MatchNumber", .num mn),
      ("Printable", .char p), ("ExecutionPrice", .num price)])
  | .orderCancel h ref shares => ("OrderCancelMessage", h.type, h.fields [("OrderReferenceNumber", .num ref), ("CanceledShares", .num shares)])
  | .orderDelete h ref => ("OrderDeleteMessage", h.type, h.fields [("OrderReferenceNumber", .num ref)])
  | .orderReplace h o n shares price =>
    ("OrderReplaceMessage", h.type, h.fields [("OriginalOrderReferenceNumber", .num o), ("NewOrderReferenceNumber", .num n), ("Shares", .num shares),
      ("Price", .num price)])
  | .trade h ref side shares stock price mn =>
    ("TradeMessage", h.type, h.fields [("OrderReferenceNumber", .num ref), ("BuySellIndicator", .char side), ("Shares", .num shares),
      ("Stock", .str stock), ("Price", .num price), ("MatchNumber", .num mn)])
  | .crossTrade h shares stock price mn ct =>
    ("CrossTradeMessage", h.type, h.fields [("Shares", .num shares), ("Stock", .str stock), ("CrossPrice", .num price), ("MatchNumber", .num mn),
      ("CrossType", .char ct)])
  | .brokenTrade h mn => ("BrokenTradeMessage", h.type, h.fields [("MatchNumber", .num mn)])
  | .noii h p i d stock far near cur ct pv =>
    ("NOIIMessage", h.type, h.fields [("PairedShares", .num p), ("ImbalanceShares", .num i), ("ImbalanceDirection", .char d), ("Stock", .str stock),
      ("FarPrice", .num far), ("NearPrice", .num near), ("CurrentReferencePrice", .num cur), ("CrossType", .char ct), ("PriceVariationIndicator", .char pv)])
  | .rpii h stock f => ("RPIIMessage", h.type, h.fields [("Stock", .str stock), ("InterestFlag", .char f)])
  | .luldCollar h stock r u l e =>
    ("LULDAuctionCollarMessage", h.type, h.fields [("Stock", .str stock), ("AuctionCollarReferencePrice", .num r), ("UpperAuctionCollarPrice", .num u),
      ("LowerAuctionCollarPrice", .num l), ("AuctionCollarExtension", .num e)])
  | .unknown t => ("UnknownMessage", t, [])

/-- The labels and values, each after a semicolon, and the closing parenthesis. -/
def fieldsText (w : Writer) : List (String × Val) → List Char
  | [] => [')']
  | (l, v) :: r => ';' :: ' ' :: (l.toList ++ '=' :: (v.text w ++ fieldsText w r))

/-- itch_handler.inl:13-335, `operator<<(stream, message)`. -/
def Msg.text (w : Writer) (m : Msg) : List Char :=
  m.parts.1.toList ++ '(' :: ("Type=".toList ++ ((Val.char m.parts.2.1).text w ++ fieldsText w m.parts.2.2))

/-- examples/itch_handler.cpp:45-50 `OutputMessage`, for all messages so far; `std::endl` writes a line feed. -/
def printed (w : Writer) (log : List Msg) : List Char := log.flatMap (fun m => m.text w ++ ['\n'])

/-- examples/itch_handler.cpp:58-66 and performance/itch_handler.cpp:77-81, the loop of `main`: the result of `Process` is ignored.
The handlers accept every message. -/
def readAll : St → List (List UInt8) → Except Err St
  | s, [] => .ok s
  | s, c :: cs =>
    match process (fun _ _ => true) s c with
    | .error e => .error e
    | .ok (_, s') => readAll s' cs

/-- performance/itch_handler.cpp:28-49: `_messages` after these callbacks. -/
def messageCount (log : List Msg) : Nat := log.foldl (fun n m => match m with | .unknown _ => n | _ => add64 n 1) 0

/-- performance/itch_handler.cpp:50: `_errors` after these callbacks. -/
def errorCount (log : List Msg) : Nat := log.foldl (fun n m => match m with | .unknown _ => add64 n 1 | _ => n) 0

end CppTrader.Itch
