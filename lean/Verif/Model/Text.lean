import Verif.Model.Engine
/-
Model of the output operators of include/trader/matching/*.inl and of the market handler of examples/matching_engine.cpp, which
prints every callback. Texts are lists of characters. The stream is in its initial state: numbers are written in decimal, without
grouping, padding or plus signs.
-/

namespace CppTrader
namespace Text

/-- `stream << n` for an unsigned number. -/
def num (n : Nat) : List Char := Nat.toDigits 10 n

/-- `stream << n` for an `int64_t`. -/
def int (n : Int) : List Char := if n < 0 then '-' :: num n.natAbs else num n.natAbs

/-- include/trader/matching/order.inl:13-28. -/
def side : Side → List Char
  | .buy => "BUY".toList
  | .sell => "SELL".toList

/-- order.inl:31-58. -/
def type : OrderType → List Char
  | .market => "MARKET".toList
  | .limit => "LIMIT".toList
  | .stop => "STOP".toList
  | .stopLimit => "STOP-LIMIT".toList
  | .trailingStop => "TRAILING-STOP".toList
  | .trailingStopLimit => "TRAILING-STOP-LIMIT".toList

/-- order.inl:61-82. -/
def tif : TIF → List Char
  | .gtc => "GTC".toList
  | .ioc => "IOC".toList
  | .fok => "FOK".toList
  | .aon => "AON".toList

/-- order.inl:103-127, `operator<<(stream, order)`. -/
def order (o : Order) : List Char :=
  "Order(Id=".toList ++ (num o.id
    ++ ("; SymbolId=".toList ++ (num o.symbolId
    ++ ("; Type=".toList ++ (type o.type
    ++ ("; Side=".toList ++ (side o.side
    ++ ("; Price=".toList ++ (num o.price
    ++ ("; StopPrice=".toList ++ (num o.stopPrice
    ++ ("; Quantity=".toList ++ (num o.quantity
    ++ ("; ExecutedQuantity=".toList ++ (num o.executed
    ++ ("; LeavesQuantity=".toList ++ (num o.leaves
    ++ ("; ".toList ++ (tif o.tif
    ++ ((if o.isTrailingStop || o.isTrailingStopLimit then
          "; TrailingDistance=".toList ++ (int o.trailDist ++ ("; TrailingStep=".toList ++ int o.trailStep)) else [])
    ++ ((if o.isHidden || o.isIceberg then "; MaxVisibleQuantity=".toList ++ num o.maxVisible else [])
    ++ ((if o.isSlippage then "; Slippage=".toList ++ num o.slippage else [])
    ++ ")".toList))))))))))))))))))))))

/-- level.inl:13-28 for the level type, 41-52 `operator<<(stream, level)`. -/
def level (l : LevelInfo) : List Char :=
  "Level(Type=".toList ++ ((if l.isBid then "BID".toList else "ASK".toList)
    ++ ("; Price=".toList ++ (num l.price
    ++ ("; TotalVolume=".toList ++ (num l.total
    ++ ("; HiddenVolume=".toList ++ (num l.hidden
    ++ ("; VisibleVolume=".toList ++ (num l.visible
    ++ ("; Orders=".toList ++ (num l.count
    ++ ")".toList)))))))))))

/-- symbol.inl:18-25. `w` is `CppCommon::WriteString`, which is not part of this library, as a function of the name. -/
def symbol (w : Nat → List Char) (s : Symbol) : List Char :=
  "Symbol(Id=".toList ++ (num s.id ++ ("; Name=".toList ++ (w s.name ++ ")".toList)))

/-- What `operator<<` of an order book writes after its symbol: the numbers of levels of its six collections. -/
structure Sizes where
  bids : Nat
  asks : Nat
  buyStop : Nat
  sellStop : Nat
  tBuyStop : Nat
  tSellStop : Nat
  deriving DecidableEq, Repr

/-- order_book.inl:12-24. -/
def sizes (z : Sizes) : List Char :=
  "; Bids=".toList ++ num z.bids
    ++ "; Asks=".toList ++ num z.asks
    ++ "; BuyStop=".toList ++ num z.buyStop
    ++ "; SellStop=".toList ++ num z.sellStop
    ++ "; TrailingBuyStop=".toList ++ num z.tBuyStop
    ++ "; TrailingSellStop=".toList ++ num z.tSellStop

/-- order_book.inl:12-24, `operator<<(stream, order_book)`. -/
def book (w : Nat → List Char) (s : Symbol) (z : Sizes) : List Char :=
  "OrderBook(Symbol=".toList ++ (symbol w s ++ sizes z ++ ")".toList)

/-- examples/matching_engine.cpp:30,36,38,40. -/
def top (t : Bool) : List Char := if t then " - Top of the book!".toList else []

/-- A callback that is printed. The log of callbacks of the model names a book by the id of its symbol; what is printed of the book
besides is given here: the name of its symbol and its sizes at that moment. -/
structure Entry where
  event : Event
  name : Nat
  sizes : Sizes
  deriving DecidableEq, Repr

/-- examples/matching_engine.cpp:22-49: the line a callback prints, without the line feed. -/
def line (w : Nat → List Char) (x : Entry) : List Char :=
  match x.event with
  | .addSymbol s => "Add symbol: ".toList ++ symbol w s
  | .deleteSymbol s => "Delete symbol: ".toList ++ symbol w s
  | .addBook s => "Add order book: ".toList ++ book w s x.sizes
  | .updateBook sym t => "Update order book: ".toList ++ (book w ⟨sym, x.name⟩ x.sizes ++ top t)
  | .deleteBook s => "Delete order book: ".toList ++ book w s x.sizes
  | .addLevel _ l t => "Add level: ".toList ++ (level l ++ top t)
  | .updateLevel _ l t => "Update level: ".toList ++ (level l ++ top t)
  | .deleteLevel _ l t => "Delete level: ".toList ++ (level l ++ top t)
  | .addOrder o => "Add order: ".toList ++ order o
  | .updateOrder o => "Update order: ".toList ++ order o
  | .deleteOrder o => "Delete order: ".toList ++ order o
  | .exec o p q => "Execute order: ".toList ++ (order o ++ (" with price ".toList ++ (num p ++ (" and quantity ".toList ++ num q))))

/-- What the program has printed on `std::cout` after these callbacks; `std::endl` writes a line feed. -/
def output (w : Nat → List Char) (log : List Entry) : List Char := log.flatMap (fun x => line w x ++ ['\n'])

/-- errors.inl:13-56. -/
def error : ErrorCode → List Char
  | .ok => "OK".toList
  | .symbolDuplicate => "SYMBOL_DUPLICATE".toList
  | .symbolNotFound => "SYMBOL_NOT_FOUND".toList
  | .orderBookDuplicate => "ORDER_BOOK_DUPLICATE".toList
  | .orderBookNotFound => "ORDER_BOOK_NOT_FOUND".toList
  | .orderDuplicate => "ORDER_DUPLICATE".toList
  | .orderNotFound => "ORDER_NOT_FOUND".toList
  | .orderIdInvalid => "ORDER_ID_INVALID".toList
  | .orderTypeInvalid => "ORDER_TYPE_INVALID".toList
  | .orderParameterInvalid => "ORDER_PARAMETER_INVALID".toList
  | .orderQuantityInvalid => "ORDER_QUANTITY_INVALID".toList

/-- update.inl:13-33. -/
def update : UpdType → List Char
  | .add => "ADD".toList
  | .update => "UPDATE".toList
  | .delete => "DELETE".toList

/-- level.inl:76-86, `operator<<(stream, level_update)`; a `bool` is written as a number. -/
def levelUpdate (u : LevelUpdate) : List Char :=
  "LevelUpdate(Type=".toList ++ (update u.type ++ ("; Update=".toList ++ (level u.level ++ ("; Top=".toList ++ (num u.top.toNat ++ ")".toList)))))

end Text
end CppTrader
