{"id": "C01", "title": "No undefined behaviour and guaranteed termination", "statement": "Every public MarketManager call returns (all matching, stop-activation and trailing-recalculation loops terminate) and never dereferences a dangling order or price level, indexes a container out of range or reaches an 'unsupported order type' branch, provided: arguments are representable, the resting volume of a book plus the submitted quantity fits in 64 bits, the symbol id is not 2^32-1, and an order book is not re-created for a symbol that still has live orders. Outside these preconditions undefined behaviour is reachable.", "quantifier": "every finite history of public MarketManager calls (any order types, prices, quantities, ids, symbols), from an empty manager meeting the four stated preconditions at each call; plus, for the negative part, one concrete history per dropped precondition", "why_tests_cant": "the number of histories is unbounded and the code's behaviour depends on accumulated state; a test run fixes one history; termination of the unbounded for(;;)/while loops and absence of UB cannot be observed by finite runs", "anchors": ["source/trader/matching/market_manager.cpp: all public operations, Match, MatchOrder, ActivateStopOrders, RecalculateTrailingStopPrice", "source/trader/matching/order_book.cpp"]}
{"id": "C02", "title": "Level volume and order count equal the sum over their orders", "statement": "In every reachable state, each price level (limit, stop and trailing-stop) is non-empty, its Orders field is the number of orders queued on it, and its TotalVolume, HiddenVolume and VisibleVolume are the sums of LeavesQuantity, HiddenQuantity() and VisibleQuantity() of exactly those orders.", "quantifier": "every finite history of public MarketManager calls (any order types, prices, quantities, ids, symbols), from an empty manager; every book, level collection and level", "why_tests_cant": "the number of histories is unbounded and the code's behaviour depends on accumulated state; a test run fixes one history", "anchors": ["source/trader/matching/order_book.cpp: AddOrder, ReduceOrder, DeleteOrder and the Stop/TrailingStop variants", "include/trader/matching/level.h: Level"]}
{"id": "C03", "title": "Levels are unique, sorted, and best_* is the extreme level", "statement": "In every reachable state each of the six level collections of a book holds at most one level per price, iterates in strict price order, and best_bid/best_ask/best_buy_stop/best_sell_stop/best_trailing_* is null exactly when the collection is empty and otherwise is its extreme level (max for bids and sell stops, min for asks and buy stops).", "quantifier": "every finite history of public MarketManager calls (any order types, prices, quantities, ids, symbols), from an empty manager; every book and collection", "why_tests_cant": "the number of histories is unbounded and the code's behaviour depends on accumulated state; a test run fixes one history", "anchors": ["source/trader/matching/order_book.cpp: AddLevel, DeleteLevel and variants", "include/trader/matching/order_book.h: best_bid, best_ask, ..."]}
{"id": "C04", "title": "GetOrder and the book agree", "statement": "In every reachable state, for every symbol with an order book, GetOrder(id) returns an order of that symbol if and only if that id is queued on exactly one level of that book, and that level is the one given by the order's type, side and (stop) price; the stored order has the id it is stored under and positive leaves quantity.", "quantifier": "every finite history of public MarketManager calls (any order types, prices, quantities, ids, symbols), from an empty manager; every order id", "why_tests_cant": "the number of histories is unbounded and the code's behaviour depends on accumulated state; a test run fixes one history", "anchors": ["source/trader/matching/market_manager.cpp: AddOrder, ModifyOrder, ReplaceOrder, DeleteOrder, ActivateStopOrder", "include/trader/matching/market_manager.inl: GetOrder"]}
{"id": "C05", "title": "Hidden + visible = total", "statement": "For every order HiddenQuantity()+VisibleQuantity()=LeavesQuantity and for every level of every reachable state HiddenVolume+VisibleVolume=TotalVolume.", "quantifier": "every finite history of public MarketManager calls (any order types, prices, quantities, ids, symbols), from an empty manager; every order and level", "why_tests_cant": "the number of histories is unbounded and the code's behaviour depends on accumulated state; a test run fixes one history", "anchors": ["include/trader/matching/order.h: HiddenQuantity, VisibleQuantity", "source/trader/matching/order_book.cpp: AddOrder, ReduceOrder, DeleteOrder"]}
{"id": "C06", "title": "Market, IOC and FOK orders never rest", "statement": "In every reachable state no bid or ask level holds a market order or an Immediate-Or-Cancel or Fill-Or-Kill order; stored orders are never of type MARKET.", "quantifier": "every finite history of public MarketManager calls (any order types, prices, quantities, ids, symbols), from an empty manager", "why_tests_cant": "the number of histories is unbounded and the code's behaviour depends on accumulated state; a test run fixes one history", "anchors": ["source/trader/matching/market_manager.cpp: AddMarketOrder, AddLimitOrder, AddStopLimitOrder, ActivateStopLimitOrder"]}
{"id": "C07", "title": "Fill-Or-Kill is all or nothing", "statement": "A Fill-Or-Kill order submitted with matching enabled is either executed for its whole leaves quantity in a single execution or not at all, and the resting orders executed against it sum to exactly the same quantity. If no All-Or-None order rests on the opposite side and the book has nothing else to match, it is executed if and only if the opposite volume at acceptable prices is at least its quantity.", "quantifier": "every reachable book and every incoming FOK limit or market order under an id that is not in use", "why_tests_cant": "the number of histories is unbounded and the code's behaviour depends on accumulated state; a test run fixes one history", "anchors": ["source/trader/matching/market_manager.cpp: MatchOrder, CalculateMatchingChain, ExecuteMatchingChain"]}
{"id": "C08", "title": "Fill accounting is exact", "statement": "For every order, each onExecuteOrder carries a positive quantity not exceeding the order's leaves quantity; afterwards ExecutedQuantity has grown (mod 2^64) and LeavesQuantity has shrunk by exactly that quantity; no other event changes ExecutedQuantity except Replace (reset to 0).", "quantifier": "every finite history of public MarketManager calls (any order types, prices, quantities, ids, symbols), from an empty manager; every execution; a submitted order under an id that is not in use", "why_tests_cant": "the number of histories is unbounded and the code's behaviour depends on accumulated state; a test run fixes one history", "anchors": ["source/trader/matching/market_manager.cpp: MatchOrder, Match, ExecuteMatchingChain, ExecuteOrder"]}
{"id": "C09", "title": "Trades conserve volume", "statement": "While no All-Or-None order is involved, in every public call executions by matching occur in buy/sell pairs: the total executed quantity on buy orders equals the total executed quantity on sell orders. With All-Or-None orders this fails (witness).", "quantifier": "every finite history of public MarketManager calls (any order types, prices, quantities, ids, symbols), from an empty manager without AON orders; plus one witness history with AON orders", "why_tests_cant": "the number of histories is unbounded and the code's behaviour depends on accumulated state; a test run fixes one history", "anchors": ["source/trader/matching/market_manager.cpp: Match, MatchOrder, CalculateMatchingChain, ExecuteMatchingChain"]}
{"id": "C10", "title": "Limit price protection", "statement": "While no All-Or-None order is involved, matching never executes a buy order above its limit price nor a sell order below it. With All-Or-None orders this fails (witness).", "quantifier": "every finite history of public MarketManager calls (any order types, prices, quantities, ids, symbols), from an empty manager without AON orders; every execution by matching; plus one witness with AON", "why_tests_cant": "the number of histories is unbounded and the code's behaviour depends on accumulated state; a test run fixes one history", "anchors": ["source/trader/matching/market_manager.cpp: MatchOrder, Match, ExecuteMatchingChain"]}
{"id": "C11", "title": "Incoming orders follow price-time priority", "statement": "The executions of a call that submits a limit or market order begin with exactly, in order, the greedy fill of the opposite side: best price first, FIFO within a level, each resting order exhausted before the next is touched, at the resting order's price, stopping at the limit price, when filled, or at a resting AON order larger than the remainder. For a Fill-Or-Kill or All-Or-None order they are the chain of resting orders in the same priority that adds up to exactly its quantity, if there is one, and nothing otherwise. The standalone Match() pass does not respect time priority (witness).", "quantifier": "every reachable book, every incoming order; plus one witness for Match()", "why_tests_cant": "the number of histories is unbounded and the code's behaviour depends on accumulated state; a test run fixes one history", "anchors": ["source/trader/matching/market_manager.cpp: MatchOrder, Match"]}
{"id": "C12", "title": "Book is uncrossed while matching is enabled", "statement": "After every public call with matching enabled in a history without AON orders, best bid < best ask in every book (both existing). With AON orders the documented guarantee fails (witness).", "quantifier": "every finite history of public MarketManager calls (any order types, prices, quantities, ids, symbols), from an empty manager with matching enabled, no AON orders; plus one witness", "why_tests_cant": "the number of histories is unbounded and the code's behaviour depends on accumulated state; a test run fixes one history", "anchors": ["source/trader/matching/market_manager.cpp: Match", "include/trader/matching/market_manager.h: Match() documentation, EnableMatching"]}
{"id": "C13", "title": "Triggered stops do not stay in the book", "statement": "After every successful call that runs matching on a symbol without All-Or-None orders, a buy (sell) stop or stop-limit order is still in the book only if some ask level is below its stop price (some bid level above it), or a sell (buy) order of the symbol was executed during the call at a price below (above) its stop price, or the book still remembered such an execution from an earlier call; for trailing stops the same with weak inequalities. In particular, with no such execution, an order whose stop price is at or below the best ask (at or above the best bid) has been activated. The execution exception is real (witness). Nothing is said of trailing stop prices at the very ends of the range, 0 and 2^64-1.", "quantifier": "every finite history of public MarketManager calls (any order types, prices, quantities, ids, symbols), from an empty manager, matching enabled or Match()/EnableMatching called; no AON orders for the symbol", "why_tests_cant": "the number of histories is unbounded and the code's behaviour depends on accumulated state; a test run fixes one history", "anchors": ["source/trader/matching/market_manager.cpp: ActivateStopOrders, Match", "include/trader/matching/order_book.inl: GetMarketPriceBid, GetMarketPriceAsk"]}
{"id": "C14", "title": "Trailing stops only move in the favourable direction", "statement": "Over any public call (other than one submitting another order under its own id), a resting trailing buy stop's stop price never rises and a trailing sell stop's stop price never falls.", "quantifier": "every finite history of public MarketManager calls (any order types, prices, quantities, ids, symbols), from an empty manager; every trailing order", "why_tests_cant": "the number of histories is unbounded and the code's behaviour depends on accumulated state; a test run fixes one history", "anchors": ["source/trader/matching/order_book.cpp: CalculateTrailingStopPrice", "source/trader/matching/market_manager.cpp: RecalculateTrailingStopPrice"]}
{"id": "C15", "title": "Trailing stop price formula", "statement": "The new stop price is the old one or market price plus (buy) / minus (sell) the saturated absolute or percentage distance; it moves only if better by at least the trailing step; recomputation is idempotent. The percentage distance is exact as long as price times percentage fits 64 bits; above it wraps (witness).", "quantifier": "every order, every market price and stop price in 64-bit range", "why_tests_cant": "the number of histories is unbounded and the code's behaviour depends on accumulated state; a test run fixes one history; wrap-around boundary cases are 2^64-sized", "anchors": ["source/trader/matching/order_book.cpp: CalculateTrailingStopPrice"]}
{"id": "C16", "title": "Rejected calls have no effect", "statement": "Every public call that returns an error other than ORDER_DUPLICATE leaves the observable state unchanged and raises no handler event, except ReplaceOrder(id,new_order) with an inadmissible new order, which deletes the old order and nothing else (witness); ORDER_DUPLICATE does not have this guarantee (witness: trades happen and the call then reports failure).", "quantifier": "every finite history of public MarketManager calls (any order types, prices, quantities, ids, symbols), from an empty manager; every rejected call", "why_tests_cant": "the number of histories is unbounded and the code's behaviour depends on accumulated state; a test run fixes one history", "anchors": ["source/trader/matching/market_manager.cpp: all public operations"]}
{"id": "C17", "title": "Symbol registry behaves as a map", "statement": "AddSymbol/DeleteSymbol/GetSymbol behave as insert-if-absent/remove/lookup on a finite map keyed by id, with SYMBOL_DUPLICATE / SYMBOL_NOT_FOUND exactly when the key is present / absent, independent of all other calls.", "quantifier": "every finite history of public MarketManager calls (any order types, prices, quantities, ids, symbols), from an empty manager (ids below 2^32-1)", "why_tests_cant": "the number of histories is unbounded and the code's behaviour depends on accumulated state; a test run fixes one history", "anchors": ["source/trader/matching/market_manager.cpp: AddSymbol, DeleteSymbol"]}
{"id": "C18", "title": "Order-book registry behaves as a map over symbols", "statement": "AddOrderBook succeeds exactly when the symbol is registered and has no book; DeleteOrderBook exactly when the book exists; GetOrderBook returns the book created for that symbol; a deleted book's orders stay known but every operation on them with valid arguments returns ORDER_BOOK_NOT_FOUND (ReplaceOrder by id refuses orders that are not limit orders before it looks for the book).", "quantifier": "every finite history of public MarketManager calls (any order types, prices, quantities, ids, symbols), from an empty manager", "why_tests_cant": "the number of histories is unbounded and the code's behaviour depends on accumulated state; a test run fixes one history", "anchors": ["source/trader/matching/market_manager.cpp: AddOrderBook, DeleteOrderBook"]}
{"id": "C19", "title": "Validate accepts exactly the documented orders", "statement": "Order::Validate returns OK iff id>0, 0<leaves<=quantity, market orders are IOC/FOK and not iceberg, limit and stop-limit have no slippage, stop orders are not AON or iceberg, and trailing distance/step are in the accepted ranges; otherwise the returned code names the first failing class. The accepted percentage range is [-1000,-1], not the documented [-10000,-1] (witness).", "quantifier": "every order", "why_tests_cant": "the parameter space is 2^600-sized", "anchors": ["source/trader/matching/order.cpp: Validate"]}
{"id": "C20", "title": "Market order slippage bound", "statement": "A non-FOK market order never executes at a price further than Slippage from the best opposite price at the moment it is matched. FOK market orders execute at the slippage limit itself rather than at the book price (witness: price 2^64-1).", "quantifier": "every book, every market order submitted by AddOrder under an id that is not in use", "why_tests_cant": "the number of histories is unbounded and the code's behaviour depends on accumulated state; a test run fixes one history", "anchors": ["source/trader/matching/market_manager.cpp: MatchMarket, MatchOrder"]}
{"id": "C21", "title": "Reducing an iceberg takes hidden quantity first", "statement": "Reducing an order by q changes its hidden quantity by min(q, hidden) and its visible quantity by the rest, and the level volumes change by exactly these amounts.", "quantifier": "every order and reduction quantity, every reachable level; matching off or nothing to match", "why_tests_cant": "the number of histories is unbounded and the code's behaviour depends on accumulated state; a test run fixes one history", "anchors": ["source/trader/matching/market_manager.cpp: ReduceOrder", "source/trader/matching/order_book.cpp: ReduceOrder"]}
{"id": "C22", "title": "Mitigation never overfills", "statement": "After MitigateOrder(id,p,q) with executed quantity e, the order's leaves quantity before re-matching is q-e if q>e and otherwise the order is cancelled, so executed+leaves never exceeds max(q,e).", "quantifier": "every reachable state, every argument", "why_tests_cant": "the number of histories is unbounded and the code's behaviour depends on accumulated state; a test run fixes one history", "anchors": ["source/trader/matching/market_manager.cpp: ModifyOrder (mitigate)"]}
{"id": "C23", "title": "Replace keeps side, type and TIF under a new id", "statement": "With matching disabled ReplaceOrder(id,new_id,p,q) on a limit order succeeds with fresh new_id: old id gone, new id present with new price/quantity, zero executed, same other fields, at the tail of its level. With an existing new_id the old order is lost and ORDER_DUPLICATE returned (witness).", "quantifier": "every reachable state, every argument", "why_tests_cant": "the number of histories is unbounded and the code's behaviour depends on accumulated state; a test run fixes one history", "anchors": ["source/trader/matching/market_manager.cpp: ReplaceOrder"]}
{"id": "C24", "title": "Market-data feed is complete", "statement": "Replaying the handler events of any history (onAddLevel/onUpdateLevel/onDeleteLevel) from empty reconstructs exactly the bid/ask levels of every live book.", "quantifier": "every finite history of public MarketManager calls (any order types, prices, quantities, ids, symbols), from an empty manager", "why_tests_cant": "the number of histories is unbounded and the code's behaviour depends on accumulated state; a test run fixes one history", "anchors": ["source/trader/matching/market_manager.cpp: UpdateLevel", "source/trader/matching/order_book.cpp: AddOrder, ReduceOrder, DeleteOrder"]}
{"id": "C25", "title": "ITCH stream chunking independence", "statement": "Feeding a byte stream to ITCHHandler::Process in any split into chunks yields the same messages in the same order, the same result and, unless a message was refused, the same final parser state as feeding it at once. (After a refusal the state depends on the split: witness.)", "quantifier": "every byte stream and every split", "why_tests_cant": "exponentially many splits of unbounded streams", "anchors": ["source/trader/providers/nasdaq/itch_handler.cpp: Process, ProcessMessage"]}
{"id": "C26", "title": "ITCH decode is the inverse of the wire encoding", "statement": "For every ITCH message type, decoding the wire image of any field values returns those field values; except the 48-bit timestamp, of which only the upper 24 bits are decoded (witness).", "quantifier": "every field value of every message type", "why_tests_cant": "64-bit field spaces", "anchors": ["source/trader/providers/nasdaq/itch_handler.cpp: Process*Message", "include/trader/providers/nasdaq/itch_handler.inl: ReadString, ReadTimestamp"]}
{"id": "C27", "title": "ITCH decoding stays in bounds", "statement": "Decoding a message buffer of any content reads only inside the buffer.", "quantifier": "every buffer", "why_tests_cant": "all sizes and contents", "anchors": ["source/trader/providers/nasdaq/itch_handler.cpp: ProcessMessage and Process*Message"]}
{"id": "C28", "title": "ITCH size and type checks", "statement": "ProcessMessage rejects (returns false, no callback) every empty buffer and every known-type buffer of the wrong size; unknown types produce the unknown-message callback; each accepted buffer produces exactly one callback.", "quantifier": "every buffer", "why_tests_cant": "all sizes and contents", "anchors": ["source/trader/providers/nasdaq/itch_handler.cpp: ProcessMessage"]}
{"id": "C29", "title": "Order-id hash is collision-free on 64-bit words", "statement": "FastHash::operator() is injective (a bijection of 64-bit values).", "quantifier": "every pair of 64-bit keys", "why_tests_cant": "2^128 pairs", "anchors": ["include/trader/matching/fast_hash.inl: operator()"]}
{"id": "C30", "title": "Symbol-name packing is injective on ASCII", "statement": "FastHash::Parse maps distinct 8-byte ASCII strings to distinct values; with bytes >= 0x80 and signed char two different strings collide (witness).", "quantifier": "every pair of 8-byte strings", "why_tests_cant": "2^128 pairs", "anchors": ["include/trader/matching/fast_hash.inl: Parse"]}
{"id": "C31", "title": "Symbols are isolated", "statement": "A call that addresses one symbol (or an order of it) changes no book and no order of any other symbol.", "quantifier": "every finite history of public MarketManager calls (any order types, prices, quantities, ids, symbols), from an empty manager; every pair of symbols", "why_tests_cant": "the number of histories is unbounded and the code's behaviour depends on accumulated state; a test run fixes one history", "anchors": ["source/trader/matching/market_manager.cpp: all public operations"]}
{"id": "C32", "title": "AON orders are never partially filled by matching", "statement": "Every execution produced by matching on an All-Or-None order is for its whole remaining quantity.", "quantifier": "every finite history of public MarketManager calls (any order types, prices, quantities, ids, symbols), from an empty manager", "why_tests_cant": "the number of histories is unbounded and the code's behaviour depends on accumulated state; a test run fixes one history", "anchors": ["source/trader/matching/market_manager.cpp: MatchOrder, Match, ExecuteMatchingChain"]}
{"id": "C33", "title": "No executions while matching is disabled", "statement": "With matching disabled, only ExecuteOrder produces executions: every other public call except Match()/EnableMatching() raises no onExecuteOrder.", "quantifier": "every finite history of public MarketManager calls (any order types, prices, quantities, ids, symbols), from an empty manager", "why_tests_cant": "the number of histories is unbounded and the code's behaviour depends on accumulated state; a test run fixes one history", "anchors": ["source/trader/matching/market_manager.cpp: AddOrder and others", "include/trader/matching/market_manager.h: IsMatchingEnabled"]}
{"id": "C34", "title": "Execute and Reduce are capped by leaves quantity", "statement": "ExecuteOrder/ReduceOrder with quantity q on an order with leaves quantity l act as min(q,l); the order is removed iff q>=l, otherwise it keeps l-q.", "quantifier": "every reachable state (matching disabled, or nothing to match), every quantity", "why_tests_cant": "the number of histories is unbounded and the code's behaviour depends on accumulated state; a test run fixes one history", "anchors": ["source/trader/matching/market_manager.cpp: ExecuteOrder, ReduceOrder"]}
{"id": "C35", "title": "Best-level pointer update is correct for balanced trees", "statement": "In any AVL-balanced search tree the node selected on deletion of the best level (left child, else parent, else right child; mirrored for asks) is the next best level.", "quantifier": "every balanced tree of any size", "why_tests_cant": "all tree shapes and sizes", "anchors": ["source/trader/matching/order_book.cpp: DeleteLevel, DeleteStopLevel, DeleteTrailingStopLevel"]}
{"id": "C36", "title": "Top-of-book flag", "statement": "The Top flag of a level add/update event is true iff the level is the best of its side after the change. For level deletion the flag is always true, even for a level that was not the best (witness).", "quantifier": "every finite history of public MarketManager calls (any order types, prices, quantities, ids, symbols), from an empty manager", "why_tests_cant": "the number of histories is unbounded and the code's behaviour depends on accumulated state; a test run fixes one history", "anchors": ["source/trader/matching/order_book.cpp: AddOrder, ReduceOrder, DeleteOrder"]}
{"id": "C37", "title": "Stop orders are invisible in the book", "statement": "Stop and trailing-stop orders contribute to no bid/ask level until activated.", "quantifier": "every finite history of public MarketManager calls (any order types, prices, quantities, ids, symbols), from an empty manager", "why_tests_cant": "the number of histories is unbounded and the code's behaviour depends on accumulated state; a test run fixes one history", "anchors": ["source/trader/matching/order_book.cpp: AddStopOrder, AddTrailingStopOrder"]}
{"id": "C38", "title": "Queue position", "statement": "ReduceOrder and partial ExecuteOrder keep the order's position in its level queue; ModifyOrder moves it to the tail of its (new) level.", "quantifier": "every reachable state with matching disabled, or nothing to match", "why_tests_cant": "the number of histories is unbounded and the code's behaviour depends on accumulated state; a test run fixes one history", "anchors": ["source/trader/matching/order_book.cpp: ReduceOrder, AddOrder", "source/trader/matching/market_manager.cpp: ModifyOrder"]}
{"id": "C39", "title": "Trigger prices are forgotten between order calls", "statement": "After every order call that returns OK, the market prices that decide whether a stop order of an addressed symbol triggers are the best bid (0 if none) and the best ask (2^64-1 if none): execution prices of the call are not remembered. Match() and EnableMatching do remember them (witness).", "quantifier": "every finite history of public MarketManager calls (any order types, prices, quantities, ids, symbols), from an empty manager", "why_tests_cant": "the number of histories is unbounded and the code's behaviour depends on accumulated state; a test run fixes one history", "anchors": ["source/trader/matching/market_manager.cpp: ResetMatchingPrice calls", "include/trader/matching/order_book.inl: ResetMatchingPrice"]}
{"id": "C40", "title": "Stop orders trade only after being triggered", "statement": "In any history without ModifyOrder/MitigateOrder no execution by matching is reported for an order while it still has a stop type; ModifyOrder on a stop order can trade it before its stop price is reached (witness).", "quantifier": "every finite history of public MarketManager calls (any order types, prices, quantities, ids, symbols), from an empty manager; plus one witness", "why_tests_cant": "the number of histories is unbounded and the code's behaviour depends on accumulated state; a test run fixes one history", "anchors": ["source/trader/matching/market_manager.cpp: AddStopOrder, ActivateStopOrder, ModifyOrder"]}
{"id": "C41", "title": "Order factories build valid orders", "statement": "The Order factory functions (Market, Limit, Stop, StopLimit, TrailingStop, TrailingStopLimit and their Buy/Sell forms) produce an order that Validate accepts exactly when id and quantity are positive and the TIF / max-visible / slippage / trailing arguments are admissible for that order type, and whose fields are the arguments, with nothing executed and everything left. The Buy and Sell forms build the same order as the general form with that side; arguments left out mean good till cancelled, wholly visible, no slippage limit, no minimum trailing step. Called with arguments of the C++ types, a factory builds an order all of whose fields are values of the C++ types.", "quantifier": "every argument of every factory", "why_tests_cant": "64-bit argument spaces", "anchors": ["include/trader/matching/order.inl: Order::Market, Limit, Stop, StopLimit, TrailingStop, TrailingStopLimit", "source/trader/matching/order.cpp: Validate"]}
{"id": "C42", "title": "ITCH stream round trip", "statement": "A sequence of messages, each wire-encoded and framed with its two-byte big-endian length, concatenated and fed to Process in any chunks, is delivered to the handler as exactly that sequence of messages (modulo the documented timestamp loss).", "quantifier": "every message sequence and every split into chunks", "why_tests_cant": "unbounded streams, exponentially many splits", "anchors": ["source/trader/providers/nasdaq/itch_handler.cpp: Process, ProcessMessage"]}
{"id": "C43", "title": "Result codes", "statement": "Each public call returns an error exactly under the documented condition (zero id or quantity, failed validation, unknown or duplicate symbol, book or order, wrong order type), checked in a fixed order; a call that passes these checks returns OK, except that AddOrder and ReplaceOrder with an id already in use may return ORDER_DUPLICATE.", "quantifier": "every finite history of public MarketManager calls (any order types, prices, quantities, ids, symbols), from an empty manager; every call", "why_tests_cant": "the number of histories is unbounded and the code's behaviour depends on accumulated state; a test run fixes one history", "anchors": ["source/trader/matching/market_manager.cpp: all public operations"]}
{"id": "C44", "title": "Executions come in well-formed groups", "statement": "The onExecuteOrder callbacks of any call decompose, in order, into groups on one symbol: a hit (one resting order and one incoming order of the other side, same positive quantity, at the resting order's price, which the incoming order accepts), a whole fill (an incoming Fill-Or-Kill or All-Or-None order filled for its whole leaves quantity by resting orders of the other side that add up to it), a pair of crossing resting orders, an All-Or-None crossing (two-sided, one price), or the single execution of ExecuteOrder. All-Or-None crossings occur only on symbols with All-Or-None orders.", "quantifier": "every finite history of public MarketManager calls (any order types, prices, quantities, ids, symbols), from an empty manager; every call", "why_tests_cant": "the number of histories is unbounded and the code's behaviour depends on accumulated state; a test run fixes one history", "anchors": ["source/trader/matching/market_manager.cpp: Match, MatchOrder, ExecuteMatchingChain, ExecuteOrder"]}
{"id": "C45", "title": "Order feed is complete and consistent", "statement": "In a history in which no order is submitted under an id still in use, a client that tracks live orders by onAddOrder/onUpdateOrder/onDeleteOrder/onExecuteOrder sees an order added only under an unused id, updated, executed and deleted only while alive and only in the documented ways, and its view after every call equals GetOrder. A market order submitted under the id of a live order breaks this (witness); but whatever ids are used, the callbacks about every order other than the submitted one are, by themselves, acceptable and complete.", "quantifier": "every finite history of public MarketManager calls (any order types, prices, quantities, ids, symbols), from an empty manager (fresh ids); every callback", "why_tests_cant": "the number of histories is unbounded and the code's behaviour depends on accumulated state; a test run fixes one history", "anchors": ["source/trader/matching/market_manager.cpp: all order operations", "include/trader/matching/market_handler.h"]}
{"id": "C46", "title": "Order identity", "statement": "Over any call a surviving order keeps its id, symbol, side, max-visible quantity, slippage and trailing parameters; its type changes only stop->market and stop-limit->limit; its time-in-force only in the former conversion; its quantity only by ModifyOrder/MitigateOrder; its price only by these or, for trailing stop-limit orders, together with its stop price.", "quantifier": "every finite history of public MarketManager calls (any order types, prices, quantities, ids, symbols), from an empty manager; every surviving order not resubmitted by the call", "why_tests_cant": "the number of histories is unbounded and the code's behaviour depends on accumulated state; a test run fixes one history", "anchors": ["source/trader/matching/market_manager.cpp: ActivateStopOrder, RecalculateTrailingStopPrice, ModifyOrder"]}
{"id": "C47", "title": "Last trade prices", "statement": "At every moment the last-trade prices of a book, which the trailing stops follow, are the prices of the last onExecuteOrder callbacks for a buy and for a sell order of the symbol since the book was added (0 and 2^64-1 if none).", "quantifier": "every finite history of public MarketManager calls (any order types, prices, quantities, ids, symbols), from an empty manager; every book", "why_tests_cant": "the number of histories is unbounded and the code's behaviour depends on accumulated state; a test run fixes one history", "anchors": ["include/trader/matching/order_book.inl: UpdateLastPrice, GetMarketTrailingStopPriceBid/Ask", "source/trader/matching/market_manager.cpp: UpdateLastPrice calls"]}
{"id": "C48", "title": "Every level notification is followed by a book notification", "statement": "During every call except symbol/book registration, callbacks are order callbacks and level callbacks; each level callback is immediately followed by onUpdateOrderBook of the same book with the same top flag, and onUpdateOrderBook occurs nowhere else.", "quantifier": "every finite history of public MarketManager calls (any order types, prices, quantities, ids, symbols), from an empty manager; every callback", "why_tests_cant": "the number of histories is unbounded and the code's behaviour depends on accumulated state; a test run fixes one history", "anchors": ["source/trader/matching/market_manager.cpp: UpdateLevel"]}
{"id": "C49", "title": "Stop orders are triggered and trailing stops moved only on market evidence", "statement": "A client that tracks live orders, price levels and last execution prices by the callbacks alone can verify at the moment of each onUpdateOrder: if the order changed its type, no ask level is below its stop price (buy) or no bid level above it (sell); if a trailing order changed its stop price, the new one is exactly the trailing target at the market price (max of last sell execution and best ask, min of last buy execution and best bid) and the move is at least the trailing step. While matching is disabled no call except Match/EnableMatching triggers or moves anything.", "quantifier": "every finite history of public MarketManager calls (any order types, prices, quantities, ids, symbols), from an empty manager (fresh ids); every callback", "why_tests_cant": "the number of histories is unbounded and the code's behaviour depends on accumulated state; a test run fixes one history", "anchors": ["source/trader/matching/market_manager.cpp: ActivateStopOrders, ActivateStopOrder, ActivateStopLimitOrder, RecalculateTrailingStopPrice, AddStopOrder, AddStopLimitOrder", "source/trader/matching/order_book.cpp: CalculateTrailingStopPrice"]}
{"id": "C50", "title": "Matching mode", "statement": "Automatic matching is off initially, on after EnableMatching, off after DisableMatching, and unchanged by every other call; DisableMatching has no other effect.", "quantifier": "every finite history of public MarketManager calls (any order types, prices, quantities, ids, symbols), from an empty manager; every call", "why_tests_cant": "the number of histories is unbounded and the code's behaviour depends on accumulated state; a test run fixes one history", "anchors": ["include/trader/matching/market_manager.inl: EnableMatching, DisableMatching, IsMatchingEnabled", "source/trader/matching/market_manager.cpp: EnableMatching"]}
{"id": "C51", "title": "For plain orders the manager is a textbook price-time priority exchange", "statement": "For every sequence of calls in which the submitted orders are limit or market orders (GTC, IOC or FOK, not All-Or-None) under ids not in use, no book is deleted, and EnableMatching and Match are called only when no bid meets an ask: the result code and the sequence of executions of every call, the orders found by GetOrder and the orders of every book in priority order are those of a textbook exchange that keeps nothing but one line of orders per side and symbol.", "quantifier": "every sequence of such calls of any length, any symbols, prices, quantities", "why_tests_cant": "the number of histories is unbounded and the code's behaviour depends on accumulated state; a test run fixes one history", "anchors": ["source/trader/matching/market_manager.cpp: AddOrder, ReduceOrder, ModifyOrder, MitigateOrder, ReplaceOrder, DeleteOrder, ExecuteOrder, Match, MatchLimit, MatchMarket", "source/trader/matching/order_book.cpp: AddOrder, ReduceOrder, DeleteOrder"]}
{"id": "C52", "title": "An incoming order is filled as far as the opposite side allows", "statement": "If the book has nothing to match and no All-Or-None order rests on the opposite side, an incoming GTC or IOC limit or market order is executed for exactly the minimum of its quantity and the opposite volume at acceptable prices, and a Fill-Or-Kill order for its whole quantity if that volume suffices and not at all otherwise.", "quantifier": "every reachable state with matching on, every incoming limit or market order that is not All-Or-None, under an id that is not in use", "why_tests_cant": "the number of histories is unbounded and the code's behaviour depends on accumulated state; a test run fixes one history", "anchors": ["source/trader/matching/market_manager.cpp: AddOrder, MatchOrder, MatchMarket, MatchLimit, CalculateMatchingChain"]}
{"id": "C53", "title": "The ITCH-driven market manager survives any input", "statement": "The program of examples/market_manager.cpp, which feeds standard input to the ITCH handler and the messages to a market manager, never performs undefined behaviour, whatever bytes it is given (malformed frames, refused messages, unknown types, inconsistent or duplicate orders) and in whatever blocks, for inputs below 2^37 bytes; matching stays disabled.", "quantifier": "every byte sequence below 2^37 bytes and every division into blocks", "why_tests_cant": "all inputs, including malformed ones, in exponentially many divisions", "anchors": ["examples/market_manager.cpp: MyITCHHandler, main", "source/trader/providers/nasdaq/itch_handler.cpp: Process"]}
{"id": "C54", "title": "The ITCH-driven market manager rebuilds the exchange's book", "statement": "For a stream of well-formed consistent messages (wire-encoded, framed, cut into any blocks) whose shares add up to less than 2^64, the orders found by GetOrder, the orders of every book in priority order, and the reported executions are those of a textbook exchange after the same adds, executions, cancels, deletes and replacements.", "quantifier": "every such message sequence of any length and every division into blocks", "why_tests_cant": "unbounded streams; the order of every queue", "anchors": ["examples/market_manager.cpp: MyITCHHandler, main", "source/trader/providers/nasdaq/itch_handler.cpp: Process", "source/trader/matching/market_manager.cpp: AddOrder, ExecuteOrder, ReduceOrder, DeleteOrder, ReplaceOrder"]}
{"id": "C55", "title": "ITCH handler after a refused message", "statement": "From every state earlier calls may leave, Process returns on any bytes without reading outside its buffers. After a refused message it depends on the chunking what happens: if the message was received in pieces, every later call returns false without a callback and discards its bytes until Reset; if it was received in one piece, the rest of that buffer is lost and the next bytes, as many as the refused message had, are taken for a message.", "quantifier": "every byte sequence, every state between calls, every handler", "why_tests_cant": "unbounded streams after the error", "anchors": ["source/trader/providers/nasdaq/itch_handler.cpp: Process, Reset"]}
{"id": "C56", "title": "The command language of the matching engine", "statement": "For every line of text the command-line matching engine makes at most one call of the market manager: a given call exactly if the line is, word for word, the command with that meaning (documented words, side, decimal numbers in the documented order, single blanks; leading zeros allowed) and all its numbers are at most 2147483647; it is terminated by an uncaught exception exactly at a command with a larger number; it stops exactly at exit and quit; every other line, including any with extra blanks, text before or after the command, missing or extra arguments, has no effect. No line is ambiguous.", "quantifier": "every line of text of any length and content", "why_tests_cant": "all strings", "anchors": ["examples/matching_engine.cpp: main, AddSymbol, DeleteSymbol, AddOrderBook, DeleteOrderBook, AddMarketOrder, AddSlippageMarketOrder, AddLimitOrder, AddIOCLimitOrder, AddFOKLimitOrder, AddAONLimitOrder, AddStopOrder, AddStopLimitOrder, AddTrailingStopOrder, AddTrailingStopLimitOrder, ReduceOrder, ModifyOrder, MitigateOrder, ReplaceOrder, DeleteOrder"]}
{"id": "C57", "title": "The command-line matching engine on any input", "statement": "Fed any text of at most 2^33 lines in which no book is created again after it was deleted, the matching engine makes exactly the calls its lines spell, in order, up to exit/quit, the end of the input or the first number above 2147483647, each call returns, and no undefined behaviour occurs.", "quantifier": "every input text of up to 2^33 lines", "why_tests_cant": "all texts and histories", "anchors": ["examples/matching_engine.cpp: main", "source/trader/matching/market_manager.cpp: all public functions"]}
{"id": "C58", "title": "The level-only market manager shows the levels of the feed", "statement": "The level-only market manager (which keeps no orders in queues, only price levels in sorted vectors allocated from a shared pool), fed any sequence of book announcements, adds, executions/cancels, deletes, modifications and replacements that is consistent (known orders, no more taken than is left, ids below 300000000, symbols below 10000, positive prices below 2^31, level volumes below 2^32), shows for every symbol and side exactly the prices at which orders rest, best first, with the resting quantities; it never reads out of range; and every entry of the level pool is free or belongs to exactly one price level, so nothing leaks. Inconsistent feeds silently damage other books (witness). The form of ReplaceOrder with a symbol argument, which no program calls, deletes and adds, keeping the side.", "quantifier": "every consistent feed of any length", "why_tests_cant": "unbounded histories; all books share one pool", "anchors": ["performance/market_manager_optimized_aggressive.cpp: OrderBook::FindLevel, DeleteLevel, AddOrder, ReduceOrder, DeleteOrder, LevelPool, MarketManagerOptimized"]}
{"id": "C59", "title": "Both market managers agree on every ITCH stream", "statement": "For a stream of well-formed ITCH messages (wire-encoded, framed, cut into any blocks) that is consistent and announces every book once before its orders, the market manager behind examples/market_manager.cpp and the level-only market manager show the same price levels: in every book and on both sides the same prices with the same total volumes, best first, and these are the levels the messages imply.", "quantifier": "every such message sequence of any length and every division into blocks", "why_tests_cant": "unbounded streams; equality of two independent implementations", "anchors": ["performance/market_manager_optimized_aggressive.cpp: MyITCHHandler, main", "examples/market_manager.cpp: MyITCHHandler, main", "source/trader/matching/market_manager.cpp: all order operations", "source/trader/providers/nasdaq/itch_handler.cpp: Process"]}
{"id": "C60", "title": "The whole matching engine equals a small reference exchange", "statement": "For every admissible history of public calls - all order types (limit, market, stop, stop-limit, trailing), all times in force, matching enabled, disabled and run by hand, books added and deleted - every call returns the result code and reports the executions (orders, prices, quantities, in order) that a reference exchange gives, which keeps only lines of orders and six prices per symbol; the stored orders, the lines of every book, the matching flag and the prices that trigger stop and trailing orders agree after every call.", "quantifier": "every finite sequence of admissible public calls from an empty manager", "why_tests_cant": "unbounded histories; a complete functional specification of every call", "anchors": ["source/trader/matching/market_manager.cpp: AddOrder, ReduceOrder, ModifyOrder, MitigateOrder, ReplaceOrder, DeleteOrder, ExecuteOrder, Match, MatchLimit, MatchMarket, MatchOrder, CalculateMatchingChain, ExecuteMatchingChain, ActivateStopOrders, RecalculateTrailingStopPrice", "source/trader/matching/order_book.cpp: AddOrder, ReduceOrder, DeleteOrder, CalculateTrailingStopPrice"]}
{"id": "C61", "title": "Symbols can be divided among several managers without changing any result", "statement": "Divide the symbols, and with them the order ids, among several market managers: every order is given an id of the manager that has its symbol. Send each call to the manager of its symbol or order, and EnableMatching, DisableMatching and Match to all of them. Then each manager returns the same error codes and raises the same executions, in the same order, as one manager that is given all calls, and afterwards the two show the same orders, symbols, books, order lines and market prices for everything that belongs to it; no call becomes inadmissible by the division.", "quantifier": "every division of symbols and ids, every admissible history of calls that respects it, every manager of the division", "why_tests_cant": "The claim compares two executions of unbounded length for every division; a test compares one history for one division, and the ways in which symbols could influence one another (shared order ids, the orders left by deleted books, the loop of Match over all books) are reached by few histories.", "anchors": ["source/trader/matching/market_manager.cpp: AddOrder, ReplaceOrder, DeleteOrderBook, EnableMatching, Match", "the number of histories is unbounded and the code's behaviour depends on accumulated state; a test run fixes one history: MarketManager"]}
{"id": "C62", "title": "Order ids are only names, and the visible quantity never influences the trading", "statement": "Order ids: if every order id in a history is replaced by another one, different ids by different ids and zero by zero, every call returns the same error code, the same executions happen (of the orders with their new ids, in the same order, at the same prices and quantities), and afterwards the order lines and market prices are the same. In particular neither numerical order nor size nor gaps of the ids matter. MaxVisibleQuantity: if every order of a kind that may be hidden or iceberg is instead shown completely, no error code, no execution, no position in line and no market price changes; hidden and iceberg orders neither lose nor gain priority, and are executed for their whole quantity like visible ones.", "quantifier": "every admissible history; every injective renaming of ids that keeps zero and fits 64 bits; every change of the visible quantities that leaves the validity of each order unchanged", "why_tests_cant": "Both are statements about pairs of unbounded histories for every renaming; tests use one numbering of ids, and usually an ascending one, so a dependence on ids (hash order, comparisons) or on the visible part of an order would go unnoticed.", "anchors": ["source/trader/matching/market_manager.cpp: AddOrder, ReplaceOrder, Match, MatchLimit, ActivateStopOrders", "include/trader/matching/order.h: Order::MaxVisibleQuantity, HiddenQuantity, VisibleQuantity"]}
{"id": "C63", "title": "Calls that mean the same cannot be told apart, now or later", "statement": "In every reachable state: ReduceOrder by at least the leaves quantity is DeleteOrder; MitigateOrder of an order that has not been executed is ModifyOrder; ExecuteOrder(id, quantity) is ExecuteOrder(id, the order's price, quantity); ExecuteOrder of more than the leaves quantity is ExecuteOrder of the leaves quantity; ReplaceOrder(id, new order) of an order in a book is DeleteOrder followed by AddOrder; while matching is off, ReplaceOrder(id, new id, price, quantity) is DeleteOrder followed by AddOrder of the changed order (if the new id is free). 'Is' means: the same error code, the same executions, and afterwards the managers cannot be told apart by any further sequence of admissible calls: same error codes and the same callbacks with the same arguments in the same order, and the same orders, symbols and books with all levels, volumes and prices, forever.", "quantifier": "every reachable state, every order and argument as stated, every continuation of any length", "why_tests_cant": "The equivalence quantifies over all continuations; a test can only compare the two states after a few.", "anchors": ["source/trader/matching/market_manager.cpp: ReduceOrder, DeleteOrder, ModifyOrder, MitigateOrder, ReplaceOrder, ExecuteOrder"]}
{"id": "C64", "title": "The optimised market manager shows exactly the levels of what it has noted", "statement": "For every feed that is consistent for it, of any length and cut into any chunks, the program performance/market_manager_optimized.cpp shows for every symbol and side exactly the price levels implied by the feed as it notes it, best first, with their quantities and numbers of orders, without an index out of range: executions, cancellations, deletions and replacements take effect in full, but an order is entered at the price last noted under its id (0 if none was: AddOrder does not store the price), which only modifications and replacements note, and a full cancellation removes the order and leaves its quantity. Whatever the prices, GetOrder gives the symbol, side and quantity left of every order that rests, the quantities shown on a side add up to what rests plus what was cancelled in full, the numbers of orders to the number that rest, and every entry of the pool of levels is free or belongs to exactly one level. The callbacks of every call are exactly the news of the report: the orders that come, change and go with their fields, the executions, and for every price level that changes whether it is new, changed or gone, what it shows, whether it is the best, and the numbers of price levels of the book. Feeds that are consistent and strict in the ordinary sense and have less than 2^32 shares are consistent for it. The six-argument form of ReplaceOrder, which no program calls, deletes and adds, with the right price.", "quantifier": "every consistent feed of any length, every framing and chunking, every symbol, side, price and order", "why_tests_cant": "The deviation from the feed depends on the whole history of the ids; the pool invariant has to hold after every history. A test with one feed per id never sees a stale price.", "anchors": ["performance/market_manager_optimized.cpp: MarketManagerOptimized, LevelPool, Level, Order, AddOrder, ReduceOrder, ModifyOrder, ReplaceOrder, DeleteOrder, ExecuteOrder"]}
{"id": "C65", "title": "The two performance programs count the same, and what they count is true of the feed", "statement": "After every consistent and strict stream of well-formed messages, framed and cut into any chunks, with fewer than 2^32 shares and 2^62 messages, the market handlers of performance/market_manager.cpp and performance/market_manager_optimized.cpp report the same numbers of updates, symbols, books, orders, order additions, changes, removals and executions, and the same maximal numbers of symbols, books and orders: the statistics of the feed. The number of orders is the number that rest according to the feed, additions are orders plus removals, and the maximal number of orders is the highest number that rested after any message. The maximal number of price levels reported for the optimised manager is the highest number any side of any book has shown after any message.", "quantifier": "every consistent and strict stream below the bounds, every framing and chunking", "why_tests_cant": "The counters depend on every callback of every message of a day; a test compares printed numbers of one file.", "anchors": ["performance/market_manager.cpp: MyMarketHandler, MyITCHHandler, main", "performance/market_manager_optimized.cpp: MarketHandler, MyMarketHandler, MyITCHHandler, main"]}
{"id": "C66", "title": "The printed log of the matching example is lossless", "statement": "operator<< of an order writes two orders alike exactly if they differ in nothing but the trailing distance and step of orders that do not trail (infinities above the 64-bit maximum apart); operator<< of levels, level updates, error codes, sides, types and times in force is injective. examples/matching_engine.cpp prints one line per callback: if two runs of any calls print the same text, and no symbol name contains a line feed, then they had the same callbacks in the same order, of the same orders, levels, books, flags, prices and quantities, although the line of a level does not name its book; if new orders come under unused ids they hold the same live orders, and they have the same levels in every book.", "quantifier": "every two histories of calls, every symbol names without line feeds", "why_tests_cant": "The text is the user's audit trail; whether another history could print the same text is a statement about all pairs of histories. A test compares one printed line.", "anchors": ["include/trader/matching/order.inl: operator<<", "include/trader/matching/level.inl: operator<<", "include/trader/matching/order_book.inl: operator<<", "include/trader/matching/symbol.inl: operator<<", "include/trader/matching/errors.inl: operator<<", "include/trader/matching/update.inl: operator<<", "examples/matching_engine.cpp: MyMarketHandler"]}
{"id": "C67", "title": "The ITCH example prints every message once, in order, and losslessly", "statement": "examples/itch_handler.cpp, fed with any well-formed messages, framed and cut into any buffers, prints the text of each message in order, one per line, and performance/itch_handler.cpp counts the known ones as messages and the unknown ones as errors. If WriteChar and WriteString (of CppCommon) tell the values and write no semicolons and line feeds, two streams of which the same is printed are the same messages, up to the lower half of the timestamps, which is not decoded. Whatever the bytes and the buffers, the programs read to the end and what was printed stays; a message of a wrong size, received with its whole frame, is not printed, nor is the rest of its buffer, and reading goes on with the next buffer as if the length of the refused message had been announced again; received in two pieces it ends all printing.", "quantifier": "every list of messages of all 22 kinds with all field values, every framing into buffers; for the last sentence all inputs", "why_tests_cant": "All field values of all kinds and all chunkings; a swapped or missing field in an output operator is seen only by comparing all messages.", "anchors": ["include/trader/providers/nasdaq/itch_handler.inl: operator<< of all messages", "examples/itch_handler.cpp: MyITCHHandler, main", "performance/itch_handler.cpp: MyITCHHandler, main"]}
{"id": "C68", "title": "The matching benchmark matches any stream of orders fairly, whatever its bytes", "statement": "performance/matching_engine.cpp reads any bytes, in any chunks, up to 2^37 of them, without undefined behaviour; for every symbol it leaves no bid that meets an ask, has executed the same quantity of buy and of sell orders, and no order beyond its limit price. Over a stream of well-formed messages the exchange covers, the orders, their lines and the executions are those of a textbook exchange that matches, to which the orders, cancellations, deletions and replacements of the stream are given (its executions are ignored).", "quantifier": "every byte string below the bound, every chunking; every stream of well-formed messages the textbook exchange covers", "why_tests_cant": "Random bytes produce arbitrary interleavings of partial messages and of orders that match each other; tests feed one recorded file.", "anchors": ["performance/matching_engine.cpp: MyITCHHandler, main"]}
{"id": "C69", "title": "Registrations are fully announced and the statistics of the performance programs are true on every history", "statement": "Over every history of calls of the market manager, a client that sees only the callbacks knows exactly the registered symbols and the books: no symbol or book is announced twice or withdrawn without being there, a book is announced for a registered symbol, and every callback about levels or orders concerns a symbol that has a book at that moment. The market handler of performance/market_manager.cpp and performance/matching_engine.cpp, as long as fewer than 2^64 callbacks were made, has counted the symbols, books and orders there are, the highest numbers of symbols and books at any moment, the orders added, changed and deleted, the executions and the callbacks; additions are orders plus deletions, also when ids are used twice; and if they are not, the highest number of orders at any moment.", "quantifier": "every admissible history of calls, every moment between two callbacks", "why_tests_cant": "The balance of additions and removals and the maxima depend on all callbacks of the whole history, including those inside one matching; a test sees a few sums.", "anchors": ["source/trader/matching/market_manager.cpp: AddSymbol, DeleteSymbol, AddOrderBook, DeleteOrderBook, all calls", "performance/market_manager.cpp: MyMarketHandler", "performance/matching_engine.cpp: MyMarketHandler"]}
{"id": "C70", "title": "Buyers and sellers are treated alike, and neither the price scale nor the lot size matters", "statement": "Take two sessions from an empty manager, the second with the calls of the first written down differently: buyers and sellers change sides and every price is counted from the top of the range; or the prices are mapped to other prices in the same order and all quantities are multiplied by a lot size. (With a lot size other than one, no MitigateOrder.) In sessions of plain orders (limit and market, not All-Or-None, under ids not in use) in which no book is deleted and matching is asked for only when no bid meets an ask, every call of the second session has the result code of the first and exactly its executions, written down in the new way; afterwards the queues and the orders found by id are the rewritten ones. (In a crossed book, and with stop orders, the two sides are not alike: of two orders of the same size that meet in Match() the bid sets the price.)", "quantifier": "all pairs of such sessions of any length, all order-preserving price maps on the prices in use, all lot sizes, any number of symbols, orders and levels", "why_tests_cant": "A relation between two runs over all sessions and all price maps; the code has one copy of every function per side, and a test can compare only a few pairs of sessions.", "anchors": ["source/trader/matching/market_manager.cpp: MarketManager::MatchOrder, MatchMarket, MatchLimit, ModifyOrder, ReplaceOrder, ExecuteOrder", "source/trader/matching/order_book.cpp: OrderBook::AddLevel, DeleteLevel, AddOrder, ReduceOrder, DeleteOrder", "include/trader/matching/order_book.inl: GetBid, GetAsk"]}
{"id": "C71", "title": "The command-line engine complains about exactly the lines and commands that deserve it", "statement": "For every text on the standard input of the example program matching_engine (any bytes, with or without a final line feed), as long as no book is created again after it was deleted: its error stream holds, in the order of the lines and nothing else, one line for every line that contains no beginning of a command (quoting it), one for every line that contains one but is not a well-formed command (quoting it and the first such beginning in the order they are tried), and one for every command the market manager refused (quoting the words of the command and the name of the result). Help, comments, empty lines, switches of matching and accepted commands cause no complaint, and nothing is written after exit/quit or after the number that kills the program. The codes quoted are exactly the results other than OK, in order. The text is unambiguous: two sessions with the same error stream had the same complaints, whatever was typed.", "quantifier": "all input texts of up to 2^33 lines, all contents of uninitialised memory", "why_tests_cant": "There are unboundedly many texts; the branch taken depends on which of nineteen phrases occur anywhere in the line and on the state all earlier lines have produced.", "anchors": ["examples/matching_engine.cpp: main, AddSymbol, DeleteSymbol, AddOrderBook, DeleteOrderBook, AddMarketOrder, AddSlippageMarketOrder, AddLimitOrder, AddIOCLimitOrder, AddFOKLimitOrder, AddAONLimitOrder, AddStopOrder, AddStopLimitOrder, AddTrailingStopOrder, AddTrailingStopLimitOrder, ReduceOrder, ModifyOrder, MitigateOrder, ReplaceOrder, DeleteOrder", "include/trader/matching/errors.inl: operator<<"]}
{"id": "C72", "title": "The complete callback stream divides by symbol and does not depend on the order ids", "statement": "(1) Divide symbols and order ids among several managers and give each its own calls (EnableMatching, DisableMatching and Match go to all of them). Then each manager makes for each of its calls exactly the callbacks, with exactly the same arguments and in the same order, that one manager given all the calls makes about its symbols: symbols, books, levels with their volumes and top flags, orders and executions; and answers with the same result code. Its whole feed is the one manager's feed restricted to its symbols. So two sessions that bring a manager the same calls in the same order, interleaved with other calls in any way, make the same callbacks about its symbols. (2) The same calls with other order ids (different ids stay different, zero stays zero) make the same callbacks in the same order with the new ids, and the same result codes.", "quantifier": "all admissible sessions of any length, all divisions of symbols and ids that the calls respect, all injective renamings of ids that keep zero and fit 64 bits, all order types, matching on or off", "why_tests_cant": "A relation between pairs of runs, over all sessions, all interleavings and all renamings; orders of all symbols are in one hash map, and one test compares one pair of runs.", "anchors": ["source/trader/matching/market_manager.cpp: all calls, Match, MatchOrder, ActivateStopOrders, RecalculateTrailingStopPrice, UpdateLevel", "include/trader/matching/market_handler.h: MarketHandler", "include/trader/matching/market_manager.inl: GetOrder, GetOrderBook"]}
{"id": "C73", "title": "There is no hidden state: what a manager does next depends only on what can be read from it", "statement": "(1) The price levels of a book with their total, hidden and visible volumes, order counts and queues, and its best prices, are determined by the orders in line: two managers, however they were reached, with the same orders, the same orders in line, the same symbols and books and the same remembered prices (last, matching and trailing prices) show the same in everything. (2) Two managers from which the same can be read cannot be told apart by anything that follows: every admissible sequence of calls is admissible for both, returns the same result codes, makes the same callbacks with the same arguments in the same order, and leaves both showing the same. (The remembered prices matter: a witness gives two managers without any order that treat the same trailing order differently.)", "quantifier": "all pairs of reachable states, whatever their histories, and all continuations of any length", "why_tests_cant": "Compares all pairs of histories that lead to the same visible state, and all continuations of both; caches such as the best-level pointers, level volumes and queue links could differ between two histories without any test noticing.", "anchors": ["source/trader/matching/order_book.cpp: AddOrder, ReduceOrder, DeleteOrder, AddLevel, DeleteLevel", "source/trader/matching/market_manager.cpp: all calls", "include/trader/matching/order_book.h: OrderBook", "include/trader/matching/level.h: Level"]}
{"id": "C74", "title": "Every order held is valid, and a book can be restored from its orders", "statement": "(1) Every order that can be looked up in the manager passes Order::Validate, at any time: also after partial executions, reductions, modifications, replacements, activation of stop orders and moves of trailing orders. (2) Save the orders in the books, reading the lines one after the other (or in any way that keeps the order of each line), and pass them to AddOrder of a new manager with the same symbols and books and matching off: all these calls are admissible, return OK and execute nothing, and afterwards the new manager has the same orders, the same lines, and the same levels with the same volumes and best prices. (3) If no bid meets an ask and there are no stop orders, the same holds with matching enabled in the new manager before the first order. (4) If the first manager had matching off and had not seen an execution or trailing price, the new manager cannot be told apart from it by any sequence of calls.", "quantifier": "every reachable state, every way of listing its orders that keeps each line, every continuation", "why_tests_cant": "Quantifies over all states the manager can be in and all listings of their orders; a snapshot test tries a few.", "anchors": ["include/trader/matching/order.inl: Order::Validate", "source/trader/matching/market_manager.cpp: AddOrder, AddLimitOrder, AddStopOrder, AddStopLimitOrder", "source/trader/matching/order_book.cpp: AddOrder, CalculateTrailingStopPrice"]}
{"id": "C75", "title": "Every two executions are paid for by an order that goes", "statement": "(1) In any call, the number of executions is at most twice the number of orders that were in a book before the call and are in none after it, plus what the call itself brings in: two for a new order, one for an execution by hand, nothing for any other call (modifying, replacing by id, reducing, deleting, enabling matching, Match, activating stop orders). (2) Over any history, the number of executions so far plus twice the number of stored orders is at most twice the number of orders submitted plus the number of executions by hand. So a call cannot set off an endless or disproportionate series of executions, however many stop orders trigger each other. The bound is attained (witness).", "quantifier": "every history, every state, every call, any number of orders of all types", "why_tests_cant": "Cascades of stop orders, All-Or-None searches and crossed books of any size: the bound holds for all of them, and a test shows one cascade.", "anchors": ["source/trader/matching/market_manager.cpp: Match, MatchLimit, MatchMarket, ExecuteMatchingChain, ActivateStopOrders, AddOrder, ExecuteOrder, ReplaceOrder"]}
{"id": "C76", "title": "Matching has nothing to do on an uncrossed market", "statement": "In a history where no new order and no new price (AddOrder, ReplaceOrder, ModifyOrder, MitigateOrder) ever meets the opposite side of its book, and no stop order is submitted, it does not matter whether and when matching is enabled, disabled or asked for: take all these calls out and put others in anywhere, and every other call still returns the same code and reports the same executions, EnableMatching and Match execute nothing, and the manager shows the same symbols, books, orders, order queues and market prices in the end. So a book driven by an exchange feed is the same with matching on or off as long as the feed is uncrossed.", "quantifier": "All admissible histories of calls whose new orders are limit orders (of any time in force) priced away from the opposite side, or market orders with nobody on the opposite side; every way of placing EnableMatching, DisableMatching and Match calls in them.", "why_tests_cant": "Tests compare one session with matching on and off; the claim is about every session and every placement of the calls that concern matching, including refused and duplicate orders.", "anchors": ["source/trader/matching/market_manager.cpp: MarketManager::EnableMatching, Match, AddLimitOrder, MatchLimit, ModifyOrder, ReplaceOrder, ActivateStopOrders", "include/trader/matching/market_manager.h: EnableMatching, DisableMatching, IsMatchingEnabled"]}
{"id": "C77", "title": "Best execution: no other fill would have been larger, cheaper or better paid", "statement": "If the book has nothing to match and no All-Or-None order rests on the opposite side, then of all ways to fill an incoming GTC or IOC limit or market order from the resting orders (so many lots of each, at its own price) the manager chooses the best: no choice among the orders at acceptable prices has more lots, no choice of as many lots would have cost a buyer less or brought a seller more, and what is executed is itself such a choice. (A Fill-Or-Kill order pays its own limit price instead: witness.)", "quantifier": "every reachable state with matching on and nothing to match, every incoming order of these kinds, every choice of lots of the resting orders", "why_tests_cant": "Compares the executions with all possible allocations over books of any size; a test compares with one expected result.", "anchors": ["source/trader/matching/market_manager.cpp: MatchLimit, MatchMarket, MatchOrder, AddLimitOrder, AddMarketOrder"]}
{"id": "C78", "title": "An order can be split without any effect on the others", "statement": "If the book has nothing to match and no All-Or-None order rests on the opposite side, submitting one GTC or IOC limit order, or two of the same side and price that are together as large, one after the other, has the same effect on everybody else: the opposite side of the book is the same afterwards (the same orders in the same queues with the same leaves and executed quantities), the same quantity and the same money change hands, and every resting order is executed for the same quantity at the same price.", "quantifier": "every reachable state as stated, every size and every split, every price", "why_tests_cant": "Relates two different call sequences from the same state, for all books and all splits.", "anchors": ["source/trader/matching/market_manager.cpp: MatchLimit, MatchOrder, AddLimitOrder, ReduceOrder"]}
{"id": "C79", "title": "Neither the price scale nor the lot size matters, for all types of orders", "statement": "Take two sessions from an empty manager, with orders of all types (market, limit, stop, stop-limit, trailing; GTC, IOC, FOK, AON), crossed books, deleted books and any switching of matching, the second with the calls of the first in another lot size: every quantity multiplied by k. Every call of the second has the same result code and the same executions at the same prices, k times as large; afterwards the orders found by id, the queues and the market prices correspond. (A mitigated order must not have an executed quantity that overflows in the new lot size: witness.) Likewise if the prices of a session without trailing orders and slippage limits are mapped to any other prices in the same order, keeping 0 and 2^64-1: the second session is possible whenever the first one is, and has the same result codes and the same executions at the new prices. (Slippage limits are distances and do depend on the scale: witness.)", "quantifier": "all pairs of such sessions of any length, all lot sizes, all order-preserving price maps on the prices in use, any number of symbols, orders and levels", "why_tests_cant": "A relation between two runs over all sessions, lot sizes and price maps.", "anchors": ["source/trader/matching/market_manager.cpp: Match, MatchMarket, MatchLimit, MatchOrder, CalculateMatchingChain, ExecuteMatchingChain, ActivateStopOrders, ActivateStopOrder, ActivateStopLimitOrder, RecalculateTrailingStopPrice, ModifyOrder, ReplaceOrder, ExecuteOrder, ReduceOrder", "source/trader/matching/order_book.cpp: AddLevel, DeleteLevel, AddOrder, ReduceOrder, DeleteOrder"]}
{"id": "C80", "title": "What a handler can read from inside a callback", "statement": "A handler may read the manager and the books (GetOrder, GetOrderBook, GetSymbol, the levels, best_bid, best_ask) while it is being called, and the process may die there. At every callback of every order, matching or mode call: the bid and ask levels of all books are exactly those a client obtains from the level callbacks received so far, the present one included, each side in price order, and best_bid and best_ask are the best of them; a level announced as new holds one order; the order the callback is about is held by the manager exactly as it is reported (an order being added under an unused id: not held yet, or held as reported); every order the call has not reported on is as it was before the call, no other order has come into being; when the callback passes an order book, every order in its queues is held by the manager and is queued where its type, side and price say; symbols, books and matching mode are unchanged. So a client that has kept the level callbacks since the start has lost nothing, wherever it is interrupted. A new symbol or book is announced when it can already be read, a removal while it still can. (A level need not match its orders inside a callback: witness.)", "quantifier": "every callback of every public call on every reachable state: all order types, books in any state, any number of callbacks in one call", "why_tests_cant": "The state between two steps of a call is visible only to a handler that reads it at that moment; tests look at the state after the call, and there are arbitrarily many interruption points.", "anchors": ["include/trader/matching/market_handler.h: MarketHandler", "source/trader/matching/market_manager.cpp: AddSymbol, DeleteSymbol, AddOrderBook, DeleteOrderBook, AddOrder, ReduceOrder, ModifyOrder, ReplaceOrder, DeleteOrder, ExecuteOrder, Match, MatchMarket, MatchLimit, MatchOrder, ActivateStopOrders, RecalculateTrailingStopPrice, ExecuteMatchingChain, UpdateLevel", "source/trader/matching/order_book.cpp: AddOrder, ReduceOrder, DeleteOrder"]}
{"id": "C81", "title": "The handler's highest numbers of levels and of orders at a level", "statement": "The market handlers of the performance programs read the sizes of the book at each onUpdateOrderBook and the number of orders of the level at each onUpdateLevel, and print the highest values. Whatever sequence of calls is made, the highest number of levels they print is the highest number of price levels any book had on either side at any moment at which anything outside the manager could look (inside any callback or between calls); the highest number of orders at a level likewise, except that it stays 0 as long as only single-order levels have been announced (witness). The remaining counters are as in C69.", "quantifier": "Every session from an empty manager: all sequences of admissible calls on any number of symbols and books, and every moment inside and between the calls.", "why_tests_cant": "The counters sample only some callbacks; that they miss no moment at which a book was larger holds only if it does for every session and every order of callbacks inside a call.", "anchors": ["performance/market_manager.cpp: MyMarketHandler::onUpdateOrderBook, onUpdateLevel, max_order_book_levels, max_order_book_orders", "performance/matching_engine.cpp: MyMarketHandler", "source/trader/matching/market_manager.cpp: UpdateLevel"]}
{"id": "C82", "title": "What each waiting order gets, and who can take it away", "statement": "A limit or market order which is not All-Or-None is accepted while matching is on, with no All-Or-None orders waiting on the other side. Of each waiting order it takes exactly: nothing if the price is not acceptable, otherwise the smaller of the order's size and what the orders before it leave over (nothing of any if the newcomer is Fill-Or-Kill and cannot be filled); only then can stop orders cause more executions. Consequences across different possible calls and different books: a larger or more aggressive order takes at least as much of every waiting order and gets at least as much in total; a waiting order's share depends on nothing but its price, its size and the quantity before it; an order that joins the line takes nothing from the orders it does not beat by price and does not harm the buyer or seller who comes in; an order that is deleted or reduced harms nobody else in line and changes nothing for those before it.", "quantifier": "All reachable managers, all lines of any length, all incoming limit and market orders (GTC, IOC, FOK), all orders joining, leaving or being reduced.", "why_tests_cant": "Relations between the outcomes of different calls on the same book, and of the same call on different books, for all books.", "anchors": ["source/trader/matching/market_manager.cpp: Match, MatchLimit, MatchMarket, MatchOrder, CalculateMatchingChain, ExecuteMatchingChain, AddOrder, DeleteOrder, ReduceOrder"]}
{"id": "C83", "title": "No call follows a null or stale pointer", "statement": "Run on its real data structures (order and level nodes from the pools, doubly linked order lists, the cached level pointer of an order, the cached best pointers, the order map from ids to nodes), the manager never follows a null pointer or a pointer to a released node and never releases a node twice, and it returns the same codes, reports the same callbacks and shows the same symbols, books and orders as the model on lists, so that every other property holds of it too. A book may not be added again while old orders of its symbol are stored: cancelling such an order follows a stale pointer, and where the pool has used the memory again it silently damages another level (witness).", "quantifier": "All finite histories of admissible public calls on any number of symbols and books, any contents of uninitialised memory, any choice of free addresses by the memory pools (reusing released memory or not), every next call.", "why_tests_cant": "A use after release shows only for the history that reaches it, and often not even then: the pools hand the memory out again and the program reads plausible values.", "anchors": ["source/trader/matching/market_manager.cpp: all functions", "source/trader/matching/order_book.cpp: AddLevel, DeleteLevel, AddOrder, ReduceOrder, DeleteOrder and their stop and trailing variants", "include/trader/matching/order.h: OrderNode", "include/trader/matching/level.h: LevelNode"]}
{"id": "C84", "title": "Nothing leaks, and the destructor releases everything once", "statement": "After every history the allocated order nodes are exactly those in the order map, each under the id it carries, and the allocated level nodes are exactly those in the level trees of existing books, each in one tree once: no call leaves a node behind, not even those that refuse, fail half way, trigger stop orders or delete a book. The destructor of the manager, in whatever order it meets the orders, releases every node exactly once and leaves both pools empty.", "quantifier": "All finite histories of admissible public calls, all orders of walking the order map.", "why_tests_cant": "A leak or a double release depends on the whole history; tests would have to count nodes after each of infinitely many.", "anchors": ["source/trader/matching/market_manager.cpp: ~MarketManager, AddLimitOrder, AddStopOrder, AddStopLimitOrder, ReduceOrder, DeleteOrder, ExecuteOrder, ReplaceOrder, ActivateStopOrder", "source/trader/matching/order_book.cpp: ~OrderBook, DeleteLevel"]}
{"id": "C85", "title": "Lists, trees and cached pointers stay in step", "statement": "After every history, for every book and each of its six collections: the tree holds exactly the levels, best price first; the cached best pointer is the first of them, or null if there are none; the order list of each level can be walked forwards from its front and backwards from its back and is, in both directions, the queue of the level in time order; each queued order points back to that level; the fields of the level are those the getters show.", "quantifier": "All finite histories of admissible public calls, all books, collections and levels.", "why_tests_cant": "The pointers are updated at many places, each of which must keep all of them in step for every state.", "anchors": ["source/trader/matching/order_book.cpp: all functions", "source/trader/matching/market_manager.cpp: all functions", "include/trader/matching/order_book.h: best pointers"]}
{"id": "C86", "title": "A book added again starts anew", "statement": "A book may be deleted with orders in it and added again. As long as no later call names an order left behind in this way, the left-behind orders do not matter: every call returns without undefined behaviour; its result code and its executions, and after it the symbols, books, lines of orders, market prices and GetOrder of all other ids, are those of an exchange that forgets the orders of a book together with the book; the levels of the new book consist of its own orders only; and no callback is ever about a left-behind order. In terms of arguments alone: the calls are representable, their quantities add up to less than 2^64, and no call made after a book was deleted names an order id used before.", "quantifier": "All finite sessions of public calls with any deletions and additions of books, all other calls admissible; all left-behind orders.", "why_tests_cant": "DeleteOrderBook releases the levels but leaves the orders in the order map with dangling level pointers; whether a later call follows one depends on the whole history.", "anchors": ["source/trader/matching/market_manager.cpp: AddOrderBook, DeleteOrderBook, AddOrder, Match", "source/trader/matching/order_book.cpp: ~OrderBook"]}
{"id": "C87", "title": "Matching again changes nothing", "statement": "After Match() or EnableMatching(), if none of the waiting orders of a symbol is All-Or-None and its waiting trailing stop orders follow the market at absolute distances, then a second Match() or EnableMatching() leaves the book of the symbol (levels, queues, remembered prices) and all of its orders exactly as they are and raises no callback about the symbol, whatever it does to other symbols. If this is so of every symbol, the second Match() changes nothing at all, EnableMatching() only switches matching on, and so does DisableMatching() followed by EnableMatching(). With All-Or-None orders, or a percentage distance that comes to nothing, the second call can execute more.", "quantifier": "all reachable states, both ways of requesting a match, and all symbols", "why_tests_cant": "needs every book: a crossed book of any depth, chains of stop orders released by one another, and trailing stops that move in any round", "anchors": ["source/trader/matching/market_manager.cpp: Match, ActivateStopOrders, RecalculateTrailingStopPrice", "include/trader/matching/market_manager.h: EnableMatching, DisableMatching"]}
{"id": "C88", "title": "The orders are kept in a map", "statement": "The open addressing hash table that keeps the orders by id behaves as a map: whatever the hash function (in particular FastHash), the initial capacity and the sequence of insertions, deletions and look-ups of ids, every operation ends, answers what a map answers (whether an id was new, whether it was there, what is stored under it, how many ids there are), and an iteration visits every stored order exactly once, however often the table grows. The number of buckets is at least twice the number of entries, never falls, and stays within the initial number or, beyond it, four times the most entries there ever were plus four; the table of the orders does not grow while fewer than 8192 are stored. Erasing through an iterator erases the id it was found for, provided nothing was erased in between, or the order was found in its home bucket. Fed by onAddOrder and onDeleteOrder over a history with unused ids for new orders, it finds exactly the ids that GetOrder finds. ModifyOrder and MitigateOrder do keep an iterator while the match erases other orders: with the ids 3 and 51 the modified order, deleted in this call, stays in the map.", "quantifier": "all hash functions, capacities and finite sequences of requests; all histories with unused ids for new orders", "why_tests_cant": "collisions, the entries a deletion shifts back and the growth of the table depend on the whole history and on the bits of the ids", "anchors": ["include/trader/matching/market_manager.h: Orders", "include/trader/matching/market_manager.inl: MarketManager, GetOrder", "include/trader/matching/fast_hash.inl: operator()", "source/trader/matching/market_manager.cpp: ModifyOrder, DeleteOrder, ReduceOrder, ActivateStopOrder"]}
{"id": "C89", "title": "When a handler throws", "statement": "The library catches nothing: an exception thrown by a handler ends the call on the spot and reaches the caller of the manager. Whatever the callback it is thrown from, the damage is confined to the symbol (for ReplaceOrder with another symbol: the symbols) of the interrupted call and to the order it was to add. Calls about other symbols go on with the same result codes, callbacks and effects as if the interrupted call had never been made. Deleting the order book of the symbol succeeds as it would have done before; from then on, as long as no call names one of the damaged orders, the whole manager, including the same book added again, behaves as if the interrupted call had not been made. The condition is needed: an order interrupted in DeleteOrder may still be stored, and deleting it again is undefined behaviour. Some calls announce themselves first: an exception from the first callback of AddOrder or ExecuteOrder, or from the callback of DeleteSymbol or DeleteOrderBook, leaves the manager exactly as it was; one from the callback of AddSymbol or AddOrderBook comes when the call has had its whole effect. EnableMatching and Match damage one symbol, the one being matched: the symbols before it are as at the end of the call, those after it as before it, and calls about the other symbols go on from there; deleting the book being matched repairs this case too.", "quantifier": "every history, every call, every callback of it, and every sequence of later calls that keeps away from what may be damaged", "why_tests_cant": "the state after each callback of each call in each state would have to be continued by every sequence of calls", "anchors": ["include/trader/matching/market_handler.h: MarketHandler", "source/trader/matching/market_manager.cpp: AddOrder, ReduceOrder, ModifyOrder, ReplaceOrder, DeleteOrder, ExecuteOrder, DeleteOrderBook", "include/trader/matching/market_manager.inl: GetOrder, GetOrderBook"]}
