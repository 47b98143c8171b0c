# Formal model of chronoxor/CppTrader in Lean 4

## 1. Trusted base

* The Lean 4.33.0 kernel. Every theorem of MANIFEST.json depends on at most `propext`, `Classical.choice` and `Quot.sound`;
  section 6 has the list. There are no own axioms, no compiled-code tactics and no Mathlib in the proofs.
* The reading of the C++ source: each definition of the model cites the file and lines it models, and states what it
  simplifies.
* The small specifications (section 3). They are what the English properties are compared with.
* Release semantics: `assert` is compiled out (`NDEBUG`); the error-code branches after the asserts are what runs.
* CppCommon is *not* in the repository. Assumed contracts: `BinTreeAVL` is a sorted set keyed by price with in-order
  iterators and AVL balance (its shape-dependent use, the update of the best level through left/parent/right, is discharged
  by C35 for every balanced tree), `List` is an intrusive FIFO (modelled link by link in `Model/Heap.lean` after its published source), `HashMap` is a finite map (C88 for its published source, with the exception shown there), memory pools never fail,
  `Endian::ReadBigEndian` reads big-endian.
* The C++ standard library in examples/matching_engine.cpp: `std::regex` (ECMAScript syntax) on the fixed patterns,
  `std::stoi`/`std::stoll`, `std::getline`.
* Market handlers do not call back into the manager (the C++ passes const references; re-entrance is outside the model).
* Memory exhaustion, performance and threading (the library has none) are outside the model.

## 2. What is modelled

| C++ | Lean |
|---|---|
| `order.h/.inl/.cpp` (Order, factories, Validate) | `Verif/Model/Order.lean`, `Verif/Model/Factory.lean` (Buy and Sell forms) |
| `level.h`, `order_book.h/.inl/.cpp` | `Verif/Model/Book.lean` |
| `market_manager.cpp`: matching, activation, trailing | `Verif/Model/Engine.lean` |
| `market_manager.cpp/.h/.inl`: public API | `Verif/Model/Manager.lean` |
| `fast_hash.inl` | `Verif/Model/FastHash.lean` |
| `itch_handler.cpp/.inl` | `Verif/Model/Itch.lean` |
| `examples/market_manager.cpp` (and the same handler in `performance/market_manager.cpp`) | `Verif/Model/Feeder.lean` |
| `examples/matching_engine.cpp` | `Verif/Model/Cli.lean` |
| `examples/matching_engine.cpp`: standard input and error stream | `Verif/Model/Console.lean` |
| `performance/market_manager_optimized_aggressive.cpp` | `Verif/Model/Aggressive.lean` |
| `performance/market_manager_optimized.cpp` | `Verif/Model/Optimized.lean` |
| the output operators (`operator<<`) of `include/trader/matching/*.inl`, the printing handler of `examples/matching_engine.cpp` | `Verif/Model/Text.lean` |
| the output operators of `itch_handler.inl`, `examples/itch_handler.cpp`, `performance/itch_handler.cpp` | `Verif/Model/ItchText.lean` |
| the counters of the market handlers of `performance/market_manager.cpp` and `performance/market_manager_optimized.cpp` | `Verif/Model/Stats.lean` |
| `performance/matching_engine.cpp` | `Verif/Model/Bench.lean` |
| `market_manager.cpp` once more, with the state at every callback | `Verif/Model/Watch.lean` |
| the counters of the handlers of `performance/market_manager.cpp` and `performance/matching_engine.cpp` that read the book (`_max_order_book_levels`, `_max_order_book_orders`) | `Verif/Model/Live.lean` |
| `market_manager.cpp`, `order_book.cpp` once more, on pool nodes, intrusive lists and cached pointers; both destructors | `Verif/Model/Heap.lean`, `Verif/Model/HeapEngine.lean`, `Verif/Model/HeapManager.lean` |
| the hash map of the orders, `CppCommon::HashMap` after its published source | `Verif/Model/Index.lean` |
| shape argument for `DeleteLevel` on a balanced tree | `Verif/Props/Avl.lean` |

Not modelled: the timing and reporting of the programs in
`performance/` (which divide by the number of messages and so by zero on an empty input) and the programs' option parsing, help text, the build system, and CppCommon.

Conventions: `uint64_t` values are `Nat` with explicit reduction modulo 2^64 where the C++ arithmetic can wrap
(`add64`, `sub64`); plain `Nat` subtraction is used only where the code guards against underflow. Undefined behaviour
(dangling pointer, index out of range, signed overflow), an `assert(false)` branch, and exhaustion of loop fuel are three
distinct error outcomes of the model; C01 proves none of them is reachable.

A pointer to a level is modelled by (collection, price); a pointer to an order by its id. An order that is temporarily
unlinked (ModifyOrder, stop activation, trailing move) is taken out of the map and carried as a value: the C++ keeps it
in the map, but nothing looks that id up in between (`Model/Watch.lean` keeps it in the map, too, and C80 proves that the
two models do the same). Linked-list `next` pointers are captured before the body of each
inner loop, so inner loops are recursions over the list of ids captured on entry; a captured id that is no longer queued
when it is reached is UB in the model. `Model/Heap*.lean` undoes this abstraction: there the orders and levels are nodes
with addresses, the lists are linked node by node, the next pointers are read when the C++ reads them, and C83-C85 prove
that it does the same. The pools are parameters there: any allocator that gives out free
addresses, in particular one that never uses an address twice (then every use of a stale pointer is an error of the model)
and one that uses released memory again (as CppCommon's do). What remains abstract: a level tree is the list of its nodes
in walking order. `~OrderBook` (order_book.cpp:33-64) releases each level inside a range-for loop over its
tree, so the iterator is stepped through a node already returned to the pool; this works only because the pool keeps the
memory, and the model collects the addresses first.

`ModifyOrder` keeps an iterator of the order map across the match (market_manager.cpp:578 and 664), which may erase other orders. The
engine models erase the right key there. `Model/Index.lean` models the hash map itself, after the published source of CppCommon, and C88 shows
both that it is a map for every other use and that this use is wrong: with colliding ids (3 and 51 for instance) the erasure misses, and a
released order stays in the map. So C01, C83 and every property of an order that `ModifyOrder` or `MitigateOrder` deletes rest on the iterator being good: it is when
the order is in its home bucket (C88_kept), or when nothing was erased in between (C88_iterator).

Exceptions thrown by a handler are modelled by the state at the moment of the callback (`Model/Watch.lean`): there is no `try` in the library, and
no destructor of it changes the books on the way out (`AddOrder` and the others hold nothing but iterators and plain pointers then). `DeleteOrder` and
`ReduceOrder` are not exception safe for the symbol itself (C89_witness). Exceptions of the allocator are not modelled.

### Checking the model against the project's own expectations

`Verif/Tests/` is not part of any proof. `Tests/Engine.lean` is tests/test_matching_engine.cpp line by line (16 test cases, every
call and every `REQUIRE`), evaluated by the kernel on the manager of `Model/Manager.lean` and on the one on pointers of
`Model/HeapManager.lean`; `Tests/Scenarios.lean` gives the fourteen files tools/matching/scenario-*.txt, character by character, to
the model of the console program and compares what is left with what their comments announce. They are tests of the model, a check
that it was read off the code rightly, and no claim rests on them. The two remaining test programs read tools/itch/sample.itch,
which is not in the repository.

## 3. Specifications

They refer to the public API and to values a client can observe; none refers to the engine's functions.

| File | Contents |
|---|---|
| `Verif/Spec.lean` | reachable states, admissible calls, consistency of a level, the home of an order |
| `Verif/Priority.lean` | lines of orders, price-time priority, greedy execution, chains of executions, arrival of an order |
| `Verif/Trades.lean` | groups of executions, balances |
| `Verif/Feed.lean` | a client that keeps orders and levels from the callbacks |
| `Verif/Client.lean` | a client that checks triggers and trailing moves from the callbacks |
| `Verif/Sequence.lean` | conditions on the arguments of a sequence of calls |
| `Verif/Textbook.lean` | a textbook exchange: nothing but one line of orders per side |
| `Verif/Cli.lean` | the grammar of the command language |
| `Verif/Console.lean` | the lines of a text, the complaints about lines and results |
| `Verif/Tape.lean` | an order-by-order feed as a list of resting orders, and its price levels |
| `Verif/Venue.lean` | the reference exchange: one list of orders per collection, six prices per symbol, the answer and executions of every call |
| `Verif/Shards.lean` | dividing the symbols among several managers: the manager a call goes to, calls that respect the division |
| `Verif/Logs.lean` | sessions with all callbacks, their part for one manager of a division, renamed callbacks |
| `Verif/Recast.lean` | renaming order ids and changing visible quantities, of orders, calls and executions |
| `Verif/Equiv.lean` | what a client can see of a manager, and when no sequence of calls tells two managers apart (result codes and all callbacks) |
| `Verif/Saved.lean` | a book without remembered prices, a manager ready to take over the orders of another, saved orders |
| `Verif/Budget.lean` | what a call may execute without an order going (C75) |
| `Verif/Inert.lean` | orders and prices that do not meet the opposite side; the calls that concern matching (C76) |
| `Verif/Best.lean` | all ways to fill an order from the orders in line, and what they cost (C77); executions per order and price (C78) |
| `Verif/Rescale.lean` | the calls and orders on another price scale and in another lot size (C79) |
| `Verif/Glimpse.lean` | what a handler can read from inside a callback (C80) |
| `Verif/Share.lean` | what each order in line gets of an incoming order (C82) |
| `Verif/Pointers.lean` | what the nodes and pointers have to look like; the accounts of the two pools (C83-C85) |
| `Verif/Dict.lean` | a map and its answers (C88) |
| `Verif/Thrown.lean` | what an exception of a handler may damage, later calls that keep away from it, deleting the book (C89) |
| `Verif/Revival.lean` | sessions that delete books with orders in them and add them again, and the exchange that forgets such orders (C86) |
| `Verif/Moments.lean` | the moments of a session at which anything can look at the manager (C81) |
| `Verif/Seen.lean` | what the optimised manager notes of a feed |
| `Verif/News.lean` | the callbacks the optimised manager owes for a report |
| `Verif/Tally.lean` | the statistics of a feed |
| `Verif/Redraw.lean` | the same calls from the other side of the market, on another price scale, in another lot size |
| `Verif/Count.lean` | the registry a client rebuilds from callbacks, counting |
| `Verif/Requests.lean` | what a feed asks of an exchange that executes orders by itself |
| `Verif/Told.lean` | what a printed log tells |

`Verif/Proof/*` has the lemmas, `Verif/Props/*` the theorems of the manifest with, beside each, an example that a
non-trivial concrete case meets its hypotheses.

## 4. Where the code does not do what one expects

A property is stated as far as it is true; where the code violates what the English suggests, the violation is proved as a
theorem about a concrete history (`..._witness`). No theorem has the suffix `_partial`: each statement in properties.jsonl
is what its theorems say, including its exceptions. The witnesses show, among others: Match() skips time priority
(C11), All-Or-None crossings ignore prices and do not conserve volume (C09, C10, C12), Fill-Or-Kill market orders are
executed at their own price bound (C20), ORDER_DUPLICATE after matching took place and lost orders (C16, C23, C45), stop orders
traded by ModifyOrder before their trigger (C40), wrap-around in trailing percentages (C15), books re-created over
orphaned orders (C01, C57), numbers above INT_MAX terminate the command-line engine (C57), prices lost and quantities left behind by the optimised manager (C64).

## 5. Plan per property

**C01 No undefined behaviour and guaranteed termination.** Modelled: everything reachable from the public calls; UB, `assert(false)` and an exhausted loop bound are error values of the model. Proof: the invariant makes each access succeed, and a decreasing measure covers each loop. The preconditions (symbol id below 2^32-1, level volumes below 2^64, no book re-created over orphaned orders) are each shown necessary by a history that reaches UB. Theorems: `C01_no_ub`, `C01_history`, `C01_sequence`, `C01_needs_symbol_bound`, `C01_needs_volume_bound`, `C01_needs_no_orphans` (Props/Safety.lean, Props/Sequence.lean).

**C02 Level volume and order count equal the sum over their orders.** Modelled: Book, Engine, Manager. Proof: one clause of the state invariant `MInv`, established for the empty manager and preserved by every call (induction over histories, `Mgr.Reachable`). Theorems: `C02_level_sums` (Props/State.lean).

**C03 Levels are unique, sorted, and best_* is the extreme level.** Modelled: Book, Engine, Manager. Proof: one clause of the state invariant `MInv`, established for the empty manager and preserved by every call (induction over histories, `Mgr.Reachable`). Theorems: `C03_levels_sorted` (Props/State.lean).

**C04 GetOrder and the book agree.** Modelled: Book, Engine, Manager. Proof: one clause of the state invariant `MInv`, established for the empty manager and preserved by every call (induction over histories, `Mgr.Reachable`). Theorems: `C04_stored_is_queued`, `C04_queued_is_stored` (Props/State.lean).

**C05 Hidden + visible = total.** Modelled: Book, Engine, Manager. Proof: one clause of the state invariant `MInv`, established for the empty manager and preserved by every call (induction over histories, `Mgr.Reachable`). Theorems: `C05_order_hidden_visible`, `C05_level_hidden_visible` (Props/State.lean).

**C06 Market, IOC and FOK orders never rest.** Modelled: Book, Engine, Manager. Proof: one clause of the state invariant `MInv`, established for the empty manager and preserved by every call (induction over histories, `Mgr.Reachable`). Theorems: `C06_never_rest`, `C06_book` (Props/State.lean).

**C07 Fill-Or-Kill is all or nothing.** Modelled: CalculateMatchingChain, ExecuteMatchingChain, MatchLimit, MatchMarket. Proof: the chain is the list function `chain` of Priority.lean; a FOK order is executed by a chain or not at all. Theorems: `C07_submitted`, `C07_resting`, `C07_complete` (Props/Feeds.lean, Props/Filled.lean).

**C08 Fill accounting is exact.** Modelled: Book, Engine, Manager. Proof: every call decomposes into a list of micro-steps (`Step`, `Steps`); the property is an invariant of, or an induction over, that list. The client's view of an order (Feed.lean) is replayed over the callbacks. Theorems: `C08_quantity`, `C08_accounting`, `C08_accounting_new`, `C45_order_feed`, `C45_order_feed_history`, `C45_other_orders` (Props/Feeds.lean, Props/Trades.lean).

**C09 Trades conserve volume.** Modelled: Book, Engine, Manager. Proof: every call decomposes into a list of micro-steps (`Step`, `Steps`); the property is an invariant of, or an induction over, that list. Buy and sell executions balance per group; with All-Or-None orders the code violates the claim, which is proved as a witness. Theorems: `C09_conservation`, `C09_aon_witness` (Props/Trades.lean).

**C10 Limit price protection.** Modelled: Book, Engine, Manager. Proof: every call decomposes into a list of micro-steps (`Step`, `Steps`); the property is an invariant of, or an induction over, that list. Witness for All-Or-None crossings, where the code checks no price on deeper levels. Theorems: `C10_limit_price`, `C10_aon_witness` (Props/Trades.lean).

**C11 Incoming orders follow price-time priority.** Modelled: MatchOrder, AddLimitOrder, AddMarketOrder. Proof: refinement to the list functions `greedy`, `chain`, `Board.arrive` of Priority.lean. Witness that Match() does not respect time priority. Theorems: `C11_incoming`, `C11_incoming_price_time`, `C11_match_witness`, `lines_complete`, `lines_sorted`, `lines_inLine`, `enqueue_place` (Props/Lines.lean).

**C12 Book is uncrossed while matching is enabled.** Postcondition of the Match loop (fuel measure), preserved by every other call; witness with an All-Or-None order. Theorems: `C12_uncrossed`, `C12_uncrossed_call`, `C12_aon_witness` (Props/Prices.lean).

**C13 Triggered stops do not stay in the book.** Postcondition of ActivateStopOrders; witness for orders hidden behind a not triggered one. Theorems: `C13_buy_stops`, `C13_sell_stops`, `C13_trailing_stops`, `C13_hidden_witness` (Props/Prices.lean).

**C14 Trailing stops only move in the favourable direction.** Monotonicity of CalculateTrailingStopPrice, carried through the micro-steps. Theorems: `C14_trailing_direction` (Props/Feeds.lean).

**C15 Trailing stop price formula.** Arithmetic of CalculateTrailingStopPrice with 64-bit wrap-around; witness where the percentage product wraps. Theorems: `C15_formula`, `C15_units`, `C15_idempotent`, `C15_add`, `C15_moves`, `C15_wrap_witness` (Props/Trailing.lean).

**C16 Rejected calls have no effect.** Case analysis of all calls: the error paths return the state unchanged. Witnesses for ORDER_DUPLICATE and for ReplaceOrder(id,new_order). Theorems: `C16_rejected_no_effect`, `C16_replaceWith`, `C16_duplicate_witness`, `C16_replaceWith_witness` (Props/Calls.lean).

**C17 Symbol registry behaves as a map.** Refinement of the symbol vector to a finite map. Theorems: `C17_symbols_step`, `C17_symbols_history` (Props/Calls.lean).

**C18 Order-book registry behaves as a map over symbols.** Refinement of the book vector to a finite map over registered symbols. Theorems: `C18_books_step`, `C18_new_book_empty`, `C18_orders_stay`, `C18_orphan_refused` (Props/Calls.lean).

**C19 Validate accepts exactly the documented orders.** Decision logic of Validate against a declarative predicate, for all field values. Theorems: `validate_ok_iff`, `validate_id_iff`, `validate_quantity_iff`, `validate_parameter_iff`, `validate_rejects_documented_percentage` (Props/Validate.lean).

**C20 Market order slippage bound.** Refinement of MatchMarket to `Order.bounded` and `greedy`; witness for FOK market orders executed at their own bound. Theorems: `C20_slippage`, `C20_fok_witness` (Props/Lines.lean).

**C21 Reducing an iceberg takes hidden quantity first.** Level volumes before and after a reduction, from the invariant and the effect of ReduceOrder. Theorems: `C21_reduce`, `C21_execute` (Props/Lines.lean).

**C22 Mitigation never overfills.** Effect of MitigateOrder/ModifyOrder as `Board.arrive` of the changed order. Theorems: `C22_mitigate`, `C22_mitigate_rests`, `C22_modify` (Props/Moves.lean).

**C23 Replace keeps side, type and TIF under a new id.** Effect of ReplaceOrder as removal followed by `Board.arrive`. Theorems: `C23_replace`, `C23_replace_rests`, `C23_duplicate_witness` (Props/Moves.lean).

**C24 Market-data feed is complete.** The level callbacks, replayed by a client (Feed.lean), give the levels of the book: induction over micro-steps. Theorems: `C24_level_feed`, `C24_level_feed_history` (Props/Feeds.lean).

**C25 ITCH stream chunking independence.** Modelled: Process with its cache. Proof: a simulation between the cached and the contiguous parse; induction over chunks. Theorems: `Itch.process_chunking`, `Itch.process_any_two_chunkings`, `Itch.process_chunking_from`, `Itch.state_after_refusal_depends_on_chunking` (Props/ItchStream.lean).

**C26 ITCH decode is the inverse of the wire encoding.** Each message reader is inverted by the wire encoding; the lossy timestamp is proved to be exactly what the code computes. Theorems: `Itch.decode_wire`, `Itch.decode_timestamp_lossy` (Props/ItchDecode.lean).

**C27 ITCH decoding stays in bounds.** Reads are partial functions on the byte list; decoding is shown never to leave it. Theorems: `Itch.decode_in_bounds` (Props/ItchDecode.lean).

**C28 ITCH size and type checks.** Case analysis on the type byte and the size. Theorems: `Itch.decode_total`, `Itch.processMessage_callbacks` (Props/ItchDecode.lean).

**C29 Order-id hash is collision-free on 64-bit words.** Bit vectors: each mixing step is a bijection of 64-bit words. Theorems: `FastHash.hash_injective`, `FastHash.hash_surjective`, `FastHash.unhash_hash`, `FastHash.hash_unhash` (Props/FastHash.lean).

**C30 Symbol-name packing is injective on ASCII.** Bytewise extraction of the packed word; counterexample for non-ASCII. Theorems: `FastHash.parse_byte`, `FastHash.parse_injective`, `FastHash.parse_not_injective_nonAscii` (Props/FastHash.lean).

**C31 Symbols are isolated.** Effect of a call on the books of other symbols. Theorems: `C31_isolation` (Props/Calls.lean).

**C32 AON orders are never partially filled by matching.** Modelled: Book, Engine, Manager. Proof: every call decomposes into a list of micro-steps (`Step`, `Steps`); the property is an invariant of, or an induction over, that list. Theorems: `C32_aon_whole`, `C44_execute` (Props/Manual.lean, Props/Trades.lean).

**C33 No executions while matching is disabled.** Modelled: Book, Engine, Manager. Proof: every call decomposes into a list of micro-steps (`Step`, `Steps`); the property is an invariant of, or an induction over, that list. Theorems: `C33_no_matching`, `C44_execute` (Props/Manual.lean, Props/Trades.lean).

**C34 Execute and Reduce are capped by leaves quantity.** Effect of ReduceOrder/ExecuteOrder on the lines of the book. Theorems: `C34_reduce`, `C34_execute` (Props/Lines.lean).

**C35 Best-level pointer update is correct for balanced trees.** AVL trees of any size, by structural induction; counterexample for unbalanced trees. Theorems: `Avl.best_after_delete_max`, `Avl.best_after_delete_min`, `Avl.deleteLevel_best_from_tree`, `Avl.unbalanced_counterexample` (Props/Avl.lean).

**C36 Top-of-book flag.** Event log of UpdateLevel; witness for deletions. Theorems: `C36_top_flag`, `C36_delete_witness` (Props/Feeds.lean).

**C37 Stop orders are invisible in the book.** Modelled: Book, Engine, Manager. Proof: one clause of the state invariant `MInv`, established for the empty manager and preserved by every call (induction over histories, `Mgr.Reachable`). Theorems: `C37_stops_invisible` (Props/State.lean).

**C38 Queue position.** Effect on the queue of a level. Theorems: `C38_reduce_keeps_place`, `C38_execute_keeps_place`, `C38_modify_to_tail`, `C38_modify`, `level_queue` (Props/Moves.lean).

**C39 Trigger prices are forgotten between order calls.** The matching prices are reset at the end of order calls; witness for Match(). Theorems: `C39_market_prices`, `C39_match_witness` (Props/Prices.lean).

**C40 Stop orders trade only after being triggered.** Modelled: Book, Engine, Manager. Proof: every call decomposes into a list of micro-steps (`Step`, `Steps`); the property is an invariant of, or an induction over, that list. Witness for ModifyOrder on a stop order. Theorems: `C40_stops_do_not_trade`, `C44_execute`, `C40_modify_witness` (Props/Manual.lean, Props/Trades.lean).

**C41 Order factories build valid orders.** Evaluation of the factory functions for all arguments; the range condition of the model is shown to be that of Lean's machine integers UInt64, UInt32 and Int64. Theorems: `mkMarket_valid`, `mkLimit_valid`, `mkStop_valid`, `mkStopLimit_valid`, `mkTrailingStop_valid`, `mkTrailingStopLimit_valid`, `C41_fields`, `C41_fields_stop`, `C41_sides`, `C41_defaults`, `C41_machine`, `C41_representable` (Props/Factory.lean, Props/Validate.lean).

**C42 ITCH stream round trip.** Composition of C25 and C26 over a list of messages. Theorems: `Itch.process_frames`, `Itch.stream_roundtrip` (Props/ItchStream.lean).

**C43 Result codes.** Exact conditions for each result code, for every call and reachable state. Theorems: `C43_refused`, `C43_carried_out`, `C43_replaceWith` (Props/Calls.lean).

**C44 Executions come in well-formed groups.** Modelled: Book, Engine, Manager. Proof: every call decomposes into a list of micro-steps (`Step`, `Steps`); the property is an invariant of, or an induction over, that list. The groups are the inductive predicate of Trades.lean. Theorems: `C44_groups`, `C44_groups_noAON`, `C44_execute` (Props/Manual.lean, Props/Trades.lean).

**C45 Order feed is complete and consistent.** A client that sees only callbacks (Feed.lean) replays them; its view is GetOrder. For orders other than the submitted one the same is proved without any condition on ids, by following one id through the micro-steps (Proof/FeedAt). Theorems: `C45_order_feed`, `C45_order_feed_history`, `C45_other_orders`, `C45_duplicate_witness` (Props/Feeds.lean).

**C46 Order identity.** Relation between an order before and after each micro-step. Theorems: `C46_identity` (Props/Feeds.lean).

**C47 Last trade prices.** Fold over the execution callbacks (Prices). Theorems: `C47_last_prices` (Props/Prices.lean).

**C48 Every level notification is followed by a book notification.** Shape of the event log of every micro-step. Theorems: `C48_book_feed` (Props/Prices.lean).

**C49 Stop orders are triggered and trailing stops moved only on market evidence.** A client (Client.lean) that tracks orders, levels and last prices from callbacks checks each trigger and trailing move. Theorems: `C49_stop_feed`, `C49_stop_feed_history`, `C49_triggered`, `C49_frozen` (Props/Client.lean).

**C50 Matching mode.** Effect of each call on the mode. Theorems: `C50_mode`, `C50_disable` (Props/Client.lean).

**C51 For plain orders the manager is a textbook price-time priority exchange.** Forward simulation between the manager and the exchange of Textbook.lean, which has no levels and no matching loop. Theorems: `C51_textbook`, `C51_simulation`, `C51_uncrossed` (Props/Textbook.lean).

**C52 An incoming order is filled as far as the opposite side allows.** Arithmetic of `greedy`/`chain` over the lines, combined with C11. Theorems: `C52_filled` (Props/Filled.lean).

**C53 The ITCH-driven market manager survives any input.** Modelled: examples/market_manager.cpp. Proof: totality of Process (C55) and C01 for the calls any decoded message can produce, with a bound on the sum of quantities. Theorems: `C53_any_bytes` (Props/Feeder.lean).

**C54 The ITCH-driven market manager rebuilds the exchange's book.** C42 and C51 composed. Theorems: `C54_itch_book`, `C54_messages` (Props/Agreement.lean, Props/Feeder.lean).

**C55 ITCH handler after a refused message.** An invariant of the parser state that also holds after a refusal. Theorems: `Itch.process_total`, `Itch.C55_stuck`, `Itch.C55_two_pieces`, `Itch.C55_one_piece` (Props/ItchRobust.lean).

**C56 The command language of the matching engine.** Modelled: examples/matching_engine.cpp. Proof: the regular expressions are characterised by a grammar (Cli.lean), both directions. Theorems: `Cli.C56_call_iff`, `Cli.C56_abort_iff`, `Cli.C56_stop_iff`, `Cli.C56_nothing_iff`, `Cli.C56_unambiguous` (Props/Cli.lean).

**C57 The command-line matching engine on any input.** Composition of C56 with C01_sequence. Theorems: `Cli.C57_session`, `Cli.C57_deterministic`, `Cli.C57_any_text`, `Cli.C57_revival_witness`, `Cli.C57_abort_witness` (Props/Cli.lean).

**C58 The level-only market manager shows the levels of the feed.** Modelled: performance/market_manager_optimized_aggressive.cpp. Proof: an invariant between vectors, pool and the list of resting orders (Tape.lean). Theorems: `Aggr.C58_levels`, `Aggr.C58_pool`, `Aggr.C58_unchecked_witness`, `Aggr.C58_replace_with` (Props/Aggressive.lean).

**C59 Both market managers agree on every ITCH stream.** Simulation of the textbook exchange by the tape, composed with C51, C42 and C58. Theorems: `C59_agreement`, `C59_price_witness` (Props/Agreement.lean).

**C60 The whole matching engine equals a small reference exchange.** Specification `Venue.lean`: a reference exchange with one line of orders per collection and six prices per symbol. Proof by simulation, bottom up: one incoming order (`Strikes`, Proof/Pit), one released stop order, one level, one round of activation (Proof/PitStop), trailing orders (Proof/PitTrail), a crossed book including the All-Or-None chain (Proof/PitCross), the body of every public call (Proof/PitOps), the manager and whole histories (Proof/PitMgr, Props/Venue). The loops of the engine that the model runs with fuel are matched with the turns of the reference. Theorems: `C60_venue`, `C60_function`, `C60_total` (Props/Venue.lean).

**C61 Symbols can be divided among several managers without changing any result.** Spec Shards.lean: `Division`, the manager a call goes to, calls that respect the division, the part of a record. Calls that respect the division keep every order with the manager of its symbol (Proof/Division: by the label semantics of the engine). The reference exchange of C60 commutes with taking the share of a manager (Proof/Shards: pure functions, call by call); Match over all books filters to Match over the manager's books because a book's executions are of its symbol. C60 carries the result to the engine on both sides. Theorems: `C61_shards`, `C61_interleaving` (Props/Laws.lean, Props/Shards.lean).

**C62 Order ids are only names, and the visible quantity never influences the trading.** Spec Recast.lean: a change of ids and visible quantities of orders, calls and executions. Every function of the reference exchange commutes with it (Proof/Recast, function by function, induction on lines and fuel; Proof/RecastVenue for the calls); admissibility is preserved because total quantities are; C60 carries the result to the engine on both sides. Theorems: `C62_recast`, `C62_ids`, `C62_visible` (Props/Recast.lean).

**C63 Calls that mean the same cannot be told apart, now or later.** Spec Equiv.lean: `Shows` (observable state) and `Equivalent` (no sequence of calls tells two managers apart). Two managers with the same reference exchange (C60) are equivalent (Proof/Equiv: the identity case of C62 transfers admissibility and histories); each law is an equation between answers of the reference exchange (Props/Laws). Theorems: `C63_reduce_all`, `C63_mitigate`, `C63_execute_price`, `C63_execute_all`, `C63_replace`, `C63_replace_id` (Props/Laws.lean).

**C64 The optimised market manager shows exactly the levels of what it has noted.** Spec Seen.lean: what the optimised manager notes of a feed. Model Model/Optimized.lean: pool, level arrays, orders by id, 32-bit counters. Invariant (Proof/Optimized): the levels of each book are sorted, each entry of the pool is free or used by one level, each level has the total of what is seen at its price; preserved by every call; composed with the ITCH parser (C12) for streams and chunks. The callbacks (spec News.lean): each call appends exactly the events that tell the news of its report (Props/Optimized, Props/News). Theorems: `Opt.C64_levels`, `Opt.C64_pool`, `Opt.C64_orders`, `Opt.C64_stream`, `Opt.C64_news`, `Opt.C64_stream_news`, `Opt.C64_rests`, `Opt.C64_ordinary`, `Opt.C64_totals`, `Opt.C64_price_witness`, `Opt.C64_ghost_witness`, `Opt.C64_unchecked_witness`, `Opt.C64_replace_with` (Props/News.lean, Props/Optimized.lean, Props/OptimizedFeed.lean, Props/OptimizedTotal.lean).

**C65 The two performance programs count the same, and what they count is true of the feed.** Spec Tally.lean. Model Model/Stats.lean: the counters of the two market handlers as folds over the callbacks. For each message, the list of callbacks of either manager is computed up to onUpdateOrderBook (Props/Tally: from the calls of the market manager; Props/Optimized: from the optimised one) and equals the list the specification counts; no counter wraps below 2^62 messages. The highest number of levels follows from the callbacks of C64 by induction over the stream. Theorems: `C65_statistics`, `C65_balance`, `Opt.C65_levels` (Props/News.lean, Props/Tally.lean, Props/TallyBalance.lean).

**C66 The printed log of the matching example is lossless.** Model/Text.lean: the output operators as functions to lists of characters, the log as the concatenation of lines. Spec Told.lean. Proof/Text.lean: each text followed by anything can be cut in one way; Props/Text.lean: lines begin differently, contain no line feed; a level line is followed by a book line (C48); replaying (C45, C24) gives the orders and levels. Theorems: `C66_order_text`, `C66_texts`, `C66_log`, `C66_orders`, `C66_levels` (Props/Text.lean).

**C67 The ITCH example prints every message once, in order, and losslessly.** Model/ItchText.lean: labels and values of the 22 operators. By stream_roundtrip (C42) the handler receives the messages; the class name is cut at the parenthesis, the values at semicolons. Theorems: `Itch.C67_printed`, `Itch.C67_lossless`, `Itch.C67_any`, `Itch.C67_refused` (Props/ItchText.lean).

**C68 The matching benchmark matches any stream of orders fairly, whatever its bytes.** Model/Bench.lean: the handler and the main loop. Proof: the calls the handler makes are harmless (as in C53) so that C01, C09, C10, C12 apply to the whole run; the book by C42 (stream_roundtrip) and C51_textbook. Theorems: `C68_any_bytes`, `C68_book` (Props/Bench.lean).

**C69 Registrations are fully announced and the statistics of the performance programs are true on every history.** Count.lean: the registry a client rebuilds, exact counting. Registry by case split over the calls (C17, C18, C48 with the symbols of events in a book); balance of onAddOrder and onDeleteOrder by induction over the steps of the engine (Proof/Balance.lean), which also covers orders under used ids. Theorems: `C69_registry`, `C69_counters`, `C69_peak` (Props/Count.lean).

**C70 Buyers and sellers are treated alike, and neither the price scale nor the lot size matters.** Redraw.lean: the other side of the market, another price scale, another lot size. Both sessions are the textbook exchange (C51); that one commutes with the rewriting call by call, as long as lookups do, which follows from the engine's invariants on both sides. Theorems: `C70_redraw`, `C70_mirror`, `C70_scale`, `C70_mirror_witness` (Props/Redraw.lean).

**C71 The command-line engine complains about exactly the lines and commands that deserve it.** Console.lean: the lines of a text and the complaints about them. The handler a line goes to is the first phrase it contains; for a well-formed command that is its own (a check that no other phrase can begin inside the words, with digits and blanks after them). Induction over the sessions of C57; texts are cut at quotes and line feeds. Theorems: `Cli.C71_program`, `Cli.C71_complaints`, `Cli.C71_lines`, `Cli.C71_failures`, `Cli.C71_deterministic`, `Cli.C71_readable`, `Cli.C71_witness` (Props/Console.lean).

**C72 The complete callback stream divides by symbol and does not depend on the order ids.** Logs.lean: a session with all callbacks. A simulation between the engine in one state and in a state with the same book, the same orders under other ids and possibly more orders of other symbols: if the first run ends, so does the second, with the same callbacks (renamed). Proved function by function for the whole engine, without invariants; calls to other symbols by C31, Match() book by book. Theorems: `C72_shards`, `C72_interleaving`, `C72_ids` (Props/Logs.lean).

**C73 There is no hidden state: what a manager does next depends only on what can be read from it.** Equiv.lean. Levels are determined by the queue: strictly sorted levels whose members have the level's price split a queue in one way only (`levels_determined`), volumes are sums. Alike managers are related by the simulation of C72 with the identity renaming; hence all continuations agree (Proof/Future, Props/Restore). Theorems: `C73_levels`, `C73_future`, `C73_prices_witness` (Props/Restore.lean).

**C74 Every order held is valid, and a book can be restored from its orders.** Saved.lean. `Proper` (the rules of Validate) is kept by every step of the engine (Proof/Valid). Restoring: induction over the saved orders in the reference exchange of C60: each order joins the end of its line, because the lines are sorted; the sum of leaves quantities stays below the volume of the original book, hence admissible (Props/Restore). Theorems: `C74_valid`, `C74_saved`, `C74_restorable`, `C74_restore`, `C74_restore_matching` (Props/Reopen.lean, Props/Restore.lean).

**C75 Every two executions are paid for by an order that goes.** Budget.lean. Potential argument in the reference exchange of C60: twice the number of orders in the books, plus two for the order in hand, falls by at least the number of executions in each of its parts: greedy and chained fills, pairs of a crossed book, All-Or-None crossings (the quantity found is at least what the first order wants), releases of stop orders, moves of trailing orders (Proof/Budget, Proof/BudgetVenue); transported to the engine by C60 (Props/Budget). Theorems: `C75_call`, `C75_history`, `C75_tight` (Props/Budget.lean).

**C76 Matching has nothing to do on an uncrossed market.** Inert.lean. In the reference exchange of C60, a board without stop orders whose bids are below its asks is at rest (Proof/Inert); every call whose order or price does not meet the opposite side has the same answer from the exchange and from the same exchange with matching off, and keeps the boards that way (Proof/InertVenue); two interleavings with calls about matching are then followed side by side, by induction on their total length, and transported to the engine by C60 (Props/Inert). Theorems: `C76_inert` (Props/Inert.lean).

**C77 Best execution: no other fill would have been larger, cheaper or better paid.** Best.lean. The greedy fill of C11 is compared with every basket by an exchange argument, by induction on the line: every lot a basket takes elsewhere comes from a price that is no better (Props/Best). Theorems: `C77_best_execution`, `C77_fok_witness` (Props/Best.lean).

**C78 An order can be split without any effect on the others.** Best.lean. Filling in two parts is filling at once, by induction on the line; every measure of the executions that is linear in the quantities agrees (Props/Best). Theorems: `C78_split` (Props/Best.lean).

**C79 Neither the price scale nor the lot size matters, for all types of orders.** Rescale.lean. The reference exchange (C60) commutes with the rewriting, call by call. The number of turns Match may take is an artefact of the model and depends on the quantities: the market comes to rest after at most as many turns as there are orders, so more turns change nothing (Proof/Settle, Proof/Rescale, Proof/RescalePit, Proof/RescaleVenue, Props/Rescale). Theorems: `C79_rescale`, `C79_lots`, `C79_prices`, `C79_slippage_witness`, `C79_counter_witness` (Props/Rescale.lean).

**C80 What a handler can read from inside a callback.** Glimpse.lean, Model/Watch.lean. A simulation: the finer model, in which an order being worked on stays in the map and is changed in place, follows the engine function by function (Proof/WatchEngine, Proof/WatchOps), and every record made on the way meets an invariant (Proof/Watch: Good); calls on several books are put together from spans (Proof/WatchMgr). Theorems: `C80_callbacks`, `C80_registry`, `C80_nothing_lost`, `C80_no_strangers`, `C80_nonvacuous`, `C80_witness` (Props/Glimpse.lean).

**C81 The handler's highest numbers of levels and of orders at a level.** Model/Live.lean, Moments.lean. From C80 (the levels at every callback are those of the level callbacks so far) and C48 (every level callback is followed by one for its book): between the two the counter may lag, but no outside bound is passed that the second does not record. Attained: each raise of a counter is read off the manager at that moment. Theorems: `C81_highest`, `C81_total`, `C81_nonvacuous`, `C81_witness` (Props/Live.lean).

**C82 What each waiting order gets, and who can take it away.** Share.lean. C11 gives the executions as greedy (or chain) fills of the line; the formula for the share of each order follows by induction over the line, the consequences by arithmetic and from where an order joins or leaves the line (C38, C34). Theorems: `C82_share`, `C82_more`, `C82_queue`, `C82_join`, `C82_leave`, `C82_nonvacuous_more`, `C82_nonvacuous_join`, `C82_nonvacuous_leave` (Props/Share.lean).

**C83 No call follows a null or stale pointer.** Pointers.lean, Model/Heap*.lean. A representation relation between heap and lists (Proof/HeapRep), kept by every primitive (Proof/HeapPrim, HeapLevel, HeapBook) and hence by every engine function, by induction along the same recursion (Proof/HeapCore to HeapOps) and every call (Proof/HeapMgr). Theorems: `C83_same`, `C83_no_ub`, `C83_stale_witness` (Props/Pointers.lean).

**C84 Nothing leaks, and the destructor releases everything once.** Pointers.lean. The representation relation of C83 says that every allocated node is in the map or in a tree; the destructor by induction over its loops (Proof/HeapFree). Theorems: `C84_accounts`, `C84_destroy` (Props/Pointers.lean).

**C85 Lists, trees and cached pointers stay in step.** Pointers.lean. Read off the representation relation of C83 (Proof/HeapShow). Theorems: `C85_pointers` (Props/Pointers.lean).

**C86 A book added again starts anew.** Revival.lean. A manager without the left-behind orders runs beside the real one: Proof/Haunts relates the two call by call, with equal callbacks (the relation of C62 between managers, with more orders in the second); Proof/Revive keeps the invariant of C01 for the former, drops the orders of a deleted book from it, and carries the reference exchange of C60 along. C86_sequence derives the hypotheses from the arguments by induction on the prefix. Theorems: `C86_revival`, `C86_safe`, `C86_silent`, `C86_levels`, `C86_sequence`, `C86_demo` (Props/Revival.lean).

**C87 Matching again changes nothing.** A book at rest: not crossed, no stop or trailing stop order triggered, both trailing watermarks up to date. Proof/Rest shows that Match does nothing to such a book (by computation), and that Match ends in one: the last round of ActivateStopOrders released nothing, and a trailing order moved in it by an absolute distance is strictly away from the market (the saturated ends of the price range cannot be reached by a move). Without All-Or-None orders Match ends in no other way. Matching the other books keeps a book at rest. Theorems: `C87_symbol`, `C87_again`, `C87_demo`, `C87_aon_witness`, `C87_percent_witness`, `C87_forgotten_witness` (Props/Again.lean).

**C88 The orders are kept in a map.** Model/Index is the table with linear probing and shifting deletion, for any hash function. Invariant (Proof/Index): keys differ, every bucket between the home of a key and its entry is in use, and at most half are in use, so a blank one ends every loop. Deletion keeps a weaker one, in which the hole is left out and the buckets passed by since the hole are in use by entries that do not need it; distances around the table are counted from the home. Growing inserts every entry into an empty table with room for all. Verif/Dict.lean is the map to compare with. Theorems: `Index.C88_map`, `Index.C88_iterator`, `Index.C88_kept`, `Index.C88_memory`, `Index.C88_no_growth`, `C88_orders`, `C88_stale_witness` (Props/Buckets.lean, Props/Index.lean).

**C89 When a handler throws.** The state at the moment of the throw is a member of the list Mgr.watch gives (Model/Watch). Proof/Thrown: in every such state everything outside the addressed symbols and outside the order to be added is as before the call (books by computation of every watched call; orders by C80 and the isolation of the callbacks, C31). For containment both managers are compared with a third one from which the damaged symbols and orders are taken away: it satisfies the invariant, and both extend it in the sense of C43 (Twins), so that every further call acts alike. For repair the third manager lacks only the damaged orders, whose book is gone: the relation of C86 (Haunts). C89_nothing: Proof/Grows shows for every function of Model/Watch that it only adds to the record, so the first entry is the one made before anything is changed. C89_match (Proof/Paused): a moment of the loop over the books is a moment of one matchAt, which leaves everything of other symbols alone; what comes before and after it in the loop is about other symbols. C89_match_after: the manager compared with is the one of the loop with the books before i matched, which satisfies the invariant; from there the same two arguments as for containment and repair. Theorems: `C89_contained`, `C89_repair`, `C89_nothing`, `C89_everything`, `C89_match`, `C89_match_after`, `C89_witness` (Props/Thrown.lean).

## 6. Axioms

As printed by `#print axioms` for every theorem in MANIFEST.json:

* **propext, Classical.choice, Quot.sound** (235): `C01_no_ub`, `C01_history`, `C01_sequence`, `C02_level_sums`, `C03_levels_sorted`, `C04_stored_is_queued`, `C04_queued_is_stored`, `C05_level_hidden_visible`, `C06_never_rest`, `C06_book`, `C07_submitted`, `C07_resting`, `C07_complete`, `C08_quantity`, `C08_accounting`, `C08_accounting_new`, `C45_order_feed`, `C45_order_feed_history`, `C45_other_orders`, `C09_conservation`, `C10_limit_price`, `C11_incoming`, `C11_incoming_price_time`, `lines_complete`, `lines_sorted`, `lines_inLine`, `C12_uncrossed`, `C12_uncrossed_call`, `C13_buy_stops`, `C13_sell_stops`, `C13_trailing_stops`, `C14_trailing_direction`, `C15_formula`, `C15_idempotent`, `C15_add`, `C15_moves`, `C16_rejected_no_effect`, `C16_replaceWith`, `C17_symbols_step`, `C17_symbols_history`, `C18_books_step`, `C18_new_book_empty`, `C18_orders_stay`, `C18_orphan_refused`, `validate_ok_iff`, `validate_parameter_iff`, `C20_slippage`, `C21_reduce`, `C21_execute`, `C22_mitigate`, `C22_mitigate_rests`, `C22_modify`, `C23_replace`, `C23_replace_rests`, `C24_level_feed`, `C24_level_feed_history`, `Itch.process_chunking`, `Itch.process_any_two_chunkings`, `Itch.process_chunking_from`, `FastHash.parse_byte`, `FastHash.parse_injective`, `C31_isolation`, `C32_aon_whole`, `C44_execute`, `C33_no_matching`, `C34_reduce`, `C34_execute`, `Avl.best_after_delete_max`, `Avl.best_after_delete_min`, `Avl.deleteLevel_best_from_tree`, `C36_top_flag`, `C37_stops_invisible`, `C38_reduce_keeps_place`, `C38_execute_keeps_place`, `C38_modify_to_tail`, `C38_modify`, `level_queue`, `C39_market_prices`, `C40_stops_do_not_trade`, `mkMarket_valid`, `mkLimit_valid`, `mkStop_valid`, `mkStopLimit_valid`, `mkTrailingStop_valid`, `mkTrailingStopLimit_valid`, `C41_machine`, `C41_representable`, `Itch.process_frames`, `Itch.stream_roundtrip`, `C43_refused`, `C43_carried_out`, `C43_replaceWith`, `C44_groups`, `C44_groups_noAON`, `C46_identity`, `C47_last_prices`, `C48_book_feed`, `C49_stop_feed`, `C49_stop_feed_history`, `C49_triggered`, `C49_frozen`, `C50_mode`, `C51_textbook`, `C51_simulation`, `C51_uncrossed`, `C52_filled`, `C53_any_bytes`, `C54_itch_book`, `C54_messages`, `Itch.process_total`, `Itch.C55_two_pieces`, `Itch.C55_one_piece`, `Cli.C56_call_iff`, `Cli.C56_abort_iff`, `Cli.C56_stop_iff`, `Cli.C56_nothing_iff`, `Cli.C56_unambiguous`, `Cli.C57_session`, `Cli.C57_deterministic`, `Cli.C57_any_text`, `Cli.C57_revival_witness`, `Cli.C57_abort_witness`, `Aggr.C58_levels`, `Aggr.C58_pool`, `C59_agreement`, `C60_venue`, `C60_function`, `C60_total`, `C61_shards`, `C61_interleaving`, `C62_recast`, `C62_ids`, `C62_visible`, `C63_reduce_all`, `C63_mitigate`, `C63_execute_price`, `C63_execute_all`, `C63_replace`, `C63_replace_id`, `Opt.C64_levels`, `Opt.C64_pool`, `Opt.C64_orders`, `Opt.C64_stream`, `Opt.C64_news`, `Opt.C64_stream_news`, `Opt.C64_rests`, `Opt.C64_ordinary`, `Opt.C64_totals`, `C65_statistics`, `C65_balance`, `Opt.C65_levels`, `C66_order_text`, `C66_texts`, `C66_log`, `C66_orders`, `C66_levels`, `Itch.C67_printed`, `Itch.C67_lossless`, `Itch.C67_any`, `Itch.C67_refused`, `C68_any_bytes`, `C68_book`, `C69_registry`, `C69_counters`, `C69_peak`, `C70_redraw`, `C70_mirror`, `C70_scale`, `C70_mirror_witness`, `Cli.C71_program`, `Cli.C71_complaints`, `Cli.C71_failures`, `Cli.C71_deterministic`, `Cli.C71_readable`, `Cli.C71_witness`, `C72_shards`, `C72_interleaving`, `C72_ids`, `C73_levels`, `C73_future`, `C73_prices_witness`, `C74_valid`, `C74_saved`, `C74_restorable`, `C74_restore`, `C74_restore_matching`, `C75_call`, `C75_history`, `C75_tight`, `C76_inert`, `C77_best_execution`, `C78_split`, `C79_rescale`, `C79_lots`, `C79_prices`, `C79_slippage_witness`, `C79_counter_witness`, `C80_callbacks`, `C80_nothing_lost`, `C80_no_strangers`, `C80_nonvacuous`, `C81_highest`, `C81_total`, `C81_nonvacuous`, `C81_witness`, `C82_share`, `C82_more`, `C82_queue`, `C82_join`, `C82_leave`, `C82_nonvacuous_more`, `C82_nonvacuous_join`, `C82_nonvacuous_leave`, `C83_same`, `C83_no_ub`, `C84_accounts`, `C84_destroy`, `C85_pointers`, `C86_revival`, `C86_safe`, `C86_silent`, `C86_levels`, `C86_sequence`, `C87_symbol`, `C87_again`, `Index.C88_map`, `Index.C88_iterator`, `Index.C88_kept`, `Index.C88_memory`, `Index.C88_no_growth`, `C88_orders`, `C89_contained`, `C89_repair`, `C89_match`, `C89_match_after`
* **propext, Quot.sound** (48): `C01_needs_symbol_bound`, `C01_needs_volume_bound`, `C01_needs_no_orphans`, `C05_order_hidden_visible`, `C09_aon_witness`, `C10_aon_witness`, `C11_match_witness`, `enqueue_place`, `C12_aon_witness`, `C13_hidden_witness`, `C15_units`, `C16_duplicate_witness`, `C16_replaceWith_witness`, `validate_rejects_documented_percentage`, `C20_fok_witness`, `C23_duplicate_witness`, `Itch.decode_wire`, `Itch.decode_timestamp_lossy`, `Itch.decode_in_bounds`, `Itch.decode_total`, `Itch.processMessage_callbacks`, `FastHash.hash_injective`, `FastHash.hash_surjective`, `FastHash.unhash_hash`, `FastHash.hash_unhash`, `FastHash.parse_not_injective_nonAscii`, `C36_delete_witness`, `C39_match_witness`, `C40_modify_witness`, `C45_duplicate_witness`, `C50_disable`, `Itch.C55_stuck`, `Aggr.C58_replace_with`, `Opt.C64_price_witness`, `Opt.C64_replace_with`, `Cli.C71_lines`, `C77_fok_witness`, `C80_registry`, `C80_witness`, `C86_demo`, `C87_demo`, `C87_aon_witness`, `C87_percent_witness`, `C87_forgotten_witness`, `C88_stale_witness`, `C89_nothing`, `C89_everything`, `C89_witness`
* **none** (4): `C15_wrap_witness`, `C41_fields`, `C41_fields_stop`, `C41_sides`
* **propext** (10): `validate_id_iff`, `validate_quantity_iff`, `Itch.state_after_refusal_depends_on_chunking`, `Avl.unbalanced_counterexample`, `C41_defaults`, `Aggr.C58_unchecked_witness`, `C59_price_witness`, `Opt.C64_ghost_witness`, `Opt.C64_unchecked_witness`, `C83_stale_witness`

