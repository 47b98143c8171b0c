{
 "claims": [
  {
   "property": "C01",
   "status": "proved",
   "theorems": [
    "CppTrader.C01_no_ub",
    "CppTrader.C01_history",
    "CppTrader.C01_sequence",
    "CppTrader.C01_needs_symbol_bound",
    "CppTrader.C01_needs_volume_bound",
    "CppTrader.C01_needs_no_orphans"
   ],
   "note": "Every admissible call on every reachable state returns; C01_sequence gives the same for whole call sequences by a condition on their arguments alone; each of the preconditions is shown necessary by a history ending in undefined behaviour."
  },
  {
   "property": "C02",
   "status": "proved",
   "theorems": [
    "CppTrader.C02_level_sums"
   ],
   "note": ""
  },
  {
   "property": "C03",
   "status": "proved",
   "theorems": [
    "CppTrader.C03_levels_sorted"
   ],
   "note": ""
  },
  {
   "property": "C04",
   "status": "proved",
   "theorems": [
    "CppTrader.C04_stored_is_queued",
    "CppTrader.C04_queued_is_stored"
   ],
   "note": ""
  },
  {
   "property": "C05",
   "status": "proved",
   "theorems": [
    "CppTrader.C05_order_hidden_visible",
    "CppTrader.C05_level_hidden_visible"
   ],
   "note": ""
  },
  {
   "property": "C06",
   "status": "proved",
   "theorems": [
    "CppTrader.C06_never_rest",
    "CppTrader.C06_book"
   ],
   "note": ""
  },
  {
   "property": "C07",
   "status": "proved",
   "theorems": [
    "CppTrader.C07_submitted",
    "CppTrader.C07_resting",
    "CppTrader.C07_complete"
   ],
   "note": "Submitted FOK orders of any type under an unused id, and resting FOK stop orders during any call, whatever ids new orders have; C07_complete: executed iff the available volume suffices."
  },
  {
   "property": "C08",
   "status": "proved",
   "theorems": [
    "CppTrader.C08_quantity",
    "CppTrader.C08_accounting",
    "CppTrader.C08_accounting_new",
    "CppTrader.C45_order_feed",
    "CppTrader.C45_order_feed_history",
    "CppTrader.C45_other_orders"
   ],
   "note": "Per execution report (feed) and per call totals; for existing orders whatever ids new orders have."
  },
  {
   "property": "C09",
   "status": "proved",
   "theorems": [
    "CppTrader.C09_conservation",
    "CppTrader.C09_aon_witness"
   ],
   "note": "Per call, for a symbol without AON orders (ExecuteOrder, which is one-sided by design, excluded)."
  },
  {
   "property": "C10",
   "status": "proved",
   "theorems": [
    "CppTrader.C10_limit_price",
    "CppTrader.C10_aon_witness"
   ],
   "note": "Per call, for a symbol without AON orders; witness for AON."
  },
  {
   "property": "C11",
   "status": "proved",
   "theorems": [
    "CppTrader.C11_incoming",
    "CppTrader.C11_incoming_price_time",
    "CppTrader.C11_match_witness",
    "CppTrader.lines_complete",
    "CppTrader.lines_sorted",
    "CppTrader.lines_inLine",
    "CppTrader.enqueue_place"
   ],
   "note": "Any limit or market order. The executions start with its own; there are no others if the arrival leaves nothing to match. lines_* tie the order lines of the spec to the stored orders."
  },
  {
   "property": "C12",
   "status": "proved",
   "theorems": [
    "CppTrader.C12_uncrossed",
    "CppTrader.C12_uncrossed_call",
    "CppTrader.C12_aon_witness"
   ],
   "note": "For every history without All-Or-None orders for the symbol; the witness shows a crossed book with one."
  },
  {
   "property": "C13",
   "status": "proved",
   "theorems": [
    "CppTrader.C13_buy_stops",
    "CppTrader.C13_sell_stops",
    "CppTrader.C13_trailing_stops",
    "CppTrader.C13_hidden_witness"
   ],
   "note": ""
  },
  {
   "property": "C14",
   "status": "proved",
   "theorems": [
    "CppTrader.C14_trailing_direction"
   ],
   "note": "Holds for every call, ModifyOrder/MitigateOrder included, whatever ids new orders have; only a call submitting another order under the same id is excepted."
  },
  {
   "property": "C15",
   "status": "proved",
   "theorems": [
    "CppTrader.C15_formula",
    "CppTrader.C15_units",
    "CppTrader.C15_idempotent",
    "CppTrader.C15_add",
    "CppTrader.C15_moves",
    "CppTrader.C15_wrap_witness"
   ],
   "note": "the calculation for every validated order and market price; AddOrder reports exactly the calculated stop price; over any call a changed stop price is the target at some market price, better by at least the step; witness that a percentage of a price above 2^64/1000 wraps"
  },
  {
   "property": "C16",
   "status": "proved",
   "theorems": [
    "CppTrader.C16_rejected_no_effect",
    "CppTrader.C16_replaceWith",
    "CppTrader.C16_duplicate_witness",
    "CppTrader.C16_replaceWith_witness"
   ],
   "note": "All error codes except ORDER_DUPLICATE; for ReplaceOrder(id,new_order) a rejected new order still deletes the old one (proved to be exactly DeleteOrder, with witness)."
  },
  {
   "property": "C17",
   "status": "proved",
   "theorems": [
    "CppTrader.C17_symbols_step",
    "CppTrader.C17_symbols_history"
   ],
   "note": ""
  },
  {
   "property": "C18",
   "status": "proved",
   "theorems": [
    "CppTrader.C18_books_step",
    "CppTrader.C18_new_book_empty",
    "CppTrader.C18_orders_stay",
    "CppTrader.C18_orphan_refused"
   ],
   "note": ""
  },
  {
   "property": "C19",
   "status": "proved",
   "theorems": [
    "CppTrader.validate_ok_iff",
    "CppTrader.validate_id_iff",
    "CppTrader.validate_quantity_iff",
    "CppTrader.validate_parameter_iff",
    "CppTrader.validate_rejects_documented_percentage"
   ],
   "note": "The documented percentage range is not what the code accepts: negation proved."
  },
  {
   "property": "C20",
   "status": "proved",
   "theorems": [
    "CppTrader.C20_slippage",
    "CppTrader.C20_fok_witness"
   ],
   "note": ""
  },
  {
   "property": "C21",
   "status": "proved",
   "theorems": [
    "CppTrader.C21_reduce",
    "CppTrader.C21_execute"
   ],
   "note": ""
  },
  {
   "property": "C22",
   "status": "proved",
   "theorems": [
    "CppTrader.C22_mitigate",
    "CppTrader.C22_mitigate_rests",
    "CppTrader.C22_modify"
   ],
   "note": "Any state, any time in force, matching on or off (C22_mitigate, C22_modify)."
  },
  {
   "property": "C23",
   "status": "proved",
   "theorems": [
    "CppTrader.C23_replace",
    "CppTrader.C23_replace_rests",
    "CppTrader.C23_duplicate_witness"
   ],
   "note": ""
  },
  {
   "property": "C24",
   "status": "proved",
   "theorems": [
    "CppTrader.C24_level_feed",
    "CppTrader.C24_level_feed_history"
   ],
   "note": ""
  },
  {
   "property": "C25",
   "status": "proved",
   "theorems": [
    "CppTrader.Itch.process_chunking",
    "CppTrader.Itch.process_any_two_chunkings",
    "CppTrader.Itch.process_chunking_from",
    "CppTrader.Itch.state_after_refusal_depends_on_chunking"
   ],
   "note": "Same callbacks and result for every split, and same parser state when Process returns true; after a refusal the leftover parser state does depend on the split (witness)."
  },
  {
   "property": "C26",
   "status": "proved",
   "theorems": [
    "CppTrader.Itch.decode_wire",
    "CppTrader.Itch.decode_timestamp_lossy"
   ],
   "note": "All fields; the low 24 bits of the timestamp are lost by the code (witness)."
  },
  {
   "property": "C27",
   "status": "proved",
   "theorems": [
    "CppTrader.Itch.decode_in_bounds"
   ],
   "note": ""
  },
  {
   "property": "C28",
   "status": "proved",
   "theorems": [
    "CppTrader.Itch.decode_total",
    "CppTrader.Itch.processMessage_callbacks"
   ],
   "note": ""
  },
  {
   "property": "C29",
   "status": "proved",
   "theorems": [
    "CppTrader.FastHash.hash_injective",
    "CppTrader.FastHash.hash_surjective",
    "CppTrader.FastHash.unhash_hash",
    "CppTrader.FastHash.hash_unhash"
   ],
   "note": ""
  },
  {
   "property": "C30",
   "status": "proved",
   "theorems": [
    "CppTrader.FastHash.parse_byte",
    "CppTrader.FastHash.parse_injective",
    "CppTrader.FastHash.parse_not_injective_nonAscii"
   ],
   "note": ""
  },
  {
   "property": "C31",
   "status": "proved",
   "theorems": [
    "CppTrader.C31_isolation"
   ],
   "note": ""
  },
  {
   "property": "C32",
   "status": "proved",
   "theorems": [
    "CppTrader.C32_aon_whole",
    "CppTrader.C44_execute"
   ],
   "note": "C44_execute covers ExecuteOrder: all executions of the call but the first, the manual one."
  },
  {
   "property": "C33",
   "status": "proved",
   "theorems": [
    "CppTrader.C33_no_matching",
    "CppTrader.C44_execute"
   ],
   "note": "By C44_execute an ExecuteOrder call then raises one execution, the one requested."
  },
  {
   "property": "C34",
   "status": "proved",
   "theorems": [
    "CppTrader.C34_reduce",
    "CppTrader.C34_execute"
   ],
   "note": "For any state with matching off, or with nothing to match."
  },
  {
   "property": "C35",
   "status": "proved",
   "theorems": [
    "CppTrader.Avl.best_after_delete_max",
    "CppTrader.Avl.best_after_delete_min",
    "CppTrader.Avl.deleteLevel_best_from_tree",
    "CppTrader.Avl.unbalanced_counterexample"
   ],
   "note": ""
  },
  {
   "property": "C36",
   "status": "proved",
   "theorems": [
    "CppTrader.C36_top_flag",
    "CppTrader.C36_delete_witness"
   ],
   "note": ""
  },
  {
   "property": "C37",
   "status": "proved",
   "theorems": [
    "CppTrader.C37_stops_invisible"
   ],
   "note": ""
  },
  {
   "property": "C38",
   "status": "proved",
   "theorems": [
    "CppTrader.C38_reduce_keeps_place",
    "CppTrader.C38_execute_keeps_place",
    "CppTrader.C38_modify_to_tail",
    "CppTrader.C38_modify",
    "CppTrader.level_queue"
   ],
   "note": ""
  },
  {
   "property": "C39",
   "status": "proved",
   "theorems": [
    "CppTrader.C39_market_prices",
    "CppTrader.C39_match_witness"
   ],
   "note": ""
  },
  {
   "property": "C40",
   "status": "proved",
   "theorems": [
    "CppTrader.C40_stops_do_not_trade",
    "CppTrader.C44_execute",
    "CppTrader.C40_modify_witness"
   ],
   "note": "C44_execute covers what matching executes in an ExecuteOrder call."
  },
  {
   "property": "C41",
   "status": "proved",
   "theorems": [
    "CppTrader.mkMarket_valid",
    "CppTrader.mkLimit_valid",
    "CppTrader.mkStop_valid",
    "CppTrader.mkStopLimit_valid",
    "CppTrader.mkTrailingStop_valid",
    "CppTrader.mkTrailingStopLimit_valid",
    "CppTrader.C41_fields",
    "CppTrader.C41_fields_stop",
    "CppTrader.C41_sides",
    "CppTrader.C41_defaults",
    "CppTrader.C41_machine",
    "CppTrader.C41_representable"
   ],
   "note": ""
  },
  {
   "property": "C42",
   "status": "proved",
   "theorems": [
    "CppTrader.Itch.process_frames",
    "CppTrader.Itch.stream_roundtrip"
   ],
   "note": ""
  },
  {
   "property": "C43",
   "status": "proved",
   "theorems": [
    "CppTrader.C43_refused",
    "CppTrader.C43_carried_out",
    "CppTrader.C43_replaceWith"
   ],
   "note": ""
  },
  {
   "property": "C44",
   "status": "proved",
   "theorems": [
    "CppTrader.C44_groups",
    "CppTrader.C44_groups_noAON",
    "CppTrader.C44_execute"
   ],
   "note": ""
  },
  {
   "property": "C45",
   "status": "proved",
   "theorems": [
    "CppTrader.C45_order_feed",
    "CppTrader.C45_order_feed_history",
    "CppTrader.C45_other_orders",
    "CppTrader.C45_duplicate_witness"
   ],
   "note": "C45_other_orders needs no condition on ids."
  },
  {
   "property": "C46",
   "status": "proved",
   "theorems": [
    "CppTrader.C46_identity"
   ],
   "note": ""
  },
  {
   "property": "C47",
   "status": "proved",
   "theorems": [
    "CppTrader.C47_last_prices"
   ],
   "note": ""
  },
  {
   "property": "C48",
   "status": "proved",
   "theorems": [
    "CppTrader.C48_book_feed"
   ],
   "note": ""
  },
  {
   "property": "C49",
   "status": "proved",
   "theorems": [
    "CppTrader.C49_stop_feed",
    "CppTrader.C49_stop_feed_history",
    "CppTrader.C49_triggered",
    "CppTrader.C49_frozen"
   ],
   "note": "per call and over whole histories, as a replay by a client that sees only the callbacks (Verif/Client.lean)"
  },
  {
   "property": "C50",
   "status": "proved",
   "theorems": [
    "CppTrader.C50_mode",
    "CppTrader.C50_disable"
   ],
   "note": ""
  },
  {
   "property": "C51",
   "status": "proved",
   "theorems": [
    "CppTrader.C51_textbook",
    "CppTrader.C51_simulation",
    "CppTrader.C51_uncrossed"
   ],
   "note": ""
  },
  {
   "property": "C52",
   "status": "proved",
   "theorems": [
    "CppTrader.C52_filled"
   ],
   "note": ""
  },
  {
   "property": "C53",
   "status": "proved",
   "theorems": [
    "CppTrader.C53_any_bytes"
   ],
   "note": ""
  },
  {
   "property": "C54",
   "status": "proved",
   "theorems": [
    "CppTrader.C54_itch_book",
    "CppTrader.C54_messages"
   ],
   "note": "Consistency of the messages is Exchange.CoversAll, a condition on the textbook exchange."
  },
  {
   "property": "C55",
   "status": "proved",
   "theorems": [
    "CppTrader.Itch.process_total",
    "CppTrader.Itch.C55_stuck",
    "CppTrader.Itch.C55_two_pieces",
    "CppTrader.Itch.C55_one_piece"
   ],
   "note": ""
  },
  {
   "property": "C56",
   "status": "proved",
   "theorems": [
    "CppTrader.Cli.C56_call_iff",
    "CppTrader.Cli.C56_abort_iff",
    "CppTrader.Cli.C56_stop_iff",
    "CppTrader.Cli.C56_nothing_iff",
    "CppTrader.Cli.C56_unambiguous"
   ],
   "note": "std::regex_search on the fixed anchored patterns, std::string::find and std::stoi are modelled; bytes of a short symbol name that the code leaves uninitialised are arbitrary."
  },
  {
   "property": "C57",
   "status": "proved",
   "theorems": [
    "CppTrader.Cli.C57_session",
    "CppTrader.Cli.C57_deterministic",
    "CppTrader.Cli.C57_any_text",
    "CppTrader.Cli.C57_revival_witness",
    "CppTrader.Cli.C57_abort_witness"
   ],
   "note": "The condition on deleted books is necessary: C57_revival_witness is six lines of input that reach undefined behaviour."
  },
  {
   "property": "C58",
   "status": "proved",
   "theorems": [
    "CppTrader.Aggr.C58_levels",
    "CppTrader.Aggr.C58_pool",
    "CppTrader.Aggr.C58_unchecked_witness",
    "CppTrader.Aggr.C58_replace_with"
   ],
   "note": "The specification is Verif/Tape.lean. Decrementing an iterator at begin(), which the code does, is modelled as intended (harmless with every implementation of std::vector, formally undefined)."
  },
  {
   "property": "C59",
   "status": "proved",
   "theorems": [
    "CppTrader.C59_agreement",
    "CppTrader.C59_price_witness"
   ],
   "note": "The bounds on prices, volumes, ids and locate codes are those of the level-only manager; C59_price_witness shows what happens beyond them."
  },
  {
   "property": "C60",
   "status": "proved",
   "theorems": [
    "CppTrader.C60_venue",
    "CppTrader.C60_function",
    "CppTrader.C60_total"
   ],
   "note": "The specification is Verif/Venue.lean (with the line operations of Verif/Priority.lean); it describes the engine as it is, including the crossing of All-Or-None orders and of orders entered while matching was off."
  },
  {
   "property": "C61",
   "status": "proved",
   "theorems": [
    "CppTrader.C61_shards",
    "CppTrader.C61_interleaving"
   ],
   "note": "C61_shards: for every division, every admissible history of one manager whose calls respect it and every manager j of the division: its part of the history is an admissible history of a manager of its own, with the same error codes and executions (for the calls to all managers: those of its symbols), ending in a state with the same matching flag, orders, symbols, books, lines and market prices. C61_interleaving: two histories that bring the same calls in the same order to every manager give every call the same answer and end with the same orders and lines, however they are interleaved. Proved through the reference exchange of C60. Timing and the other callbacks are not compared."
  },
  {
   "property": "C62",
   "status": "proved",
   "theorems": [
    "CppTrader.C62_recast",
    "CppTrader.C62_ids",
    "CppTrader.C62_visible"
   ],
   "note": "C62_recast: any simultaneous change of ids (injective, zero kept, 64 bits) and visible quantities that leaves every new order as valid as before: the changed history is admissible, with the same error codes and correspondingly changed executions, orders, lines and market prices. C62_ids and C62_visible are the two halves with the validity condition discharged. Level volumes (hidden and visible) do change with the visible quantity, of course, and are not compared here (C06)."
  },
  {
   "property": "C63",
   "status": "proved",
   "theorems": [
    "CppTrader.C63_reduce_all",
    "CppTrader.C63_mitigate",
    "CppTrader.C63_execute_price",
    "CppTrader.C63_execute_all",
    "CppTrader.C63_replace",
    "CppTrader.C63_replace_id"
   ],
   "note": "Equivalent (Equiv.lean) quantifies over all continuations in both directions and compares all their callbacks. For the pair of calls itself the result code and the executions are compared (the other callbacks may differ: ReplaceOrder by id raises no onUpdateOrderBook for the deletion, for example)."
  },
  {
   "property": "C64",
   "status": "proved",
   "theorems": [
    "CppTrader.Opt.C64_levels",
    "CppTrader.Opt.C64_pool",
    "CppTrader.Opt.C64_orders",
    "CppTrader.Opt.C64_stream",
    "CppTrader.Opt.C64_news",
    "CppTrader.Opt.C64_stream_news",
    "CppTrader.Opt.C64_rests",
    "CppTrader.Opt.C64_ordinary",
    "CppTrader.Opt.C64_totals",
    "CppTrader.Opt.C64_price_witness",
    "CppTrader.Opt.C64_ghost_witness",
    "CppTrader.Opt.C64_unchecked_witness",
    "CppTrader.Opt.C64_replace_with"
   ],
   "note": "Seen.lean is the specification: the tape of the feed, the quantities left behind, and the prices noted. C64_stream is about the program's main loop on bytes. The witnesses show the three defects: prices of added orders are lost, quantities of cancelled orders stay, and a feed that is not consistent damages other levels."
  },
  {
   "property": "C65",
   "status": "proved",
   "theorems": [
    "CppTrader.C65_statistics",
    "CppTrader.C65_balance",
    "CppTrader.Opt.C65_levels"
   ],
   "note": "Tally.lean is the specification: what each message adds to the statistics. C65_levels is about the optimised manager, which has other levels than the market manager (C64); the maximal numbers of levels and of orders of a level that market_manager.cpp counts are the subject of C81. Timing and the printed text are not modelled."
  },
  {
   "property": "C66",
   "status": "proved",
   "theorems": [
    "CppTrader.C66_order_text",
    "CppTrader.C66_texts",
    "CppTrader.C66_log",
    "CppTrader.C66_orders",
    "CppTrader.C66_levels"
   ],
   "note": "Told.lean says what a text tells. WriteString is abstract (any function of the name). The sizes and the name printed for a book are data of each printed callback, not derived from the state."
  },
  {
   "property": "C67",
   "status": "proved",
   "theorems": [
    "CppTrader.Itch.C67_printed",
    "CppTrader.Itch.C67_lossless",
    "CppTrader.Itch.C67_any",
    "CppTrader.Itch.C67_refused"
   ],
   "note": "WriteChar and WriteString are abstract; Faithful and Plain are the assumptions about them, met by writing the bytes themselves (plainWriter_faithful)."
  },
  {
   "property": "C68",
   "status": "proved",
   "theorems": [
    "CppTrader.C68_any_bytes",
    "CppTrader.C68_book"
   ],
   "note": "The specification of C68_book is Textbook.lean with Requests.lean. Options, timing and the text of the report are not modelled."
  },
  {
   "property": "C69",
   "status": "proved",
   "theorems": [
    "CppTrader.C69_registry",
    "CppTrader.C69_counters",
    "CppTrader.C69_peak"
   ],
   "note": "Count.lean is the specification. The highest numbers of levels of a book and of orders of a level are the subject of C81."
  },
  {
   "property": "C70",
   "status": "proved",
   "theorems": [
    "CppTrader.C70_redraw",
    "CppTrader.C70_mirror",
    "CppTrader.C70_scale",
    "CppTrader.C70_mirror_witness"
   ],
   "note": "Redraw.lean is the specification. Sessions of plain orders only; the witness shows that the two sides differ in a crossed book."
  },
  {
   "property": "C71",
   "status": "proved",
   "theorems": [
    "CppTrader.Cli.C71_program",
    "CppTrader.Cli.C71_complaints",
    "CppTrader.Cli.C71_lines",
    "CppTrader.Cli.C71_failures",
    "CppTrader.Cli.C71_deterministic",
    "CppTrader.Cli.C71_readable",
    "CppTrader.Cli.C71_witness"
   ],
   "note": "Console.lean is the specification. The help text itself and what the C++ runtime writes about an uncaught exception are not modelled."
  },
  {
   "property": "C72",
   "status": "proved",
   "theorems": [
    "CppTrader.C72_shards",
    "CppTrader.C72_interleaving",
    "CppTrader.C72_ids"
   ],
   "note": "Logs.lean is the specification: sessions with all callbacks of every call. C61 and C62 are the statements about executions and getters; here the callbacks are compared in full, with their order. Other visible quantities (C62) are not covered here: they change the volumes in the level callbacks."
  },
  {
   "property": "C73",
   "status": "proved",
   "theorems": [
    "CppTrader.C73_levels",
    "CppTrader.C73_future",
    "CppTrader.C73_prices_witness"
   ],
   "note": "Equiv.lean is the specification: SameLines (orders, lines, symbols, remembered prices), Alike (everything readable), Equivalent (all continuations, all callbacks)."
  },
  {
   "property": "C74",
   "status": "proved",
   "theorems": [
    "CppTrader.C74_valid",
    "CppTrader.C74_saved",
    "CppTrader.C74_restorable",
    "CppTrader.C74_restore",
    "CppTrader.C74_restore_matching"
   ],
   "note": "Saved.lean is the specification. Orders left behind by a deleted book are not in any line and are not restored: C74_restore assumes there are none. Remembered prices cannot be restored through the API, hence the condition in part 4."
  },
  {
   "property": "C75",
   "status": "proved",
   "theorems": [
    "CppTrader.C75_call",
    "CppTrader.C75_history",
    "CppTrader.C75_tight"
   ],
   "note": "Budget.lean (Op.credit) is the specification."
  },
  {
   "property": "C76",
   "status": "proved",
   "theorems": [
    "CppTrader.C76_inert"
   ],
   "note": "Inert.lean (Op.isMode, Order.idle, Mgr.Passive, Mgr.AllPassive) is the specification. What is compared is what C60 shows: codes, executions, orders, lines, market prices; not the prices trailing orders have followed, which nobody can see without trailing orders."
  },
  {
   "property": "C77",
   "status": "proved",
   "theorems": [
    "CppTrader.C77_best_execution",
    "CppTrader.C77_fok_witness"
   ],
   "note": "Best.lean (Basket, basketLots, basketValue, sideValue) is the specification. Books with All-Or-None orders on the opposite side are excluded, since an order stops at an All-Or-None order that is too large for it."
  },
  {
   "property": "C78",
   "status": "proved",
   "theorems": [
    "CppTrader.C78_split"
   ],
   "note": "Best.lean (sideValue, quantityAt) is the specification."
  },
  {
   "property": "C79",
   "status": "proved",
   "theorems": [
    "CppTrader.C79_rescale",
    "CppTrader.C79_lots",
    "CppTrader.C79_prices",
    "CppTrader.C79_slippage_witness",
    "CppTrader.C79_counter_witness"
   ],
   "note": "Rescale.lean is the specification: Rescale.op rewrites the calls, Rescale.entry the records. Both sessions consist of admissible calls (in C79_prices the second one is constructed). The maximal visible quantity is left as it is: by C62 it has no influence on the trading."
  },
  {
   "property": "C80",
   "status": "proved",
   "theorems": [
    "CppTrader.C80_callbacks",
    "CppTrader.C80_registry",
    "CppTrader.C80_nothing_lost",
    "CppTrader.C80_no_strangers",
    "CppTrader.C80_nonvacuous",
    "CppTrader.C80_witness"
   ],
   "note": "Glimpse.lean is the specification. Model/Watch.lean models the engine and the manager a second time, statement by statement, with the order map as it is at every moment and the state recorded at every callback; the first part of C80_callbacks says that this finer model does exactly what the model of the other claims does. A handler which calls the manager back from inside a callback is outside the model (the C++ does not support it)."
  },
  {
   "property": "C81",
   "status": "proved",
   "theorems": [
    "CppTrader.C81_highest",
    "CppTrader.C81_total",
    "CppTrader.C81_nonvacuous",
    "CppTrader.C81_witness"
   ],
   "note": "Moments.lean is the specification: the manager at each callback and after each call. C81_highest: the counters of Model/Live.lean, which is run on the finer model of C80; C81_total: every session has such moments."
  },
  {
   "property": "C82",
   "status": "proved",
   "theorems": [
    "CppTrader.C82_share",
    "CppTrader.C82_more",
    "CppTrader.C82_queue",
    "CppTrader.C82_join",
    "CppTrader.C82_leave",
    "CppTrader.C82_nonvacuous_more",
    "CppTrader.C82_nonvacuous_join",
    "CppTrader.C82_nonvacuous_leave"
   ],
   "note": "Share.lean is the specification: the formula, and Mgr.Takes, the situation in which the consequences are stated (no stop orders, so that a call has no further executions)."
  },
  {
   "property": "C83",
   "status": "proved",
   "theorems": [
    "CppTrader.C83_same",
    "CppTrader.C83_no_ub",
    "CppTrader.C83_stale_witness"
   ],
   "note": "Pointers.lean is the specification. Model/Heap*.lean checks every access through a pointer. The theorems hold for every pool: with Pool.onward, which never uses an address twice, no stale pointer can pass for a valid one; with Pool.lowest memory is used again at once."
  },
  {
   "property": "C84",
   "status": "proved",
   "theorems": [
    "CppTrader.C84_accounts",
    "CppTrader.C84_destroy"
   ],
   "note": "HMgr.Accounts and HMgr.Keys in Pointers.lean are the specification; the destructor gets the keys of the order map in any order."
  },
  {
   "property": "C85",
   "status": "proved",
   "theorems": [
    "CppTrader.C85_pointers"
   ],
   "note": "Heap.ShowsLevel in Pointers.lean is the specification: chains of next and prev links."
  },
  {
   "property": "C86",
   "status": "proved",
   "theorems": [
    "CppTrader.C86_revival",
    "CppTrader.C86_safe",
    "CppTrader.C86_silent",
    "CppTrader.C86_levels",
    "CppTrader.C86_sequence",
    "CppTrader.C86_demo"
   ],
   "note": "Revival.lean is the specification: Mgr.Revives (sessions), Venue.forget (the reference exchange of C60 without the orders of deleted books), idsRetire. What GetOrder says of a left-behind order itself is not part of the statement. A call that names one can be undefined behaviour (C01_needs_no_orphans, C83_stale_witness)."
  },
  {
   "property": "C87",
   "status": "proved",
   "theorems": [
    "CppTrader.C87_symbol",
    "CppTrader.C87_again",
    "CppTrader.C87_demo",
    "CppTrader.C87_aon_witness",
    "CppTrader.C87_percent_witness",
    "CppTrader.C87_forgotten_witness"
   ],
   "note": "The hypotheses are about the state after the first call. C87_aon_witness and C87_percent_witness show that each is needed; C87_forgotten_witness shows that after a call other than Match() there can be something to do although matching is on (the price that held a stop order back is forgotten when the call returns)."
  },
  {
   "property": "C88",
   "status": "proved",
   "theorems": [
    "CppTrader.Index.C88_map",
    "CppTrader.Index.C88_iterator",
    "CppTrader.Index.C88_kept",
    "CppTrader.Index.C88_memory",
    "CppTrader.Index.C88_no_growth",
    "CppTrader.C88_orders",
    "CppTrader.C88_stale_witness"
   ],
   "note": "CppCommon::HashMap is not in the repository: the table (Model/Index.lean) is modelled after its published source. The other models take it for a map, which C88_map and C88_orders justify except for one use: C88_stale_witness shows ModifyOrder erasing through an iterator that the match has made stale, so that a released order stays in the map; in the engine models the right key is erased there."
  },
  {
   "property": "C89",
   "status": "proved",
   "theorems": [
    "CppTrader.C89_contained",
    "CppTrader.C89_repair",
    "CppTrader.C89_nothing",
    "CppTrader.C89_everything",
    "CppTrader.C89_match",
    "CppTrader.C89_match_after",
    "CppTrader.C89_witness"
   ],
   "note": "Thrown.lean is the specification. The state at the moment of a callback is the one modelled for C80 (Model/Watch.lean), which is proved there to be the state of the call. For EnableMatching and Match() C89_match describes the state at the throw and C89_match_after the sequences of calls after it: those about other symbols, and those after the book being matched is deleted. C89_witness: a level that does not count what its orders hold after ReduceOrder, undefined behaviour after DeleteOrder; the program has no exception guarantee for the symbol itself."
  }
 ]
}