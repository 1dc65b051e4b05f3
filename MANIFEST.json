{
 "claims": [
  {
   "property": "C01",
   "status": "proved",
   "theorems": [
    "Hop.C01_built_request_args",
    "Hop.C01_new",
    "Hop.C01_stats_argument_lost"
   ],
   "note": "All commands except Stats with arguments; the exception is proved."
  },
  {
   "property": "C02",
   "status": "proved",
   "theorems": [
    "Hop.C02_layout",
    "Hop.C02_unambiguous"
   ],
   "note": ""
  },
  {
   "property": "C03",
   "status": "proved",
   "theorems": [
    "Hop.C03_value_round_trip"
   ],
   "note": "Up to map/set order."
  },
  {
   "property": "C04",
   "status": "partial",
   "theorems": [
    "Hop.C04_limit_partial",
    "Hop.C04_false",
    "Hop.C04_overflow",
    "Hop.C04_list_map_panic"
   ],
   "note": "False of the code: the 256th argument panics in debug builds and makes the count byte 0 in release builds. Partial: correct up to 255 arguments."
  },
  {
   "property": "C05",
   "status": "partial",
   "theorems": [
    "Hop.C05_unchanged_partial",
    "Hop.C05_false"
   ],
   "note": "False of the code: a list with an empty item after a good one is pushed in part. Partial: every other rejected call."
  },
  {
   "property": "C06",
   "status": "proved",
   "theorems": [
    "Hop.C06_resume",
    "Hop.C06_chunks",
    "Hop.C06_waiting"
   ],
   "note": ""
  },
  {
   "property": "C07",
   "status": "partial",
   "theorems": [
    "Hop.C07_command_partial",
    "Hop.C07_false",
    "Hop.C07_nothing_but_command",
    "Hop.C07_typed_rejected",
    "Hop.C07_no_arguments_waits"
   ],
   "note": "False of the code: typed requests are rejected and arguments are lost. Partial: the command survives."
  },
  {
   "property": "C08",
   "status": "partial",
   "theorems": [
    "Hop.C08_threshold_partial",
    "Hop.C08_false"
   ],
   "note": "False of the code: the last up to four bytes need not have arrived. Partial: exact acceptance point."
  },
  {
   "property": "C09",
   "status": "proved",
   "theorems": [
    "Hop.C09_terminates",
    "Hop.C09_error_iff",
    "Hop.C09_panic_iff"
   ],
   "note": ""
  },
  {
   "property": "C49",
   "status": "proved",
   "theorems": [
    "Hop.C49_accepted"
   ],
   "note": ""
  },
  {
   "property": "C11",
   "status": "partial",
   "theorems": [
    "Hop.C11_round_trip_partial",
    "Hop.C11_false",
    "Hop.C11_empty_list_set",
    "Hop.C11_empty_bytes_debug",
    "Hop.C11_long_map_key",
    "Hop.C11_long_set_item",
    "Hop.C11_map_65536_becomes_empty"
   ],
   "note": "False of the code outside size limits (empty lists and sets among them). Partial: every response within the limits; C50 gives the exact limits."
  },
  {
   "property": "C12",
   "status": "proved",
   "theorems": [
    "Hop.C12_header_exact",
    "Hop.C12_writes"
   ],
   "note": ""
  },
  {
   "property": "C13",
   "status": "proved",
   "theorems": [
    "Hop.C13_terminates",
    "Hop.C13_resume",
    "Hop.C13_chunks"
   ],
   "note": ""
  },
  {
   "property": "C14",
   "status": "proved",
   "theorems": [
    "Hop.C14_reads_exactly"
   ],
   "note": ""
  },
  {
   "property": "C15",
   "status": "partial",
   "theorems": [
    "Hop.C15_release_partial",
    "Hop.C15_false"
   ],
   "note": "False of the code: error frames with unknown codes panic. Partial: release builds, other frames; C51 gives the exact set."
  },
  {
   "property": "C16",
   "status": "proved",
   "theorems": [
    "Hop.C16_commands",
    "Hop.C16_key_types",
    "Hop.C16_response_types",
    "Hop.C16_dispatch_errors",
    "Hop.C16_parse_errors",
    "Hop.C16_names",
    "Hop.C16_command_codes_below_128"
   ],
   "note": ""
  },
  {
   "property": "C50",
   "status": "proved",
   "theorems": [
    "Hop.C50_round_trip_iff"
   ],
   "note": ""
  },
  {
   "property": "C51",
   "status": "proved",
   "theorems": [
    "Hop.C51_panic_iff",
    "Hop.C51_panic_chunked"
   ],
   "note": ""
  },
  {
   "property": "C17",
   "status": "proved",
   "theorems": [
    "Hop.C17_set_then_get"
   ],
   "note": ""
  },
  {
   "property": "C18",
   "status": "proved",
   "theorems": [
    "Hop.C18_independent",
    "Hop.C18_succeeds"
   ],
   "note": ""
  },
  {
   "property": "C19",
   "status": "proved",
   "theorems": [
    "Hop.C19_frame"
   ],
   "note": ""
  },
  {
   "property": "C20",
   "status": "proved",
   "theorems": [
    "Hop.C20_read_only"
   ],
   "note": ""
  },
  {
   "property": "C21",
   "status": "partial",
   "theorems": [
    "Hop.C21_error_no_change_partial",
    "Hop.C21_error_no_change_any_partial",
    "Hop.C21_false"
   ],
   "note": "False of the code: a float Increment/Decrement of a missing key reports an error and creates the key. Partial: every other error; C53 gives the exact set."
  },
  {
   "property": "C22",
   "status": "proved",
   "theorems": [
    "Hop.C22_delete",
    "Hop.C22_delete_missing"
   ],
   "note": ""
  },
  {
   "property": "C23",
   "status": "proved",
   "theorems": [
    "Hop.C23_rename"
   ],
   "note": ""
  },
  {
   "property": "C24",
   "status": "proved",
   "theorems": [
    "Hop.C24_counters_count",
    "Hop.C24_total_exact",
    "Hop.C24_overflow_debug",
    "Hop.C24_decrement_by_min_panics"
   ],
   "note": ""
  },
  {
   "property": "C25",
   "status": "partial",
   "theorems": [
    "Hop.C25_increment_float_partial",
    "Hop.C25_false"
   ],
   "note": "False of the code: By-commands refuse float keys, and a float Increment of a missing key creates an integer. Partial: Increment/Decrement of existing float keys."
  },
  {
   "property": "C26",
   "status": "proved",
   "theorems": [
    "Hop.C26_split",
    "Hop.C26_appends"
   ],
   "note": ""
  },
  {
   "property": "C27",
   "status": "proved",
   "theorems": [
    "Hop.C27_length",
    "Hop.C27_keys",
    "Hop.C27_type",
    "Hop.C27_exists",
    "Hop.C27_is",
    "Hop.C27_missing"
   ],
   "note": ""
  },
  {
   "property": "C28",
   "status": "proved",
   "theorems": [
    "Hop.C28_counts",
    "Hop.C28_sum",
    "Hop.C28_stats"
   ],
   "note": ""
  },
  {
   "property": "C29",
   "status": "proved",
   "theorems": [
    "Hop.C29_type_stable",
    "Hop.C29_type_stable_any"
   ],
   "note": ""
  },
  {
   "property": "C30",
   "status": "partial",
   "theorems": [
    "Hop.C30_values_out_of_reach_partial",
    "Hop.C30_values_out_of_reach_any_partial",
    "Hop.C30_false"
   ],
   "note": "False of the code: Rename creates, Delete and Set remove, Exists reveals internal keys, and Get panics. Partial: the commands that read or update a value never succeed on them and change nothing; C57 gives all possible changes."
  },
  {
   "property": "C31",
   "status": "proved",
   "theorems": [
    "Hop.C31_panic_iff",
    "Hop.C31_built_requests_return"
   ],
   "note": ""
  },
  {
   "property": "C48",
   "status": "proved",
   "theorems": [
    "Hop.C48_dispatch",
    "Hop.C48_keys",
    "Hop.C48_history",
    "Hop.C48_history_any"
   ],
   "note": ""
  },
  {
   "property": "C52",
   "status": "proved",
   "theorems": [
    "Hop.C52_set_collections",
    "Hop.C52_set_collections_any"
   ],
   "note": ""
  },
  {
   "property": "C53",
   "status": "proved",
   "theorems": [
    "Hop.C53_error_changes_iff",
    "Hop.C53_error_changes_any"
   ],
   "note": ""
  },
  {
   "property": "C55",
   "status": "proved",
   "theorems": [
    "Hop.C55_by_refuses_non_integers",
    "Hop.C55_by_refuses_non_integers_any"
   ],
   "note": ""
  },
  {
   "property": "C56",
   "status": "proved",
   "theorems": [
    "Hop.C56_well_formed",
    "Hop.C56_well_formed_any"
   ],
   "note": ""
  },
  {
   "property": "C57",
   "status": "proved",
   "theorems": [
    "Hop.C57_reserved_changes",
    "Hop.C57_reserved_changes_any"
   ],
   "note": ""
  },
  {
   "property": "C32",
   "status": "proved",
   "theorems": [
    "Hop.C32_concurrent_counters"
   ],
   "note": ""
  },
  {
   "property": "C33",
   "status": "partial",
   "theorems": [
    "Hop.C33_missing_counter_partial",
    "Hop.C33_increments_partial",
    "Hop.C33_false"
   ],
   "note": "False of the code: a second client that also found the key missing overwrites it with zero. Partial: all succeed; the final value is the sum of a non-empty run of the last operations (for increments: between 1 and their number)."
  },
  {
   "property": "C34",
   "status": "proved",
   "theorems": [
    "Hop.C34_no_interference"
   ],
   "note": ""
  },
  {
   "property": "C35",
   "status": "partial",
   "theorems": [
    "Hop.C35_seen_partial",
    "Hop.C35_get_partial",
    "Hop.C35_false"
   ],
   "note": "False of the code: Set removes the key, creates it with the default and then replaces that. Partial: nothing but the old value, a missing key, the default and the new value can be seen."
  },
  {
   "property": "C36",
   "status": "partial",
   "theorems": [
    "Hop.C36_success_partial",
    "Hop.C36_false"
   ],
   "note": "False of the code: Rename checks the target before, not while, inserting. Partial: if nobody else changes the target, a successful Rename found it missing and moved the value, even with others competing for the source."
  },
  {
   "property": "C37",
   "status": "proved",
   "theorems": [
    "Hop.C37_concurrent_appends"
   ],
   "note": ""
  },
  {
   "property": "C54",
   "status": "proved",
   "theorems": [
    "Hop.C54_untouched",
    "Hop.C54_untouched_always"
   ],
   "note": ""
  },
  {
   "property": "C58",
   "status": "proved",
   "theorems": [
    "Hop.C58_linearizable",
    "Hop.C58_finishes"
   ],
   "note": ""
  },
  {
   "property": "C59",
   "status": "proved",
   "theorems": [
    "Hop.C59_at_most_one_taker",
    "Hop.C59_exactly_one_taker"
   ],
   "note": ""
  },
  {
   "property": "C60",
   "status": "proved",
   "theorems": [
    "Hop.C60_concurrent_statistics"
   ],
   "note": ""
  },
  {
   "property": "C38",
   "status": "proved",
   "theorems": [
    "Hop.C38_sessions",
    "Hop.C38_in_order",
    "Hop.C38_distinct",
    "Hop.C38_once",
    "Hop.C38_counted",
    "Hop.C38_wraps"
   ],
   "note": ""
  },
  {
   "property": "C39",
   "status": "partial",
   "theorems": [
    "Hop.C39_answers_partial",
    "Hop.C39_false",
    "Hop.C39_second_subscriber",
    "Hop.C39_returning_subscriber",
    "Hop.C39_ghost_unsubscribe",
    "Hop.C39_subscriptions"
   ],
   "note": "False as stated (C39_false): a second or returning subscriber is told it was subscribed already, and unsubscribe answers true after a removal for the first-ever subscriber. get is exact, and so are the answers in C62."
  },
  {
   "property": "C40",
   "status": "proved",
   "theorems": [
    "Hop.C40_metrics",
    "Hop.C40_snapshot"
   ],
   "note": ""
  },
  {
   "property": "C41",
   "status": "proved",
   "theorems": [
    "Hop.C41_timer",
    "Hop.C41_negative_seconds",
    "Hop.C41_parse_timespec"
   ],
   "note": "No panic is proved for clocks whose seconds are not negative; C41_negative_seconds shows the panic otherwise."
  },
  {
   "property": "C61",
   "status": "partial",
   "theorems": [
    "Hop.C61_distinct_partial",
    "Hop.C61_false",
    "Hop.C61_panics",
    "Hop.C61_wrong_id",
    "Hop.C61_reused",
    "Hop.C61_stuck"
   ],
   "note": "False as stated (C61_false); additions without concurrent removals never share an identifier (C61_distinct_partial)."
  },
  {
   "property": "C62",
   "status": "proved",
   "theorems": [
    "Hop.C62_pubsub_exact"
   ],
   "note": ""
  },
  {
   "property": "C10",
   "status": "partial",
   "theorems": [
    "Hop.C10_replies_partial",
    "Hop.C10_false"
   ],
   "note": "False as stated (C10_false): no write takes effect, because the parser drops all arguments. The replies are as stated (C10_replies_partial); C63 says exactly what happens."
  },
  {
   "property": "C63",
   "status": "proved",
   "theorems": [
    "Hop.C63_no_key_changes",
    "Hop.C63_replies",
    "Hop.C63_heard_unique",
    "Hop.C63_pieces"
   ],
   "note": ""
  },
  {
   "property": "C42",
   "status": "partial",
   "theorems": [
    "Hop.C42_set_get_partial",
    "Hop.C42_false"
   ],
   "note": "False as stated (C42_false): a map with a 256-byte key is stored but neither returned nor refused. Holds for all values within the limits (C42_set_get_partial); C64 gives the limits exactly."
  },
  {
   "property": "C43",
   "status": "partial",
   "theorems": [
    "Hop.C43_no_panic_partial",
    "Hop.C43_false",
    "Hop.C43_witnesses",
    "Hop.C43_reserved_panics"
   ],
   "note": "False as stated (C43_false): appending an empty list to a missing key stores it and panics; any read of a reserved key panics. No panic for unreserved keys, answers within response limits and counters that do not overflow (C43_no_panic_partial)."
  },
  {
   "property": "C47",
   "status": "proved",
   "theorems": [
    "Hop.C47_checked",
    "Hop.C47_accepted"
   ],
   "note": ""
  },
  {
   "property": "C64",
   "status": "proved",
   "theorems": [
    "Hop.C64_set_resolves_iff"
   ],
   "note": ""
  },
  {
   "property": "C65",
   "status": "proved",
   "theorems": [
    "Hop.C65_refused",
    "Hop.C65_answered",
    "Hop.C65_shape"
   ],
   "note": ""
  },
  {
   "property": "C66",
   "status": "proved",
   "theorems": [
    "Hop.C66_get_hit",
    "Hop.C66_get_miss",
    "Hop.C66_set",
    "Hop.C66_append_kind",
    "Hop.C66_append",
    "Hop.C66_increment_int",
    "Hop.C66_increment_float_corrupts",
    "Hop.C66_increment_float_never",
    "Hop.C66_decrement_float_never"
   ],
   "note": ""
  },
  {
   "property": "C68",
   "status": "proved",
   "theorems": [
    "Hop.C68_stats"
   ],
   "note": ""
  },
  {
   "property": "C44",
   "status": "partial",
   "theorems": [
    "Hop.C44_decodes_partial",
    "Hop.C44_false"
   ],
   "note": "False as stated (C44_false): every call resolves to ConnectionClosed, because the buffer that is read into has length 0 (C67). The decoder used would conclude with the answer (C44_decodes_partial)."
  },
  {
   "property": "C67",
   "status": "proved",
   "theorems": [
    "Hop.C67_refused",
    "Hop.C67_closed",
    "Hop.C67_unwritable"
   ],
   "note": ""
  },
  {
   "property": "C45",
   "status": "partial",
   "theorems": [
    "Hop.C45_parsed_partial",
    "Hop.C45_false",
    "Hop.C45_rejected"
   ],
   "note": "False as stated (C45_false): a request for stats loses its arguments, an odd last map key is dropped and more than 255 arguments panic. Proved for all other lines."
  },
  {
   "property": "C46",
   "status": "partial",
   "theorems": [
    "Hop.C46_list_partial",
    "Hop.C46_map_partial",
    "Hop.C46_panics",
    "Hop.C46_false"
   ],
   "note": "False as stated (C46_false): the last character is cut off. Proved: everything before it is shown; C70 has the exact output."
  },
  {
   "property": "C69",
   "status": "proved",
   "theorems": [
    "Hop.C69_every_line"
   ],
   "note": ""
  },
  {
   "property": "C70",
   "status": "proved",
   "theorems": [
    "Hop.C70_list",
    "Hop.C70_map"
   ],
   "note": ""
  },
  {
   "property": "C71",
   "status": "proved",
   "theorems": [
    "Hop.C71_integers"
   ],
   "note": ""
  },
  {
   "property": "C72",
   "status": "proved",
   "theorems": [
    "Hop.C72_line",
    "Hop.C72_effect"
   ],
   "note": ""
  },
  {
   "property": "C73",
   "status": "proved",
   "theorems": [
    "Hop.C73_session",
    "Hop.C73_fresh"
   ],
   "note": ""
  },
  {
   "property": "C74",
   "status": "proved",
   "theorems": [
    "Hop.C74_stops",
    "Hop.C74_end",
    "Hop.C74_continues"
   ],
   "note": ""
  },
  {
   "property": "C75",
   "status": "proved",
   "theorems": [
    "Hop.C75_request_bytes",
    "Hop.C75_response_bytes",
    "Hop.C75_reads_integer",
    "Hop.C75_reads_float",
    "Hop.C75_reads_text"
   ],
   "note": ""
  },
  {
   "property": "C76",
   "status": "partial",
   "theorems": [
    "Hop.C76_default_partial",
    "Hop.C76_sessions",
    "Hop.C76_pubsub",
    "Hop.C76_false"
   ],
   "note": "False as documented (C76_false): the options are stored and never looked at. Proved for limits of at least 2^32, where there are no more identifiers."
  },
  {
   "property": "C77",
   "status": "proved",
   "theorems": [
    "Hop.C77_reports",
    "Hop.C77_no_effect"
   ],
   "note": ""
  },
  {
   "property": "C78",
   "status": "proved",
   "theorems": [
    "Hop.C78_independent"
   ],
   "note": ""
  },
  {
   "property": "C79",
   "status": "proved",
   "theorems": [
    "Hop.C79_statistics"
   ],
   "note": ""
  },
  {
   "property": "C80",
   "status": "partial",
   "theorems": [
    "Hop.C80_accessors_partial",
    "Hop.C80_string",
    "Hop.C80_false"
   ],
   "note": "False (C80_false): is_string tests for a boolean. Proved for all accessors and the seven other predicates."
  },
  {
   "property": "C81",
   "status": "proved",
   "theorems": [
    "Hop.C81_is_a_map"
   ],
   "note": ""
  },
  {
   "property": "C82",
   "status": "partial",
   "theorems": [
    "Hop.C82_guarded_partial",
    "Hop.C82_open",
    "Hop.C82_false"
   ],
   "note": "False (C82_false): contains_key, insert, remove and key_type do not check. Proved for the functions that hand out guards."
  },
  {
   "property": "C83",
   "status": "proved",
   "theorems": [
    "Hop.C83_well_formed_always"
   ],
   "note": ""
  },
  {
   "property": "C84",
   "status": "proved",
   "theorems": [
    "Hop.C84_type_stable_always",
    "Hop.C84_created_false"
   ],
   "note": ""
  },
  {
   "property": "C85",
   "status": "proved",
   "theorems": [
    "Hop.C85_reserved_only_vanish",
    "Hop.C85_reserved_stay"
   ],
   "note": ""
  },
  {
   "property": "C86",
   "status": "proved",
   "theorems": [
    "Hop.C86_release_calm"
   ],
   "note": ""
  },
  {
   "property": "C87",
   "status": "partial",
   "theorems": [
    "Hop.C87_sets_of_one_type_partial",
    "Hop.C87_false"
   ],
   "note": "False for values of different types (witness); holds when all Sets name the same type."
  },
  {
   "property": "C88",
   "status": "proved",
   "theorems": [
    "Hop.C88_concurrent_sets"
   ],
   "note": ""
  },
  {
   "property": "C89",
   "status": "partial",
   "theorems": [
    "Hop.C89_concurrent_appends_partial",
    "Hop.C89_false"
   ],
   "note": "False (witness): earlier blocks can be overwritten. The key always holds the last few blocks, at least one."
  },
  {
   "property": "C90",
   "status": "proved",
   "theorems": [
    "Hop.C90_concurrent_creation"
   ],
   "note": ""
  },
  {
   "property": "C91",
   "status": "proved",
   "theorems": [
    "Hop.C91_port",
    "Hop.C91_host"
   ],
   "note": "IpAddr::from_str is a parameter."
  },
  {
   "property": "C92",
   "status": "partial",
   "theorems": [
    "Hop.C92_until_failure_partial",
    "Hop.C92_unbound",
    "Hop.C92_false"
   ],
   "note": "False (witness): the first failed accept ends the server without an error. Up to there every connection is handled once, in order."
  },
  {
   "property": "C93",
   "status": "partial",
   "theorems": [
    "Hop.C93_one_moment_partial",
    "Hop.C93_false"
   ],
   "note": "False for unsubscribe (witness). Every call takes effect at one moment during it; subscribe, get and remove_session answer exactly as if made alone then; unsubscribe is bounded from both sides."
  },
  {
   "property": "C94",
   "status": "proved",
   "theorems": [
    "Hop.C94_one_subscriber"
   ],
   "note": ""
  },
  {
   "property": "C95",
   "status": "proved",
   "theorems": [
    "Hop.C95_no_deadlock"
   ],
   "note": ""
  },
  {
   "property": "C96",
   "status": "proved",
   "theorems": [
    "Hop.C96_open_and_apart"
   ],
   "note": ""
  },
  {
   "property": "C97",
   "status": "proved",
   "theorems": [
    "Hop.C97_too_many",
    "Hop.C97_nothing_sent",
    "Hop.C97_panics",
    "Hop.C97_at_256"
   ],
   "note": ""
  },
  {
   "property": "C98",
   "status": "proved",
   "theorems": [
    "Hop.C98_configured",
    "Hop.C98_one_call",
    "Hop.C98_memory"
   ],
   "note": ""
  },
  {
   "property": "C99",
   "status": "proved",
   "theorems": [
    "Hop.C99_types_after_poll"
   ],
   "note": ""
  },
  {
   "property": "C100",
   "status": "partial",
   "theorems": [
    "Hop.C100_connected_partial",
    "Hop.C100_false"
   ],
   "note": "False (C100_false): the result is unwrapped, so a failed connection is a panic."
  },
  {
   "property": "C101",
   "status": "partial",
   "theorems": [
    "Hop.C101_bounded_partial",
    "Hop.C101_false"
   ],
   "note": "False (C101_false): whenever the loop of key_or_insert_with has created the key, another client can delete it before it is read. Holds for each bound on the number of concurrent requests that remove the key."
  },
  {
   "property": "C102",
   "status": "proved",
   "theorems": [
    "Hop.C102_finishes",
    "Hop.C102_starved",
    "Hop.C102_clients"
   ],
   "note": ""
  },
  {
   "property": "C103",
   "status": "proved",
   "theorems": [
    "Hop.C103_any_can_be_lost",
    "Hop.C103_increments"
   ],
   "note": ""
  },
  {
   "property": "C104",
   "status": "partial",
   "theorems": [
    "Hop.C104_moment_partial",
    "Hop.C104_false"
   ],
   "note": "False (C104_false): Exists of two keys overtaken by a Rename from the one to the other answers true. Holds for the answer false and for one key."
  },
  {
   "property": "C105",
   "status": "proved",
   "theorems": [
    "Hop.C105_in_order"
   ],
   "note": ""
  },
  {
   "property": "C106",
   "status": "proved",
   "theorems": [
    "Hop.C106_one_step",
    "Hop.C106_moments",
    "Hop.C106_all_possible"
   ],
   "note": "That no command accesses a key while it holds the guard of another is part of the transcription."
  },
  {
   "property": "C107",
   "status": "proved",
   "theorems": [
    "Hop.C107_no_deadlock",
    "Hop.C107_can_finish"
   ],
   "note": "Like C106."
  },
  {
   "property": "C108",
   "status": "proved",
   "theorems": [
    "Hop.C108_parse",
    "Hop.C108_memory",
    "Hop.C108_server",
    "Hop.C108_process",
    "Hop.C108_refusals",
    "Hop.C108_config"
   ],
   "note": "The derived Debug of values is a parameter."
  },
  {
   "property": "C109",
   "status": "partial",
   "theorems": [
    "Hop.C109_sources_partial",
    "Hop.C109_false"
   ],
   "note": "False (C109_false): the in-memory backend returns no source for any error, the parser neither. Reported are exactly the I/O errors of the TCP backend and whatever the error of the CLI library contains."
  },
  {
   "property": "C110",
   "status": "proved",
   "theorems": [
    "Hop.C110_value",
    "Hop.C110_every",
    "Hop.C110_response",
    "Hop.C110_errors"
   ],
   "note": ""
  },
  {
   "property": "C111",
   "status": "proved",
   "theorems": [
    "Hop.C111_answers",
    "Hop.C111_wrong"
   ],
   "note": "Panics are not excluded here, see C86."
  },
  {
   "property": "C112",
   "status": "proved",
   "theorems": [
    "Hop.C112_calls",
    "Hop.C112_refused",
    "Hop.C112_counters"
   ],
   "note": ""
  },
  {
   "property": "C113",
   "status": "partial",
   "theorems": [
    "Hop.C113_in_range_partial",
    "Hop.C113_false",
    "Hop.C113_len_false"
   ],
   "note": "False (C113_false, C113_len_false): args(1..0) has items, and len() of args(1..) counts the argument left out. Holds without len() for ranges that do not end before they start."
  },
  {
   "property": "C114",
   "status": "proved",
   "theorems": [
    "Hop.C114_backwards",
    "Hop.C114_len",
    "Hop.C114_limits",
    "Hop.C114_none",
    "Hop.C114_commands"
   ],
   "note": ""
  },
  {
   "property": "C115",
   "status": "proved",
   "theorems": [
    "Hop.C115_line",
    "Hop.C115_refused",
    "Hop.C115_memory"
   ],
   "note": "Results are assumed to be of the type of the method, which Rust enforces."
  },
  {
   "property": "C116",
   "status": "proved",
   "theorems": [
    "Hop.C116_no_success",
    "Hop.C116_remote"
   ],
   "note": ""
  },
  {
   "property": "C117",
   "status": "proved",
   "theorems": [
    "Hop.C117_guards",
    "Hop.C117_protects",
    "Hop.C117_shared",
    "Hop.C117_reads",
    "Hop.C117_written",
    "Hop.C117_deadlock",
    "Hop.C117_ordered",
    "Hop.C117_can_finish",
    "Hop.C117_one_at_a_time"
   ],
   "note": "A thread waiting for exclusive access does not keep others from sharing (dashmap 3.11)."
  },
  {
   "property": "C118",
   "status": "proved",
   "theorems": [
    "Hop.C118_own_guard",
    "Hop.C118_shared_guard",
    "Hop.C118_orderly",
    "Hop.C118_out_of_the_way"
   ],
   "note": "Accesses of a command that change nothing may be shared or exclusive."
  },
  {
   "property": "C119",
   "status": "partial",
   "theorems": [
    "Hop.C119_dropped_partial",
    "Hop.C119_false"
   ],
   "note": "False (C119_false): a call under way when the instance is dropped holds the maps, and meanwhile every other call succeeds. Holds if no call is under way."
  },
  {
   "property": "C120",
   "status": "proved",
   "theorems": [
    "Hop.C120_answers",
    "Hop.C120_counter",
    "Hop.C120_read",
    "Hop.C120_gauge_from",
    "Hop.C120_gauge_last"
   ],
   "note": ""
  },
  {
   "property": "C121",
   "status": "partial",
   "theorems": [
    "Hop.C121_snapshot_partial",
    "Hop.C121_false"
   ],
   "note": "False (C121_false): shards are copied one after the other, so a snapshot can have an increment and lack an earlier one. Holds for entries that share a lock."
  },
  {
   "property": "C122",
   "status": "proved",
   "theorems": [
    "Hop.C122_snapshot",
    "Hop.C122_meanwhile"
   ],
   "note": ""
  },
  {
   "property": "C123",
   "status": "proved",
   "theorems": [
    "Hop.C123_accounts",
    "Hop.C123_nothing_lost"
   ],
   "note": ""
  },
  {
   "property": "C124",
   "status": "proved",
   "theorems": [
    "Hop.C124_chronicle",
    "Hop.C124_never_overcounts"
   ],
   "note": "That commands are refused or lost is not excluded here, see C33, C36, C89."
  },
  {
   "property": "C125",
   "status": "proved",
   "theorems": [
    "Hop.C125_machine",
    "Hop.C125_one"
   ],
   "note": "The retry loop of the model ends after spins rounds; the hypothesis says that no schedule gets that far, and spins is arbitrary."
  },
  {
   "property": "C126",
   "status": "partial",
   "theorems": [
    "Hop.C126_ready_partial",
    "Hop.C126_false"
   ],
   "note": "False (C126_false): after a text that is not UTF-8 the response decoder takes part of the next response for a text. Holds for requests, and after unknown types for frames that have arrived."
  },
  {
   "property": "C127",
   "status": "proved",
   "theorems": [
    "Hop.C127_error_iff",
    "Hop.C127_after_type",
    "Hop.C127_after_text"
   ],
   "note": ""
  },
  {
   "property": "C128",
   "status": "proved",
   "theorems": [
    "Hop.C128_clients"
   ],
   "note": "As for C125."
  },
  {
   "property": "C129",
   "status": "proved",
   "theorems": [
    "Hop.C129_waits",
    "Hop.C129_short",
    "Hop.C129_guards",
    "Hop.C129_unusable",
    "Hop.C129_use",
    "Hop.C129_or_insert",
    "Hop.C129_or_insert_alone"
   ],
   "note": "Locks are spin locks: a call that has to wait makes no step."
  },
  {
   "property": "C130",
   "status": "proved",
   "theorems": [
    "Hop.C130_handles"
   ],
   "note": "Reference counting of Arc is modelled, see Model/Handles.lean."
  },
  {
   "property": "C131",
   "status": "partial",
   "theorems": [
    "Hop.C131_unsubscribed_partial",
    "Hop.C131_false"
   ],
   "note": "False (C131_false): unsubscribe does not close the channel; it stays open if users keep a pointer, or a sender and a receiver. C131_unsubscribed_partial says exactly when it is closed."
  },
  {
   "property": "C132",
   "status": "proved",
   "theorems": [
    "Hop.C132_closed_exactly"
   ],
   "note": "That channels close with their last sender or receiver is taken from futures-intrusive."
  },
  {
   "property": "C133",
   "status": "proved",
   "theorems": [
    "Hop.C133_removed_closed"
   ],
   "note": ""
  },
  {
   "property": "C134",
   "status": "proved",
   "theorems": [
    "Hop.C134_bounds"
   ],
   "note": "Justifies the rounds given to the loop in the model (Env.spins)."
  },
  {
   "property": "C135",
   "status": "proved",
   "theorems": [
    "Hop.C135_guards",
    "Hop.C135_protects",
    "Hop.C135_reads",
    "Hop.C135_written",
    "Hop.C135_returned",
    "Hop.C135_at_most"
   ],
   "note": "Handles are cloneable, so a caller that keeps a guard can go on using the manager."
  },
  {
   "property": "C136",
   "status": "proved",
   "theorems": [
    "Hop.C136_deadlock",
    "Hop.C136_remove_own"
   ],
   "note": ""
  },
  {
   "property": "C137",
   "status": "proved",
   "theorems": [
    "Hop.C137_additions_stop"
   ],
   "note": ""
  },
  {
   "property": "C138",
   "status": "proved",
   "theorems": [
    "Hop.C138_can_finish"
   ],
   "note": ""
  },
  {
   "property": "C139",
   "status": "proved",
   "theorems": [
    "Hop.C139_clients",
    "Hop.C139_locks",
    "Hop.C139_pubsub",
    "Hop.C139_guards",
    "Hop.C139_sessions"
   ],
   "note": ""
  },
  {
   "property": "C140",
   "status": "proved",
   "theorems": [
    "Hop.C140_whole_requests"
   ],
   "note": ""
  },
  {
   "property": "C141",
   "status": "partial",
   "theorems": [
    "Hop.C141_beginnings_partial",
    "Hop.C141_false"
   ],
   "note": "False (C141_false): a call dropped while it writes leaves part of its request behind, and the next request follows it. What holds: beginnings of requests, at most one of each, whole for calls that were neither dropped nor failed."
  },
  {
   "property": "C142",
   "status": "proved",
   "theorems": [
    "Hop.C142_one_after_the_other",
    "Hop.C142_finishes"
   ],
   "note": ""
  },
  {
   "property": "C143",
   "status": "proved",
   "theorems": [
    "Hop.C143_map_iff",
    "Hop.C143_map_stored",
    "Hop.C143_set_iff",
    "Hop.C143_set_stored"
   ],
   "note": ""
  },
  {
   "property": "C144",
   "status": "proved",
   "theorems": [
    "Hop.C144_one_after_the_other",
    "Hop.C144_finishes",
    "Hop.C144_calls"
   ],
   "note": ""
  },
  {
   "property": "C145",
   "status": "proved",
   "theorems": [
    "Hop.C145_reads",
    "Hop.C145_given"
   ],
   "note": "Stated for any exchange with the server in place of send_and_wait, whose reading loop never succeeds (C67)."
  },
  {
   "property": "C146",
   "status": "partial",
   "theorems": [
    "Hop.C146_false",
    "Hop.C146_shown_partial"
   ],
   "note": "False as stated: the count byte is that of the added arguments."
  },
  {
   "property": "C147",
   "status": "proved",
   "theorems": [
    "Hop.C147_again",
    "Hop.C147_taken_up",
    "Hop.C147_cut_short"
   ],
   "note": ""
  },
  {
   "property": "C148",
   "status": "proved",
   "theorems": [
    "Hop.C148_pubsub",
    "Hop.C148_sessions",
    "Hop.C148_commands"
   ],
   "note": ""
  },
  {
   "property": "C149",
   "status": "proved",
   "theorems": [
    "Hop.C149_statistics",
    "Hop.C149_reading"
   ],
   "note": ""
  },
  {
   "property": "C150",
   "status": "proved",
   "theorems": [
    "Hop.C150_threads"
   ],
   "note": ""
  },
  {
   "property": "C151",
   "status": "proved",
   "theorems": [
    "Hop.C151_statistics",
    "Hop.C151_open_and_apart",
    "Hop.C151_one_subscriber",
    "Hop.C151_sessions_apart"
   ],
   "note": ""
  },
  {
   "property": "C152",
   "status": "proved",
   "theorems": [
    "Hop.C152_all_end",
    "Hop.C152_answered"
   ],
   "note": ""
  },
  {
   "property": "C153",
   "status": "proved",
   "theorems": [
    "Hop.C153_requests",
    "Hop.C153_well_formed",
    "Hop.C153_type_stable",
    "Hop.C153_untouched",
    "Hop.C153_reserved",
    "Hop.C153_calm",
    "Hop.C153_counters"
   ],
   "note": ""
  },
  {
   "property": "C154",
   "status": "partial",
   "theorems": [
    "Hop.C154_newline_partial",
    "Hop.C154_false"
   ],
   "note": "False as stated (C154_false): the server looks at its input only after a newline byte or when the client hangs up, and requests do not end with a newline. If the bytes end with one an answer is sent (C154_newline_partial); C155 says exactly what is sent when."
  },
  {
   "property": "C155",
   "status": "proved",
   "theorems": [
    "Hop.C155_sent",
    "Hop.C155_rest",
    "Hop.C155_counts",
    "Hop.C155_soon",
    "Hop.C155_silence",
    "Hop.C155_keys"
   ],
   "note": ""
  },
  {
   "property": "C156",
   "status": "proved",
   "theorems": [
    "Hop.C156_as_if_alone"
   ],
   "note": ""
  },
  {
   "property": "C157",
   "status": "proved",
   "theorems": [
    "Hop.C157_counters_advance"
   ],
   "note": ""
  },
  {
   "property": "C158",
   "status": "proved",
   "theorems": [
    "Hop.C158_contents_extend"
   ],
   "note": ""
  },
  {
   "property": "C159",
   "status": "proved",
   "theorems": [
    "Hop.C159_as_if_alone"
   ],
   "note": ""
  },
  {
   "property": "C160",
   "status": "proved",
   "theorems": [
    "Hop.C160_counters_advance"
   ],
   "note": ""
  },
  {
   "property": "C161",
   "status": "proved",
   "theorems": [
    "Hop.C161_chronicle",
    "Hop.C161_never_overcounts"
   ],
   "note": ""
  },
  {
   "property": "C162",
   "status": "proved",
   "theorems": [
    "Hop.C162_accounts",
    "Hop.C162_nothing_lost"
   ],
   "note": ""
  },
  {
   "property": "C163",
   "status": "proved",
   "theorems": [
    "Hop.C163_one_taker"
   ],
   "note": ""
  },
  {
   "property": "C164",
   "status": "proved",
   "theorems": [
    "Hop.C164_appends"
   ],
   "note": ""
  },
  {
   "property": "C165",
   "status": "proved",
   "theorems": [
    "Hop.C165_one_step",
    "Hop.C165_moments",
    "Hop.C165_all_possible"
   ],
   "note": "subscribe drops its two locks at the same time."
  },
  {
   "property": "C166",
   "status": "proved",
   "theorems": [
    "Hop.C166_no_deadlock",
    "Hop.C166_can_finish",
    "Hop.C166_all_return"
   ],
   "note": "A thread that waits for an exclusive lock does not keep others from acquiring shared ones."
  },
  {
   "property": "C167",
   "status": "proved",
   "theorems": [
    "Hop.C167_moments",
    "Hop.C167_one_step",
    "Hop.C167_all_possible"
   ],
   "note": "Session metrics are incremented at one moment; C169 justifies that."
  },
  {
   "property": "C168",
   "status": "proved",
   "theorems": [
    "Hop.C168_deadlock",
    "Hop.C168_can_finish",
    "Hop.C168_all_finish"
   ],
   "note": ""
  },
  {
   "property": "C169",
   "status": "proved",
   "theorems": [
    "Hop.C169_moments",
    "Hop.C169_one_step",
    "Hop.C169_all_possible"
   ],
   "note": ""
  },
  {
   "property": "C170",
   "status": "proved",
   "theorems": [
    "Hop.C170_no_deadlock",
    "Hop.C170_can_finish",
    "Hop.C170_all_return"
   ],
   "note": "A thread that waits for an exclusive lock does not keep others from acquiring shared ones."
  },
  {
   "property": "C171",
   "status": "proved",
   "theorems": [
    "Hop.C171_moments",
    "Hop.C171_one_step",
    "Hop.C171_guarded",
    "Hop.C171_all_possible"
   ],
   "note": ""
  },
  {
   "property": "C172",
   "status": "proved",
   "theorems": [
    "Hop.C172_deadlock",
    "Hop.C172_can_finish",
    "Hop.C172_all_finish"
   ],
   "note": "A thread that waits for an exclusive lock does not keep others from acquiring shared ones."
  },
  {
   "property": "C173",
   "status": "proved",
   "theorems": [
    "Hop.C173_contents_extend"
   ],
   "note": ""
  },
  {
   "property": "C174",
   "status": "proved",
   "theorems": [
    "Hop.C174_as_unhindered",
    "Hop.C174_read",
    "Hop.C174_rest",
    "Hop.C174_all_possible"
   ],
   "note": "The room is a number of bytes per connection and direction."
  },
  {
   "property": "C175",
   "status": "proved",
   "theorems": [
    "Hop.C175_answered",
    "Hop.C175_room"
   ],
   "note": "Answered and read in full: C175_answered with C174_rest."
  },
  {
   "property": "C176",
   "status": "proved",
   "theorems": [
    "Hop.C176_stall",
    "Hop.C176_never"
   ],
   "note": ""
  },
  {
   "property": "C177",
   "status": "proved",
   "theorems": [
    "Hop.C177_asks",
    "Hop.C177_asks_chunked",
    "Hop.C177_incomplete",
    "Hop.C177_frame"
   ],
   "note": "Unless it panics; C51 says when."
  },
  {
   "property": "C178",
   "status": "proved",
   "theorems": [
    "Hop.C178_asks_for_nothing"
   ],
   "note": ""
  },
  {
   "property": "C179",
   "status": "partial",
   "theorems": [
    "Hop.C179_announced_partial",
    "Hop.C179_false"
   ],
   "note": "False of the code: within a map or a set that is longer than the header of its frame announces, the decoder asks for more than is lacking."
  },
  {
   "property": "C180",
   "status": "proved",
   "theorems": [
    "Hop.C180_concludes",
    "Hop.C180_concludes_chunked",
    "Hop.C180_header_is_a_minimum",
    "Hop.C180_unambiguous"
   ],
   "note": "Up to the order in which maps and sets list their contents."
  },
  {
   "property": "C181",
   "status": "proved",
   "theorems": [
    "Hop.C181_counts"
   ],
   "note": ""
  },
  {
   "property": "C182",
   "status": "proved",
   "theorems": [
    "Hop.C182_keys",
    "Hop.C182_outcome",
    "Hop.C182_history",
    "Hop.C182_concurrent"
   ],
   "note": ""
  },
  {
   "property": "C183",
   "status": "proved",
   "theorems": [
    "Hop.C183_guards",
    "Hop.C183_protects",
    "Hop.C183_reads_key",
    "Hop.C183_reads_session",
    "Hop.C183_written_key",
    "Hop.C183_written_session",
    "Hop.C183_deadlock",
    "Hop.C183_keys_only",
    "Hop.C183_sessions_only"
   ],
   "note": ""
  },
  {
   "property": "C184",
   "status": "partial",
   "theorems": [
    "Hop.C184_partial",
    "Hop.C184_false"
   ],
   "note": "False of the code: a thread that keeps the guard of a key and removes a session, and one that keeps the guard of that session and reads the key, wait for each other for ever. What is enough: C185."
  },
  {
   "property": "C185",
   "status": "proved",
   "theorems": [
    "Hop.C185_ranked",
    "Hop.C185_keys_first",
    "Hop.C185_sessions_first",
    "Hop.C185_commands",
    "Hop.C185_fair",
    "Hop.C185_fair_keys_first",
    "Hop.C185_fair_sessions_first"
   ],
   "note": ""
  },
  {
   "property": "C186",
   "status": "proved",
   "theorems": [
    "Hop.C186_reads",
    "Hop.C186_waits",
    "Hop.C186_no_success",
    "Hop.C186_rename_loses",
    "Hop.C186_ordered"
   ],
   "note": "(d) is a finding: the value a Rename has taken from the old key is lost to everyone while the thread waits for itself."
  },
  {
   "property": "C187",
   "status": "proved",
   "theorems": [
    "Hop.C187_keys",
    "Hop.C187_each"
   ],
   "note": ""
  },
  {
   "property": "C188",
   "status": "partial",
   "theorems": [
    "Hop.C188_partial",
    "Hop.C188_false"
   ],
   "note": "False of the code: an Append or Set uses every argument, though it declares one besides the key. Proved for the other fourteen commands, for which even the same steps are taken. What is used exactly: C189."
  },
  {
   "property": "C189",
   "status": "proved",
   "theorems": [
    "Hop.C189_used",
    "Hop.C189_needed",
    "Hop.C189_declared"
   ],
   "note": ""
  },
  {
   "property": "C190",
   "status": "proved",
   "theorems": [
    "Hop.C190_keys",
    "Hop.C190_answers",
    "Hop.C190_refused",
    "Hop.C190_once",
    "Hop.C190_accumulating"
   ],
   "note": ""
  },
  {
   "property": "C191",
   "status": "proved",
   "theorems": [
    "Hop.C191_reordered",
    "Hop.C191_any_order",
    "Hop.C191_concurrent",
    "Hop.C191_needed"
   ],
   "note": ""
  },
  {
   "property": "C192",
   "status": "proved",
   "theorems": [
    "Hop.C192_only",
    "Hop.C192_all",
    "Hop.C192_exactly",
    "Hop.C192_only_stores",
    "Hop.C192_rebuild",
    "Hop.C192_stores"
   ],
   "note": ""
  },
  {
   "property": "C193",
   "status": "proved",
   "theorems": [
    "Hop.C193_told_apart",
    "Hop.C193_beyond_order"
   ],
   "note": ""
  },
  {
   "property": "C194",
   "status": "proved",
   "theorems": [
    "Hop.C194_order",
    "Hop.C194_exactly"
   ],
   "note": ""
  },
  {
   "property": "C195",
   "status": "proved",
   "theorems": [
    "Hop.C195_refused"
   ],
   "note": ""
  },
  {
   "property": "C196",
   "status": "proved",
   "theorems": [
    "Hop.C196_anywhere",
    "Hop.C196_undo"
   ],
   "note": ""
  },
  {
   "property": "C197",
   "status": "proved",
   "theorems": [
    "Hop.C197_interleaved",
    "Hop.C197_history"
   ],
   "note": ""
  },
  {
   "property": "C198",
   "status": "proved",
   "theorems": [
    "Hop.C198_history",
    "Hop.C198_at_once"
   ],
   "note": ""
  },
  {
   "property": "C199",
   "status": "proved",
   "theorems": [
    "Hop.C199_reply",
    "Hop.C199_at_once"
   ],
   "note": ""
  },
  {
   "property": "C200",
   "status": "proved",
   "theorems": [
    "Hop.C200_stored",
    "Hop.C200_answers"
   ],
   "note": ""
  },
  {
   "property": "C201",
   "status": "proved",
   "theorems": [
    "Hop.C201_request",
    "Hop.C201_history",
    "Hop.C201_at_once"
   ],
   "note": ""
  },
  {
   "property": "C202",
   "status": "proved",
   "theorems": [
    "Hop.C202_builder",
    "Hop.C202_decoder",
    "Hop.C202_arguments",
    "Hop.C202_counting"
   ],
   "note": ""
  },
  {
   "property": "C203",
   "status": "proved",
   "theorems": [
    "Hop.C203_call",
    "Hop.C203_calls_at_once",
    "Hop.C203_remote",
    "Hop.C203_lines",
    "Hop.C203_server"
   ],
   "note": ""
  },
  {
   "property": "C204",
   "status": "proved",
   "theorems": [
    "Hop.C204_clients",
    "Hop.C204_tasks"
   ],
   "note": ""
  },
  {
   "property": "C205",
   "status": "proved",
   "theorems": [
    "Hop.C205_users"
   ],
   "note": ""
  },
  {
   "property": "C206",
   "status": "proved",
   "theorems": [
    "Hop.C206_debug",
    "Hop.C206_release"
   ],
   "note": ""
  },
  {
   "property": "C207",
   "status": "proved",
   "theorems": [
    "Hop.C207_only",
    "Hop.C207_anywhere",
    "Hop.C207_stores",
    "Hop.C207_undo"
   ],
   "note": ""
  },
  {
   "property": "C208",
   "status": "proved",
   "theorems": [
    "Hop.C208_always",
    "Hop.C208_wider",
    "Hop.C208_stays",
    "Hop.C208_stores"
   ],
   "note": ""
  },
  {
   "property": "C209",
   "status": "proved",
   "theorems": [
    "Hop.C209_resolves",
    "Hop.C209_fair"
   ],
   "note": ""
  },
  {
   "property": "C210",
   "status": "proved",
   "theorems": [
    "Hop.C210_exact",
    "Hop.C210_hidden",
    "Hop.C210_calls",
    "Hop.C210_told",
    "Hop.C210_unnoticed"
   ],
   "note": ""
  },
  {
   "property": "C211",
   "status": "proved",
   "theorems": [
    "Hop.C211_error",
    "Hop.C211_value",
    "Hop.C211_panic_release",
    "Hop.C211_panic_debug"
   ],
   "note": ""
  },
  {
   "property": "C212",
   "status": "proved",
   "theorems": [
    "Hop.C212_error",
    "Hop.C212_keys",
    "Hop.C212_results",
    "Hop.C212_once"
   ],
   "note": ""
  },
  {
   "property": "C213",
   "status": "proved",
   "theorems": [
    "Hop.C213_reordered",
    "Hop.C213_any_order",
    "Hop.C213_concurrent",
    "Hop.C213_needed"
   ],
   "note": ""
  },
  {
   "property": "C214",
   "status": "proved",
   "theorems": [
    "Hop.C214_only",
    "Hop.C214_every",
    "Hop.C214_stores"
   ],
   "note": ""
  },
  {
   "property": "C215",
   "status": "proved",
   "theorems": [
    "Hop.C215_session",
    "Hop.C215_same",
    "Hop.C215_all"
   ],
   "note": ""
  },
  {
   "property": "C216",
   "status": "proved",
   "theorems": [
    "Hop.C216_calls",
    "Hop.C216_tasks"
   ],
   "note": ""
  },
  {
   "property": "C217",
   "status": "proved",
   "theorems": [
    "Hop.C217_session"
   ],
   "note": ""
  },
  {
   "property": "C218",
   "status": "proved",
   "theorems": [
    "Hop.C218_sent",
    "Hop.C218_kept",
    "Hop.C218_no_limit",
    "Hop.C218_read"
   ],
   "note": ""
  },
  {
   "property": "C219",
   "status": "proved",
   "theorems": [
    "Hop.C219_waits",
    "Hop.C219_answered"
   ],
   "note": "The room is a number of bytes per connection and direction, as in C174."
  },
  {
   "property": "C220",
   "status": "proved",
   "theorems": [
    "Hop.C220_alone",
    "Hop.C220_same_bytes",
    "Hop.C220_slow"
   ],
   "note": "Told at moments when there is nothing left to do for the two connections; C155 bounds how soon that is."
  }
 ]
}