{
 "claims": [
  {
   "property": "C01",
   "status": "proved",
   "theorems": [
    "Pluto.Props.C01_refines"
   ],
   "note": ""
  },
  {
   "property": "C02",
   "status": "proved",
   "theorems": [
    "Pluto.Props.C02_bounded",
    "Pluto.Props.C02_zero"
   ],
   "note": ""
  },
  {
   "property": "C03",
   "status": "proved",
   "theorems": [
    "Pluto.Props.C03_no_undefined_behaviour",
    "Pluto.Props.C03_consistent"
   ],
   "note": ""
  },
  {
   "property": "C04",
   "status": "proved",
   "theorems": [
    "Pluto.Props.C04_most_recent",
    "Pluto.Props.C04_observed"
   ],
   "note": ""
  },
  {
   "property": "C05",
   "status": "proved",
   "theorems": [
    "Pluto.Props.C05_last_stored"
   ],
   "note": ""
  },
  {
   "property": "C06",
   "status": "proved",
   "theorems": [
    "Pluto.Props.C06_no_effect",
    "Pluto.Props.C06_refused"
   ],
   "note": ""
  },
  {
   "property": "C07",
   "status": "proved",
   "theorems": [
    "Pluto.Props.C07_capacity_change"
   ],
   "note": ""
  },
  {
   "property": "C08",
   "status": "partial",
   "theorems": [
    "Pluto.Props.C08_capacity_exceeded",
    "Pluto.Props.C08_undefined_behaviour",
    "Pluto.Props.C08_shrink_throws",
    "Pluto.Props.C08_capacity_comparison",
    "Pluto.Props.C08_defined_partial",
    "Pluto.Props.C08_survives_partial",
    "Pluto.Props.C08_effect_partial"
   ],
   "note": "The property is false for this code: C08_capacity_exceeded, C08_capacity_comparison (in general C08_shrink_throws) and C08_undefined_behaviour are counterexamples; the partial theorems cover every failure for which it holds, C08_defined_partial those that cause no undefined behaviour."
  },
  {
   "property": "C09",
   "status": "proved",
   "theorems": [
    "Pluto.Props.C09_linearizable",
    "Pluto.Props.C09_linearizable_faults",
    "Pluto.Props.C09_no_undefined_behaviour"
   ],
   "note": ""
  },
  {
   "property": "C10",
   "status": "proved",
   "theorems": [
    "Pluto.Props.C10_no_race",
    "Pluto.Props.C10_exclusive",
    "Pluto.Props.C10_only_inside"
   ],
   "note": ""
  },
  {
   "property": "C11",
   "status": "proved",
   "theorems": [
    "Pluto.Props.C11_starts_first",
    "Pluto.Props.C11_submission_order",
    "Pluto.Props.C11_fifo"
   ],
   "note": ""
  },
  {
   "property": "C12",
   "status": "proved",
   "theorems": [
    "Pluto.Props.C12_conserved",
    "Pluto.Props.C12_started_once",
    "Pluto.Props.C12_submitted"
   ],
   "note": ""
  },
  {
   "property": "C13",
   "status": "proved",
   "theorems": [
    "Pluto.Props.C13_counters",
    "Pluto.Props.C13_active"
   ],
   "note": ""
  },
  {
   "property": "C14",
   "status": "proved",
   "theorems": [
    "Pluto.Props.C14_not_stranded",
    "Pluto.Props.C14_enough_wakeups"
   ],
   "note": ""
  },
  {
   "property": "C15",
   "status": "proved",
   "theorems": [
    "Pluto.Props.C15_wait_none"
   ],
   "note": ""
  },
  {
   "property": "C16",
   "status": "partial",
   "theorems": [
    "Pluto.Props.C16_wait_all_safe",
    "Pluto.Props.C16_everything_done",
    "Pluto.Props.C16_wait_all_woken_partial",
    "Pluto.Props.C16_fails_target_zero",
    "Pluto.Props.C16_never_woken"
   ],
   "note": "The second half is false when the worker target is set to zero while a task runs: C16_fails_target_zero, and C16_never_woken for all executions with target zero. Proved for positive targets."
  },
  {
   "property": "C17",
   "status": "partial",
   "theorems": [
    "Pluto.Props.C17_once_not_early",
    "Pluto.Props.C17_order_partial",
    "Pluto.Props.C17_schedule_sorted",
    "Pluto.Props.C17_fails_late_submission"
   ],
   "note": "At most once and never early are proved in full; the order among tasks submitted before the scheduler began to wait. C17_fails_late_submission is a counterexample to the literal order."
  },
  {
   "property": "C18",
   "status": "partial",
   "theorems": [
    "Pluto.Props.C18_safe_partial",
    "Pluto.Props.C18_fails_two_callers",
    "Pluto.Props.C18_fails_single_caller",
    "Pluto.Props.C18_fails_two_schedulers"
   ],
   "note": "The property is false: C18_fails_two_callers, C18_fails_single_caller, C18_fails_two_schedulers. Proved for executions in which the creation of the scheduler thread is not overtaken."
  },
  {
   "property": "C19",
   "status": "partial",
   "theorems": [
    "Pluto.Props.C19_completes_partial",
    "Pluto.Props.C19_fails_always",
    "Pluto.Props.C19_fails_lowered_target",
    "Pluto.Props.C19_fails_no_workers"
   ],
   "note": "The property is false if more workers exist than the target, or none: C19_fails_always (no waiting task is ever started), C19_fails_lowered_target, C19_fails_no_workers. Proved otherwise, so the condition is exact."
  },
  {
   "property": "C20",
   "status": "proved",
   "theorems": [
    "Pluto.Props.C20_no_start",
    "Pluto.Props.C20_joined",
    "Pluto.Props.C20_scheduler_joined"
   ],
   "note": ""
  },
  {
   "property": "C21",
   "status": "proved",
   "theorems": [
    "Pluto.Props.C21_size",
    "Pluto.Props.C21_steps"
   ],
   "note": ""
  },
  {
   "property": "C22",
   "status": "proved",
   "theorems": [
    "Pluto.Props.C22_sync",
    "Pluto.Props.C22_sync_returns"
   ],
   "note": ""
  },
  {
   "property": "C23",
   "status": "proved",
   "theorems": [
    "Pluto.Props.C23_order",
    "Pluto.Props.C23_written",
    "Pluto.Props.C23_on_disk",
    "Pluto.Props.C23_bytes",
    "Pluto.Props.C23_lines"
   ],
   "note": ""
  },
  {
   "property": "C24",
   "status": "proved",
   "theorems": [
    "Pluto.Props.C24_bound",
    "Pluto.Props.C24_accounting",
    "Pluto.Props.C24_counter",
    "Pluto.Props.C24_discard"
   ],
   "note": ""
  },
  {
   "property": "C25",
   "status": "proved",
   "theorems": [
    "Pluto.Props.C25_filter",
    "Pluto.Props.C25_off",
    "Pluto.Props.C25_exact",
    "Pluto.Props.C25_monotone"
   ],
   "note": ""
  },
  {
   "property": "C26",
   "status": "proved",
   "theorems": [
    "Pluto.Props.C26_none",
    "Pluto.Props.C26_one",
    "Pluto.Props.C26_destructor",
    "Pluto.Props.C26_at_most_one"
   ],
   "note": ""
  },
  {
   "property": "C27",
   "status": "partial",
   "theorems": [
    "Pluto.Props.C27_writef_partial",
    "Pluto.Props.C27_scheme",
    "Pluto.Props.C27_empty",
    "Pluto.Props.C27_longest"
   ],
   "note": "C27_empty: an empty result logs the format string; C27_longest: a result of INT_MAX characters overflows. Proved for every other length."
  },
  {
   "property": "C28",
   "status": "proved",
   "theorems": [
    "Pluto.Props.C28_flushed",
    "Pluto.Props.C28_on_disk"
   ],
   "note": ""
  },
  {
   "property": "C29",
   "status": "partial",
   "theorems": [
    "Pluto.Props.C29_hangs",
    "Pluto.Props.C29_returns_partial",
    "Pluto.Props.C29_hangs_always",
    "Pluto.Props.C29_spurious_partial"
   ],
   "note": "The property is false: C29_hangs. Proved whenever the logging thread is not between looking at the flag and waiting when it is notified, or wakes up spuriously; C29_hangs_always: otherwise the destructor never returns."
  },
  {
   "property": "C30",
   "status": "proved",
   "theorems": [
    "Pluto.Props.C30_rotates",
    "Pluto.Props.C30_gap",
    "Pluto.Props.C30_failures",
    "Pluto.Props.C30_paths",
    "Pluto.Props.C30_names",
    "Pluto.Props.C30_hidden_names"
   ],
   "note": ""
  },
  {
   "property": "C31",
   "status": "proved",
   "theorems": [
    "Pluto.Props.C31_size",
    "Pluto.Props.C31_not_early",
    "Pluto.Props.C31_header"
   ],
   "note": ""
  },
  {
   "property": "C32",
   "status": "partial",
   "theorems": [
    "Pluto.Props.C32_suffix_partial",
    "Pluto.Props.C32_suffix_changes_partial",
    "Pluto.Props.C32_sublist_partial",
    "Pluto.Props.C32_placed_partial",
    "Pluto.Props.C32_fails_lowered_limit",
    "Pluto.Props.C32_fails_collision"
   ],
   "note": "The property is false if the limit is lowered and a rotation then fails (C32_fails_lowered_limit), or if a log file is called like a rotated file of another one (C32_fails_collision). Proved for distinct files with a fixed limit and any failures, and for changing limits if rotation does not fail."
  },
  {
   "property": "C33",
   "status": "proved",
   "theorems": [
    "Pluto.Props.C33_ids",
    "Pluto.Props.C33_once",
    "Pluto.Props.C33_step"
   ],
   "note": ""
  },
  {
   "property": "C34",
   "status": "proved",
   "theorems": [
    "Pluto.Props.C34_woken",
    "Pluto.Props.C34_fails_flush_size"
   ],
   "note": "C34_fails_flush_size: lowering the flush size while the logging thread holds the mutex can go unnoticed, hence the proviso."
  },
  {
   "property": "C35",
   "status": "proved",
   "theorems": [
    "Pluto.Props.C35_level",
    "Pluto.Props.C35_level_injective",
    "Pluto.Props.C35_line",
    "Pluto.Props.C35_line_hidden",
    "Pluto.Props.C35_columns",
    "Pluto.Props.C35_before_epoch"
   ],
   "note": "C35_before_epoch: for times before the epoch the microseconds are negative and the columns do not line up."
  },
  {
   "property": "C36",
   "status": "partial",
   "theorems": [
    "Pluto.Props.C36_each_once_reversed_partial",
    "Pluto.Props.C36_at_least_once_partial",
    "Pluto.Props.C36_as_many_partial",
    "Pluto.Props.C36_not_run",
    "Pluto.Props.C36_adding",
    "Pluto.Props.C36_adding_forever"
   ],
   "note": "Fails for tasks that add tasks to the guard being destroyed: C36_adding, C36_adding_forever. Whatever the tasks do, if the destructor returns, every task added before has been called, the last added first (C36_at_least_once_partial), and there were as many calls as tasks added (C36_as_many_partial)."
  },
  {
   "property": "C37",
   "status": "partial",
   "theorems": [
    "Pluto.Props.C37_exactly_one",
    "Pluto.Props.C37_exactly_one_runs",
    "Pluto.Props.C37_when_partial",
    "Pluto.Props.C37_during_unwinding",
    "Pluto.Props.C37_caught"
   ],
   "note": "Fails for scopes entered during unwinding: C37_during_unwinding."
  },
  {
   "property": "C38",
   "status": "proved",
   "theorems": [
    "Pluto.Props.C38_time_since_reset",
    "Pluto.Props.C38_time_since_construction",
    "Pluto.Props.C38_is_running",
    "Pluto.Props.C38_stop_and_time"
   ],
   "note": ""
  },
  {
   "property": "C39",
   "status": "proved",
   "theorems": [
    "Pluto.Props.C39_parts",
    "Pluto.Props.C39_units",
    "Pluto.Props.C39_torn",
    "Pluto.Props.C39_torn_down",
    "Pluto.Props.C39_torn_up",
    "Pluto.Props.C39_stopped"
   ],
   "note": "C39_torn: the parts of a running stopwatch, read one after the other, need not fit together."
  },
  {
   "property": "C40",
   "status": "proved",
   "theorems": [
    "Pluto.Props.C40_idempotent",
    "Pluto.Props.C40_monotone",
    "Pluto.Props.C40_stopped",
    "Pluto.Props.C40_running"
   ],
   "note": ""
  },
  {
   "property": "C41",
   "status": "proved",
   "theorems": [
    "Pluto.Props.C41_utf32_to_utf8",
    "Pluto.Props.C41_utf32_to_utf8_valid",
    "Pluto.Props.C41_utf32_to_utf16"
   ],
   "note": ""
  },
  {
   "property": "C42",
   "status": "proved",
   "theorems": [
    "Pluto.Props.C42_utf8_to_utf32_valid",
    "Pluto.Props.C42_utf16_to_utf32_valid"
   ],
   "note": ""
  },
  {
   "property": "C43",
   "status": "proved",
   "theorems": [
    "Pluto.Props.C43_roundtrip_32_16",
    "Pluto.Props.C43_roundtrip_8_16",
    "Pluto.Props.C43_roundtrip_16_32",
    "Pluto.Props.C43_roundtrip_16_8",
    "Pluto.Props.C43_roundtrip_8_32",
    "Pluto.Props.C43_roundtrip_32_8"
   ],
   "note": ""
  },
  {
   "property": "C44",
   "status": "proved",
   "theorems": [
    "Pluto.Props.C44_wellformed_8_16",
    "Pluto.Props.C44_wellformed_8_32",
    "Pluto.Props.C44_wellformed_16_8",
    "Pluto.Props.C44_wellformed_16_32",
    "Pluto.Props.C44_wellformed_32_8",
    "Pluto.Props.C44_wellformed_32_16"
   ],
   "note": ""
  },
  {
   "property": "C45",
   "status": "proved",
   "theorems": [
    "Pluto.Props.C45_path_8_16_32",
    "Pluto.Props.C45_path_8_32_16",
    "Pluto.Props.C45_path_16_8_32",
    "Pluto.Props.C45_path_16_32_8",
    "Pluto.Props.C45_path_32_8_16",
    "Pluto.Props.C45_path_32_16_8"
   ],
   "note": ""
  },
  {
   "property": "C46",
   "status": "proved",
   "theorems": [
    "Pluto.Props.C46_no_overread_8_16",
    "Pluto.Props.C46_no_overread_8_32",
    "Pluto.Props.C46_no_overread_16_8",
    "Pluto.Props.C46_no_overread_16_32",
    "Pluto.Props.C46_no_overread_32_8",
    "Pluto.Props.C46_no_overread_32_16"
   ],
   "note": ""
  },
  {
   "property": "C47",
   "status": "proved",
   "theorems": [
    "Pluto.Props.C47_ascii_8_16",
    "Pluto.Props.C47_ascii_8_32",
    "Pluto.Props.C47_ascii_16_8",
    "Pluto.Props.C47_ascii_16_32",
    "Pluto.Props.C47_ascii_32_8",
    "Pluto.Props.C47_ascii_32_16",
    "Pluto.Props.C47_ascii_text_8_32"
   ],
   "note": ""
  },
  {
   "property": "C48",
   "status": "proved",
   "theorems": [
    "Pluto.Props.C48_conv",
    "Pluto.Props.C48_roundtrip",
    "Pluto.Props.C48_wstr_same_text",
    "Pluto.Props.C48_illformed_differs"
   ],
   "note": "C48_illformed_differs shows where wstr/str differ on ill-formed input."
  },
  {
   "property": "C49",
   "status": "proved",
   "theorems": [
    "Pluto.Props.C49_valid_step",
    "Pluto.Props.C49_invalid_step",
    "Pluto.Props.C49_decodes",
    "Pluto.Props.C49_decodes16",
    "Pluto.Props.C49_rejected"
   ],
   "note": ""
  },
  {
   "property": "C50",
   "status": "proved",
   "theorems": [
    "Pluto.Props.C50_append_8_16",
    "Pluto.Props.C50_append_8_32",
    "Pluto.Props.C50_append_16_8",
    "Pluto.Props.C50_append_16_32",
    "Pluto.Props.C50_append_32_8",
    "Pluto.Props.C50_append_32_16",
    "Pluto.Props.C50_needs_wellformed"
   ],
   "note": "C50_needs_wellformed shows that the well-formedness hypothesis is needed."
  },
  {
   "property": "C51",
   "status": "proved",
   "theorems": [
    "Pluto.Props.C51_join_split",
    "Pluto.Props.C51_empty_separator",
    "Pluto.Props.C51_join_meaning"
   ],
   "note": ""
  },
  {
   "property": "C52",
   "status": "proved",
   "theorems": [
    "Pluto.Props.C52_split_join_iff",
    "Pluto.Props.C52_split_join",
    "Pluto.Props.C52_split_join_char"
   ],
   "note": ""
  },
  {
   "property": "C53",
   "status": "proved",
   "theorems": [
    "Pluto.Props.C53_pieces",
    "Pluto.Props.C53_unique"
   ],
   "note": ""
  },
  {
   "property": "C54",
   "status": "proved",
   "theorems": [
    "Pluto.Props.C54_replace",
    "Pluto.Props.C54_absent",
    "Pluto.Props.C54_same",
    "Pluto.Props.C54_self_replacement",
    "Pluto.Props.C54_self_replacement_differs"
   ],
   "note": "C54_self_replacement_differs: passing the string itself as the replacement replaces only the first occurrence."
  },
  {
   "property": "C55",
   "status": "proved",
   "theorems": [
    "Pluto.Props.C55_replace_empty"
   ],
   "note": ""
  },
  {
   "property": "C56",
   "status": "proved",
   "theorems": [
    "Pluto.Props.C56_replace_any_of"
   ],
   "note": ""
  },
  {
   "property": "C57",
   "status": "proved",
   "theorems": [
    "Pluto.Props.C57_split_space",
    "Pluto.Props.C57_returns"
   ],
   "note": ""
  },
  {
   "property": "C58",
   "status": "proved",
   "theorems": [
    "Pluto.Props.C58_split_any_of",
    "Pluto.Props.C58_returns"
   ],
   "note": ""
  },
  {
   "property": "C59",
   "status": "proved",
   "theorems": [
    "Pluto.Props.C59_lstrip",
    "Pluto.Props.C59_rstrip",
    "Pluto.Props.C59_strip",
    "Pluto.Props.C59_order",
    "Pluto.Props.C59_idempotent"
   ],
   "note": ""
  },
  {
   "property": "C60",
   "status": "proved",
   "theorems": [
    "Pluto.Props.C60_bin",
    "Pluto.Props.C60_oct",
    "Pluto.Props.C60_hex",
    "Pluto.Props.C60_read_back",
    "Pluto.Props.C60_injective"
   ],
   "note": ""
  },
  {
   "property": "C61",
   "status": "partial",
   "theorems": [
    "Pluto.Props.C61_round_trip",
    "Pluto.Props.C61_value",
    "Pluto.Props.C61_value_unsigned",
    "Pluto.Props.C61_zero",
    "Pluto.Props.C61_determinate_partial",
    "Pluto.Props.C61_indeterminate"
   ],
   "note": "C61_indeterminate: for empty text and white space the result is an uninitialised value. Any other text gives a value of the type, C61_value, C61_value_unsigned and C61_zero say which."
  },
  {
   "property": "C62",
   "status": "proved",
   "theorems": [
    "Pluto.Props.C62_iequals",
    "Pluto.Props.C62_equivalence",
    "Pluto.Props.C62_order"
   ],
   "note": ""
  },
  {
   "property": "C63",
   "status": "proved",
   "theorems": [
    "Pluto.Props.C63_equals",
    "Pluto.Props.C63_predicates",
    "Pluto.Props.C63_find_sequence",
    "Pluto.Props.C63_contains_sequence",
    "Pluto.Props.C63_find_elem"
   ],
   "note": ""
  },
  {
   "property": "C64",
   "status": "partial",
   "theorems": [
    "Pluto.Props.C64_same_partial",
    "Pluto.Props.C64_meaning",
    "Pluto.Props.C64_differ"
   ],
   "note": "The property is false for asymmetric predicates: C64_differ. C64_meaning says what each path computes."
  },
  {
   "property": "C65",
   "status": "proved",
   "theorems": [
    "Pluto.Props.C65_slice"
   ],
   "note": ""
  },
  {
   "property": "C66",
   "status": "proved",
   "theorems": [
    "Pluto.Props.C66_min",
    "Pluto.Props.C66_max",
    "Pluto.Props.C66_empty"
   ],
   "note": "C66_empty: an empty container is undefined behaviour."
  },
  {
   "property": "C67",
   "status": "proved",
   "theorems": [
    "Pluto.Props.C67_count",
    "Pluto.Props.C67_sum",
    "Pluto.Props.C67_append",
    "Pluto.Props.C67_sum_overflow",
    "Pluto.Props.C67_truth"
   ],
   "note": ""
  },
  {
   "property": "C68",
   "status": "proved",
   "theorems": [
    "Pluto.Props.C68_filter",
    "Pluto.Props.C68_map",
    "Pluto.Props.C68_for_each"
   ],
   "note": ""
  },
  {
   "property": "C69",
   "status": "proved",
   "theorems": [
    "Pluto.Props.C69_sort",
    "Pluto.Props.C69_sort_unique",
    "Pluto.Props.C69_reverse"
   ],
   "note": ""
  },
  {
   "property": "C70",
   "status": "proved",
   "theorems": [
    "Pluto.Props.C70_operators",
    "Pluto.Props.C70_total"
   ],
   "note": ""
  },
  {
   "property": "C71",
   "status": "partial",
   "theorems": [
    "Pluto.Props.C71_trichotomy_partial",
    "Pluto.Props.C71_overlap",
    "Pluto.Props.C71_order",
    "Pluto.Props.C71_malformed",
    "Pluto.Props.C71_empty_range",
    "Pluto.Props.C71_size",
    "Pluto.Props.C71_size_any"
   ],
   "note": "Fails for ranges with end < begin: C71_malformed."
  },
  {
   "property": "C72",
   "status": "partial",
   "theorems": [
    "Pluto.Props.C72_abs_partial",
    "Pluto.Props.C72_most_negative"
   ],
   "note": "Fails for the most negative value: C72_most_negative."
  },
  {
   "property": "C73",
   "status": "proved",
   "theorems": [
    "Pluto.Props.C73_min_max"
   ],
   "note": ""
  },
  {
   "property": "C74",
   "status": "proved",
   "theorems": [
    "Pluto.Props.C74_file_name"
   ],
   "note": ""
  },
  {
   "property": "C75",
   "status": "proved",
   "theorems": [
    "Pluto.Props.C75_map",
    "Pluto.Props.C75_classify",
    "Pluto.Props.C75_is_lower_lower",
    "Pluto.Props.C75_idempotent",
    "Pluto.Props.C75_both"
   ],
   "note": ""
  },
  {
   "property": "C76",
   "status": "proved",
   "theorems": [
    "Pluto.Props.C76_no_deadlock"
   ],
   "note": ""
  },
  {
   "property": "C77",
   "status": "proved",
   "theorems": [
    "Pluto.Props.C77_scheduler_attends"
   ],
   "note": ""
  },
  {
   "property": "C78",
   "status": "proved",
   "theorems": [
    "Pluto.Props.C78_destructor_returns",
    "Pluto.Props.C78_destructor_notifies"
   ],
   "note": ""
  },
  {
   "property": "C79",
   "status": "proved",
   "theorems": [
    "Pluto.Props.C79_comes_to_rest"
   ],
   "note": ""
  },
  {
   "property": "C80",
   "status": "partial",
   "theorems": [
    "Pluto.Props.C80_fails_overtaken",
    "Pluto.Props.C80_thread_partial",
    "Pluto.Props.C80_fails_any_order"
   ],
   "note": "The property is false: calls by different threads can be accepted in any order whatever their times (C80_fails_any_order), e.g. C80_fails_overtaken. Proved for the entries of one thread."
  },
  {
   "property": "C81",
   "status": "proved",
   "theorems": [
    "Pluto.Props.C81_order"
   ],
   "note": ""
  },
  {
   "property": "C82",
   "status": "partial",
   "theorems": [
    "Pluto.Props.C82_fails_disk_full",
    "Pluto.Props.C82_fails_writer",
    "Pluto.Props.C82_kept_partial"
   ],
   "note": "The property is false: C82_fails_disk_full, C82_fails_writer. Proved if writing to an open file does not fail and the log writer does not throw."
  },
  {
   "property": "C83",
   "status": "proved",
   "theorems": [
    "Pluto.Props.C83_bounded",
    "Pluto.Props.C83_rest",
    "Pluto.Props.C83_written",
    "Pluto.Props.C83_reaches_rest"
   ],
   "note": ""
  },
  {
   "property": "C84",
   "status": "partial",
   "theorems": [
    "Pluto.Props.C84_fails_busy",
    "Pluto.Props.C84_recovers_partial",
    "Pluto.Props.C84_fails_always",
    "Pluto.Props.C84_fails_endless"
   ],
   "note": "The property is false: once opening a file with enough entries has failed, the logging thread never waits in any execution until it can be opened (C84_fails_always) and takes any number of steps by itself (C84_fails_endless); C84_fails_busy is a cycle. Proved once nothing fails any more."
  },
  {
   "property": "C85",
   "status": "proved",
   "theorems": [
    "Pluto.Props.C85_files"
   ],
   "note": ""
  },
  {
   "property": "C86",
   "status": "proved",
   "theorems": [
    "Pluto.Props.C86_no_crash",
    "Pluto.Props.C86_fails_writer"
   ],
   "note": "C86_fails_writer shows that a writer throwing something else does end the program."
  },
  {
   "property": "C87",
   "status": "partial",
   "theorems": [
    "Pluto.Props.C87_copy_partial",
    "Pluto.Props.C87_fails",
    "Pluto.Props.C87_exact",
    "Pluto.Props.C87_cleared"
   ],
   "note": "Fails: every get, remove or insert_or_assign of a copied key is undefined behaviour (C87_fails); C87_exact says exactly which call sequences on a copy are."
  },
  {
   "property": "C88",
   "status": "proved",
   "theorems": [
    "Pluto.Props.C88_no_race",
    "Pluto.Props.C88_reads",
    "Pluto.Props.C88_erase",
    "Pluto.Props.C88_entries"
   ],
   "note": ""
  },
  {
   "property": "C89",
   "status": "partial",
   "theorems": [
    "Pluto.Props.C89_comes_to_rest_partial",
    "Pluto.Props.C89_enough_workers",
    "Pluto.Props.C89_fails"
   ],
   "note": "False for every number of workers: C89_fails. Proved: at rest everything is complete unless every worker is occupied by a task that waits (or a task has called wait_until_all_tasks_complete, C90)."
  },
  {
   "property": "C90",
   "status": "proved",
   "theorems": [
    "Pluto.Props.C90_never_returns"
   ],
   "note": ""
  },
  {
   "property": "C91",
   "status": "partial",
   "theorems": [
    "Pluto.Props.C91_destructor_partial",
    "Pluto.Props.C91_completes_partial",
    "Pluto.Props.C91_started_partial",
    "Pluto.Props.C91_never_join_all",
    "Pluto.Props.C91_never_occupied",
    "Pluto.Props.C91_fails_join_all",
    "Pluto.Props.C91_fails_complete_tasks"
   ],
   "note": "False for every number of workers: C91_fails_join_all, C91_fails_complete_tasks. Proved: the destructor returns unless a task waits forever (C91_destructor_partial); if every task inside run_sync waits for one that has been started and none calls it later, it returns whatever the action, unless a task is inside a waiting function (C91_started_partial); with join_all and a task that waits for one not started it never returns (C91_never_join_all), so the condition is exact; with complete_tasks only if every worker is occupied (C91_completes_partial, C91_never_occupied)."
  },
  {
   "property": "C92",
   "status": "proved",
   "theorems": [
    "Pluto.Props.C92_table_fixed"
   ],
   "note": ""
  },
  {
   "property": "C93",
   "status": "partial",
   "theorems": [
    "Pluto.Props.C93_same_run_async",
    "Pluto.Props.C93_same_run_at",
    "Pluto.Props.C93_same_set_target",
    "Pluto.Props.C93_same_construct",
    "Pluto.Props.C93_no_effect_partial",
    "Pluto.Props.C93_fails_run_at",
    "Pluto.Props.C93_fails_run_at_executed",
    "Pluto.Props.C93_fails_target",
    "Pluto.Props.C93_fails_construct",
    "Pluto.Props.C93_fails_scheduler"
   ],
   "note": "False: C93_fails_run_at (for every state without scheduler), C93_fails_run_at_executed, C93_fails_target, C93_fails_construct. Proved: what remains changed after each call that throws. C93_fails_scheduler: a scheduled task whose copy throws when it is due ends the program."
  },
  {
   "property": "C94",
   "status": "partial",
   "theorems": [
    "Pluto.Props.C94_objects",
    "Pluto.Props.C94_wait_all_partial",
    "Pluto.Props.C94_destructor_partial",
    "Pluto.Props.C94_fails_run_sync",
    "Pluto.Props.C94_not_relocked_partial",
    "Pluto.Props.C94_fails_destructor_calls",
    "Pluto.Props.C94_fails_scheduled"
   ],
   "note": "False in part: C94_fails_run_sync, C94_fails_destructor_calls, C94_fails_scheduled. The rest is proved."
  },
  {
   "property": "C95",
   "status": "partial",
   "theorems": [
    "Pluto.Props.C95_promise_partial",
    "Pluto.Props.C95_fails"
   ],
   "note": "False: C95_fails. Proved: the promise exists until its value has been set."
  },
  {
   "property": "C96",
   "status": "partial",
   "theorems": [
    "Pluto.Props.C96_exclusive",
    "Pluto.Props.C96_current",
    "Pluto.Props.C96_replaced_partial",
    "Pluto.Props.C96_getter",
    "Pluto.Props.C96_recent",
    "Pluto.Props.C96_fails",
    "Pluto.Props.C96_progress"
   ],
   "note": "False in part: C96_fails. Proved: access is exclusive, the writer set last is current, a getter returns a writer that was current during the call, and a replaced writer is called at most once more."
  },
  {
   "property": "C97",
   "status": "proved",
   "theorems": [
    "Pluto.Props.C97_write",
    "Pluto.Props.C97_destructor",
    "Pluto.Props.C97_replace",
    "Pluto.Props.C97_endless"
   ],
   "note": "C97_endless: the price of a writer that logs each time."
  },
  {
   "property": "C98",
   "status": "proved",
   "theorems": [
    "Pluto.Props.C98_moves"
   ],
   "note": ""
  },
  {
   "property": "C99",
   "status": "proved",
   "theorems": [
    "Pluto.Props.C99_map",
    "Pluto.Props.C99_set"
   ],
   "note": ""
  },
  {
   "property": "C100",
   "status": "partial",
   "theorems": [
    "Pluto.Props.C100_lazy",
    "Pluto.Props.C100_logged",
    "Pluto.Props.C100_at_most_one",
    "Pluto.Props.C100_throws_partial",
    "Pluto.Props.C100_format_throws",
    "Pluto.Props.C100_fails"
   ],
   "note": "False in part: C100_fails, a stream whose operand throws logs the text before it. The rest is proved."
  },
  {
   "property": "C101",
   "status": "partial",
   "theorems": [
    "Pluto.Props.C101_round",
    "Pluto.Props.C101_convert",
    "Pluto.Props.C101_int_partial",
    "Pluto.Props.C101_fails"
   ],
   "note": "False for integers with more than 53 significant bits: C101_fails. The rest is proved; the accuracy of std::pow itself is not modelled."
  },
  {
   "property": "C102",
   "status": "partial",
   "theorems": [
    "Pluto.Props.C102_word",
    "Pluto.Props.C102_string_partial",
    "Pluto.Props.C102_char_partial",
    "Pluto.Props.C102_bool",
    "Pluto.Props.C102_byte_partial",
    "Pluto.Props.C102_fails"
   ],
   "note": "False for white space and for the text of 8-bit integers: C102_fails, C102_string_partial and C102_char_partial, which are equivalences. The rest is proved."
  },
  {
   "property": "C103",
   "status": "partial",
   "theorems": [
    "Pluto.Props.C103_digits",
    "Pluto.Props.C103_even",
    "Pluto.Props.C103_error",
    "Pluto.Props.C103_stable",
    "Pluto.Props.C103_round_trip_partial",
    "Pluto.Props.C103_integer_partial",
    "Pluto.Props.C103_distinct",
    "Pluto.Props.C103_blank",
    "Pluto.Props.C103_fails"
   ],
   "note": "The last part is false: C103_fails, 1234567 is read back as 1234570. Proved for the values nearest to a number with six digits. Without limits of the exponent; with them: C137. Infinities, NaN and negative zero: C126."
  },
  {
   "property": "C104",
   "status": "partial",
   "theorems": [
    "Pluto.Props.C104_kept_partial",
    "Pluto.Props.C104_default_partial",
    "Pluto.Props.C104_copy",
    "Pluto.Props.C104_fails",
    "Pluto.Props.C104_fails_no_static"
   ],
   "note": "False in general: C104_fails and C104_fails_no_static give programs in which calling the comparator is undefined. Proved as long as the locale is neither destroyed nor assigned to, and for comparators of the static default locale."
  },
  {
   "property": "C105",
   "status": "partial",
   "theorems": [
    "Pluto.Props.C105_locale_partial",
    "Pluto.Props.C105_default_partial",
    "Pluto.Props.C105_fails",
    "Pluto.Props.C105_fails_not_installed",
    "Pluto.Props.C105_install",
    "Pluto.Props.C105_copy"
   ],
   "note": "False in general: C105_fails (other character types) and C105_fails_not_installed. Proved for char and wchar_t, and for locales with an added facet."
  },
  {
   "property": "C106",
   "status": "partial",
   "theorems": [
    "Pluto.Props.C106_strings",
    "Pluto.Props.C106_converted",
    "Pluto.Props.C106_fails",
    "Pluto.Props.C106_terminators_partial",
    "Pluto.Props.C106_fails_literals",
    "Pluto.Props.C106_wstr_partial"
   ],
   "note": "Proved for two strings (C106_strings), for the functions that convert a literal (C106_converted) and for the combinations in which the terminators do no harm (C106_terminators_partial). False for a string and a literal, where the result is always false (C106_fails), and for further combinations (C106_fails_literals). wstr of a narrow literal is right exactly for ASCII characters that the stream widens to themselves (C106_wstr_partial)."
  },
  {
   "property": "C107",
   "status": "partial",
   "theorems": [
    "Pluto.Props.C107_distinct",
    "Pluto.Props.C107_sought_partial",
    "Pluto.Props.C107_replacement_partial",
    "Pluto.Props.C107_fails_any_of",
    "Pluto.Props.C107_fails_further"
   ],
   "note": "Proved for the string as what is sought (C107_sought_partial). For the string as the replacement the results are the same exactly if there is at most one occurrence or listed character (C107_replacement_partial, C107_fails_any_of); otherwise only the first one is replaced."
  },
  {
   "property": "C108",
   "status": "partial",
   "theorems": [
    "Pluto.Props.C108_full_partial",
    "Pluto.Props.C108_amount_partial",
    "Pluto.Props.C108_fails_disk_full",
    "Pluto.Props.C108_fails_rename"
   ],
   "note": "Proved if what is put into an open file gets there and rotating does not fail (C108_full_partial, C108_amount_partial). False if writing fails (C108_fails_disk_full) or a renaming fails (C108_fails_rename)."
  },
  {
   "property": "C109",
   "status": "partial",
   "theorems": [
    "Pluto.Props.C109_older_partial",
    "Pluto.Props.C109_constructor_partial",
    "Pluto.Props.C109_fails_newer",
    "Pluto.Props.C109_fails_detached"
   ],
   "note": "Proved for objects that use only older ones, in particular those which their constructors have used (C109_older_partial, C109_constructor_partial), if no object is completed once the program ends. In every other case there is a continuation with undefined behaviour (C109_fails_newer, C109_fails_detached)."
  },
  {
   "property": "C110",
   "status": "partial",
   "theorems": [
    "Pluto.Props.C110_all",
    "Pluto.Props.C110_order_partial",
    "Pluto.Props.C110_fails_order"
   ],
   "note": "Contents and order of elements that are not equivalent: proved (C110_all). Order of equivalent elements: proved for results that come in order and not before what is there (C110_order_partial), false in general (C110_fails_order)."
  },
  {
   "property": "C111",
   "status": "partial",
   "theorems": [
    "Pluto.Props.C111_empty",
    "Pluto.Props.C111_fails_sequence",
    "Pluto.Props.C111_set_partial",
    "Pluto.Props.C111_fails_set"
   ],
   "note": "Proved for empty containers and for sets and maps if no result is greater than its element (C111_empty, C111_set_partial). For all other sequences, and for sets with a function that only goes up, it is undefined or never returns (C111_fails_sequence, C111_fails_set)."
  },
  {
   "property": "C112",
   "status": "proved",
   "theorems": [
    "Pluto.Props.C112_killed",
    "Pluto.Props.C112_destroyed",
    "Pluto.Props.C112_destructor",
    "Pluto.Props.C112_torn_line"
   ],
   "note": "Proved by simulation: a logger whose streams have a buffer of which any part may have been written follows a logger whose streams have none (C112_killed, C112_destroyed, C112_destructor). C112_torn_line shows that the end may be cut in the middle of a line, which the next logger continues. A program that an exception of a writer ends is not covered."
  },
  {
   "property": "C113",
   "status": "partial",
   "theorems": [
    "Pluto.Props.C113_copy_partial",
    "Pluto.Props.C113_slice_partial",
    "Pluto.Props.C113_fails_copy",
    "Pluto.Props.C113_fails_any",
    "Pluto.Props.C113_fails_slice"
   ],
   "note": "Proved if containers or iterators do not convert to the element type (C113_copy_partial, C113_slice_partial). In all other cases the result is another one: C113_fails_copy, C113_fails_any, C113_fails_slice."
  },
  {
   "property": "C114",
   "status": "proved",
   "theorems": [
    "Pluto.Props.C114_classes",
    "Pluto.Props.C114_exist",
    "Pluto.Props.C114_alike",
    "Pluto.Props.C114_nan"
   ],
   "note": "Every strict weak order. That the order is needed is shown for floating-point keys and NaN (C114_nan)."
  },
  {
   "property": "C115",
   "status": "partial",
   "theorems": [
    "Pluto.Props.C115_waits_partial",
    "Pluto.Props.C115_early_partial",
    "Pluto.Props.C115_owed",
    "Pluto.Props.C115_fails_set",
    "Pluto.Props.C115_early_exact",
    "Pluto.Props.C115_fails_longest",
    "Pluto.Props.C115_defined"
   ],
   "note": "Holds as long as nobody sets the clock forward and the sum fits (C115_waits_partial, C115_defined). With a clock that is set but always right up to ε, tasks start at most 2 ε early, and that is exact (C115_early_partial, C115_early_exact). Fails otherwise (C115_fails_set, C115_fails_longest)."
  },
  {
   "property": "C116",
   "status": "partial",
   "theorems": [
    "Pluto.Props.C116_members_partial",
    "Pluto.Props.C116_without_run_at",
    "Pluto.Props.C116_fails"
   ],
   "note": "Proved for every member but m_scheduler, and for all members if run_at and run_after are not used (C116_members_partial, C116_without_run_at). run_at assigns to m_scheduler without the mutex: a data race with the scheduler even with one call (C116_fails)."
  },
  {
   "property": "C117",
   "status": "partial",
   "theorems": [
    "Pluto.Props.C117_end_partial",
    "Pluto.Props.C117_end",
    "Pluto.Props.C117_fails"
   ],
   "note": "Proved if calls of run_at and run_after do not overlap, and for workers and callers in any case (C117_end_partial, C117_end). With two overlapping calls a scheduler can be left (C117_fails)."
  },
  {
   "property": "C118",
   "status": "proved",
   "theorems": [
    "Pluto.Props.C118_no_race",
    "Pluto.Props.C118_accesses",
    "Pluto.Props.C118_end"
   ],
   "note": ""
  },
  {
   "property": "C119",
   "status": "proved",
   "theorems": [
    "Pluto.Props.C119_prefix",
    "Pluto.Props.C119_all",
    "Pluto.Props.C119_needs_noFail"
   ],
   "note": "C119_needs_noFail: entries whose file cannot be opened in the destructor are lost, so C119_all needs its hypothesis."
  },
  {
   "property": "C120",
   "status": "proved",
   "theorems": [
    "Pluto.Props.C120_live",
    "Pluto.Props.C120_one_mutex"
   ],
   "note": "Waiting for notifications may end at any time in this model; that notifications are sent is C29, C34 and C83."
  },
  {
   "property": "C121",
   "status": "partial",
   "theorems": [
    "Pluto.Props.C121_order_partial",
    "Pluto.Props.C121_whole_partial",
    "Pluto.Props.C121_quiet_partial",
    "Pluto.Props.C121_torn",
    "Pluto.Props.C121_headers",
    "Pluto.Props.C121_lost"
   ],
   "note": "False for this code: C121_torn, C121_headers, C121_lost. Proved without rotation: nothing is lost and the characters of each logger are in order (C121_order_partial); if streams write out all they have when they write out something, lines are whole (C121_whole_partial, C121_quiet_partial)."
  },
  {
   "property": "C122",
   "status": "partial",
   "theorems": [
    "Pluto.Props.C122_read_partial",
    "Pluto.Props.C122_injective",
    "Pluto.Props.C122_forged",
    "Pluto.Props.C122_cut"
   ],
   "note": "Holds for all entries without line breaks, for names up to their first twenty characters; false otherwise: C122_forged (one entry is written exactly as two), C122_cut."
  },
  {
   "property": "C123",
   "status": "partial",
   "theorems": [
    "Pluto.Props.C123_overtake",
    "Pluto.Props.C123_bounded_partial",
    "Pluto.Props.C123_starved"
   ],
   "note": "C123_overtake and C123_bounded_partial: exactly which tasks can be started before a waiting one, and the bound if no higher priority is added. The full statement is false: C123_starved is an infinite execution in which one task always waits. With C79 every task is started if nobody calls the pool any more."
  },
  {
   "property": "C124",
   "status": "partial",
   "theorems": [
    "Pluto.Props.C124_copied_partial",
    "Pluto.Props.C124_dangling",
    "Pluto.Props.C124_changed"
   ],
   "note": "Holds for log file names, messages and inserted values, and for sources whose names are never changed (as with the macros); false for other sources: C124_dangling, C124_changed."
  },
  {
   "property": "C125",
   "status": "partial",
   "theorems": [
    "Pluto.Props.C125_write",
    "Pluto.Props.C125_stream_partial",
    "Pluto.Props.C125_ended",
    "Pluto.Props.C125_terminated",
    "Pluto.Props.C125_logged_anyway"
   ],
   "note": "Holds for write, writef and format, and for streams unless memory runs out in the destructor: C125_terminated. end() may throw and the entry is logged by the destructor: C125_logged_anyway."
  },
  {
   "property": "C126",
   "status": "partial",
   "theorems": [
    "Pluto.Props.C126_compare",
    "Pluto.Props.C126_abs",
    "Pluto.Props.C126_min_partial",
    "Pluto.Props.C126_min_nan",
    "Pluto.Props.C126_container_partial",
    "Pluto.Props.C126_first_nan",
    "Pluto.Props.C126_sort",
    "Pluto.Props.C126_search",
    "Pluto.Props.C126_range",
    "Pluto.Props.C126_range_numbers",
    "Pluto.Props.C126_range_overlap",
    "Pluto.Props.C126_round",
    "Pluto.Props.C126_text",
    "Pluto.Props.C126_text_finite"
   ],
   "note": "Holds for values that are not NaN, and for NaN elements behind the first one of a container (C126_min_partial, C126_container_partial); exactly what happens otherwise is in C126_abs, C126_min_nan, C126_first_nan, C126_sort, C126_search, C126_range, C126_range_numbers, C126_range_overlap, C126_text."
  },
  {
   "property": "C127",
   "status": "partial",
   "theorems": [
    "Pluto.Props.C127_encodings",
    "Pluto.Props.C127_predicates",
    "Pluto.Props.C127_join",
    "Pluto.Props.C127_find",
    "Pluto.Props.C127_split_partial",
    "Pluto.Props.C127_replace_partial",
    "Pluto.Props.C127_split_any_of_partial",
    "Pluto.Props.C127_replace_any_of_partial",
    "Pluto.Props.C127_space_partial",
    "Pluto.Props.C127_case_partial",
    "Pluto.Props.C127_iequals_partial",
    "Pluto.Props.C127_ascii_locale",
    "Pluto.Props.C127_fails_empty",
    "Pluto.Props.C127_fails_any_of",
    "Pluto.Props.C127_fails_space",
    "Pluto.Props.C127_fails_reverse_slice",
    "Pluto.Props.C127_reverse_partial",
    "Pluto.Props.C127_slice_partial"
   ],
   "note": "C127_encodings: no match starts within a character in UTF-8, UTF-16 or UTF-32. So the predicates, find, rfind and join respect characters without a condition (C127_predicates, C127_find, C127_join); split and replace unless what is sought is empty; sets of characters if they have one unit each; spaces and case if the locale agrees with the encoding, which C127_ascii_locale shows for the classic locale. reverse exactly for characters of one unit and slice exactly between characters (C127_reverse_partial, C127_slice_partial). C127_fails_* are the failures otherwise."
  },
  {
   "property": "C128",
   "status": "partial",
   "theorems": [
    "Pluto.Props.C128_line",
    "Pluto.Props.C128_file",
    "Pluto.Props.C128_cut",
    "Pluto.Props.C128_name",
    "Pluto.Props.C128_valid_partial",
    "Pluto.Props.C128_hidden",
    "Pluto.Props.C128_fails"
   ],
   "note": "Names are cut after twenty bytes. C128_file and C128_cut say exactly which log files are valid; C128_valid_partial: names that are short or ASCII, C128_hidden: without source information."
  },
  {
   "property": "C129",
   "status": "partial",
   "theorems": [
    "Pluto.Props.C129_lines_partial",
    "Pluto.Props.C129_batches_partial",
    "Pluto.Props.C129_default",
    "Pluto.Props.C129_default_batches",
    "Pluto.Props.C129_state",
    "Pluto.Props.C129_fails_header",
    "Pluto.Props.C129_fails_writer"
   ],
   "note": "Holds for writers whose text does not depend on the formatting state of the stream (C129_lines_partial, C129_batches_partial), among them the default ones (C129_default_batches). The default header writer leaves the stream adjusted to the left (C129_state), which other log writers notice: C129_fails_header, C129_fails_writer."
  },
  {
   "property": "C130",
   "status": "proved",
   "theorems": [
    "Pluto.Props.C130_whole",
    "Pluto.Props.C130_default"
   ],
   "note": "C130_whole is for any fixed writers, C130_default for the initial settings, down to the text that is read back. The destructor need not return: C29."
  },
  {
   "property": "C131",
   "status": "partial",
   "theorems": [
    "Pluto.Props.C131_documented_partial",
    "Pluto.Props.C131_limit",
    "Pluto.Props.C131_fails"
   ],
   "note": "False: the code's initial limit is 0, the documentation says 1. C131_fails is an execution that keeps one of three entries; C131_limit shows that no file but the log file itself ever holds entries unless the limit is set. C131_documented_partial: what holds with the documented limit."
  },
  {
   "property": "C132",
   "status": "proved",
   "theorems": [
    "Pluto.Props.C132_off",
    "Pluto.Props.C132_only",
    "Pluto.Props.C132_on",
    "Pluto.Props.C132_once"
   ],
   "note": "C132_off, C132_only: which directories appear. C132_on: files can be opened in directories that do not exist. C132_once: directories are created once."
  },
  {
   "property": "C133",
   "status": "partial",
   "theorems": [
    "Pluto.Props.C133_fixed_partial",
    "Pluto.Props.C133_stays_partial",
    "Pluto.Props.C133_fails"
   ],
   "note": "False: C133_fails, an entry logged before the working directory changes is written to the new one. C133_fixed_partial: the logger behaves as if each name stood for the same file all the time, one of those it stood for. C133_stays_partial: after the first entry is written, the file stays the same."
  },
  {
   "property": "C134",
   "status": "partial",
   "theorems": [
    "Pluto.Props.C134_order_partial",
    "Pluto.Props.C134_files_partial",
    "Pluto.Props.C134_kept_partial",
    "Pluto.Props.C134_resumes_partial",
    "Pluto.Props.C134_named_partial",
    "Pluto.Props.C134_stuck",
    "Pluto.Props.C134_fails",
    "Pluto.Props.C134_removed",
    "Pluto.Props.C134_replaced"
   ],
   "note": "False: C134_fails (a removed directory is not created again, nothing is written any more), C134_removed, C134_replaced. What holds: C134_order_partial (any interference), C134_files_partial (contents and headers), C134_kept_partial (without rotation nothing is lost by renaming), C134_resumes_partial and C134_named_partial (the rest is written, and where). C134_stuck is for all states without the directory."
  },
  {
   "property": "C135",
   "status": "partial",
   "theorems": [
    "Pluto.Props.C135_gm_time",
    "Pluto.Props.C135_unique",
    "Pluto.Props.C135_order_partial",
    "Pluto.Props.C135_when_partial",
    "Pluto.Props.C135_backwards",
    "Pluto.Props.C135_fails"
   ],
   "note": "False when local time is set back: C135_backwards (for all such entries) and C135_fails (end of summer time). What holds: C135_gm_time and C135_unique (calendar, all seconds from the year 0 on), C135_order_partial (same offset: order of stamps is order of times to the microsecond), C135_when_partial (a reader who knows the offset)."
  },
  {
   "property": "C136",
   "status": "proved",
   "theorems": [
    "Pluto.Props.C136_files",
    "Pluto.Props.C136_read"
   ],
   "note": "C136_files for any writers that do not throw, C136_read for the default writers; the last part needs that no rotation fails (Smooth) and that there were no rotated files. Readable as in C122."
  },
  {
   "property": "C137",
   "status": "partial",
   "theorems": [
    "Pluto.Props.C137_read",
    "Pluto.Props.C137_limit",
    "Pluto.Props.C137_even",
    "Pluto.Props.C137_other",
    "Pluto.Props.C137_blank",
    "Pluto.Props.C137_error",
    "Pluto.Props.C137_small",
    "Pluto.Props.C137_round_trip",
    "Pluto.Props.C137_stable_float",
    "Pluto.Props.C137_stable_double_partial",
    "Pluto.Props.C137_fails"
   ],
   "note": "Stability of the text is proved for float in full (C137_stable_float) and for double except for the texts 1e-318 and -1e-318 (C137_stable_double_partial), for which it fails (C137_fails). Hexadecimal texts are not modelled."
  },
  {
   "property": "C138",
   "status": "partial",
   "theorems": [
    "Pluto.Props.C138_single_partial",
    "Pluto.Props.C138_started",
    "Pluto.Props.C138_single_sequence",
    "Pluto.Props.C138_fails"
   ],
   "note": "Tasks are always started in this order (C138_started); with one worker they are completed in it too (C138_single_partial, C138_single_sequence). With two workers the property is false: C138_fails."
  },
  {
   "property": "C139",
   "status": "partial",
   "theorems": [
    "Pluto.Props.C139_all_partial",
    "Pluto.Props.C139_at_most",
    "Pluto.Props.C139_fails_calm",
    "Pluto.Props.C139_fails_one"
   ],
   "note": "The property is false for this code: C139_fails_calm shows it for any two scheduled tasks in calm executions, C139_fails_one for one. Everything outside the schedule is executed under the conditions of C19 (C139_all_partial), and C139_at_most bounds what is executed of the schedule in all executions."
  },
  {
   "property": "C140",
   "status": "partial",
   "theorems": [
    "Pluto.Props.C140_whole_partial",
    "Pluto.Props.C140_bytes",
    "Pluto.Props.C140_fails"
   ],
   "note": "Holds for any map from names to files, except for the order of entries that one thread logs under different names of one file (C140_fails). The theorems of C23, C28, C31, C32, C81, C85, C108 and C131 on files also allow several names for one file."
  },
  {
   "property": "C141",
   "status": "proved",
   "theorems": [
    "Pluto.Props.C141_atomic",
    "Pluto.Props.C141_exact",
    "Pluto.Props.C141_states",
    "Pluto.Props.C141_crash",
    "Pluto.Props.C141_released",
    "Pluto.Props.C141_guarded"
   ],
   "note": "Equivalence of the pool statement by statement with the pool whose critical sections are executed at once, on which the other theorems about the pool are. The clock of run_after is read before the section (so it is a call of run_at with any time)."
  },
  {
   "property": "C142",
   "status": "proved",
   "theorems": [
    "Pluto.Props.C142_at_once",
    "Pluto.Props.C142_states",
    "Pluto.Props.C142_within",
    "Pluto.Props.C142_crash",
    "Pluto.Props.C142_all",
    "Pluto.Props.C142_goes_on",
    "Pluto.Props.C142_whole"
   ],
   "note": "Equivalence of the logger with single reads of settings with the logger that reads all settings of an operation at once, on which the other theorems about the logger are. Rotation of files after its limit has been read is one step."
  },
  {
   "property": "C143",
   "status": "partial",
   "theorems": [
    "Pluto.Props.C143_no_overflow",
    "Pluto.Props.C143_measures",
    "Pluto.Props.C143_fails_set_back",
    "Pluto.Props.C143_count_partial",
    "Pluto.Props.C143_units",
    "Pluto.Props.C143_coarse",
    "Pluto.Props.C143_standard",
    "Pluto.Props.C143_rollover",
    "Pluto.Props.C143_fails_narrow",
    "Pluto.Props.C143_fails_fine"
   ],
   "note": "The last part is false for units of which the tick is a fraction with a numerator other than one: an intermediate product overflows (C143_fails_fine); C143_count_partial says exactly when the count is defined and what it is, C143_fails_narrow shows a type that has not the value. Proved without conditions for units that are a whole number of ticks (C143_coarse, C143_standard). If the clock is set back the time may overflow (C143_fails_set_back)."
  },
  {
   "property": "C144",
   "status": "partial",
   "theorems": [
    "Pluto.Props.C144_links_partial",
    "Pluto.Props.C144_flat",
    "Pluto.Props.C144_whole",
    "Pluto.Props.C144_behind",
    "Pluto.Props.C144_moved",
    "Pluto.Props.C144_fails_circle",
    "Pluto.Props.C144_stuck",
    "Pluto.Props.C144_fails_shared",
    "Pluto.Props.C144_fails_dangling",
    "Pluto.Props.C144_fails_loop"
   ],
   "note": "False in general: if a link leads to a name the logger itself uses, rotation can make a link to itself, after which rotation fails forever and entries are lost (C144_fails_circle, C144_stuck); if two names lead to the same file, entries are in both (C144_fails_shared); if a link leads to a directory that does not exist, nothing is written although create_dirs is set (C144_fails_dangling). C144_links_partial excludes exactly these. Rotating a link moves the link (C144_moved)."
  },
  {
   "property": "C145",
   "status": "partial",
   "theorems": [
    "Pluto.Props.C145_returns_partial",
    "Pluto.Props.C145_fails",
    "Pluto.Props.C145_dies",
    "Pluto.Props.C145_destroy"
   ],
   "note": "False in general: a destructor that a task of the pool has called never returns (C145_fails); it comes to join the worker in which it runs, which throws, and the program is terminated (C145_dies, C145_destroy: nothing keeps a task from doing this). C145_returns_partial: it returns if a thread outside the pool has called it."
  },
  {
   "property": "C146",
   "status": "partial",
   "theorems": [
    "Pluto.Props.C146_flushed_partial",
    "Pluto.Props.C146_fails"
   ],
   "note": "False in general: a writer runs in the logging thread, which the destructor joins; after a writer has ended the program nothing is written any more, the entries in the buffers and the one being written are lost, and the program is terminated (C146_fails). C146_flushed_partial: whenever the destructor returns everything has been written."
  },
  {
   "property": "C147",
   "status": "proved",
   "theorems": [
    "Pluto.Props.C147_disjoint",
    "Pluto.Props.C147_insert",
    "Pluto.Props.C147_find",
    "Pluto.Props.C147_value",
    "Pluto.Props.C147_erase",
    "Pluto.Props.C147_malformed"
   ],
   "note": "For ranges that do not end before they begin, as stated; C147_malformed shows that this is needed. The std::set is modelled as a binary search tree of any shape (trusted: that it searches by descending from the root)."
  },
  {
   "property": "C148",
   "status": "partial",
   "theorems": [
    "Pluto.Props.C148_right",
    "Pluto.Props.C148_defined_partial",
    "Pluto.Props.C148_prefixes_partial",
    "Pluto.Props.C148_nonneg_partial",
    "Pluto.Props.C148_signed_partial",
    "Pluto.Props.C148_fails",
    "Pluto.Props.C148_bool",
    "Pluto.Props.C148_float",
    "Pluto.Props.C148_float_integers",
    "Pluto.Props.C148_fails_float",
    "Pluto.Props.C148_truncated_partial",
    "Pluto.Props.C148_fails_truncated"
   ],
   "note": "The property is false: C148_fails (overflowing partial sums), C148_fails_float (rounding), C148_fails_truncated (integer initial value with floating-point elements). Proved: whatever is returned is right modulo 2^bits (C148_right), it is defined for narrow and unsigned additions and whenever the partial sums fit, exactly then for signed types from int on."
  },
  {
   "property": "C149",
   "status": "partial",
   "theorems": [
    "Pluto.Props.C149_partial",
    "Pluto.Props.C149_same",
    "Pluto.Props.C149_fails",
    "Pluto.Props.C149_count_partial",
    "Pluto.Props.C149_fails_count"
   ],
   "note": "The property is false: C149_fails gives the result whenever a negative number is converted, C149_fails_count for count and contains_elem. Proved in all other cases."
  },
  {
   "property": "C150",
   "status": "proved",
   "theorems": [
    "Pluto.Props.C150_any",
    "Pluto.Props.C150_all",
    "Pluto.Props.C150_count_if",
    "Pluto.Props.C150_find_if",
    "Pluto.Props.C150_for_each",
    "Pluto.Props.C150_map",
    "Pluto.Props.C150_map_new",
    "Pluto.Props.C150_filter",
    "Pluto.Props.C150_filter_keeps"
   ],
   "note": "Predicates that keep state inside themselves are not covered (they are copied). Trusted: the loops of std::find_if, std::for_each, std::transform and std::remove_if as the usual libraries have them."
  },
  {
   "property": "C151",
   "status": "proved",
   "theorems": [
    "Pluto.Props.C151_same",
    "Pluto.Props.C151_permanent",
    "Pluto.Props.C151_value",
    "Pluto.Props.C151_classic",
    "Pluto.Props.C151_ends"
   ],
   "note": "Trusted: the initialisation of local static variables as the language defines it. What a locale is, is not looked at."
  },
  {
   "property": "C152",
   "status": "proved",
   "theorems": [
    "Pluto.Props.C152_process",
    "Pluto.Props.C152_process_value",
    "Pluto.Props.C152_thread",
    "Pluto.Props.C152_thread_value"
   ],
   "note": "About the conversions; that the operating system gives different numbers is trusted."
  },
  {
   "property": "C153",
   "status": "partial",
   "theorems": [
    "Pluto.Props.C153_types",
    "Pluto.Props.C153_monotone",
    "Pluto.Props.C153_nearest",
    "Pluto.Props.C153_error",
    "Pluto.Props.C153_unsigned_partial",
    "Pluto.Props.C153_fails_negative",
    "Pluto.Props.C153_fails_second",
    "Pluto.Props.C153_fails_rollover"
   ],
   "note": "Partial for unsigned durations: negative times, which occur when the clock is set back, are wrong with 64 bits, and a negative rollover has no effect. IEEE rounding to nearest is trusted; infinity is not modelled, as no time reaches it."
  },
  {
   "property": "C154",
   "status": "partial",
   "theorems": [
    "Pluto.Props.C154_hits_partial",
    "Pluto.Props.C154_count_partial",
    "Pluto.Props.C154_contents_partial",
    "Pluto.Props.C154_fails"
   ],
   "note": "False for insert of a key that is present, for any two capacities from 2 on (C154_fails); proved for all other uses."
  },
  {
   "property": "C155",
   "status": "partial",
   "theorems": [
    "Pluto.Props.C155_8_32",
    "Pluto.Props.C155_32_8",
    "Pluto.Props.C155_wchar",
    "Pluto.Props.C155_8_16_partial",
    "Pluto.Props.C155_16_8_partial",
    "Pluto.Props.C155_32_16_partial",
    "Pluto.Props.C155_fails_16",
    "Pluto.Props.C155_8_16_exact_partial",
    "Pluto.Props.C155_fails_invalid"
   ],
   "note": "Proved between UTF-8 and UTF-32. With UTF-16 the order is reversed whenever the first characters that differ are one from U+E000 to U+FFFF and one above (C155_fails_16), and kept if the texts have only one of these kinds; strings that are not valid can become equal or change their order (C155_fails_invalid). C155_8_16_exact_partial says exactly for which texts the order is kept."
  },
  {
   "property": "C156",
   "status": "proved",
   "theorems": [
    "Pluto.Props.C156_table",
    "Pluto.Props.C156_once",
    "Pluto.Props.C156_one_value",
    "Pluto.Props.C156_later"
   ],
   "note": "Full for executions in which nothing throws."
  },
  {
   "property": "C157",
   "status": "partial",
   "theorems": [
    "Pluto.Props.C157_proper_partial",
    "Pluto.Props.C157_count_partial",
    "Pluto.Props.C157_lifo_partial",
    "Pluto.Props.C157_fails",
    "Pluto.Props.C157_fails_add",
    "Pluto.Props.C157_first_partial"
   ],
   "note": "False if the constructor or add throws (C157_fails, C157_fails_add): the task is not called. Proved for all tasks that are taken; adding the task before the resource is acquired is always right (C157_first_partial). Not covered: tasks that add tasks to their guard (C36) and scopes entered during unwinding (C37)."
  },
  {
   "property": "C158",
   "status": "partial",
   "theorems": [
    "Pluto.Props.C158_ends_partial",
    "Pluto.Props.C158_returns_partial",
    "Pluto.Props.C158_goes_on",
    "Pluto.Props.C158_waits",
    "Pluto.Props.C158_starves"
   ],
   "note": "Proved for finitely many calls (an endless execution has endlessly many new calls, and when nothing more can happen all have returned). False in general (C158_starves): readers that overlap for ever keep a writer waiting, as the standard gives no order in which a shared_mutex is acquired."
  },
  {
   "property": "C159",
   "status": "proved",
   "theorems": [
    "Pluto.Props.C159_misses",
    "Pluto.Props.C159_twice",
    "Pluto.Props.C159_store",
    "Pluto.Props.C159_worst"
   ],
   "note": "The bound of Sleator and Tarjan, proved for the model of the code by a potential function; C159_store shows that the cache is a store of the kind it is compared with."
  },
  {
   "property": "C160",
   "status": "proved",
   "theorems": [
    "Pluto.Props.C160_8_16",
    "Pluto.Props.C160_16_8",
    "Pluto.Props.C160_8_32",
    "Pluto.Props.C160_32_8",
    "Pluto.Props.C160_16_32",
    "Pluto.Props.C160_32_16",
    "Pluto.Props.C160_attained",
    "Pluto.Props.C160_valid_8",
    "Pluto.Props.C160_valid_16",
    "Pluto.Props.C160_valid_32",
    "Pluto.Props.C160_no_replacement"
   ],
   "note": "All bounds and both tests of validity proved; that the bounds are attained is C160_attained."
  },
  {
   "property": "C161",
   "status": "partial",
   "theorems": [
    "Pluto.Props.C161_limit_partial",
    "Pluto.Props.C161_fails_size",
    "Pluto.Props.C161_fails_rotation"
   ],
   "note": "True for the rotation limit (C161_limit_partial), provided that no rotation fails and the limit is not changed meanwhile: both loggers do the same, agree in the files with numbers up to the smaller limit, and the kept entries of one are a suffix of those of the other. If a rotation fails that is false (C161_fails_rotation). False for the rotation size (C161_fails_size): as whole files are deleted, a larger size can keep less."
  },
  {
   "property": "C162",
   "status": "proved",
   "theorems": [
    "Pluto.Props.C162_undo",
    "Pluto.Props.C162_undo_char",
    "Pluto.Props.C162_injective",
    "Pluto.Props.C162_undo_needs",
    "Pluto.Props.C162_repeat",
    "Pluto.Props.C162_repeat_any_of",
    "Pluto.Props.C162_repeat_needs",
    "Pluto.Props.C162_commute",
    "Pluto.Props.C162_commute_needs",
    "Pluto.Props.C162_escape",
    "Pluto.Props.C162_unescape_needs"
   ],
   "note": "All laws proved; that their conditions are needed is shown by C162_undo_needs, C162_repeat_needs, C162_commute_needs and C162_unescape_needs."
  },
  {
   "property": "C163",
   "status": "proved",
   "theorems": [
    "Pluto.Props.C163_parts",
    "Pluto.Props.C163_adjacent",
    "Pluto.Props.C163_size",
    "Pluto.Props.C163_nested",
    "Pluto.Props.C163_reverse",
    "Pluto.Props.C163_chunks"
   ],
   "note": "All laws proved."
  },
  {
   "property": "C164",
   "status": "partial",
   "theorems": [
    "Pluto.Props.C164_count_partial",
    "Pluto.Props.C164_min_max_partial",
    "Pluto.Props.C164_sort_partial",
    "Pluto.Props.C164_sum_partial",
    "Pluto.Props.C164_fails_sum",
    "Pluto.Props.C164_fails_float"
   ],
   "note": "Proved for all but sum; for sum of integers, if both calls are defined they return the same (C164_sum_partial). False for sum in general: signed integers from int on may overflow in one order only (C164_fails_sum), floating-point sums depend on the order (C164_fails_float)."
  },
  {
   "property": "C165",
   "status": "partial",
   "theorems": [
    "Pluto.Props.C165_destroyed",
    "Pluto.Props.C165_order",
    "Pluto.Props.C165_once",
    "Pluto.Props.C165_destructor_partial",
    "Pluto.Props.C165_fails_destructor",
    "Pluto.Props.C165_fails_overwritten"
   ],
   "note": "Proved but for the destructors. A call on safe_lru_cache is defined exactly when no value that it destroys, and not the one that get overwrites in the caller's variable, has a destructor that uses the cache (C165_destructor_partial); otherwise it locks a mutex its thread owns (C165_fails_destructor, C165_fails_overwritten)."
  },
  {
   "property": "C166",
   "status": "partial",
   "theorems": [
    "Pluto.Props.C166_round_trip",
    "Pluto.Props.C166_plain",
    "Pluto.Props.C166_digits",
    "Pluto.Props.C166_groups",
    "Pluto.Props.C166_text_partial",
    "Pluto.Props.C166_fails_text",
    "Pluto.Props.C166_fails_read",
    "Pluto.Props.C166_log_partial",
    "Pluto.Props.C166_fails_columns",
    "Pluto.Props.C166_float",
    "Pluto.Props.C166_float_text_partial",
    "Pluto.Props.C166_fails_float",
    "Pluto.Props.C166_fails_settings"
   ],
   "note": "Within one locale str_to inverts str (C166_round_trip, C166_float), and plain digits have their value (C166_plain). The text is the same exactly if the number is too short for a separator (C166_text_partial, C166_log_partial); otherwise it has separators every so many digits (C166_groups), a default log line is misaligned (C166_fails_columns), and other locales read another value (C166_fails_read, C166_fails_float, C166_fails_settings)."
  },
  {
   "property": "C167",
   "status": "partial",
   "theorems": [
    "Pluto.Props.C167_copies",
    "Pluto.Props.C167_released",
    "Pluto.Props.C167_destructor",
    "Pluto.Props.C167_mutex",
    "Pluto.Props.C167_calls",
    "Pluto.Props.C167_gone",
    "Pluto.Props.C167_throws",
    "Pluto.Props.C167_defined_partial",
    "Pluto.Props.C167_fails_destructor",
    "Pluto.Props.C167_fails_copy"
   ],
   "note": "Proved but for writers that call log_writer or header_writer when they are copied or destroyed (C167_defined_partial): the logger does that while it owns m_configMutex, so the program is undefined (C167_fails_destructor, C167_fails_copy)."
  },
  {
   "property": "C168",
   "status": "proved",
   "theorems": [
    "Pluto.Props.C168_starts",
    "Pluto.Props.C168_ends",
    "Pluto.Props.C168_reverse",
    "Pluto.Props.C168_transitive",
    "Pluto.Props.C168_slice",
    "Pluto.Props.C168_split",
    "Pluto.Props.C168_end",
    "Pluto.Props.C168_insensitive"
   ],
   "note": "Proved for the overloads that take any iterators; those for random access iterators from C++20 on give the same if the predicate is symmetric (C64_same_partial)."
  },
  {
   "property": "C169",
   "status": "partial",
   "theorems": [
    "Pluto.Props.C169_ordered_partial",
    "Pluto.Props.C169_returns_partial",
    "Pluto.Props.C169_order",
    "Pluto.Props.C169_plain",
    "Pluto.Props.C169_exclusive",
    "Pluto.Props.C169_methods",
    "Pluto.Props.C169_alone",
    "Pluto.Props.C169_fails",
    "Pluto.Props.C169_fails_caches"
   ],
   "note": "True if no circle of objects lock each other's mutexes while their own is owned (C169_ordered_partial, C169_returns_partial, C169_order); that is so whatever tasks and log writers do, if no copy, comparison or destructor uses the objects (C169_plain). False otherwise (C169_fails, C169_fails_caches). Only the mutexes of caches are ever shared (C169_methods, C169_alone). Without waiting for tasks, for which see C89 to C91."
  },
  {
   "property": "C170",
   "status": "proved",
   "theorems": [
    "Pluto.Props.C170_append",
    "Pluto.Props.C170_strip",
    "Pluto.Props.C170_join",
    "Pluto.Props.C170_normal",
    "Pluto.Props.C170_case",
    "Pluto.Props.C170_any_of",
    "Pluto.Props.C170_filter",
    "Pluto.Props.C170_any_of_join"
   ],
   "note": "C170_append, C170_strip, C170_join, C170_normal, C170_case, C170_any_of, C170_filter, C170_any_of_join."
  },
  {
   "property": "C171",
   "status": "partial",
   "theorems": [
    "Pluto.Props.C171_runs_partial",
    "Pluto.Props.C171_fails",
    "Pluto.Props.C171_fails_waiting",
    "Pluto.Props.C171_raise"
   ],
   "note": "True if hardware_concurrency() is positive and nobody sets the number to 0 (C171_runs_partial). False if it is 0 (C171_fails, C171_fails_waiting), until a positive number is set (C171_raise)."
  },
  {
   "property": "C172",
   "status": "partial",
   "theorems": [
    "Pluto.Props.C172_exact",
    "Pluto.Props.C172_levels_partial",
    "Pluto.Props.C172_fails"
   ],
   "note": "True if nothing is discarded (C172_exact, C172_levels_partial). False if a buffer may be full (C172_fails)."
  }
 ]
}