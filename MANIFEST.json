{
 "claims": [
  {
   "property": "C01",
   "status": "proved",
   "theorems": [
    "Verif.Props.C01_lossless"
   ],
   "note": "All NUL-free texts, every Unicode classification."
  },
  {
   "property": "C02",
   "status": "partial",
   "theorems": [
    "Verif.Props.C02_finishes_refuted",
    "Verif.Props.C02_finishes_partial",
    "Verif.Props.C02_steps_partial"
   ],
   "note": "As stated it is false: a NUL character makes the loop infinite (C02_finishes_refuted). Proved: the loop finishes iff there is no NUL, within one iteration per character."
  },
  {
   "property": "C03",
   "status": "proved",
   "theorems": [
    "Verif.Props.C03_newline",
    "Verif.Props.C03_lines"
   ],
   "note": "Newline is always its own token; tokens of lines joined by newline."
  },
  {
   "property": "C04",
   "status": "proved",
   "theorems": [
    "Verif.Props.C04_output",
    "Verif.Props.C04_snapshot_independent",
    "Verif.Props.C04_quoting_refuted"
   ],
   "note": "Every call sequence except ifloatln/tmsln, which by design quote the old value (C04_quoting_refuted shows the dependence)."
  },
  {
   "property": "C05",
   "status": "proved",
   "theorems": [
    "Verif.Props.C05_no_mark",
    "Verif.Props.C05_ok"
   ],
   "note": "Every state, every snapshot."
  },
  {
   "property": "C06",
   "status": "proved",
   "theorems": [
    "Verif.Props.C06_exact"
   ],
   "note": "Programs of tln/iln lines (newline-free, NUL-free), complete report characterised."
  },
  {
   "property": "C07",
   "status": "partial",
   "theorems": [
    "Verif.Props.C07_whole_refuted",
    "Verif.Props.C07_prefix_partial",
    "Verif.Props.C07_same_length_partial"
   ],
   "note": "Refuted as stated: a strict prefix of the snapshot passes (C07_whole_refuted). Proved: OK iff the output lines are a prefix of the snapshot lines."
  },
  {
   "property": "C08",
   "status": "partial",
   "theorems": [
    "Verif.Props.C08_rerun_refuted",
    "Verif.Props.C08_carriage_return_refuted",
    "Verif.Props.C08_set_refuted",
    "Verif.Props.C08_anchor_refuted",
    "Verif.Props.C08_rerun_partial",
    "Verif.Props.C08_lines_partial"
   ],
   "note": "Refuted as stated: token straddling two calls, carriage return, repeated set item, anchor inside a line (C08_*_refuted). Proved for all other programs (C08_rerun_partial), and without alignment hypotheses for whole-line programs (C08_lines_partial)."
  },
  {
   "property": "C09",
   "status": "partial",
   "theorems": [
    "Verif.Props.C09_fail_refuted",
    "Verif.Props.C09_fail_partial",
    "Verif.Props.C09_assert"
   ],
   "note": "Refuted for a fail() on a line that is never finished (C09_fail_refuted). Proved: FAIL whenever a line is finished after fail(); unconditional for assertions and time limits."
  },
  {
   "property": "C10",
   "status": "partial",
   "theorems": [
    "Verif.Props.C10_nul_refuted",
    "Verif.Props.C10_raise_partial"
   ],
   "note": "Refuted for messages containing NUL, which hang the handler (C10_nul_refuted). Proved for all other messages."
  },
  {
   "property": "C11",
   "status": "proved",
   "theorems": [
    "Verif.Props.C11_no_cause"
   ],
   "note": ""
  },
  {
   "property": "C12",
   "status": "proved",
   "theorems": [
    "Verif.Props.C12_never_ok",
    "Verif.Props.C12_no_diff"
   ],
   "note": "The difference count is 0 unless the test calls diff() itself."
  },
  {
   "property": "C13",
   "status": "proved",
   "theorems": [
    "Verif.Props.C13_seek",
    "Verif.Props.C13_anchors",
    "Verif.Props.C13_anchorln_found"
   ],
   "note": "All reachable states."
  },
  {
   "property": "C14",
   "status": "proved",
   "theorems": [
    "Verif.Props.C14_standing",
    "Verif.Props.C14_any_order",
    "Verif.Props.C14_document",
    "Verif.Props.C14_header_in_body_refuted"
   ],
   "note": "With headers that do not occur as body lines; C14_header_in_body_refuted shows this hypothesis is needed."
  },
  {
   "property": "C15",
   "status": "proved",
   "theorems": [
    "Verif.Props.C15_tset",
    "Verif.Props.C15_start"
   ],
   "note": "Called at the beginning of a line."
  },
  {
   "property": "C16",
   "status": "proved",
   "theorems": [
    "Verif.Props.C16_report",
    "Verif.Props.C16_error_lines",
    "Verif.Props.C16_error_marked"
   ],
   "note": "Log of committed lines; error marks characterised per call."
  },
  {
   "property": "C17",
   "status": "proved",
   "theorems": [
    "Verif.Props.C17_fail_not_accepted"
   ],
   "note": "For every configuration, every input and every file system. (The string \"FAIL\" that make_case builds for a lost worker is not a TestResult and is treated in C40.)"
  },
  {
   "property": "C18",
   "status": "proved",
   "theorems": [
    "Verif.Props.C18_not_accepted",
    "Verif.Props.C18_input_ends",
    "Verif.Props.C18_accepted"
   ],
   "note": "Characterised by the first deciding answer and the flags."
  },
  {
   "property": "C19",
   "status": "proved",
   "theorems": [
    "Verif.Props.C19_exact"
   ],
   "note": "Pointwise for every path."
  },
  {
   "property": "C20",
   "status": "partial",
   "theorems": [
    "Verif.Props.C20_nested_refuted",
    "Verif.Props.C20_isolation_partial"
   ],
   "note": "Refuted for nested names (C20_nested_refuted). Proved for all other pairs of names, from every state."
  },
  {
   "property": "C21",
   "status": "partial",
   "theorems": [
    "Verif.Props.C21_atomic_refuted",
    "Verif.Props.C21_retry_refuted",
    "Verif.Props.C21_crash_partial"
   ],
   "note": "Refuted as stated: text and resources are not replaced together (C21_atomic_refuted, C21_retry_refuted). Proved: the text is always one of the two, new resources are never lost, nothing else is touched."
  },
  {
   "property": "C22",
   "status": "partial",
   "theorems": [
    "Verif.Props.C22_second_accept",
    "Verif.Props.C22_update_refuted",
    "Verif.Props.C22_repeat_partial"
   ],
   "note": "Refuted for -u (C22_update_refuted; C22_second_accept for all states). Proved without -u and -I."
  },
  {
   "property": "C23",
   "status": "proved",
   "theorems": [
    "Verif.Props.C23_round_trip",
    "Verif.Props.C23_tab_refuted",
    "Verif.Props.C23_stable"
   ],
   "note": "With the hypothesis of the statement; C23_tab_refuted shows it is needed; C23_stable needs none."
  },
  {
   "property": "C24",
   "status": "partial",
   "theorems": [
    "Verif.Props.C24_torn",
    "Verif.Props.C24_ascii_readable",
    "Verif.Props.C24_multibyte_refuted"
   ],
   "note": "Proved for every cut position where the file can be decoded (C24_torn, C24_ascii_readable). Refuted for a cut inside a multi-byte character: reading raises (C24_multibyte_refuted)."
  },
  {
   "property": "C25",
   "status": "proved",
   "theorems": [
    "Verif.Props.C25_continue"
   ],
   "note": ""
  },
  {
   "property": "C26",
   "status": "proved",
   "theorems": [
    "Verif.Props.C26_skips_only_ok",
    "Verif.Props.C26_keeps_records"
   ],
   "note": "For every sequence of complete and killed sequential runs, with byte-level torn writes."
  },
  {
   "property": "C27",
   "status": "proved",
   "theorems": [
    "Verif.Props.C27_result"
   ],
   "note": ""
  },
  {
   "property": "C28",
   "status": "proved",
   "theorems": [
    "Verif.Props.C28_fail_fast"
   ],
   "note": "Recording of what was executed is in C29_each_once."
  },
  {
   "property": "C29",
   "status": "proved",
   "theorems": [
    "Verif.Props.C29_each_once"
   ],
   "note": ""
  },
  {
   "property": "C30",
   "status": "partial",
   "theorems": [
    "Verif.Props.C30_selection",
    "Verif.Props.C30_skip_name_refuted"
   ],
   "note": "Refuted for test names that start with skip: (C30_skip_name_refuted). Proved for all other names and every argument list."
  },
  {
   "property": "C31",
   "status": "proved",
   "theorems": [
    "Verif.Props.C31_selected",
    "Verif.Props.C31_computed"
   ],
   "note": "C31_computed in addition: the list is computed whenever dependencies are acyclic and shorter than the recursion limit."
  },
  {
   "property": "C32",
   "status": "proved",
   "theorems": [
    "Verif.Props.C32_dependencies_first"
   ],
   "note": "Whenever the list is computed, which fails only with RecursionError (C31_computed)."
  },
  {
   "property": "C33",
   "status": "proved",
   "theorems": [
    "Verif.Props.C33_cached"
   ],
   "note": ""
  },
  {
   "property": "C34",
   "status": "partial",
   "theorems": [
    "Verif.Props.C34_scheduled_used_partial",
    "Verif.Props.C34_used_first_partial",
    "Verif.Props.C34_inherited_refuted"
   ],
   "note": "Refuted with inheritance (C34_inherited_refuted). Proved when the scheduler resolves the dependency to some test."
  },
  {
   "property": "C35",
   "status": "proved",
   "theorems": [
    "Verif.Props.C35_exclusive"
   ],
   "note": ""
  },
  {
   "property": "C36",
   "status": "proved",
   "theorems": [
    "Verif.Props.C36_dependencies",
    "Verif.Props.C36_declared"
   ],
   "note": "C36_declared: in terms of the dependencies declared in the suite."
  },
  {
   "property": "C37",
   "status": "proved",
   "theorems": [
    "Verif.Props.C37_once"
   ],
   "note": ""
  },
  {
   "property": "C38",
   "status": "proved",
   "theorems": [
    "Verif.Props.C38_starts",
    "Verif.Props.C38_completes",
    "Verif.Props.C38_fair",
    "Verif.Props.C38_fair_exists"
   ],
   "note": "C38_starts: the scheduler always starts a test. C38_fair: every fair execution completes (for workers that leave a report and reviews that end). C38_completes: from every reachable state the run can be completed."
  },
  {
   "property": "C39",
   "status": "proved",
   "theorems": [
    "Verif.Props.C39_all_recorded",
    "Verif.Props.C39_has_next",
    "Verif.Props.C39_genuine"
   ],
   "note": "For workers that leave a report and tests with different batch directories (Behaved). C39_genuine: also with aborts and exceptions no test is recorded twice."
  },
  {
   "property": "C40",
   "status": "partial",
   "theorems": [
    "Verif.Props.C40_complete_partial",
    "Verif.Props.C40_empty_refuted",
    "Verif.Props.C40_hang_refuted",
    "Verif.Props.C40_no_report_refuted",
    "Verif.Props.C40_accept_refuted"
   ],
   "note": "Refuted: a worker without a report file makes the run raise (C40_no_report_refuted) or can be accepted (C40_accept_refuted); an empty report kills the scheduler (C40_empty_refuted), after which the run hangs (C40_hang_refuted). Proved for workers whose test ends."
  },
  {
   "property": "C41",
   "status": "partial",
   "theorems": [
    "Verif.Props.C41_batches_partial",
    "Verif.Props.C41_dots_refuted"
   ],
   "note": "Refuted for names with dots (C41_dots_refuted). Proved for names without dots."
  },
  {
   "property": "C42",
   "status": "partial",
   "theorems": [
    "Verif.Props.C42_value_partial",
    "Verif.Props.C42_none_refuted",
    "Verif.Props.C42_size_zero_refuted",
    "Verif.Props.C42_no_cache_refuted",
    "Verif.Props.C42_mutated_refuted"
   ],
   "note": "Proved for dictionaries and LruCaches of positive size, for values other than None. Refuted for None once it leaves the cache (C42_none_refuted), for LruCache(0), for NoCache (never returns), and for dependents that change the object they receive (C42_mutated_refuted)."
  },
  {
   "property": "C43",
   "status": "proved",
   "theorems": [
    "Verif.Props.C43_lru",
    "Verif.Props.C43_bounded",
    "Verif.Props.C43_get"
   ],
   "note": ""
  },
  {
   "property": "C44",
   "status": "partial",
   "theorems": [
    "Verif.Props.C44_this_run_partial",
    "Verif.Props.C44_earlier_run_partial",
    "Verif.Props.C44_failed_refuted"
   ],
   "note": "Proved for dependencies that save a result in this run (C44_this_run_partial) or are not run (C44_earlier_run_partial), for all interleavings and assignments to processes. Refuted for failing dependencies, whose dependents get the value of an earlier run (C44_failed_refuted)."
  },
  {
   "property": "C45",
   "status": "proved",
   "theorems": [
    "Verif.Props.C45_mock_env",
    "Verif.Props.C45_nested",
    "Verif.Props.C45_other_value_leaks_refuted"
   ],
   "note": "dictionaries with string/None values; other values leak (refuted)"
  },
  {
   "property": "C46",
   "status": "partial",
   "theorems": [
    "Verif.Props.C46_starts",
    "Verif.Props.C46_seen",
    "Verif.Props.C46_independent",
    "Verif.Props.C46_restored_partial",
    "Verif.Props.C46_stop_iff",
    "Verif.Props.C46_capture_replay",
    "Verif.Props.C46_complete",
    "Verif.Props.C46_written",
    "Verif.Props.C46_listing",
    "Verif.Props.C46_unset_in_test_refuted",
    "Verif.Props.C46_none_snapshot_refuted",
    "Verif.Props.C46_capture_unset_refuted",
    "Verif.Props.C46_duplicate_refuted"
   ],
   "note": "replayed values proved; restoring needs that variables unset before are set at the end; None snapshots, capture of unset variables and repeated names refuted"
  },
  {
   "property": "C47",
   "status": "partial",
   "theorems": [
    "Verif.Props.C47_leak_refuted",
    "Verif.Props.C47_leak_partial",
    "Verif.Props.C47_first_missing"
   ],
   "note": "refuted; exactly which variables leak is proved"
  },
  {
   "property": "C48",
   "status": "partial",
   "theorems": [
    "Verif.Props.C48_mock_missing_partial",
    "Verif.Props.C48_capture_refuted",
    "Verif.Props.C48_unset_in_test_refuted",
    "Verif.Props.C48_none_refuted"
   ],
   "note": "capture mode mocks all the same (refuted); restoring needs the test not to unset mocked variables"
  },
  {
   "property": "C49",
   "status": "proved",
   "theorems": [
    "Verif.Props.C49_replay",
    "Verif.Props.C49_recorded",
    "Verif.Props.C49_independent",
    "Verif.Props.C49_order"
   ],
   "note": "C49_recorded needs one snapshot per call, which C51_files guarantees for files booktest wrote"
  },
  {
   "property": "C50",
   "status": "partial",
   "theorems": [
    "Verif.Props.C50_last_captured",
    "Verif.Props.C50_replay_partial",
    "Verif.Props.C50_repeated_refuted",
    "Verif.Props.C50_refresh",
    "Verif.Props.C50_complete"
   ],
   "note": "refuted when a call is repeated with different answers; proved when equal calls got equal values"
  },
  {
   "property": "C51",
   "status": "proved",
   "theorems": [
    "Verif.Props.C51_files",
    "Verif.Props.C51_written"
   ],
   "note": ""
  },
  {
   "property": "C52",
   "status": "partial",
   "theorems": [
    "Verif.Props.C52_replay_partial",
    "Verif.Props.C52_default",
    "Verif.Props.C52_retry_refuted",
    "Verif.Props.C52_offline",
    "Verif.Props.C52_refresh",
    "Verif.Props.C52_complete",
    "Verif.Props.C52_legacy",
    "Verif.Props.C52_requests_partial",
    "Verif.Props.C52_httpx_partial",
    "Verif.Props.C52_binary_refuted",
    "Verif.Props.C52_httpx_binary_refuted",
    "Verif.Props.C52_header_refuted"
   ],
   "note": "refuted for requests that raise, for binary contents and for caseless header lookups; proved for all other runs, with stateful servers"
  },
  {
   "property": "C53",
   "status": "proved",
   "theorems": [
    "Verif.Props.C53_stored",
    "Verif.Props.C53_headers"
   ],
   "note": "URLs and responses are stored in full; the claim is about request headers and bodies"
  },
  {
   "property": "C54",
   "status": "proved",
   "theorems": [
    "Verif.Props.C54_headers",
    "Verif.Props.C54_others",
    "Verif.Props.C54_stored"
   ],
   "note": ""
  },
  {
   "property": "C55",
   "status": "partial",
   "theorems": [
    "Verif.Props.C55_same_partial",
    "Verif.Props.C55_refuted"
   ],
   "note": "refuted for repeated requests that only the custom hash identifies; proved for the same requests"
  },
  {
   "property": "C56",
   "status": "partial",
   "theorems": [
    "Verif.Props.C56_restored_partial",
    "Verif.Props.C56_patched",
    "Verif.Props.C56_nested_refuted",
    "Verif.Props.C56_start_error_refuted",
    "Verif.Props.C56_elsewhere_refuted"
   ],
   "note": "refuted for nested blocks on the same function, functions of classes and start errors; proved for functions that are what they were defined as"
  },
  {
   "property": "C57",
   "status": "proved",
   "theorems": [
    "Verif.Props.C57_log",
    "Verif.Props.C57_once",
    "Verif.Props.C57_no_setup",
    "Verif.Props.C57_result",
    "Verif.Props.C57_second_yield",
    "Verif.Props.C57_stacked",
    "Verif.Props.C57_stacked_ok",
    "Verif.Props.C57_default",
    "Verif.Props.C57_process"
   ],
   "note": ""
  },
  {
   "property": "C58",
   "status": "partial",
   "theorems": [
    "Verif.Props.C58_priority_partial",
    "Verif.Props.C58_unique",
    "Verif.Props.C58_home_refuted",
    "Verif.Props.C58_zero_refuted",
    "Verif.Props.C58_error"
   ],
   "note": "proved with the file read in place of the home file; refuted: the home file is looked for in a directory named ~, and --parallel-count 0 is ignored"
  },
  {
   "property": "C59",
   "status": "partial",
   "theorems": [
    "Verif.Props.C59_exact",
    "Verif.Props.C59_partial",
    "Verif.Props.C59_refuted",
    "Verif.Props.C59_sticky"
   ],
   "note": "refuted for options left by earlier calls in the same process; the exact dependence is proved"
  },
  {
   "property": "C60",
   "status": "partial",
   "theorems": [
    "Verif.Props.C60_clean_partial",
    "Verif.Props.C60_garbage",
    "Verif.Props.C60_empty_part_refuted",
    "Verif.Props.C60_report"
   ],
   "note": "proved for test names without empty parts; refuted for names such as a//b; --clean also removes the case report"
  },
  {
   "property": "C61",
   "status": "partial",
   "theorems": [
    "Verif.Props.C61_index_partial",
    "Verif.Props.C61_parts",
    "Verif.Props.C61_newline_refuted"
   ],
   "note": "proved for names without newlines and square brackets; refuted for a name with a newline"
  },
  {
   "property": "C62",
   "status": "partial",
   "theorems": [
    "Verif.Props.C62_snake",
    "Verif.Props.C62_snake_unique",
    "Verif.Props.C62_letters",
    "Verif.Props.C62_boundary_refuted",
    "Verif.Props.C62_distinct_refuted",
    "Verif.Props.C62_suffix",
    "Verif.Props.C62_method",
    "Verif.Props.C62_class"
   ],
   "note": "proved with \"not upper case\" in place of \"lower case\" (the literal wording is refuted: digits and underscores count as lower case)"
  },
  {
   "property": "C63",
   "status": "partial",
   "theorems": [
    "Verif.Props.C63_merge",
    "Verif.Props.C63_merge_unique",
    "Verif.Props.C63_merge_mem",
    "Verif.Props.C63_decorate",
    "Verif.Props.C63_suite",
    "Verif.Props.C63_drop",
    "Verif.Props.C63_drop_unique",
    "Verif.Props.C63_drop_partial",
    "Verif.Props.C63_nameless_refuted",
    "Verif.Props.C63_absolute_refuted",
    "Verif.Props.C63_nested"
   ],
   "note": "merging is proved in full; dropping an added prefix is refuted for the empty suite name and for names that start with a slash, proved otherwise"
  },
  {
   "property": "C64",
   "status": "partial",
   "theorems": [
    "Verif.Props.C64_book_partial",
    "Verif.Props.C64_error",
    "Verif.Props.C64_del_refuted",
    "Verif.Props.C64_inherited",
    "Verif.Props.C64_path"
   ],
   "note": "refuted for class bodies with del; proved otherwise; inherited tests are not listed"
  },
  {
   "property": "C65",
   "status": "partial",
   "theorems": [
    "Verif.Props.C65_forget",
    "Verif.Props.C65_runs_again",
    "Verif.Props.C65_killed",
    "Verif.Props.C65_dependency_refuted"
   ],
   "note": "proved for the tests that the selection resolves to; refuted for the tests named on the command line: dependencies without stored results are forgotten too"
  },
  {
   "property": "C66",
   "status": "proved",
   "theorems": [
    "Verif.Props.C66_keeps_records",
    "Verif.Props.C66_abort",
    "Verif.Props.C66_reviews_all",
    "Verif.Props.C66_passed",
    "Verif.Props.C66_read_only"
   ],
   "note": "C66_read_only in addition."
  },
  {
   "property": "C67",
   "status": "proved",
   "theorems": [
    "Verif.Props.C67_stable",
    "Verif.Props.C67_aligned"
   ],
   "note": "Alignment for all tables; stability for tables without NUL and without carriage return in column names."
  },
  {
   "property": "C68",
   "status": "partial",
   "theorems": [
    "Verif.Props.C68_abspath",
    "Verif.Props.C68_inside_partial",
    "Verif.Props.C68_outside_partial",
    "Verif.Props.C68_sibling_refuted",
    "Verif.Props.C68_root_refuted"
   ],
   "note": "refuted for directories next to the output directory whose name begins with its name, and for the root; proved otherwise"
  },
  {
   "property": "C69",
   "status": "partial",
   "theorems": [
    "Verif.Props.C69_stable",
    "Verif.Props.C69_shape_partial",
    "Verif.Props.C69_keys_refuted",
    "Verif.Props.C69_types_refuted",
    "Verif.Props.C69_order_refuted"
   ],
   "note": "at the level of the printed text; refuted for keys of different types with the same text, types with the same name and the order of keys; proved otherwise"
  },
  {
   "property": "C70",
   "status": "partial",
   "theorems": [
    "Verif.Props.C70_choices_partial",
    "Verif.Props.C70_absolute_refuted",
    "Verif.Props.C70_star_refuted",
    "Verif.Props.C70_skip_refuted",
    "Verif.Props.C70_selects",
    "Verif.Props.C70_useful"
   ],
   "note": "refuted for names that start with a slash or skip: and for a first part named *; proved otherwise"
  },
  {
   "property": "C71",
   "status": "proved",
   "theorems": [
    "Verif.Props.C71_number_token"
   ],
   "note": "A number with sign and fraction is one token."
  },
  {
   "property": "C72",
   "status": "partial",
   "theorems": [
    "Verif.Props.C72_purge_refuted",
    "Verif.Props.C72_purge_partial"
   ],
   "note": "Refuted for nested names (C72_purge_refuted). Proved: exactly the directory of the test and that of its temporary files are removed."
  },
  {
   "property": "C73",
   "status": "partial",
   "theorems": [
    "Verif.Props.C73_exit_code_partial",
    "Verif.Props.C73_interrupt_refuted"
   ],
   "note": "Refuted for interrupted runs (C73_interrupt_refuted). Proved for runs that are not aborted."
  },
  {
   "property": "C74",
   "status": "proved",
   "theorems": [
    "Verif.Props.C74_token",
    "Verif.Props.C74_unique"
   ],
   "note": "complete characterisation of __next__ on NUL-free texts, with uniqueness"
  },
  {
   "property": "C75",
   "status": "proved",
   "theorems": [
    "Verif.Props.C75_tokens",
    "Verif.Props.C75_label"
   ],
   "note": "all calls that only print (anchors, headers, sets and quoting calls are covered by C13-C15, C76)"
  },
  {
   "property": "C76",
   "status": "proved",
   "theorems": [
    "Verif.Props.C76_was"
   ],
   "note": "ifloatln as the only call on its line; NUL-free snapshot"
  },
  {
   "property": "C77",
   "status": "partial",
   "theorems": [
    "Verif.Props.C77_listing_partial",
    "Verif.Props.C77_same_partial",
    "Verif.Props.C77_listing_refuted"
   ],
   "note": "refuted when a call is repeated; proved when no call is made twice"
  },
  {
   "property": "C78",
   "status": "proved",
   "theorems": [
    "Verif.Props.C78_listing"
   ],
   "note": "assumes no hash collisions among the keys of the requests of the run (HashOK, C111_hashes)"
  },
  {
   "property": "C79",
   "status": "partial",
   "theorems": [
    "Verif.Props.C79_setup",
    "Verif.Props.C79_lost",
    "Verif.Props.C79_confirmed_refuted"
   ],
   "note": "refuted for a confirmed boolean value that reads back as a different value; proved for answers and string values"
  },
  {
   "property": "C80",
   "status": "proved",
   "theorems": [
    "Verif.Props.C80_list"
   ],
   "note": "sequential runs"
  },
  {
   "property": "C81",
   "status": "partial",
   "theorems": [
    "Verif.Props.C81_accept_rerun_partial",
    "Verif.Props.C81_resources_partial",
    "Verif.Props.C81_index_refuted"
   ],
   "note": "proved for plain names that are not nested and tests that can be repeated in the sense of C08; refuted for a test called index, whose snapshot is overwritten by the index"
  },
  {
   "property": "C82",
   "status": "proved",
   "theorems": [
    "Verif.Props.C82_plain_run"
   ],
   "note": "sequential runs; test functions write only through t.file"
  },
  {
   "property": "C83",
   "status": "partial",
   "theorems": [
    "Verif.Props.C83_isolation_partial",
    "Verif.Props.C83_nested_refuted"
   ],
   "note": "proved for plain names that are not nested, without dependencies; refuted for nested names"
  },
  {
   "property": "C84",
   "status": "partial",
   "theorems": [
    "Verif.Props.C84_log_file",
    "Verif.Props.C84_handlers",
    "Verif.Props.C84_stderr_refuted",
    "Verif.Props.C84_interrupt_refuted"
   ],
   "note": "log file contents and handlers proved for every sequence of tests; refuted for sys.stderr: after every test it is the closed log file (open() saves the None that __init__ has put there); refuted for handlers after Ctrl-C"
  },
  {
   "property": "C85",
   "status": "partial",
   "theorems": [
    "Verif.Props.C85_report",
    "Verif.Props.C85_summary",
    "Verif.Props.C85_review",
    "Verif.Props.C85_review_report",
    "Verif.Props.C85_lost_worker_refuted"
   ],
   "note": "sequential runs and --review proved; names without line breaks; refuted in parallel runs for a test whose worker left no report: it has no result on the console and its line runs into the next one"
  },
  {
   "property": "C86",
   "status": "partial",
   "theorems": [
    "Verif.Props.C86_replay_partial",
    "Verif.Props.C86_log_name_refuted",
    "Verif.Props.C86_return_refuted"
   ],
   "note": "proved if no carriage return is printed and logs are not shown, empty, or the name has one part; refuted in general: live logs are shown under the last part of the name, and a carriage return splits a stored line"
  },
  {
   "property": "C87",
   "status": "proved",
   "theorems": [
    "Verif.Props.C87_detected",
    "Verif.Props.C87_fails",
    "Verif.Props.C87_order"
   ],
   "note": "imports are a function of the module name; members of modules are given by kind"
  },
  {
   "property": "C88",
   "status": "partial",
   "theorems": [
    "Verif.Props.C88_distinct_partial",
    "Verif.Props.C88_suffix_refuted",
    "Verif.Props.C88_import_refuted"
   ],
   "note": "proved for function tests in files that differ in more than their suffix below paths that are not nested; refuted for foo_test.py next to foo_book.py and for a test book imported into another test file"
  },
  {
   "property": "C89",
   "status": "partial",
   "theorems": [
    "Verif.Props.C89_setup",
    "Verif.Props.C89_order_refuted"
   ],
   "note": "which path proved; refuted for the listing order: with several __booktest__.py below a path the last one listed wins"
  },
  {
   "property": "C90",
   "status": "proved",
   "theorems": [
    "Verif.Props.C90_same_results",
    "Verif.Props.C90_same_reports"
   ],
   "note": "for completed runs without a user or fail fast, tests whose results depend only on their dependencies, and with -a no result DIFF before acceptance; the order of records may differ"
  },
  {
   "property": "C91",
   "status": "partial",
   "theorems": [
    "Verif.Props.C91_slowest_first",
    "Verif.Props.C91_step",
    "Verif.Props.C91_deterministic_partial",
    "Verif.Props.C91_resource_refuted"
   ],
   "note": "the order is proved in full; that the set of tests started does not depend on the enumeration is proved if no two remaining tests share a resource, and refuted otherwise"
  },
  {
   "property": "C92",
   "status": "partial",
   "theorems": [
    "Verif.Props.C92_options",
    "Verif.Props.C92_settings_partial",
    "Verif.Props.C92_one_refuted"
   ],
   "note": "proved for all options and for settings other than 1; refuted for parallel=1 in a file or in the environment, which gives one worker for each CPU"
  },
  {
   "property": "C93",
   "status": "partial",
   "theorems": [
    "Verif.Props.C93_files",
    "Verif.Props.C93_text_partial",
    "Verif.Props.C93_console",
    "Verif.Props.C93_empty_refuted",
    "Verif.Props.C93_collision_refuted"
   ],
   "note": "proved for texts of complete lines without carriage returns that are not all empty, in particular for the reports of single tests in all modes; refuted for empty texts (one empty line is written) and for two tests that share a batch directory"
  },
  {
   "property": "C94",
   "status": "partial",
   "theorems": [
    "Verif.Props.C94_arguments_partial",
    "Verif.Props.C94_layers",
    "Verif.Props.C94_dependency_partial",
    "Verif.Props.C94_stacked_refuted"
   ],
   "note": "proved for sequential runs and at most one depends_on on a function, under any other decorators; a test for which a dependency has no value may, instead of failing, be given None if None is the value in the cache; refuted for two depends_on on one function (the values of the outer one are dropped, the dependencies of the inner one are not scheduled)"
  },
  {
   "property": "C95",
   "status": "partial",
   "theorems": [
    "Verif.Props.C95_resources_partial",
    "Verif.Props.C95_stacked_refuted",
    "Verif.Props.C95_ports",
    "Verif.Props.C95_port_text_refuted"
   ],
   "note": "proved for at most one depends_on on a function; refuted for two (the resources of the inner one are not reserved) and for the text port=80, which is the resource of port 80"
  },
  {
   "property": "C96",
   "status": "partial",
   "theorems": [
    "Verif.Props.C96_directories_partial",
    "Verif.Props.C96_project_partial",
    "Verif.Props.C96_blank_refuted",
    "Verif.Props.C96_others_refuted",
    "Verif.Props.C96_plain_names"
   ],
   "note": "proved for names and directories without characters that are special to the shell and without a leading -; refuted for blanks, for every state of the files"
  },
  {
   "property": "C97",
   "status": "partial",
   "theorems": [
    "Verif.Props.C97_rm_refuses",
    "Verif.Props.C97_guard",
    "Verif.Props.C97_batches_partial",
    "Verif.Props.C97_blank_refuted"
   ],
   "note": "proved for directories without special characters; refuted for blanks: with the books in \"my books\" the directory \"my\" is deleted"
  },
  {
   "property": "C98",
   "status": "partial",
   "theorems": [
    "Verif.Props.C98_print_partial",
    "Verif.Props.C98_blank_refuted"
   ],
   "note": "proved for names and directories without special characters; refuted for blanks"
  },
  {
   "property": "C99",
   "status": "partial",
   "theorems": [
    "Verif.Props.C99_status",
    "Verif.Props.C99_parallel_partial",
    "Verif.Props.C99_view_refuted"
   ],
   "note": "proved for sequential runs that come to their end and parallel runs that are not aborted; refuted for --view, which exits with 0 whatever the viewer does"
  },
  {
   "property": "C100",
   "status": "proved",
   "theorems": [
    "Verif.Props.C100_terminates",
    "Verif.Props.C100_call",
    "Verif.Props.C100_repeatable"
   ],
   "note": "for environments whose number format produces no NUL; a test that can be repeated (C08) needs no hypothesis at all. The loops over snapshot lines have fuel in the model; Lemmas/Cursor proves that it suffices."
  },
  {
   "property": "C101",
   "status": "proved",
   "theorems": [
    "Verif.Props.C101_skips_only_ok",
    "Verif.Props.C101_one_record"
   ],
   "note": "for names without tabs and line breaks; in parallel runs the reports that workers leave, if any, are about their own test (batch directories do not collide, see C41), and workers may die, leave nothing or leave broken reports"
  },
  {
   "property": "C102",
   "status": "partial",
   "theorems": [
    "Verif.Props.C102_sequential",
    "Verif.Props.C102_batch",
    "Verif.Props.C102_teardown_refuted",
    "Verif.Props.C102_no_setup",
    "Verif.Props.C102_never_asks",
    "Verif.Props.C102_collected",
    "Verif.Props.C102_named",
    "Verif.Props.C102_records"
   ],
   "note": "for names without dots, tabs and line breaks; in parallel runs a teardown that raises is ignored and the worker returns the exit code of the test (C102_teardown_refuted)"
  },
  {
   "property": "C103",
   "status": "partial",
   "theorems": [
    "Verif.Props.C103_alone_partial",
    "Verif.Props.C103_results",
    "Verif.Props.C103_sequential",
    "Verif.Props.C103_length",
    "Verif.Props.C103_elsewhere",
    "Verif.Props.C103_nested_refuted"
   ],
   "note": "for plain names that are not nested, without which it is false (C103_nested_refuted), and tests that touch files only through t.file; one test per worker, without dependencies between tests. mkdir -p makes one directory per step, the other operations are atomic; the report of the batch and metrics.json, which all workers write, are left out"
  },
  {
   "property": "C104",
   "status": "partial",
   "theorems": [
    "Verif.Props.C104_sequential",
    "Verif.Props.C104_parallel",
    "Verif.Props.C104_snapshots_partial",
    "Verif.Props.C104_not_failed",
    "Verif.Props.C104_nothing_accepted",
    "Verif.Props.C104_is_run",
    "Verif.Props.C104_nested_refuted"
   ],
   "note": "for plain names that are not nested, without which it is false (C104_nested_refuted), and tests that touch files only through t.file. Interrupted writes, --clean and other changes of outputs between runs are included as changes elsewhere; booktest --review, which accepts outputs of earlier runs, is not among the runs (see C17-C21), nor is the review of a made-up failure after a worker that crashed"
  },
  {
   "property": "C105",
   "status": "partial",
   "theorems": [
    "Verif.Props.C105_record_partial",
    "Verif.Props.C105_snapshots_partial",
    "Verif.Props.C105_review_partial",
    "Verif.Props.C105_reviewed_partial"
   ],
   "note": "for plain names that are not nested and tests that touch files only through t.file. A test whose worker crashes is recorded as failed: the made-up result is a string in the code, with which an interactive user can accept whatever output is there (see C102), and this is left out (C118_early_refuted is an example). The premises for parallel runs are proved for their model in C118. Cleaning up outputs comes together with the removal of the report"
  },
  {
   "property": "C106",
   "status": "proved",
   "theorems": [
    "Verif.Props.C106_sound",
    "Verif.Props.C106_complete",
    "Verif.Props.C106_unique",
    "Verif.Props.C106_settings",
    "Verif.Props.C106_pieces_refuted",
    "Verif.Props.C106_zero_refuted"
   ],
   "note": "argparse is modelled from its source in Python 3.11.10. Two expectations are refuted beside it: names in several pieces are an error (C106_pieces_refuted), and --parallel-count 0 makes no setting (C106_zero_refuted)"
  },
  {
   "property": "C107",
   "status": "partial",
   "theorems": [
    "Verif.Props.C107_rejected",
    "Verif.Props.C107_looking",
    "Verif.Props.C107_starts",
    "Verif.Props.C107_names",
    "Verif.Props.C107_paths",
    "Verif.Props.C107_prints",
    "Verif.Props.C107_config",
    "Verif.Props.C107_clean",
    "Verif.Props.C107_garbage_lists",
    "Verif.Props.C107_garbage",
    "Verif.Props.C107_forgets",
    "Verif.Props.C107_frame",
    "Verif.Props.C107_run_partial",
    "Verif.Props.C107_list",
    "Verif.Props.C107_forget",
    "Verif.Props.C107_coverage_files",
    "Verif.Props.C107_covered",
    "Verif.Props.C107_view",
    "Verif.Props.C107_unasked_partial",
    "Verif.Props.C107_accept_rerun_partial"
   ],
   "note": "C107_rejected, C107_looking, C107_list and C107_forget are full for runs in one process; missing: runs with workers (their effects are C125, and C35-C41, C90, C103, C104, C117_workers and C118), and in C107_accept_rerun_partial what is missing in C81; C126 has accepting and running again with workers"
  },
  {
   "property": "C108",
   "status": "partial",
   "theorems": [
    "Verif.Props.C108_inside",
    "Verif.Props.C108_outside_partial",
    "Verif.Props.C108_outside_refuted",
    "Verif.Props.C108_httpx",
    "Verif.Props.C108_httpx_network"
   ],
   "note": "C108_inside and C108_httpx hold for all tests; outside of blocks C108_outside_partial is for sessions whose class does not override get_adapter or that are not used in a block. Refuted for the others (C108_outside_refuted): the attribute that is set on the session after a request hides the method of its class."
  },
  {
   "property": "C109",
   "status": "partial",
   "theorems": [
    "Verif.Props.C109_replay_partial",
    "Verif.Props.C109_progress",
    "Verif.Props.C109_captures",
    "Verif.Props.C109_offline",
    "Verif.Props.C109_refuted",
    "Verif.Props.C109_order_refuted"
   ],
   "note": "For tests in which equal requests are made by the same task (and, as in C52, every request is answered): every schedule of capture and replay. Refuted for equal requests of different tasks: C109_refuted (both get the same key, an answer is lost, the replay misses a snapshot) and C109_order_refuted."
  },
  {
   "property": "C110",
   "status": "partial",
   "theorems": [
    "Verif.Props.C110_told_apart_partial",
    "Verif.Props.C110_replay_partial",
    "Verif.Props.C110_module_refuted",
    "Verif.Props.C110_modules_refuted",
    "Verif.Props.C110_tuple_refuted",
    "Verif.Props.C110_key_refuted",
    "Verif.Props.C110_order_refuted"
   ],
   "note": "C110_told_apart_partial and C110_replay_partial hold for all calls whose arguments JSON gives back as they are (no tuples, only strings as keys), up to the module of the function. Refuted beyond that: functions of the same qualified name in two modules (C110_module_refuted, C110_modules_refuted), tuples (C110_tuple_refuted), numbers as keys (C110_key_refuted); and the same call with keyword arguments in another order is not found (C110_order_refuted)."
  },
  {
   "property": "C111",
   "status": "proved",
   "theorems": [
    "Verif.Props.C111_digest",
    "Verif.Props.C111_hashes",
    "Verif.Props.C111_same"
   ],
   "note": "C111_same; C111_digest and C111_hashes reduce the assumptions of C52, C55, C78 and C109 to SHA-1 not colliding on the finitely many keys of a run. The custom hashes of json_to_hash are C55."
  },
  {
   "property": "C112",
   "status": "proved",
   "theorems": [
    "Verif.Props.C112_calls",
    "Verif.Props.C112_fails_iff",
    "Verif.Props.C112_be_a",
    "Verif.Props.C112_contain_equal"
   ],
   "note": "C112_fails_iff (tests that do not also call t.fail(), whose mark on an unfinished last line is C09), C112_calls, C112_be_a, C112_contain_equal."
  },
  {
   "property": "C113",
   "status": "proved",
   "theorems": [
    "Verif.Props.C113_line",
    "Verif.Props.C113_alt",
    "Verif.Props.C113_kept",
    "Verif.Props.C113_compared"
   ],
   "note": "File names are names without slashes, the digests of the pictures of the run do not collide, and no picture is written under the name of a digest. Pictures missing at the end of the output are C07."
  },
  {
   "property": "C114",
   "status": "partial",
   "theorems": [
    "Verif.Props.C114_directories_partial",
    "Verif.Props.C114_fresh_partial",
    "Verif.Props.C114_started",
    "Verif.Props.C114_blank_refuted"
   ],
   "note": "Refuted for directories with blanks (C114_blank_refuted). Proved for paths of characters that are not special to the shell, for the start of the workers (C114_started) too. The directories of different tests are different (C41)."
  },
  {
   "property": "C115",
   "status": "proved",
   "theorems": [
    "Verif.Props.C115_functions",
    "Verif.Props.C115_requests"
   ],
   "note": "Requests that a test makes one after the other; requests at the same time are C109."
  },
  {
   "property": "C116",
   "status": "proved",
   "theorems": [
    "Verif.Props.C116_encoding",
    "Verif.Props.C116_decodable",
    "Verif.Props.C116_same"
   ],
   "note": "C116_encoding, C116_decodable, C116_same. Texts are sequences of Unicode scalar values (no lone surrogates, which raise)."
  },
  {
   "property": "C117",
   "status": "proved",
   "theorems": [
    "Verif.Props.C117_snapshots",
    "Verif.Props.C117_record",
    "Verif.Props.C117_change",
    "Verif.Props.C117_workers",
    "Verif.Props.C117_killed",
    "Verif.Props.C117_unasked",
    "Verif.Props.C117_clean_refuted"
   ],
   "note": "C117_change (commands), C117_killed (commands killed at any moment), C117_workers (runs with workers at any moment), C117_unasked, C117_snapshots, C117_record; in directories without oddities (no file in the way of a test). C117_clean_refuted: the record claim fails if --clean is killed and a test is in no directory; this is left out of sessions."
  },
  {
   "property": "C118",
   "status": "partial",
   "theorems": [
    "Verif.Props.C118_exclusive",
    "Verif.Props.C118_dependencies",
    "Verif.Props.C118_refines",
    "Verif.Props.C118_others",
    "Verif.Props.C118_snapshots",
    "Verif.Props.C118_records",
    "Verif.Props.C118_early_refuted"
   ],
   "note": "Refuted without the assumption that the user is not asked about tests whose worker died early (C118_early_refuted); proved with it: C118_refines, C118_exclusive, C118_dependencies, C118_snapshots, C118_records, C118_others. The names of the directories of the workers differ (C41)."
  },
  {
   "property": "C119",
   "status": "partial",
   "theorems": [
    "Verif.Props.C119_read_back",
    "Verif.Props.C119_same",
    "Verif.Props.C119_distinct",
    "Verif.Props.C119_every_value_refuted"
   ],
   "note": "Proved for values with string keys and without tuples (C119_same), with tuples read as lists (C119_read_back), and that texts tell values apart (C119_distinct); for every value it is refuted (C119_every_value_refuted). Floats are given by their texts."
  },
  {
   "property": "C120",
   "status": "proved",
   "theorems": [
    "Verif.Props.C120_part_not_read",
    "Verif.Props.C120_numbers_refuted"
   ],
   "note": "C120_part_not_read for objects, lists, tuples and strings; C120_numbers_refuted shows why numbers are left out (no snapshot file is one)."
  },
  {
   "property": "C121",
   "status": "partial",
   "theorems": [
    "Verif.Props.C121_file",
    "Verif.Props.C121_rewritten",
    "Verif.Props.C121_replay",
    "Verif.Props.C121_written",
    "Verif.Props.C121_same_type_refuted"
   ],
   "note": "Refuted that replayed values have the types of the recorded ones (C121_same_type_refuted); proved up to tuples being lists: C121_file, C121_rewritten, C121_replay, C121_written."
  },
  {
   "property": "C122",
   "status": "proved",
   "theorems": [
    "Verif.Props.C122_env",
    "Verif.Props.C122_requests",
    "Verif.Props.C122_httpx",
    "Verif.Props.C122_base64",
    "Verif.Props.C122_metrics",
    "Verif.Props.C122_requests_run",
    "Verif.Props.C122_httpx_run",
    "Verif.Props.C122_env_run"
   ],
   "note": "C122_requests_run, C122_httpx_run and C122_env_run for runs, C122_requests, C122_httpx, C122_env, C122_metrics for files and C122_base64. That headers have distinct names is true of the dictionaries that both libraries give."
  },
  {
   "property": "C123",
   "status": "partial",
   "theorems": [
    "Verif.Props.C123_same_files_partial",
    "Verif.Props.C123_complete",
    "Verif.Props.C123_update_refuted",
    "Verif.Props.C123_fail_fast_refuted"
   ],
   "note": "C123_same_files_partial and C123_complete are full without -u and questions to the user, and with -f if every test is OK or accepted. Refuted for -u (C123_update_refuted) and for -f if tests fail (C123_fail_fast_refuted). The outputs that are merged after the last record are in C93"
  },
  {
   "property": "C124",
   "status": "proved",
   "theorems": [
    "Verif.Props.C124_ends",
    "Verif.Props.C124_exists"
   ],
   "note": "with the conditions of the statement: plain names that are not nested, SoundTree, no hanging test; C124_exists shows that fair executions exist; C123_update_refuted shows why -u is excluded"
  },
  {
   "property": "C125",
   "status": "proved",
   "theorems": [
    "Verif.Props.C125_same",
    "Verif.Props.C125_begins",
    "Verif.Props.C125_order",
    "Verif.Props.C125_option"
   ],
   "note": "with the conditions of the statement: plain names, different batch directories, SoundTree, no hanging test, nothing but operations of tests fails"
  },
  {
   "property": "C126",
   "status": "proved",
   "theorems": [
    "Verif.Props.C126_ends",
    "Verif.Props.C126_accept",
    "Verif.Props.C126_again",
    "Verif.Props.C126_forever"
   ],
   "note": "for plain names that are not nested, different batch directories and tests that can be repeated (C08), without which it is false by the refutations of C08 and C81"
  },
  {
   "property": "C127",
   "status": "partial",
   "theorems": [
    "Verif.Props.C127_calls",
    "Verif.Props.C127_same_values_partial",
    "Verif.Props.C127_ends_partial",
    "Verif.Props.C127_none_refuted"
   ],
   "note": "C127_same_values_partial and C127_ends_partial need tests with at most one depends_on (see C94_stacked_refuted), dependencies that the scheduler finds (see C34_inherited_refuted), and dependencies that return a value (C127_none_refuted)"
  },
  {
   "property": "C128",
   "status": "partial",
   "theorems": [
    "Verif.Props.C128_stored_values_partial",
    "Verif.Props.C128_any_cache_partial",
    "Verif.Props.C128_new_values_partial",
    "Verif.Props.C128_none_refuted"
   ],
   "note": "C128_stored_values_partial and C128_any_cache_partial need that nobody is asked, SoundTree, plain names, and that tests that others depend on return a value; C128_none_refuted shows that it is false for None with LruCache(8)"
  },
  {
   "property": "C129",
   "status": "partial",
   "theorems": [
    "Verif.Props.C129_same_files_partial",
    "Verif.Props.C129_complete",
    "Verif.Props.C129_ends",
    "Verif.Props.C129_exists"
   ],
   "note": "C129_same_files_partial, C129_complete and C129_ends need that nobody is asked, no -u (see C123_update_refuted), SoundTree, plain names that workers can tell apart, and that tests that others depend on return a value (see C127_none_refuted); C129_exists shows that fair executions exist"
  },
  {
   "property": "C130",
   "status": "partial",
   "theorems": [
    "Verif.Props.C130_values_partial",
    "Verif.Props.C130_same_partial",
    "Verif.Props.C130_option_partial",
    "Verif.Props.C130_none_refuted"
   ],
   "note": "C130_option_partial and C130_same_partial need that nobody is asked, no -u, SoundTree, plain names that workers can tell apart, tests with at most one depends_on (see C94_stacked_refuted), dependencies that the scheduler finds (see C34_inherited_refuted), and dependencies that return a value (C130_none_refuted); C130_values_partial needs no restriction on -u, -f or coverage"
  },
  {
   "property": "C131",
   "status": "proved",
   "theorems": [
    "Verif.Props.C131_again",
    "Verif.Props.C131_forever",
    "Verif.Props.C131_ends",
    "Verif.Props.C131_accept",
    "Verif.Props.C131_accept_ends"
   ],
   "note": "for plain names that are not nested, different batch directories, tests with at most one depends_on whose dependencies the scheduler finds and return a value (refuted otherwise: C94_stacked_refuted, C34_inherited_refuted, C130_none_refuted), and tests that can be repeated (C08)"
  },
  {
   "property": "C132",
   "status": "proved",
   "theorems": [
    "Verif.Props.C132_alone",
    "Verif.Props.C132_private",
    "Verif.Props.C132_again",
    "Verif.Props.C132_run",
    "Verif.Props.C132_accepted"
   ],
   "note": "A test uses its temporary files before its other calls; paths below the directory of temporary files only."
  },
  {
   "property": "C133",
   "status": "partial",
   "theorems": [
    "Verif.Props.C133_dialogue",
    "Verif.Props.C133_no_answer",
    "Verif.Props.C133_accepted_partial",
    "Verif.Props.C133_consent",
    "Verif.Props.C133_quit_refuted"
   ],
   "note": "C133_dialogue, C133_no_answer and C133_consent are full for plain names that are not nested and tests that touch files only through t.file. C133_accepted_partial needs that the user has not stopped the run and tests that can be repeated (see C08); refuted otherwise: with -I and q at a test that is OK the run ends with success though other tests have not been executed (C133_quit_refuted)"
  },
  {
   "property": "C134",
   "status": "proved",
   "theorems": [
    "Verif.Props.C134_review_later"
   ],
   "note": "for plain names that are not nested, tests that end and that touch files only through t.file; the review looks at the selected tests"
  },
  {
   "property": "C135",
   "status": "partial",
   "theorems": [
    "Verif.Props.C135_dialogue",
    "Verif.Props.C135_in_order",
    "Verif.Props.C135_order_refuted"
   ],
   "note": "C135_dialogue and C135_in_order are full for plain names that are not nested, different batch directories, tests that touch files only through t.file, without -a and -u, and if workers that may die before they open their report are not asked about (otherwise C118_early_refuted); that the order of the tests makes no difference is refuted (C135_order_refuted)"
  },
  {
   "property": "C136",
   "status": "partial",
   "theorems": [
    "Verif.Props.C136_needed",
    "Verif.Props.C136_run",
    "Verif.Props.C136_kept",
    "Verif.Props.C136_before",
    "Verif.Props.C136_clean",
    "Verif.Props.C136_reviews",
    "Verif.Props.C136_recorded_refuted"
   ],
   "note": "all theorems are full for commands without -p (runs with workers write the file when they end, see C125); that whatever has been recorded can be reviewed is refuted (C136_recorded_refuted); C136_clean is for projects in which no test has the name of metrics.json"
  },
  {
   "property": "C137",
   "status": "proved",
   "theorems": [
    "Verif.Props.C137_commands"
   ],
   "note": "for tests without dependencies, plain names that are not nested, tests that end and that touch files only through t.file"
  },
  {
   "property": "C138",
   "status": "proved",
   "theorems": [
    "Verif.Props.C138_no_answer",
    "Verif.Props.C138_review",
    "Verif.Props.C138_workers"
   ],
   "note": "C138_review is about any report; C138_workers is for tests without dependencies, plain names that are not nested and whose batches have different directories, tests that end and that touch files only through t.file, and fair schedules in which no process breaks"
  },
  {
   "property": "C139",
   "status": "partial",
   "theorems": [
    "Verif.Props.C139_review_partial",
    "Verif.Props.C139_workers_partial",
    "Verif.Props.C139_forever_partial",
    "Verif.Props.C139_accept_all"
   ],
   "note": "C139_review_partial, C139_workers_partial and C139_forever_partial (any further commands exit with 0, with workers or without) need tests that can be repeated (see C08); C139_accept_all does not. Tests without dependencies, plain names that are not nested and whose batches have different directories, tests that end and that touch files only through t.file, fair schedules in which no process breaks"
  },
  {
   "property": "C140",
   "status": "partial",
   "theorems": [
    "Verif.Props.C140_again_partial",
    "Verif.Props.C140_no_answer_partial",
    "Verif.Props.C140_sittings_partial",
    "Verif.Props.C140_run_partial"
   ],
   "note": "tests that can be repeated (see C08), reviews without -c, -I and -u (with -I or -u a test that was accepted before would be accepted again, but its output is gone), plain names that are not nested, tests that end and that touch files only through t.file. Sittings is about the records that the review before has left; that they are read back as they were written is C23"
  },
  {
   "property": "C141",
   "status": "partial",
   "theorems": [
    "Verif.Props.C141_reviews_partial",
    "Verif.Props.C141_workers_partial",
    "Verif.Props.C141_run_partial",
    "Verif.Props.C141_interrupted_refuted"
   ],
   "note": "as C140; tests without dependencies; with workers, batches that have different directories and fair schedules in which no process breaks. All reviews select the same tests as the run. C141_interrupted_refuted: after a review in which the lines end (or Ctrl-C) this does not hold"
  }
 ]
}