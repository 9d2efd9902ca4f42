{
 "claims": [
  {
   "property": "C01",
   "status": "proved",
   "theorems": [
    "Verif.RingBuffer.c01_history_refines_queue",
    "Verif.RingBuffer.c01_no_undefined_behaviour",
    "Verif.RingBuffer.c01_size_le_capacity"
   ],
   "note": "Whole histories over the public interface (including setCapacity) refine a bounded FIFO queue."
  },
  {
   "property": "C02",
   "status": "proved",
   "theorems": [
    "Verif.RingBuffer.c02_overwrite_discards_oldest",
    "Verif.RingBuffer.c02_no_overwrite_throws",
    "Verif.RingBuffer.c02_write_appends"
   ],
   "note": ""
  },
  {
   "property": "C03",
   "status": "proved",
   "theorems": [
    "Verif.RingBuffer.c03_setCapacity_keeps_newest"
   ],
   "note": ""
  },
  {
   "property": "C04",
   "status": "proved",
   "theorems": [
    "Verif.RingBuffer.c04_arrays_are_contents",
    "Verif.RingBuffer.c04_empty_ranges_are_free",
    "Verif.RingBuffer.c04_fakeWrite_is_writes",
    "Verif.RingBuffer.c04_bulk_write_appends",
    "Verif.RingBuffer.c04_fakeWrite_clamps",
    "Verif.RingBuffer.c04_skip_count"
   ],
   "note": "Pointer/size pairs are modelled as offsets into the vector."
  },
  {
   "property": "C05",
   "status": "proved",
   "theorems": [
    "Verif.RingBuffer.c05_iterators_traverse",
    "Verif.RingBuffer.c05_inc_dec_inverse",
    "Verif.RingBuffer.c05_random_access"
   ],
   "note": ""
  },
  {
   "property": "C06",
   "status": "proved",
   "theorems": [
    "Verif.Time.c06_normalize",
    "Verif.Time.c06_canonical_unique",
    "Verif.Time.c06_constructors_canonical"
   ],
   "note": ""
  },
  {
   "property": "C07",
   "status": "proved",
   "theorems": [
    "Verif.Time.c07_add",
    "Verif.Time.c07_sub",
    "Verif.Time.c07_sub_most_negative",
    "Verif.Time.c07_compare",
    "Verif.Time.c07_maxTime",
    "Verif.Time.c07_round_trip",
    "Verif.Time.c07_abs",
    "Verif.Time.c07_futureMSec"
   ],
   "note": ""
  },
  {
   "property": "C08",
   "status": "partial",
   "theorems": [
    "Verif.Time.c08_from",
    "Verif.Time.c08_to",
    "Verif.Time.c08_round_trip",
    "Verif.Time.c08_recompose_partial",
    "Verif.Time.c08_microSeconds_not_reduced"
   ],
   "note": "Conversions and round trips proved for all values. The recomposition from all seven parts is false (microSeconds() is not reduced modulo 1000, c08_microSeconds_not_reduced); the part up to seconds is proved."
  },
  {
   "property": "C09",
   "status": "proved",
   "theorems": [
    "Verif.Time.c09_calendar",
    "Verif.Time.c09_shortened",
    "Verif.Time.c09_format_calendar",
    "Verif.Time.c09_format_instant",
    "Verif.Time.c09_round_trip",
    "Verif.Time.c09_before_1970_wrong",
    "Verif.Time.c09_month_out_of_bounds",
    "Verif.Time.c09_year_loop"
   ],
   "note": ""
  },
  {
   "property": "C10",
   "status": "partial",
   "theorems": [
    "Verif.Time.c10_print_denotes_partial",
    "Verif.Time.c10_print_exact",
    "Verif.Time.c10_microseconds_wrong",
    "Verif.Time.c10_boundary_unit_wrong",
    "Verif.Time.c10_negative_wrong"
   ],
   "note": "The claim is false of the code; c10_print_denotes_partial is the exact characterisation for non-negative spans, with counterexamples for every failing case. c10_print_exact characterises the text for every value."
  },
  {
   "property": "C11",
   "status": "proved",
   "theorems": [
    "Verif.UnionFind.c11_find_iff_connected",
    "Verif.UnionFind.c11_out_of_range"
   ],
   "note": ""
  },
  {
   "property": "C12",
   "status": "proved",
   "theorems": [
    "Verif.UnionFind.c12_logarithmic_depth",
    "Verif.UnionFind.c12_find_idempotent"
   ],
   "note": ""
  },
  {
   "property": "C13",
   "status": "proved",
   "theorems": [
    "Verif.SequenceNumber.c13_increments",
    "Verif.SequenceNumber.c13_reaches_all"
   ],
   "note": ""
  },
  {
   "property": "C14",
   "status": "partial",
   "theorems": [
    "Verif.SequenceNumber.c14_circular_order_partial",
    "Verif.SequenceNumber.c14_lt_iff_even",
    "Verif.SequenceNumber.c14_increment_increases",
    "Verif.SequenceNumber.c14_derived",
    "Verif.SequenceNumber.c14_lt_exact",
    "Verif.SequenceNumber.c14_trichotomy_exact",
    "Verif.SequenceNumber.c14_increment_exact",
    "Verif.SequenceNumber.c14_half_way_wrong",
    "Verif.SequenceNumber.c14_odd_cycle_inconsistent",
    "Verif.SequenceNumber.c14_min_value_wrong"
   ],
   "note": "False at a distance of exactly half the cycle and for min_value != 0 (counterexamples); proved for every distance below half of the cycle. c14_lt_exact, c14_trichotomy_exact and c14_increment_exact give the exact range of validity."
  },
  {
   "property": "C15",
   "status": "partial",
   "theorems": [
    "Verif.Str.c15_split_exact",
    "Verif.Str.c15_split_join_iff",
    "Verif.Str.c15_join_split_exact",
    "Verif.Str.c15_overlap",
    "Verif.Str.c15_split_join",
    "Verif.Str.c15_join_split_partial",
    "Verif.Str.c15_join_split_iff",
    "Verif.Str.c15_trailing_delimiter_lost",
    "Verif.Str.c15_empty_delimiter_diverges",
    "Verif.Str.c15_split_of_join"
   ],
   "note": "join(split(s)) = s is violated (c15_trailing_delimiter_lost); c15_join_split_exact says exactly for which strings, for delimiters of any length (one character: c15_join_split_iff), c15_split_join_iff exactly which lists of fields survive join and split, c15_split_exact what split returns. With an empty delimiter split never ends (c15_empty_delimiter_diverges)."
  },
  {
   "property": "C16",
   "status": "partial",
   "theorems": [
    "Verif.Str.c16_trim_partial",
    "Verif.Str.c16_trim_unique",
    "Verif.Str.c16_trim_empty_ub"
   ],
   "note": "Proved for every non-empty string; the empty string is undefined behaviour in the code (c16_trim_empty_ub)."
  },
  {
   "property": "C17",
   "status": "proved",
   "theorems": [
    "Verif.Str.c17_pad"
   ],
   "note": ""
  },
  {
   "property": "C18",
   "status": "proved",
   "theorems": [
    "Verif.Small.c18_setRelation",
    "Verif.Small.c18_setRelation_complete"
   ],
   "note": ""
  },
  {
   "property": "C19",
   "status": "proved",
   "theorems": [
    "Verif.Small.c19_string2Enum",
    "Verif.Small.c19_string2Enum_vector",
    "Verif.Small.c19_unterminated"
   ],
   "note": ""
  },
  {
   "property": "C20",
   "status": "partial",
   "theorems": [
    "Verif.Small.c20_bits_partial",
    "Verif.Small.c20_wide_exact",
    "Verif.Small.c20_wide_types_lose_bits"
   ],
   "note": "Proved for all types of at most 32 bits; wider types lose bits (c20_wide_types_lose_bits). c20_wide_exact."
  },
  {
   "property": "C21",
   "status": "partial",
   "theorems": [
    "Verif.Small.Array2D.c21_invariant",
    "Verif.Small.Array2D.c21_no_aliasing",
    "Verif.Small.Array2D.c21_index_bijection",
    "Verif.Small.Array2D.c21_fill",
    "Verif.Small.Array2D.c21_resize_same_width_partial",
    "Verif.Small.Array2D.c21_resize_exact",
    "Verif.Small.Array2D.c21_resize_moves_cells",
    "Verif.Small.Array2D.c21_size_overflow"
   ],
   "note": "Addressing proved for all sizes; resize keeps cells only if the width stays (c21_resize_moves_cells). c21_resize_exact."
  },
  {
   "property": "C22",
   "status": "proved",
   "theorems": [
    "Verif.KeyValue.c22_map",
    "Verif.KeyValue.c22_iteration",
    "Verif.KeyValue.c22_step",
    "Verif.KeyValue.c22_next_past_end",
    "Verif.KeyValue.c22_match_positions",
    "Verif.KeyValue.c22_matchGroup",
    "Verif.KeyValue.c22_matchGroup_fresh",
    "Verif.KeyValue.c22_matchGroup_end",
    "Verif.KeyValue.c22_reset"
   ],
   "note": ""
  },
  {
   "property": "C23",
   "status": "proved",
   "theorems": [
    "Verif.Small.c23_nearest",
    "Verif.Small.c23_update_result"
   ],
   "note": ""
  },
  {
   "property": "C24",
   "status": "proved",
   "theorems": [
    "Verif.Small.c24_stack",
    "Verif.Small.c24_find"
   ],
   "note": ""
  },
  {
   "property": "C25",
   "status": "proved",
   "theorems": [
    "Verif.Small.Finalizable.c25_final",
    "Verif.Small.Finalizable.c25_copy"
   ],
   "note": ""
  },
  {
   "property": "C26",
   "status": "proved",
   "theorems": [
    "Verif.Small.c26_exactly_once",
    "Verif.Small.c26_not_before_destruction",
    "Verif.Small.c26_copy_runs_twice"
   ],
   "note": ""
  },
  {
   "property": "C27",
   "status": "partial",
   "theorems": [
    "Verif.Singleton.c27_single_instance",
    "Verif.Singleton.c27_no_deadlock",
    "Verif.Singleton.c27_single_threaded_model_unsafe",
    "Verif.Singleton.c27_destroy_race",
    "Verif.Singleton.c27_dead_reference",
    "Verif.Singleton.c27_call_after_destroy",
    "Verif.Singleton.c27_resurrection",
    "Verif.Singleton.c27_mutex_guard",
    "Verif.Singleton.c27_semaphore_guard_partial",
    "Verif.Singleton.c27_guard_keeps_lock",
    "Verif.Singleton.c27_semaphore_interrupted"
   ],
   "note": "Proved for the lock as such, for the mutex threading model with failing lock() calls, and for the semaphore threading model without signals. With the semaphore model a signal during the wait breaks it: c27_semaphore_interrupted."
  },
  {
   "property": "C28",
   "status": "proved",
   "theorems": [
    "Verif.Sha2.c28_sha256",
    "Verif.Sha2.c28_sha224",
    "Verif.Sha2.c28_padding_least"
   ],
   "note": ""
  },
  {
   "property": "C29",
   "status": "proved",
   "theorems": [
    "Verif.Sha2.c29_sha512",
    "Verif.Sha2.c29_sha384"
   ],
   "note": ""
  },
  {
   "property": "C30",
   "status": "proved",
   "theorems": [
    "Verif.Sha2.c30_chunking32",
    "Verif.Sha2.c30_chunking64",
    "Verif.Sha2.c30_reuse32",
    "Verif.Sha2.c30_reuse64"
   ],
   "note": ""
  },
  {
   "property": "C31",
   "status": "partial",
   "theorems": [
    "Verif.Scheme.c31_accepts_grammar",
    "Verif.Scheme.c31_unambiguous",
    "Verif.Scheme.c31_print_partial",
    "Verif.Scheme.c31_print_exact",
    "Verif.Scheme.c31_print_iff",
    "Verif.Scheme.c31_anchor_and_query_do_not_survive",
    "Verif.Scheme.c31_previous_parts_remain",
    "Verif.Scheme.c31_rejected_leaves_parts",
    "Verif.Scheme.c31_nul_cuts"
   ],
   "note": "Acceptance = grammar proved for every string. Re-assembly fails with both anchor and query, and stale parts of the output object remain (counterexamples). The printed text is known exactly for every accepted string (c31_print_exact, c31_print_iff)."
  },
  {
   "property": "C32",
   "status": "partial",
   "theorems": [
    "Verif.AT.c32_get_after_set_partial",
    "Verif.AT.c32_get_after_set_reserved",
    "Verif.AT.c32_get_after_reset",
    "Verif.AT.c32_isAttribute",
    "Verif.AT.c32_isAttribute_after_set",
    "Verif.AT.c32_get_or_set_default",
    "Verif.AT.c32_get_or_set_default_new",
    "Verif.AT.c32_reserved_names",
    "Verif.AT.c32_virtual_get_after_set",
    "Verif.AT.c32_reserved_suffix_fails",
    "Verif.AT.c32_empty_component_fails",
    "Verif.AT.c32_get_on_empty_tree_is_undefined"
   ],
   "note": "Proved for every path without reserved last component; reserved suffixes and NULL-children reads are refuted. For reserved names the result is known exactly (c32_get_after_set_reserved)."
  },
  {
   "property": "C33",
   "status": "partial",
   "theorems": [
    "Verif.AT.c33_get_is_lookup",
    "Verif.AT.c33_stored_is_found",
    "Verif.AT.c33_get_undefined_iff",
    "Verif.AT.c33_set_changes_one_path",
    "Verif.AT.c33_other_values_stay_partial",
    "Verif.AT.c33_unchanged_when_defined",
    "Verif.AT.c33_set_can_make_get_undefined"
   ],
   "note": "The stored attribute changes at exactly one path (full). getAttribute(q) may become undefined through a NULL child list (c33_set_can_make_get_undefined)."
  },
  {
   "property": "C34",
   "status": "proved",
   "theorems": [
    "Verif.AT.c34_changed_iff",
    "Verif.AT.c34_changed_iff_different",
    "Verif.AT.c34_unmark",
    "Verif.AT.c34_null_marks_changed"
   ],
   "note": ""
  },
  {
   "property": "C35",
   "status": "partial",
   "theorems": [
    "Verif.AT.Round.c35_exact",
    "Verif.AT.Round.c35_exact_braced",
    "Verif.AT.Round.c35_exact_small",
    "Verif.AT.Round.c35_round_trip_iff",
    "Verif.AT.Round.c35_twins",
    "Verif.AT.c35_roundtrip_partial",
    "Verif.AT.c35_values_survive_partial",
    "Verif.AT.c35_small_tree_fails",
    "Verif.AT.c35_empty_attribute_fails",
    "Verif.AT.c35_nested_comment_fails",
    "Verif.AT.c35_unterminated_line_ignored",
    "Verif.AT.c35_long_line_never_returns",
    "Verif.AT.c35_open_comment_never_returns"
   ],
   "note": "Round trip proved for every good tree; small trees, empty attributes, nested comments and over-long lines are refuted. The effect of saving and loading is known exactly for every tree without comments, equal siblings included (c35_exact, c35_exact_braced, c35_exact_small), and c35_round_trip_iff says exactly which trees survive."
  },
  {
   "property": "C36",
   "status": "partial",
   "theorems": [
    "Verif.AT.c36_copy_partial",
    "Verif.AT.c36_copy_unchanged",
    "Verif.AT.c36_uniq_of_sets",
    "Verif.AT.c36_copy_fails_with_duplicates",
    "Verif.AT.c36_copy_exact",
    "Verif.AT.c36_copy_twice",
    "Verif.AT.c36_revert"
   ],
   "note": "Proved for trees without duplicate siblings (all trees built with setAttribute, c36_uniq_of_sets); duplicates refuted. The effect on duplicates is known exactly (c36_copy_exact, c36_copy_twice)."
  },
  {
   "property": "C37",
   "status": "partial",
   "theorems": [
    "Verif.FP.c37_normalize_terminates",
    "Verif.FP.c37_normalize_length",
    "Verif.FP.c37_init_terminates",
    "Verif.FP.c37_stays_absolute",
    "Verif.FP.c37_normalize_resolves_partial",
    "Verif.FP.c37_normalize_idempotent_partial",
    "Verif.FP.c37_above_root_duplicates",
    "Verif.FP.c37_not_idempotent",
    "Verif.FP.c37_relative_up_lost",
    "Verif.FP.c37_double_slash_wrong",
    "Verif.FP.c37_drive_not_resolved",
    "Verif.FP.c37_path_name",
    "Verif.FP.c37_extension_partial",
    "Verif.FP.c37_extension_of_directory",
    "Verif.FP.c37_extension_throws",
    "Verif.FP.c37_absolute_name",
    "Verif.FP.c37_replaceEnvironment_partial",
    "Verif.FP.c37_self_reference_never_returns",
    "Verif.FP.c37_replaceEnvironment_substitutes_partial",
    "Verif.FP.c37_absolute_file_partial",
    "Verif.FP.c37_relative_file_partial",
    "Verif.FP.c37_backslashes",
    "Verif.FP.c37_root_double_slash"
   ],
   "note": "Termination, splitting and absolute names proved for every string; normalisation resolves '.'/'..' on paths that stay below the root; above-root, double-slash and relative cases refuted."
  },
  {
   "property": "C38",
   "status": "proved",
   "theorems": [
    "Verif.Getopt.c38_partition",
    "Verif.Getopt.c38_unique",
    "Verif.Getopt.c38_classifies",
    "Verif.Getopt.c38_fails_iff",
    "Verif.Getopt.c38_exits_iff",
    "Verif.Getopt.c38_strict_rejects_unknown",
    "Verif.Getopt.c38_relaxed_fails_only_without_value",
    "Verif.Getopt.c38_positional_order",
    "Verif.Getopt.c38_extra_parameters",
    "Verif.Getopt.c38_missing_long_value_is_empty",
    "Verif.Getopt.c38_value_syntax",
    "Verif.Getopt.c38_lists",
    "Verif.Getopt.c38_long_value_not_taken_from_next",
    "Verif.Getopt.c38_shorter_prefix_wins",
    "Verif.Getopt.c38_second_call_accumulates"
   ],
   "note": ""
  },
  {
   "property": "C39",
   "status": "partial",
   "theorems": [
    "Verif.Getopt.c39_cleanup_terminates",
    "Verif.Getopt.c39_no_cleanup",
    "Verif.Getopt.c39_cleanup_keeps_nonoptions",
    "Verif.Getopt.c39_cleanup_exact_partial",
    "Verif.Getopt.c39_cleanup_iff",
    "Verif.Getopt.c39_equal_text_is_kept"
   ],
   "note": "Exact unless a consumed argument has the same text as a non-option (c39_equal_text_is_kept). c39_cleanup_iff: exactly which values are kept."
  },
  {
   "property": "C40",
   "status": "proved",
   "theorems": [
    "Verif.Cfg.c40_document_texts",
    "Verif.Cfg.c40_xml_file",
    "Verif.Cfg.c40_tree_attributes",
    "Verif.Cfg.c40_tree_file",
    "Verif.Cfg.c40_load_terminates",
    "Verif.Cfg.c40_self_include_never_returns",
    "Verif.Cfg.c40_file_without_dot_throws",
    "Verif.Cfg.c40_precedence",
    "Verif.Cfg.c40_registered",
    "Verif.Cfg.c40_get",
    "Verif.Cfg.c40_initialize_once",
    "Verif.Cfg.c40_from_arguments"
   ],
   "note": "Holds whenever initialize() returns true; a self-including file never returns and a file name without a dot throws (proved as findings)."
  },
  {
   "property": "C41",
   "status": "partial",
   "theorems": [
    "Verif.Cfg.c41_set_notifies_partial",
    "Verif.Cfg.c41_set_configfile_notifies",
    "Verif.Cfg.c41_initialize_notifies",
    "Verif.Cfg.c41_no_other_calls",
    "Verif.Cfg.c41_silent_after_unregister",
    "Verif.Cfg.c41_register_all",
    "Verif.Cfg.c41_register_key",
    "Verif.Cfg.c41_empty_key_notified_twice",
    "Verif.Cfg.c41_insert_is_silent",
    "Verif.Cfg.c41_registration_key_is_a_pattern"
   ],
   "note": "Proved for setValue of every key except that /configfile reloads files; insert() does not notify and the registration key is a pattern (findings)."
  },
  {
   "property": "C42",
   "status": "partial",
   "theorems": [
    "Verif.Cfg.c42_param_opt_bool_absent",
    "Verif.Cfg.c42_get_bool",
    "Verif.Cfg.c42_strict_bool_cast",
    "Verif.Cfg.c42_bool_cast",
    "Verif.Cfg.c42_consistent_partial",
    "Verif.Cfg.c42_white_space_differs",
    "Verif.Cfg.c42_param_opt_bool_reads_yes_as_false",
    "Verif.Cfg.c42_set_get_bool"
   ],
   "note": "get<bool> characterised for every string; the batch functions differ on values with white space (c42_white_space_differs)."
  },
  {
   "property": "C43",
   "status": "proved",
   "theorems": [
    "Verif.Logging.c43_delivery",
    "Verif.Logging.c43_only_log",
    "Verif.Logging.c43_mute"
   ],
   "note": ""
  },
  {
   "property": "C44",
   "status": "proved",
   "theorems": [
    "Verif.Logging.c44_no_overflow",
    "Verif.Logging.c44_messages",
    "Verif.Logging.c44_newline"
   ],
   "note": ""
  },
  {
   "property": "C45",
   "status": "partial",
   "theorems": [
    "Verif.Logging.Pool.c45_exclusive_partial",
    "Verif.Logging.Pool.c45_no_leak_partial",
    "Verif.Logging.Pool.c45_text_partial",
    "Verif.Logging.Pool.c45_one_message_each",
    "Verif.Logging.Pool.c45_delivery_partial",
    "Verif.Logging.Pool.c45_flush_race",
    "Verif.Logging.Pool.c45_flush_race_mixes",
    "Verif.Logging.Pool.c45_nested_shared",
    "Verif.Logging.Pool.c45_nested_shared_holds"
   ],
   "note": "Exclusive ownership proved without same-level nesting; text integrity proved outside the flush window; both gaps refuted by concrete schedules."
  },
  {
   "property": "C46",
   "status": "partial",
   "theorems": [
    "Verif.Logging.Worker.c46_fifo",
    "Verif.Logging.Worker.c46_shutdown_partial",
    "Verif.Logging.Worker.c46_snap",
    "Verif.Logging.Worker.c46_progress_partial",
    "Verif.Logging.Worker.c46_shutdown_returns_partial",
    "Verif.Logging.Worker.c46_interrupted_push",
    "Verif.Logging.Worker.c46_interrupted_shutdown",
    "Verif.Logging.Worker.c46_push_after_drain"
   ],
   "note": "Order and at-most-once for every schedule; completeness provided no semaphore wait is interrupted (c46_interrupted_*)."
  },
  {
   "property": "C47",
   "status": "partial",
   "theorems": [
    "Verif.Logging.Worker.c47_no_lost_wakeup_partial",
    "Verif.Logging.Worker.c47_interrupted"
   ],
   "note": "Provided no semaphore wait is interrupted (c47_interrupted)."
  },
  {
   "property": "C48",
   "status": "proved",
   "theorems": [
    "Verif.Logging.FixedQueue.c48_fixed_queue",
    "Verif.Logging.FixedQueue.c48_size_one_drops_all"
   ],
   "note": ""
  },
  {
   "property": "C49",
   "status": "partial",
   "theorems": [
    "Verif.Logging.Format.c49_exact",
    "Verif.Logging.Format.c49_render_exact",
    "Verif.Logging.Format.c49_render_partial",
    "Verif.Logging.Format.c49_grammar",
    "Verif.Logging.Format.c49_dangling",
    "Verif.Logging.Format.c49_overflow",
    "Verif.Logging.Format.c49_terminates",
    "Verif.Logging.Format.c49_empty",
    "Verif.Logging.Format.c49_width_ignored"
   ],
   "note": "Rendering proved for well-formed formats with texts below 100 characters; dangling '~', overflow and the ignored width are refuted. Termination proved for all strings. The outcome of every format string and of every message is known exactly (c49_exact, c49_render_exact)."
  },
  {
   "property": "C50",
   "status": "proved",
   "theorems": [
    "Verif.Logging.c50_stringToLogLevel",
    "Verif.Logging.c50_roundtrip",
    "Verif.Logging.c50_out_of_range"
   ],
   "note": ""
  },
  {
   "property": "C51",
   "status": "proved",
   "theorems": [
    "Verif.SpinLock.c51_mutual_exclusion",
    "Verif.SpinLock.c51_progress"
   ],
   "note": ""
  },
  {
   "property": "C52",
   "status": "partial",
   "theorems": [
    "Verif.SpinLock.c52_inverted_reading_partial",
    "Verif.SpinLock.c52_result_inverted",
    "Verif.SpinLock.c52_two_inside",
    "Verif.SpinLock.c52_lock_lost"
   ],
   "note": "The documented result is inverted in the code (c52_result_inverted); mutual exclusion proved for clients that read it inverted."
  },
  {
   "property": "C53",
   "status": "proved",
   "theorems": [
    "Verif.RWLock.c53_exclusion",
    "Verif.RWLock.c53_readers_registered"
   ],
   "note": ""
  },
  {
   "property": "C54",
   "status": "partial",
   "theorems": [
    "Verif.RWLock.c54_exact",
    "Verif.RWLock.c54_lost_for_ever",
    "Verif.RWLock.c54_recovers_partial",
    "Verif.RWLock.c54_writer_lost"
   ],
   "note": "Proved if only waits for writers time out; a time-out while waiting for readers loses the lock (c54_writer_lost). c54_exact: exactly who can still get the write lock after time-outs; c54_lost_for_ever."
  },
  {
   "property": "C55",
   "status": "proved",
   "theorems": [
    "Verif.Scoped.c55_balanced",
    "Verif.Scoped.c55_terminates"
   ],
   "note": ""
  },
  {
   "property": "C56",
   "status": "partial",
   "theorems": [
    "Verif.ActiveObject.c56_in_order_once",
    "Verif.ActiveObject.c56_deleted_once",
    "Verif.ActiveObject.c56_worker_blocks_only_waiting",
    "Verif.ActiveObject.c56_no_lost_wakeup",
    "Verif.ActiveObject.c56_all_disposed_partial",
    "Verif.ActiveObject.c56_leak",
    "Verif.ActiveObject.c56_drain_race",
    "Verif.ActiveObject.c56_stop_wakes",
    "Verif.ActiveObject.c56_base_stop_hangs",
    "Verif.ActiveObject.c56_rejected_before_start"
   ],
   "note": "Order, at-most-once, single deletion and wake-ups proved for every schedule; an operation queued after the final drain leaks (c56_leak)."
  },
  {
   "property": "C57",
   "status": "proved",
   "theorems": [
    "Verif.Dispatch.c57_cycles",
    "Verif.Dispatch.c57_all_operations",
    "Verif.Dispatch.c57_stop",
    "Verif.Dispatch.c57_terminates"
   ],
   "note": ""
  },
  {
   "property": "C58",
   "status": "partial",
   "theorems": [
    "Verif.Perf.c58_statistics_exact",
    "Verif.Perf.c58_statistics_no_clash",
    "Verif.Perf.c58_statistics_at_least",
    "Verif.Perf.c58_measurement",
    "Verif.Perf.c58_startStop",
    "Verif.Perf.c58_report_exact",
    "Verif.Perf.c58_report_other_prefix",
    "Verif.Perf.c58_enabled",
    "Verif.Perf.c58_disabled_records_nothing",
    "Verif.Perf.c58_statistics_partial",
    "Verif.Perf.c58_statistics_unique",
    "Verif.Perf.c58_report_partial",
    "Verif.Perf.c58_names_collide",
    "Verif.Perf.c58_report_of_prefix_with_colon",
    "Verif.Perf.c58_summary_without_samples",
    "Verif.Perf.c58_switched_off_records"
   ],
   "note": "Statistics proved for every history whose prefixes contain no '::' and do not end with ':' (otherwise names collide, c58_names_collide); no samples is undefined. For all prefixes and names, c58_statistics_exact / c58_report_exact give the exact result: the samples of the text 'prefix::name'."
  },
  {
   "property": "C59",
   "status": "partial",
   "theorems": [
    "Verif.Plugin.c59_plugin",
    "Verif.Plugin.c59_plugin_stable",
    "Verif.Plugin.c59_create",
    "Verif.Plugin.c59_available_complete",
    "Verif.Plugin.c59_available_partial",
    "Verif.Plugin.c59_plugins_partial",
    "Verif.Plugin.c59_create_is_new",
    "Verif.Plugin.c59_create_is_not_shared",
    "Verif.Plugin.c59_lookup_adds_null",
    "Verif.Plugin.c59_create_adds_identifier",
    "Verif.Plugin.c59_listed_twice",
    "Verif.Plugin.c59_duplicate_is_leaked",
    "Verif.Plugin.c59_destructor_use_after_free",
    "Verif.Plugin.c59_destructor_fails_after_use",
    "Verif.Plugin.c59_destructor_does_not_end",
    "Verif.Plugin.c59_destructor_unopened",
    "Verif.Plugin.c59_destructor_partial"
   ],
   "note": "plugin()/createPluginInstance results proved for all histories; the listings only if no unknown identifier was looked up (findings); the destructor is refuted."
  },
  {
   "property": "C60",
   "status": "proved",
   "theorems": [
    "Verif.Time.c60_absolute",
    "Verif.Time.c60_relative",
    "Verif.Time.c60_round_trip"
   ],
   "note": ""
  },
  {
   "property": "C61",
   "status": "proved",
   "theorems": [
    "Verif.Thread.c61_join",
    "Verif.Thread.c61_stop_not_lost",
    "Verif.Thread.c61_one_run",
    "Verif.Thread.c61_cancel_join_still_running",
    "Verif.Thread.c61_cancel_poisons"
   ],
   "note": ""
  },
  {
   "property": "C62",
   "status": "partial",
   "theorems": [
    "Verif.Thread.c62_wait_exact",
    "Verif.Thread.c62_wait_again",
    "Verif.Thread.c62_wait_partial",
    "Verif.Thread.c62_wait_returns_false"
   ],
   "note": "run() is over when wait() returns (proved); the returned value can be false (c62_wait_returns_false). c62_wait_exact: exactly when false is returned; c62_wait_again."
  },
  {
   "property": "C63",
   "status": "partial",
   "theorems": [
    "Verif.Thread.c63_only_last_message",
    "Verif.Thread.c63_never_joined",
    "Verif.Thread.c63_leaked_for_ever",
    "Verif.Thread.c63_no_use_after_free_partial",
    "Verif.Thread.c63_use_after_free",
    "Verif.Thread.c63_thread_leaked"
   ],
   "note": "Proved without trace logging and without cancel(); both refuted otherwise. c63_only_last_message, c63_never_joined, c63_leaked_for_ever: exactly what happens after the destructor and which OS threads are never joined."
  },
  {
   "property": "C64",
   "status": "proved",
   "theorems": [
    "Verif.Periodic.c64_sleeps",
    "Verif.Periodic.c64_monotone_clock",
    "Verif.Periodic.c64_terminates",
    "Verif.Periodic.c64_clock_set_back_while_sleeping"
   ],
   "note": ""
  },
  {
   "property": "C65",
   "status": "partial",
   "theorems": [
    "Verif.Logging.c65_integers",
    "Verif.Logging.c65_double_partial",
    "Verif.Logging.c65_double_overread",
    "Verif.Logging.c65_double_overread_all",
    "Verif.Logging.c65_double_boundary",
    "Verif.Logging.c65_double_exact"
   ],
   "note": "Integers: full. Doubles: c65_double_exact says exactly which values are written completely (integer part below 10^92, 10^91 if negative) and which overread the buffer (c65_double_overread_all)."
  },
  {
   "property": "C66",
   "status": "partial",
   "theorems": [
    "Verif.Logging.c66_setLogLevel_partial",
    "Verif.Logging.c66_default_output_ignored"
   ],
   "note": "Every stream and configured output gets the level; the default output does not (c66_default_output_ignored)."
  },
  {
   "property": "C67",
   "status": "partial",
   "theorems": [
    "Verif.Cfg.c67_decimal",
    "Verif.Cfg.c67_hexadecimal",
    "Verif.Cfg.c67_octal",
    "Verif.Cfg.c67_set_get",
    "Verif.Cfg.c67_missing",
    "Verif.Cfg.c67_never_fails",
    "Verif.Cfg.c67_odd_numbers",
    "Verif.Cfg.c67_blank_is_undefined"
   ],
   "note": "Reading back and the three notations are proved for all values; failure reporting is refuted (c67_never_fails, c67_blank_is_undefined)."
  },
  {
   "property": "C68",
   "status": "partial",
   "theorems": [
    "Verif.Cfg.c68_batch",
    "Verif.Cfg.c68_prefix",
    "Verif.Cfg.c68_array",
    "Verif.Cfg.c68_empty_list_fails"
   ],
   "note": "Proved for all batches except that the list version returns false for the empty batch (c68_empty_list_fails)."
  },
  {
   "property": "C69",
   "status": "proved",
   "theorems": [
    "Verif.Time.c69_text_order"
   ],
   "note": ""
  },
  {
   "property": "C70",
   "status": "partial",
   "theorems": [
    "Verif.Logging.File.c70_nothing_lost_partial",
    "Verif.Logging.File.c70_files_by_day_partial",
    "Verif.Logging.File.c70_deletion",
    "Verif.Logging.File.c70_archive_name",
    "Verif.Logging.File.c70_archives_sort",
    "Verif.Logging.File.c70_clock_set_back_loses_lines",
    "Verif.Logging.File.c70_failed_compression_loses_lines",
    "Verif.Logging.File.c70_deletes_other_files",
    "Verif.Logging.File.c70_no_directory_no_deletion"
   ],
   "note": "Proved for every history with a clock that never goes back and a file that can be opened (and compressed); refuted for a clock set back over midnight, failed compression, and files of other programs with the same name prefix."
  },
  {
   "property": "C71",
   "status": "partial",
   "theorems": [
    "Verif.Logging.Udp.c71_record_partial",
    "Verif.Logging.Udp.c71_escape_does_nothing",
    "Verif.Logging.Udp.c71_forged_record",
    "Verif.Logging.Udp.c71_apostrophe_loses_message",
    "Verif.Logging.Udp.c71_record_iff"
   ],
   "note": "Proved for messages whose texts contain no apostrophe; refuted otherwise: escape() changes nothing, a text can forge records, and a text like \"don't\" loses the message. SQLite is represented by a small reader of SQL value lists. The condition is exact (c71_record_iff)."
  },
  {
   "property": "C72",
   "status": "partial",
   "theorems": [
    "Verif.Config.CList.c72_further_call_exact",
    "Verif.Config.CList.c72_history_exact",
    "Verif.Config.CList.c72_result_partial",
    "Verif.Config.CList.c72_elements_partial",
    "Verif.Config.CList.c72_failure_writes_nothing",
    "Verif.Config.CList.c72_prefix_is_regex",
    "Verif.Config.CList.c72_trailing_slash",
    "Verif.Config.CList.c72_second_call",
    "Verif.Config.CList.c72_stale_elements"
   ],
   "note": "Proved for prefixes without special characters of regular expressions and keys without empty name or suffix; refuted for a dot in the prefix and for a second call. Further calls on the same object are known exactly, for all prefixes and keys (c72_further_call_exact, c72_history_exact)."
  },
  {
   "property": "C73",
   "status": "partial",
   "theorems": [
    "Verif.Logging.Manager.c73_connections_exact",
    "Verif.Logging.Manager.c73_output_exact",
    "Verif.Logging.Manager.c73_streams",
    "Verif.Logging.Manager.c73_outputs",
    "Verif.Logging.Manager.c73_output_class",
    "Verif.Logging.Manager.c73_connections_partial",
    "Verif.Logging.Manager.c73_only_configured",
    "Verif.Logging.Manager.c73_default_output",
    "Verif.Logging.Manager.c73_same_name",
    "Verif.Logging.Manager.c73_quick_debug_name",
    "Verif.Logging.Manager.c73_quick_debug_twice",
    "Verif.Logging.Manager.c73_quick_debug"
   ],
   "note": "Two entries without a Name and with the same class share one output, with the first entry's level and both stream lists (c73_same_name); a second initialize() with --quick-debug attaches a second output (c73_quick_debug_twice). The connection theorem therefore assumes different names."
  },
  {
   "property": "C74",
   "status": "partial",
   "theorems": [
    "Verif.Logging.Manager.c74_last_exists",
    "Verif.Logging.Manager.c74_stream_level_last",
    "Verif.Logging.Manager.c74_command_line",
    "Verif.Logging.Manager.c74_stream_level_exact",
    "Verif.Logging.Manager.c74_stream_level_partial",
    "Verif.Logging.Manager.c74_output_level_exact",
    "Verif.Logging.Manager.c74_output_level_partial",
    "Verif.Logging.Manager.c74_set_level",
    "Verif.Logging.Manager.c74_stream_default",
    "Verif.Logging.Manager.c74_output_default",
    "Verif.Logging.Manager.c74_set_level_default_output"
   ],
   "note": "An entry without a legal LogLevel gives Trace, not the default Info, because the configuration structs are value-initialised (c74_stream_default, c74_output_default); setLogLevel leaves the default output as it is (c74_set_level_default_output)."
  },
  {
   "property": "C75",
   "status": "partial",
   "theorems": [
    "Verif.Logging.Manager.c75_no_dangling_partial",
    "Verif.Logging.Manager.c75_outputs_alive_partial",
    "Verif.Logging.Manager.c75_first_use",
    "Verif.Logging.Manager.c75_shutdown_at_end",
    "Verif.Logging.Manager.c75_use_after_shutdown",
    "Verif.Logging.Manager.c75_init_after_shutdown",
    "Verif.Logging.Manager.c75_exact"
   ],
   "note": "Violated by the code: m_instance is never reset, so every use of a stream after shutdown(), and every initialize() after it, touches deleted streams (c75_use_after_shutdown, c75_init_after_shutdown). Exactly the histories that are safe: c75_exact."
  },
  {
   "property": "C76",
   "status": "partial",
   "theorems": [
    "Verif.Logging.Record.c76_record_partial",
    "Verif.Logging.Record.c76_long_names",
    "Verif.Logging.Record.c76_setters_safe",
    "Verif.Logging.Record.c76_not_reset",
    "Verif.Logging.Record.c76_uninitialised",
    "Verif.Logging.Record.c76_no_line"
   ],
   "note": "Names longer than 256 (1024) characters are copied without a terminator and read beyond the end of their array (c76_long_names); names are not reset by flush() as documented (c76_not_reset); file and object name are uninitialised in a new thread stream (c76_uninitialised)."
  },
  {
   "property": "C77",
   "status": "partial",
   "theorems": [
    "Verif.Logging.Sqlite.c77_nothing_lost_partial",
    "Verif.Logging.Sqlite.c77_archive_days_partial",
    "Verif.Logging.Sqlite.c77_one_run_one_day",
    "Verif.Logging.Sqlite.c77_archive_name",
    "Verif.Logging.Sqlite.c77_restart_mixes_days",
    "Verif.Logging.Sqlite.c77_midnight_loses",
    "Verif.Logging.Sqlite.c77_clock_back_loses"
   ],
   "note": "Rows are lost when midnight falls between the two clock readings or the clock is set back (c77_midnight_loses, c77_clock_back_loses); archives are named by the day after (c77_archive_name) and mix days after a restart (c77_restart_mixes_days)."
  },
  {
   "property": "C78",
   "status": "partial",
   "theorems": [
    "Verif.AT.c78_unused_partial",
    "Verif.AT.c78_next_number",
    "Verif.AT.c78_first_number",
    "Verif.AT.c78_buffer_overflow",
    "Verif.AT.c78_all_digits_undefined",
    "Verif.AT.c78_number_too_large",
    "Verif.AT.c78_duplicate",
    "Verif.AT.c78_octal_and_sign",
    "Verif.AT.c78_add_new",
    "Verif.AT.c78_add_new_to_leaf_undefined"
   ],
   "note": "Partial: c78_unused_partial excludes numbers from 100000 on, where the code stops checking (c78_duplicate). The code also leaves its buffer: c78_all_digits_undefined (reads before it), c78_buffer_overflow (writes behind it)."
  },
  {
   "property": "C79",
   "status": "proved",
   "theorems": [
    "Verif.ATHeap.c79_legal_calls",
    "Verif.ATHeap.c79_calls_unique",
    "Verif.ATHeap.c79_forest",
    "Verif.ATHeap.c79_objects",
    "Verif.ATHeap.c79_iterate",
    "Verif.ATHeap.c79_parent",
    "Verif.ATHeap.c79_root",
    "Verif.ATHeap.c79_get",
    "Verif.ATHeap.c79_no_leak",
    "Verif.ATHeap.c79_add_to_leaf_undefined",
    "Verif.ATHeap.c79_use_after_delete",
    "Verif.ATHeap.c79_add_twice_double_delete",
    "Verif.ATHeap.c79_add_below_itself_loops",
    "Verif.ATHeap.c79_unlinkSub_leaks"
   ],
   "note": "Illegal calls are shown to go wrong: adding a linked tree leads to a double delete, adding below itself makes root() loop, adding to a tree without subtrees dereferences NULL. unlinkSub leaks its list entries. Attributes and the char arrays are not on the modelled heap."
  },
  {
   "property": "C80",
   "status": "partial",
   "theorems": [
    "Verif.AT.c80_search_first",
    "Verif.AT.c80_search_null",
    "Verif.AT.c80_search_no_description",
    "Verif.AT.c80_comment_round_trip",
    "Verif.AT.c80_comment_touches_nothing_else",
    "Verif.AT.c80_comment_removed_partial",
    "Verif.AT.c80_removed_comment_shows_next",
    "Verif.AT.c80_removed_comment_breaks_print",
    "Verif.AT.c80_append_joins",
    "Verif.AT.c80_append_effect",
    "Verif.AT.c80_append_description"
   ],
   "note": "Search, setting comments and appending proved for all trees; removing a comment only for at most one comment node (c80_removed_comment_shows_next), and a tree whose comment was removed can no longer be printed (c80_removed_comment_breaks_print)."
  },
  {
   "property": "C81",
   "status": "proved",
   "theorems": [
    "Verif.Cfg.c81_read",
    "Verif.Cfg.c81_uninitialised_irrelevant",
    "Verif.Cfg.c81_round_trip",
    "Verif.Cfg.c81_default",
    "Verif.Cfg.c81_default_hides_mistakes",
    "Verif.Cfg.c81_failed_read_keeps_text",
    "Verif.Cfg.c81_member_enum_agrees"
   ],
   "note": "ConfigEnumDefault reports success and uses the default for a configured text that is no name (c81_default_hides_mistakes)."
  },
  {
   "property": "C82",
   "status": "proved",
   "theorems": [
    "Verif.Logging.ScopedTimer.c82_lines",
    "Verif.Logging.ScopedTimer.c82_final_once",
    "Verif.Logging.ScopedTimer.c82_clock_back",
    "Verif.Logging.ScopedTimer.c82_copy_reports_twice"
   ],
   "note": "Full for every single timer; a copied timer reports twice (c82_copy_reports_twice), a clock set back gives a negative number (c82_clock_back)."
  },
  {
   "property": "C83",
   "status": "partial",
   "theorems": [
    "Verif.Time.Sleep.c83_win32_nanosleep",
    "Verif.Time.Sleep.c83_win32_sleep",
    "Verif.Time.Sleep.c83_win32_usleep",
    "Verif.Time.Sleep.c83_win32_duration_partial",
    "Verif.Time.Sleep.c83_win32_retry_never_ends",
    "Verif.Time.Sleep.c83_win32_long_requests",
    "Verif.Time.Sleep.c83_lxrt_nanosleep",
    "Verif.Time.Sleep.c83_lxrt_sleep",
    "Verif.Time.Sleep.c83_lxrt_usleep"
   ],
   "note": "Violated by the code, and characterised for all requests: on Windows the clock readings are null time stamps, so success is reported only up to 1 ms (c83_win32_nanosleep, c83_win32_sleep, c83_win32_usleep) and the retry loop never ends (c83_win32_retry_never_ends); under LXRT nanosleep takes seconds for milliseconds and sleep overflows from 5 s on. Only the duration below 49 days on Windows and LXRT usleep hold."
  },
  {
   "property": "C84",
   "status": "partial",
   "theorems": [
    "Verif.Conc.TimedWait.c84_posix",
    "Verif.Conc.TimedWait.c84_win32_relative_exact",
    "Verif.Conc.TimedWait.c84_win32_relative_partial",
    "Verif.Conc.TimedWait.c84_win32_absolute_partial",
    "Verif.Conc.TimedWait.c84_win32_negative",
    "Verif.Conc.TimedWait.c84_win32_long",
    "Verif.Conc.TimedWait.c84_darwin_sem_partial",
    "Verif.Conc.TimedWait.c84_darwin_sem_absolute_partial",
    "Verif.Conc.TimedWait.c84_darwin_sem_far",
    "Verif.Conc.TimedWait.c84_darwin_sem_negative",
    "Verif.Conc.TimedWait.c84_darwin_poll"
   ],
   "note": "POSIX and the Darwin polling loops: full. Windows: exact characterisation for every timeout (c84_win32_relative_exact), the claim holds from 0 to 49.7 days; negative timeouts wait 24 days or more, -1 ms forever (c84_win32_negative, c84_win32_long). Darwin semaphores: from 0 to 2^32 s; -1 s waits 136 years. Absolute Darwin waits: c84_darwin_sem_absolute_partial, c84_darwin_sem_far."
  },
  {
   "property": "C85",
   "status": "partial",
   "theorems": [
    "Verif.Conc.Mutex.c85_results_partial",
    "Verif.Conc.Mutex.c85_mutual_exclusion",
    "Verif.Conc.Mutex.c85_free_again_partial",
    "Verif.Conc.Mutex.c85_blocking",
    "Verif.Conc.Mutex.c85_recursive",
    "Verif.Conc.Mutex.c85_win32_abandoned",
    "Verif.Conc.Mutex.c85_posix_exit"
   ],
   "note": "Mutual exclusion for every history. The results agree with the ownership unless a thread ends while holding the mutex: on Windows the next lock() then returns false but takes the mutex (c85_win32_abandoned); on POSIX it is never free again (c85_posix_exit)."
  },
  {
   "property": "C86",
   "status": "partial",
   "theorems": [
    "Verif.Conc.Lxrt.c86_lxrt_counts",
    "Verif.Conc.Lxrt.c86_lxrt_large",
    "Verif.Conc.Sem.c86_never_too_many",
    "Verif.Conc.Sem.c86_no_post_lost_partial",
    "Verif.Conc.Sem.c86_wait_result",
    "Verif.Conc.Sem.c86_post_lost",
    "Verif.Conc.Sem.c86_large_initial"
   ],
   "note": "Full up to 2^31 - 1; beyond, posts are lost and initial values are reduced modulo 2^32 or make the semaphore unusable (c86_post_lost, c86_large_initial)."
  },
  {
   "property": "C87",
   "status": "partial",
   "theorems": [
    "Verif.Conc.Timerfd.c87_cycles_exact",
    "Verif.Conc.Timerfd.c87_never_early",
    "Verif.Conc.Timerfd.c87_no_drift",
    "Verif.Conc.Timerfd.c87_count",
    "Verif.Conc.Timerfd.c87_setPeriod_exact",
    "Verif.Conc.Timerfd.c87_setPeriod_before",
    "Verif.Conc.Timerfd.c87_zero_period_blocks",
    "Verif.Conc.Timerfd.c87_negative_period",
    "Verif.Conc.Timerfd.c87_wait_before_makePeriodic",
    "Verif.Conc.Timerfd.c87_descriptors_leak",
    "Verif.Conc.Timerfd.c87_no_wait_without_descriptor",
    "Verif.Conc.Timerfd.c87_emulated_first_cycle",
    "Verif.Conc.Timerfd.c87_emulated_drifts"
   ],
   "note": "Timerfd (Linux): never early and no drift proved for every positive period below 2^32 s; setPeriod characterised for every period (negative whole seconds are accepted, 0 blocks for ever, a period set before makePeriodic is reported as failure but used). Violated: each thread leaks a descriptor, and without descriptors the thread does not wait (c87_descriptors_leak, c87_no_wait_without_descriptor); the emulation does not wait in its first cycle and drifts (c87_emulated_*)."
  },
  {
   "property": "C88",
   "status": "partial",
   "theorems": [
    "Verif.Os.c88_exact",
    "Verif.Os.c88_loaded_partial",
    "Verif.Os.c88_no_file",
    "Verif.Os.c88_prefix_suffices",
    "Verif.Os.c88_long_line_hides",
    "Verif.Os.c88_checkForLxrt"
   ],
   "note": "Exact characterisation for every file (c88_exact). Violated: a longer module name suffices (c88_prefix_suffices), and a line of 200 or more characters hides all modules after it (c88_long_line_hides)."
  },
  {
   "property": "C89",
   "status": "partial",
   "theorems": [
    "Verif.Time.Scale.c89_scale_partial",
    "Verif.Time.Scale.c89_scale_exact",
    "Verif.Time.Scale.c89_scale_error",
    "Verif.Time.Scale.c89_half_lost",
    "Verif.Time.Scale.c89_second_divided_by_two",
    "Verif.Time.Scale.c89_overflow_undefined",
    "Verif.Time.Scale.c89_divide_exact",
    "Verif.Time.Scale.c89_divide_whole"
   ],
   "note": "Whole factors: exact (c89_scale_partial, provided the scaled nanoseconds fit into int32). Violated: seconds and nanoseconds are scaled separately and truncated, up to one second is lost (c89_half_lost, c89_second_divided_by_two; c89_scale_error bounds the loss), and scaled nanoseconds from 2.147 s on are undefined (c89_overflow_undefined)."
  },
  {
   "property": "C90",
   "status": "partial",
   "theorems": [
    "Verif.Time.Scale.c90_exact",
    "Verif.Time.Scale.c90_instant_partial",
    "Verif.Time.Scale.c90_one_second_wrong",
    "Verif.Time.Scale.c90_order_lost"
   ],
   "note": "Violated: right only within one second in 97 days (c90_exact is the exact condition for every time point)."
  },
  {
   "property": "C91",
   "status": "partial",
   "theorems": [
    "Verif.Time.c91_utc_partial",
    "Verif.Time.c91_before_1970_rounds_up",
    "Verif.Time.c91_utc_exact",
    "Verif.Time.c91_local",
    "Verif.Time.c91_local_utc",
    "Verif.Time.c91_order",
    "Verif.Time.c91_local_not_injective",
    "Verif.Time.c91_same_fields",
    "Verif.Time.c91_year_10000"
   ],
   "note": "Proved from 1970 to 9999 and characterised for every instant (c91_utc_exact). Violated: before 1970 fractions of a second are printed as the next second (c91_before_1970_rounds_up); after year 9999 the result is undefined (c91_year_10000); local texts are not ordered when clocks are put back (c91_local_not_injective)."
  },
  {
   "property": "C92",
   "status": "partial",
   "theorems": [
    "Verif.Getopt.c92_options_listed",
    "Verif.Getopt.c92_positionals_listed",
    "Verif.Getopt.c92_listed_is_accepted",
    "Verif.Getopt.c92_entry_occurs",
    "Verif.Getopt.c92_entry_format",
    "Verif.Getopt.c92_indent",
    "Verif.Getopt.c92_prefix_options_missing",
    "Verif.Getopt.c92_short_name_listed_twice"
   ],
   "note": "Long options and positional parameters: full. Violated: prefix options are never listed (c92_prefix_options_missing), and a short name that two options share is listed for both (c92_short_name_listed_twice)."
  },
  {
   "property": "C93",
   "status": "partial",
   "theorems": [
    "Verif.Cfg.c93_integers",
    "Verif.Cfg.c93_strings_partial",
    "Verif.Cfg.c93_string_cut",
    "Verif.Cfg.c93_default_never_used",
    "Verif.Cfg.c93_not_a_number",
    "Verif.Cfg.c93_get_default",
    "Verif.Cfg.c93_conversion_fails",
    "Verif.Cfg.c93_get_string"
   ],
   "note": "integers and getDefault are proved in full; the string and the wrong-type parts are violated by the code: strings are cut at the first white space (c93_string_cut), and a value that is not a number never yields the default (c93_default_never_used, c93_not_a_number)"
  },
  {
   "property": "C94",
   "status": "proved",
   "theorems": [
    "Verif.Conc.RWLockPosix.c94_results",
    "Verif.Conc.RWLockPosix.c94_exclusion",
    "Verif.Conc.RWLockPosix.c94_failed_attempt",
    "Verif.Conc.RWLockPosix.c94_free_again",
    "Verif.Conc.RWLockPosix.c94_readers_share",
    "Verif.Conc.RWLockPosix.c94_blocking",
    "Verif.Conc.RWLockPosix.c94_upgrade_deadlock",
    "Verif.Conc.RWLockPosix.c94_relock_refused"
   ],
   "note": "pthread_rwlock itself is trusted (glibc default kind: readers preferred); termination of timed calls is C84"
  },
  {
   "property": "C95",
   "status": "partial",
   "theorems": [
    "Verif.Perf.c95_all_partial",
    "Verif.Perf.c95_complete_iff",
    "Verif.Perf.c95_data_iff_report",
    "Verif.Perf.c95_data_missing",
    "Verif.Perf.c95_level_partial",
    "Verif.Perf.c95_level_lost",
    "Verif.Perf.c95_same_level",
    "Verif.Perf.c95_all_exact"
   ],
   "note": "Proved: exactly one right report for each prefix enabled by name (c95_all_partial), complete iff every prefix with data is enabled (c95_complete_iff). Violated: data recorded under enableAll or disabled later is not reported (c95_data_missing), warning and error levels become info (c95_level_lost) c95_all_exact covers every history."
  },
  {
   "property": "C96",
   "status": "partial",
   "theorems": [
    "Verif.Logging.Filename.c96_kept_partial",
    "Verif.Logging.Filename.c96_bad_kept",
    "Verif.Logging.Filename.c96_cut_at_blank",
    "Verif.Logging.Filename.c96_blanks_kept",
    "Verif.Logging.Filename.c96_kept_iff",
    "Verif.Logging.Filename.c96_kept_exact",
    "Verif.Logging.Filename.c96_same_file"
   ],
   "note": "Names without blanks are kept. Violated for names with blanks: only the first word returned by wordexp is used (c96_cut_at_blank), so two outputs can share a file (c96_same_file). wordexp is trusted as documented. The condition is exact (c96_kept_exact)."
  },
  {
   "property": "C97",
   "status": "partial",
   "theorems": [
    "Verif.AT.Err.c97_return_value",
    "Verif.AT.Err.c97_unclosed_never_returns",
    "Verif.AT.Err.c97_error_noticed_partial",
    "Verif.AT.Err.c97_off_by_one",
    "Verif.AT.Err.c97_rest_ignored",
    "Verif.AT.Err.c97_wrong_line_is_bad",
    "Verif.AT.Err.c97_bad_iff"
   ],
   "note": "The return value is characterised for every text of complete lines (c97_return_value). Violated: the number is always one too large (c97_off_by_one); lines behind a surplus closing brace are ignored and success is reported (c97_rest_ignored); an unclosed comment is never reported, the reader does not return (c97_unclosed_never_returns)."
  },
  {
   "property": "C98",
   "status": "partial",
   "theorems": [
    "Verif.AT.c98_load_result",
    "Verif.AT.c98_load_not_readable",
    "Verif.AT.c98_load_unchanged",
    "Verif.AT.c98_virtual",
    "Verif.AT.c98_load_into_new_tree",
    "Verif.AT.c98_failed_load_changes",
    "Verif.AT.c98_save_result",
    "Verif.AT.c98_code_values",
    "Verif.AT.c98_save_load_partial"
   ],
   "note": "Results proved for all contents of complete lines. Violated: a failed load keeps what it read before the error (c98_failed_load_changes); load into a new root tree calls a member function through a null pointer (c98_load_into_new_tree)."
  },
  {
   "property": "C99",
   "status": "partial",
   "theorems": [
    "Verif.Stringify.c99_error",
    "Verif.Stringify.c99_decimal_survives_partial",
    "Verif.Stringify.c99_short_decimals_differ",
    "Verif.Stringify.c99_zero",
    "Verif.Stringify.c99_formats",
    "Verif.Stringify.c99_not_read_back",
    "Verif.Stringify.c99_all_values",
    "Verif.Stringify.c99_sign",
    "Verif.Stringify.c99_close_survives",
    "Verif.Stringify.c99_subnormal_changed"
   ],
   "note": "Error bound for all numbers (subnormal ones too) and survival of short decimals proved for every format with 10^P <= 2^(p-1); for any format whenever the stored number is closer than a twentieth of the last digit (c99_close_survives). The text denotes a number exactly for finite values (c99_all_values). Violated: different doubles get the same text (c99_not_read_back: 0.1+0.2 and 0.3), because digits10 instead of max_digits10 digits are printed; the subnormal 5e-324 comes out as 4.94065645841247e-324 (c99_subnormal_changed); infinities and NaNs cannot be read back."
  },
  {
   "property": "C100",
   "status": "partial",
   "theorems": [
    "Verif.Os.Text.c100_posix",
    "Verif.Os.Text.c100_win32_partial",
    "Verif.Os.Text.c100_win32_long",
    "Verif.Os.Text.c100_thread_info_posix",
    "Verif.Os.Text.c100_thread_info_win32_partial",
    "Verif.Os.Text.c100_thread_info_win32_undefined",
    "Verif.Os.Text.c100_thread_info_cut",
    "Verif.Os.Text.c100_streamed",
    "Verif.Os.Text.c100_streamed_win32_long",
    "Verif.Os.Text.c100_stpcpy"
   ],
   "note": "POSIX: full. Windows: only for texts that fit; a longer text leaves the buffer unterminated and returns -1 (c100_win32_long), so a long thread description (c100_thread_info_win32_undefined) or double (c100_streamed_win32_long) is read beyond its array."
  },
  {
   "property": "C101",
   "status": "partial",
   "theorems": [
    "Verif.Conc.Realtime.c101_start_mode",
    "Verif.Conc.Realtime.c101_cycle_mode",
    "Verif.Conc.Realtime.c101_log_mode",
    "Verif.Conc.Realtime.c101_log_keeps_mode",
    "Verif.Conc.Realtime.c101_set_exact",
    "Verif.Conc.Realtime.c101_set_partial",
    "Verif.Conc.Realtime.c101_set_already",
    "Verif.Conc.Realtime.c101_set_foreign",
    "Verif.Conc.Realtime.c101_executes_exact",
    "Verif.Conc.Realtime.c101_check_never_acts",
    "Verif.Conc.Realtime.c101_only_own",
    "Verif.Conc.Realtime.c101_hard_only_tasks",
    "Verif.Conc.Realtime.c101_every_cycle",
    "Verif.Conc.Realtime.c101_ensureNoHRT",
    "Verif.Conc.Realtime.c101_startup",
    "Verif.Conc.Realtime.c101_shutdown",
    "Verif.Conc.Realtime.c101_posix",
    "Verif.Conc.Realtime.c101_check_does_not_restore",
    "Verif.Conc.Realtime.c101_executes_foreign"
   ],
   "note": "Start mode, cycle mode and log statements: full. Violated: setHardRealtime reports failure if the thread is in the mode already (c101_set_already), and from another thread it changes the caller instead (c101_set_foreign); executesHardRealtime tells the caller's mode (c101_executes_exact); checkHardRealtime never acts (c101_check_never_acts)."
  },
  {
   "property": "C102",
   "status": "partial",
   "theorems": [
    "Verif.Conc.Lxrt.c102_mutual_exclusion_partial",
    "Verif.Conc.Lxrt.c102_next_request",
    "Verif.Conc.Lxrt.c102_relock_deadlock",
    "Verif.Conc.Lxrt.c102_foreign_unlock",
    "Verif.Conc.Lxrt.c102_error_exact",
    "Verif.Conc.Lxrt.c102_35_linux_never",
    "Verif.Conc.Lxrt.c102_35_null",
    "Verif.Conc.Lxrt.c102_35_leak",
    "Verif.Conc.Lxrt.c102_35_results",
    "Verif.Conc.Lxrt.c102_33_unlock"
   ],
   "note": "Proved for tasks that unlock only what they hold (c102_mutual_exclusion_partial, c102_next_request). Violated: not recursive, relocking waits for ever (c102_relock_deadlock); unlock by another task frees it (c102_foreign_unlock); RTAI 3.5: Linux tasks never get it and a mutex constructed by one is a null pointer (c102_35_linux_never, c102_35_null)."
  },
  {
   "property": "C103",
   "status": "partial",
   "theorems": [
    "Verif.Conc.ThreadLxrt.c103_started",
    "Verif.Conc.ThreadLxrt.c103_again",
    "Verif.Conc.ThreadLxrt.c103_failed_start",
    "Verif.Conc.ThreadLxrt.c103_hangs",
    "Verif.Conc.ThreadLxrt.c103_only_once",
    "Verif.Conc.ThreadLxrt.c103_restart_hangs",
    "Verif.Conc.ThreadLxrt.c103_first_start_partial",
    "Verif.Conc.ThreadLxrt.c103_restart_fails"
   ],
   "note": "Proved: start() returning true implies run() was entered; a failed start leaves nothing behind; the first start succeeds in boundedly many actions when the OS provides its resources. The full property is false: after a failing rt_task_init start() never returns (c103_hangs), an object can be started only once (c103_only_once), restart hangs (c103_restart_hangs) or fails (c103_restart_fails)."
  },
  {
   "property": "C104",
   "status": "partial",
   "theorems": [
    "Verif.Conc.PeriodicRt.c104_lxrt_cycles_partial",
    "Verif.Conc.PeriodicRt.c104_lxrt_all_runs",
    "Verif.Conc.PeriodicRt.c104_lxrt_never_early",
    "Verif.Conc.PeriodicRt.c104_lxrt_no_drift",
    "Verif.Conc.PeriodicRt.c104_lxrt_always_sleeps",
    "Verif.Conc.PeriodicRt.c104_lxrt_freezes",
    "Verif.Conc.PeriodicRt.c104_lxrt_setPeriod",
    "Verif.Conc.PeriodicRt.c104_lxrt_setPeriod_before",
    "Verif.Conc.PeriodicRt.c104_qnx_cycles_partial",
    "Verif.Conc.PeriodicRt.c104_qnx_never_early",
    "Verif.Conc.PeriodicRt.c104_qnx_no_drift",
    "Verif.Conc.PeriodicRt.c104_qnx_burst",
    "Verif.Conc.PeriodicRt.c104_qnx_setPeriod",
    "Verif.Conc.PeriodicRt.c104_qnx_setPeriod_effect",
    "Verif.Conc.PeriodicRt.c104_qnx_setPeriod_before",
    "Verif.Conc.PeriodicRt.c104_qnx_setPeriod_stale",
    "Verif.Conc.PeriodicRt.c104_qnx_no_resource",
    "Verif.Conc.PeriodicRt.c104_qnx_zero_period",
    "Verif.Conc.PeriodicRt.c104_platforms_differ"
   ],
   "note": "The timing of the cycles is proved for an unchanged positive period. The rest of the property is false: c104_lxrt_setPeriod, c104_lxrt_freezes, c104_qnx_burst, c104_qnx_setPeriod, c104_qnx_setPeriod_stale, c104_qnx_no_resource, c104_qnx_zero_period, c104_platforms_differ."
  },
  {
   "property": "C105",
   "status": "partial",
   "theorems": [
    "Verif.Time.c105_fields",
    "Verif.Time.c105_in_range",
    "Verif.Time.c105_istamp_round_trip",
    "Verif.Time.c105_ispan_round_trip",
    "Verif.Time.c105_timespec_round_trip",
    "Verif.Time.c105_dds_round_trip_partial",
    "Verif.Time.c105_dds_2038",
    "Verif.Time.c105_construct",
    "Verif.Time.c105_construct_wide",
    "Verif.Time.c105_large_nsec",
    "Verif.Time.c105_assign_canonical",
    "Verif.Time.c105_assign_not_canonical",
    "Verif.Time.c105_mach"
   ],
   "note": "iTimeStamp, iTimeSpan and timespec round trips hold for all values. False for DDS::Time_t after 2038 (exactly characterised), for nanoseconds >= 2^31, and for the assignment operators, which do not normalise (c105_dds_2038, c105_large_nsec, c105_assign_not_canonical)."
  },
  {
   "property": "C106",
   "status": "partial",
   "theorems": [
    "Verif.Conc.RWLockLxrt.c106_exclusion_partial",
    "Verif.Conc.RWLockLxrt.c106_read_result",
    "Verif.Conc.RWLockLxrt.c106_write_result",
    "Verif.Conc.RWLockLxrt.c106_failed_attempt",
    "Verif.Conc.RWLockLxrt.c106_stray_unlock",
    "Verif.Conc.RWLockLxrt.c106_relock",
    "Verif.Conc.RWLockLxrt.c106_upgrade_waits"
   ],
   "note": "Proved for tasks that unlock only what they hold; every request's result is characterised exactly. Violated: an unlock() by a task that holds nothing drops another task's read lock (c106_stray_unlock). RTAI's lock is modelled as documented; unlock() of RWLockImplLxrt35 does not compile and is read as in 3.3."
  },
  {
   "property": "C107",
   "status": "partial",
   "theorems": [
    "Verif.Logging.Worker.c107_fifo",
    "Verif.Logging.Worker.c107_accounted",
    "Verif.Logging.Worker.c107_dropped_iff_full",
    "Verif.Logging.Worker.c107_shutdown_partial",
    "Verif.Logging.Worker.c107_snap",
    "Verif.Logging.Worker.c107_progress_partial",
    "Verif.Logging.Worker.c107_shutdown_returns_partial",
    "Verif.Logging.Worker.c107_no_lost_wakeup_partial",
    "Verif.Logging.Worker.c107_size_one",
    "Verif.Logging.Worker.c107_interrupted_shutdown"
   ],
   "note": "Order, at-most-once, memory safety, accounting and the exact drop condition for every schedule; completeness, progress and shutdown provided no semaphore wait is interrupted (c107_interrupted_shutdown). A size of n holds n-1 messages, a size of 1 drops everything (c107_size_one)."
  },
  {
   "property": "C108",
   "status": "proved",
   "theorems": [
    "Verif.AT.Comment.c108_comment_written_back",
    "Verif.AT.Comment.c108_comment_below_dotted_lost",
    "Verif.AT.Comment.c108_comments_no_effect",
    "Verif.AT.Comment.c108_comment_loaded",
    "Verif.AT.Comment.c108_comment_attr_loaded",
    "Verif.AT.Comment.c108_colon_in_first_line",
    "Verif.AT.Comment.c108_indentation_lost"
   ],
   "note": "Exact for texts of complete lines; c108_colon_in_first_line shows that a colon in the line _COMMENT_{ makes it data."
  },
  {
   "property": "C109",
   "status": "partial",
   "theorems": [
    "Verif.Logging.Line.c109_default_format",
    "Verif.Logging.Line.c109_lines_partial",
    "Verif.Logging.Line.c109_default_line",
    "Verif.Logging.Line.c109_outputs_independent"
   ],
   "note": "Proved within the documented name lengths and for well-formed formats; outside these limits the program leaves its arrays (c76_long_names, c49_overflow, c49_dangling)."
  },
  {
   "property": "C110",
   "status": "partial",
   "theorems": [
    "Verif.Conc.ScopedSem.c110_at_most",
    "Verif.Conc.ScopedSem.c110_not_blocked",
    "Verif.Conc.ScopedSem.c110_full",
    "Verif.Conc.ScopedSem.c110_restored",
    "Verif.Conc.ScopedSem.c110_all_protected_partial",
    "Verif.Conc.ScopedSem.c110_unprotected_scope"
   ],
   "note": "Holds for scopes with isDecremented(); on POSIX a signal lets a thread into the scope unprotected (c110_unprotected_scope), on Windows the property holds in full."
  },
  {
   "property": "C111",
   "status": "partial",
   "theorems": [
    "Verif.Testsuite.c111_lines",
    "Verif.Testsuite.c111_result_partial",
    "Verif.Testsuite.c111_failed_line",
    "Verif.Testsuite.c111_unknown_type"
   ],
   "note": "Holds for the three documented output types; another value of the enum runs nothing and returns 0 (c111_unknown_type)."
  },
  {
   "property": "C112",
   "status": "proved",
   "theorems": [
    "Verif.Logging.Matrix.c112_layout",
    "Verif.Logging.Matrix.c112_determines",
    "Verif.Logging.Matrix.c112_record"
   ],
   "note": ""
  },
  {
   "property": "C113",
   "status": "proved",
   "theorems": [
    "Verif.AT.Inc.c113_expand",
    "Verif.AT.Inc.c113_include_lines",
    "Verif.AT.Inc.c113_included_error_not_reported",
    "Verif.AT.Inc.c113_cycle_never_returns",
    "Verif.AT.Inc.c113_include_kept",
    "Verif.AT.Inc.c113_target_absolute",
    "Verif.AT.Inc.c113_target_relative"
   ],
   "note": "Violations recorded: error of an included file not reported (c113_included_error_not_reported), cycles never return (c113_cycle_never_returns)."
  },
  {
   "property": "C114",
   "status": "proved",
   "theorems": [
    "Verif.Cfg.c114_file_with_inclusions",
    "Verif.Cfg.c114_missing_inclusion",
    "Verif.Cfg.c114_place_ignored",
    "Verif.Cfg.c114_included_entries_notified"
   ],
   "note": "Files that include each other in a cycle have no entries in the specification and are not covered here. The result of an inclusion is ignored and its place does not affect its keys: proved as c114_missing_inclusion and c114_place_ignored."
  },
  {
   "property": "C115",
   "status": "proved",
   "theorems": [
    "Verif.Imaxdiv.c115_division",
    "Verif.Imaxdiv.c115_undefined_iff",
    "Verif.Imaxdiv.c115_no_overflow",
    "Verif.Imaxdiv.c115_floor_positive",
    "Verif.Imaxdiv.c115_floor_negative"
   ],
   "note": ""
  },
  {
   "property": "C116",
   "status": "partial",
   "theorems": [
    "Verif.Logging.FormatChange.c116_lines_partial",
    "Verif.Logging.FormatChange.c116_new_format_used",
    "Verif.Logging.FormatChange.c116_no_deadlock",
    "Verif.Logging.FormatChange.c116_answered",
    "Verif.Logging.FormatChange.c116_overlapping_calls_mix",
    "Verif.Logging.FormatChange.c116_overlapping_calls_empty",
    "Verif.Logging.FormatChange.c116_interrupted_call_sticks",
    "Verif.Logging.FormatChange.c116_interrupted_line_lost",
    "Verif.Logging.FormatChange.c116_by_name",
    "Verif.Logging.FormatChange.c116_by_name_defined"
   ],
   "note": "Proved for calls of changeLogFormat that do not overlap and are not interrupted. Violated otherwise: two callers append to the same list before taking the mutex (c116_overlapping_calls_mix, c116_overlapping_calls_empty), an interrupted call leaves its entries in front of the next format (c116_interrupted_call_sticks), an interrupted line is lost (c116_interrupted_line_lost)."
  },
  {
   "property": "C117",
   "status": "proved",
   "theorems": [
    "Verif.Plugin.Search.c117_files",
    "Verif.Plugin.Search.c117_path_order",
    "Verif.Plugin.Search.c117_plugin",
    "Verif.Plugin.Search.c117_late_path",
    "Verif.Plugin.Search.c117_search_messages",
    "Verif.Plugin.Search.c117_load_messages",
    "Verif.Plugin.Search.c117_lazy_messages",
    "Verif.Plugin.Search.c117_later_messages",
    "Verif.Plugin.Search.c117_open_error_lost",
    "Verif.Plugin.Search.c117_silent_failures",
    "Verif.Plugin.Search.c117_exception_disables"
   ],
   "note": "three findings: reason of failed dlopen lost, wrong type silent, an exception during the search disables library plugins"
  },
  {
   "property": "C118",
   "status": "proved",
   "theorems": [
    "Verif.RingBuffer.c118_old_class_is_queue",
    "Verif.RingBuffer.c118_new_class_is_queue",
    "Verif.RingBuffer.c118_drop_in",
    "Verif.RingBuffer.c118_no_undefined_behaviour"
   ],
   "note": ""
  },
  {
   "property": "C119",
   "status": "partial",
   "theorems": [
    "Verif.Stamped.c119_dsin_never_initialised",
    "Verif.Stamped.c119_print_exact_partial",
    "Verif.Stamped.c119_only_dsin_can_miss",
    "Verif.Stamped.c119_text_determines_fields_partial",
    "Verif.Stamped.c119_text_ambiguous"
   ],
   "note": "Violated: DataHeader::dsin is never initialised by a constructor (print reads an indeterminate value), and frames with a semicolon make the text ambiguous; the exact printed text and the injectivity for frames without a semicolon are proved."
  },
  {
   "property": "C120",
   "status": "partial",
   "theorems": [
    "Verif.Logging.Udp.c120_connects_to_first_working",
    "Verif.Logging.Udp.c120_no_descriptor_leak",
    "Verif.Logging.Udp.c120_exact_datagrams",
    "Verif.Logging.Udp.c120_unreachable_is_silent",
    "Verif.Logging.Udp.c120_only_logged_rows_partial",
    "Verif.Logging.Udp.c120_reliable_network_partial",
    "Verif.Logging.Udp.c120_rows_stay"
   ],
   "note": "Violated: an output whose host cannot be reached says nothing and drops every message silently; rows are exact only for texts without apostrophes (see C71)."
  },
  {
   "property": "C121",
   "status": "partial",
   "theorems": [
    "Verif.RingBuffer.Fail.c121_histories_partial",
    "Verif.RingBuffer.Fail.c121_failed_write_keeps",
    "Verif.RingBuffer.Fail.c121_failed_overwrite_loses_oldest",
    "Verif.RingBuffer.Fail.c121_failed_read_loses",
    "Verif.RingBuffer.Fail.c121_failed_growth_in_bounds",
    "Verif.RingBuffer.Fail.c121_failed_growth_corrupts",
    "Verif.RingBuffer.Fail.c121_failed_shrink_undefined",
    "Verif.RingBuffer.Fail.c121_largest_capacity",
    "Verif.RingBuffer.Fail.c121_other_capacities"
   ],
   "note": "Violated by the code, exactly characterised per failure point (c121_failed_overwrite_loses_oldest, c121_failed_read_loses, c121_failed_growth_corrupts, c121_failed_shrink_undefined); c121_histories_partial covers all histories without failures in the copy loop of setCapacity."
  },
  {
   "property": "C122",
   "status": "proved",
   "theorems": [
    "Verif.Startup.c122_settings",
    "Verif.Startup.c122_streams",
    "Verif.Startup.c122_command_line_level",
    "Verif.Startup.c122_one_level",
    "Verif.Startup.c122_delivery",
    "Verif.Startup.c122_delivery_distinct",
    "Verif.Startup.c122_option_level",
    "Verif.Startup.c122_early_use",
    "Verif.Startup.c122_standard_output",
    "Verif.Startup.c122_failed_start",
    "Verif.Startup.c122_without_file",
    "Verif.Startup.c122_builtin_options",
    "Verif.Startup.c122_dash_o"
   ],
   "note": "Uses the models of C38-C41 and C73-C75. The order in which the libraries and the program register is fixed (libraries first)."
  },
  {
   "property": "C123",
   "status": "partial",
   "theorems": [
    "Verif.Logging.Shared.c123_outputs_partial",
    "Verif.Logging.Shared.c123_pool",
    "Verif.Logging.Shared.c123_format",
    "Verif.Logging.Shared.c123_sink",
    "Verif.Logging.Shared.c123_queue_writes_partial",
    "Verif.Logging.Shared.c123_print_race",
    "Verif.Logging.Shared.c123_level_race",
    "Verif.Logging.Shared.c123_active_race",
    "Verif.Logging.Shared.c123_outLevel_race",
    "Verif.Logging.Shared.c123_newFormat_race",
    "Verif.Logging.Shared.c123_timeFormat_race",
    "Verif.Logging.Shared.c123_queue_race",
    "Verif.Logging.Shared.c123_execute_race",
    "Verif.Logging.Shared.c123_finished_race",
    "Verif.Logging.Shared.c123_settings_partial",
    "Verif.Logging.Shared.c123_newFormat_partial",
    "Verif.Logging.Shared.c123_buffer_race"
   ],
   "note": "Violated for the settings, printConfiguration, the queue test of the worker, the flags of the worker thread and the buffer reset in flush (c123_*_race); the rest is proved for all programs and schedules. Trusted: sequentially consistent interleavings, a post happens before every later wait of the same (binary) semaphore."
  },
  {
   "property": "C124",
   "status": "proved",
   "theorems": [
    "Verif.Logging.Shared.c124_no_deadlock",
    "Verif.Logging.Shared.c124_waits_for",
    "Verif.Logging.Shared.c124_calls_return",
    "Verif.Logging.Shared.c124_reentrant_output"
   ],
   "note": "Finding: an output that logs to its own stream deadlocks (c124_reentrant_output)."
  },
  {
   "property": "C125",
   "status": "partial",
   "theorems": [
    "Verif.Race.Objects.c125_queue_writes_partial",
    "Verif.Race.Objects.c125_clients",
    "Verif.Race.Objects.c125_woken",
    "Verif.Race.Objects.c125_empty_race",
    "Verif.Race.Objects.c125_clear_race",
    "Verif.Race.Objects.c125_execute_race",
    "Verif.Race.Objects.c125_dispatch_race"
   ],
   "note": "Violated: queue tested and cleared without mutex, plain flag, dispatch queue without lock."
  },
  {
   "property": "C126",
   "status": "partial",
   "theorems": [
    "Verif.RWLock.c126_no_deadlock_partial",
    "Verif.RWLock.c126_progress_partial",
    "Verif.RWLock.c126_calls_short",
    "Verif.RWLock.c126_try_waits",
    "Verif.RWLock.c126_writer_starves"
   ],
   "note": "Partial: for histories without a time-out of the second wait of writeLock and without an unlock that gives up after 30000 s (the first loses the writer mutex, C54). Findings: c126_try_waits, c126_writer_starves."
  },
  {
   "property": "C127",
   "status": "partial",
   "theorems": [
    "Verif.Logging.Pipe.c127_prefix_partial",
    "Verif.Logging.Pipe.c127_complete_partial",
    "Verif.Logging.Pipe.c127_progress_partial",
    "Verif.Logging.Pipe.c127_shutdown_partial"
   ],
   "note": "End-to-end delivery. Partial: assumes log arguments do not log, uninterrupted waits, and no threadStream() during the unprotected end of flush (violations: c45_flush_race, c45_nested_shared, c46_interrupted_push)."
  },
  {
   "property": "C128",
   "status": "proved",
   "theorems": [
    "Verif.Logging.Pipe.c128_same_order",
    "Verif.Logging.Pipe.c128_connected",
    "Verif.Logging.Pipe.c128_streams_differ"
   ],
   "note": ""
  },
  {
   "property": "C129",
   "status": "proved",
   "theorems": [
    "Verif.Logging.Pipe.c129_bounded",
    "Verif.Logging.Pipe.c129_no_deadlock"
   ],
   "note": ""
  },
  {
   "property": "C130",
   "status": "partial",
   "theorems": [
    "Verif.Logging.Connect.c130_snapshot",
    "Verif.Logging.Connect.c130_iterator_valid",
    "Verif.Logging.Connect.c130_removed_quiet_partial",
    "Verif.Logging.Connect.c130_added_gets_partial",
    "Verif.Logging.Connect.c130_interrupted_remove",
    "Verif.Logging.Connect.c130_interrupted_add_flush"
   ],
   "note": "partial: an interrupted wait makes remove/add/flush return without effect (c130_interrupted_remove, c130_interrupted_add_flush)"
  },
  {
   "property": "C131",
   "status": "proved",
   "theorems": [
    "Verif.Logging.Worker.Intr.c131_accounted",
    "Verif.Logging.Worker.Intr.c131_backlog",
    "Verif.Logging.Worker.Intr.c131_progress",
    "Verif.Logging.Worker.Intr.c131_shutdown",
    "Verif.Logging.Worker.Intr.c131_shutdown_returns",
    "Verif.Logging.Worker.Intr.c131_backlog_tight"
   ],
   "note": "c131_backlog_tight shows that the bound is attained for every n."
  },
  {
   "property": "C132",
   "status": "partial",
   "theorems": [
    "Verif.Logging.Pool.Intr.c132_pool_bound",
    "Verif.Logging.Pool.Intr.c132_pool_bound_no_intr",
    "Verif.Logging.Pool.Intr.c132_accounted",
    "Verif.Logging.Pool.Intr.c132_exclusive_partial",
    "Verif.Logging.Pool.Intr.c132_text_partial",
    "Verif.Logging.Pool.Intr.c132_pool_bound_tight",
    "Verif.Logging.Pool.Intr.c132_leak"
   ],
   "note": "pool size bound for every execution; exclusivity and texts only under the conditions of C45 (violated otherwise, see C45); a flush that is interrupted leaks the stream when its thread ends (c132_leak)"
  },
  {
   "property": "C133",
   "status": "proved",
   "theorems": [
    "Verif.ActiveObject.Live.c133_no_deadlock",
    "Verif.ActiveObject.Live.c133_runs_end",
    "Verif.ActiveObject.Live.c133_stop_ends",
    "Verif.ActiveObject.Live.c133_leak_exact",
    "Verif.ActiveObject.Live.c133_all_invoked"
   ],
   "note": ""
  },
  {
   "property": "C134",
   "status": "partial",
   "theorems": [
    "Verif.Logging.File.Crash.c134_deletion_only_old",
    "Verif.Logging.File.Crash.c134_deletion_intact_partial",
    "Verif.Logging.File.Crash.c134_intact_after_restart_partial",
    "Verif.Logging.File.Crash.c134_nothing_lost_partial",
    "Verif.Logging.File.Crash.c134_recorded_lines",
    "Verif.Logging.File.Crash.c134_durable",
    "Verif.Logging.File.Crash.c134_all_recorded",
    "Verif.Logging.File.Crash.c134_open_again",
    "Verif.Logging.File.Crash.c134_midnight_duplicates"
   ],
   "note": "partial: with compression, this succeeds, and no midnight passes between reading the clock and writing (c134_midnight_duplicates shows duplicated lines otherwise). Opening the log file may fail at any time. Deletion of old files is covered by c134_deletion_only_old and c134_deletion_intact_partial when moving succeeds (when a rename fails, the log file itself may be among the deleted files)"
  },
  {
   "property": "C135",
   "status": "partial",
   "theorems": [
    "Verif.Logging.Sqlite.Crash.c135_stored_exact_partial",
    "Verif.Logging.Sqlite.Crash.c135_no_failure_no_loss_partial",
    "Verif.Logging.Sqlite.Crash.c135_at_most_once_partial",
    "Verif.Logging.Sqlite.Crash.c135_failed_open_loses_the_day"
   ],
   "note": "partial: the clock is not set back and no midnight passes between the two readings of the clock in writeLogLine (C77 has the counterexamples)"
  },
  {
   "property": "C136",
   "status": "partial",
   "theorems": [
    "Verif.Logging.File.Buffer.c136_deletion_only_old",
    "Verif.Logging.File.Buffer.c136_deletion_kept_partial",
    "Verif.Logging.File.Buffer.c136_kept_partial",
    "Verif.Logging.File.Buffer.c136_durable",
    "Verif.Logging.File.Buffer.c136_new_day_durable",
    "Verif.Logging.File.Buffer.c136_no_crash",
    "Verif.Logging.File.Buffer.c136_all_lost",
    "Verif.Logging.File.Buffer.c136_any_part_left",
    "Verif.Logging.File.Buffer.c136_no_rotation_no_change",
    "Verif.Logging.File.Buffer.c136_wrong_day",
    "Verif.Logging.File.Buffer.c136_zip_crash_duplicates"
   ],
   "note": "partial: compressing succeeds, no crash while compressing (c136_zip_crash_duplicates); c136_wrong_day shows lines archived under the wrong day. Opening the log file may fail at any time. Deletion of old files is covered by c136_deletion_only_old and c136_deletion_kept_partial when moving succeeds"
  },
  {
   "property": "C137",
   "status": "proved",
   "theorems": [
    "Verif.Logging.Static.c137_every_order",
    "Verif.Logging.Static.c137_lifecycle_dtor",
    "Verif.Logging.Static.c137_other_unit",
    "Verif.Logging.Static.c137_below"
   ],
   "note": ""
  },
  {
   "property": "C138",
   "status": "proved",
   "theorems": [
    "Verif.AT.Text.c138_config",
    "Verif.AT.Text.c138_internal_keys",
    "Verif.AT.Text.c138_brace_erases",
    "Verif.AT.Text.c138_close_one_level",
    "Verif.AT.Text.c138_slash_first_wins",
    "Verif.AT.Text.c138_blanks_kept",
    "Verif.AT.Text.c138_reads_as_calls",
    "Verif.AT.Text.c138_values",
    "Verif.AT.Text.c138_with_includes"
   ],
   "note": "ConfigManager::load begins with a call through a null pointer (C98); the configuration part of C138 reads it as finding nothing, as said in loadNew."
  },
  {
   "property": "C139",
   "status": "proved",
   "theorems": [
    "Verif.Thread.HBT.c139_start_publishes",
    "Verif.Thread.HBT.c139_join_collects",
    "Verif.Thread.HBT.c139_runs_ordered",
    "Verif.Thread.HBT.c139_no_race",
    "Verif.Thread.HBT.c139_join_settles",
    "Verif.Thread.HBT.c139_wait_settles",
    "Verif.Thread.HBT.c139_destructor_settles",
    "Verif.Thread.HBT.c139_unsynchronised_race",
    "Verif.Thread.HBT.c139_join_race",
    "Verif.Thread.HBT.c139_wait_race",
    "Verif.Thread.HBT.c139_finished_race",
    "Verif.Thread.HBT.c139_thread_id_race"
   ],
   "note": "cancel() is covered by start_publishes and join_collects only; the accesses of trace log messages to m_thread_info are not recorded"
  },
  {
   "property": "C140",
   "status": "proved",
   "theorems": [
    "Verif.AT.Every.c140_every_text",
    "Verif.AT.Every.c140_unterminated_line",
    "Verif.AT.Every.c140_cases",
    "Verif.AT.Every.c140_overlong"
   ],
   "note": "include lines have no effect in this reader (C113 covers them); comments are not stored (C108 covers that)"
  },
  {
   "property": "C141",
   "status": "proved",
   "theorems": [
    "Verif.AT.Crash.c141_part_of_file",
    "Verif.AT.Crash.c141_no_wrong_value",
    "Verif.AT.Crash.c141_full_disk",
    "Verif.AT.Crash.c141_old_file_gone",
    "Verif.AT.Crash.c141_half_a_file",
    "Verif.AT.Crash.c141_small_tree_wrong_value"
   ],
   "note": "for trees below change_style_depth the code violates the property (c141_small_tree_wrong_value)"
  },
  {
   "property": "C142",
   "status": "partial",
   "theorems": [
    "Verif.Cfg.Observe.c142_value_unseen",
    "Verif.Cfg.Observe.c142_called_after_unregister",
    "Verif.Cfg.Observe.c142_endless",
    "Verif.Cfg.Observe.c142_quiet",
    "Verif.Cfg.Observe.c142_told_current",
    "Verif.Cfg.Observe.c142_exact_calls",
    "Verif.Cfg.Observe.c142_after_unregister",
    "Verif.Cfg.Observe.c142_silent_partial",
    "Verif.Cfg.Observe.c142_progress"
   ],
   "note": "Holds except for observers unregistered while a notification is in progress (c142_after_unregister gives the exact number of late calls, c142_called_after_unregister a run). Values are compared by what get would return in the callback. Not modelled: insert of the base class, exceptions, several threads."
  },
  {
   "property": "C143",
   "status": "proved",
   "theorems": [
    "Verif.Registry.Mon.c143_perf_as_alone",
    "Verif.Registry.Mon.c143_perf_readers",
    "Verif.Registry.Mon.c143_perf_first_use",
    "Verif.Registry.Mon.c143_perf_same_call",
    "Verif.Registry.Mon.c143_perf_start",
    "Verif.Registry.Plg.c143_plugin_as_alone",
    "Verif.Registry.Plg.c143_plugin_readers",
    "Verif.Registry.Plg.c143_plugin_same_call",
    "Verif.Registry.Plg.c143_plugin_first_use",
    "Verif.Registry.Plg.c143_plugin_unknown"
   ],
   "note": ""
  },
  {
   "property": "C144",
   "status": "proved",
   "theorems": [
    "Verif.Registry.Conf.c144_as_alone",
    "Verif.Registry.Conf.c144_no_race",
    "Verif.Registry.Conf.c144_race",
    "Verif.Registry.Conf.c144_race_iff",
    "Verif.Registry.Conf.c144_unregister"
   ],
   "note": "instance() is a static local (thread safe). initialize, load, addParameter and observers that use the manager are not modelled; the general race theorem leaves out unregisterObserver, which writes only if the observer is registered (c144_unregister)."
  },
  {
   "property": "C145",
   "status": "partial",
   "theorems": [
    "Verif.Logging.File.Online.c145_zip_never_logs",
    "Verif.Logging.File.Online.c145_zip_no_file",
    "Verif.Logging.File.Online.c145_line_lost",
    "Verif.Logging.File.Online.c145_append_mode_partial"
   ],
   "note": "Does not hold: the file is opened with gzopen(..., \"a+b\"), and zlib.h says that gzopen returns NULL if '+' is in the mode. c145_zip_never_logs: with /Zip no line is ever written, for any history; c145_line_lost: one line, nothing fails, no file. c145_append_mode_partial: with the mode \"ab\" the property would hold (all files, the same lines as without /Zip). Not modelled: data that zlib buffers before the flush, the handle that the constructor loses after a rotation (it opens the file twice)."
  },
  {
   "property": "C146",
   "status": "partial",
   "theorems": [
    "Verif.Os.ZipFile.c146_contents_partial",
    "Verif.Os.ZipFile.c146_archive",
    "Verif.Os.ZipFile.c146_result",
    "Verif.Os.ZipFile.c146_success_without_archive"
   ],
   "note": "Does not hold: failures of opening and of reading are not reported. c146_contents_partial: if nothing fails, the archive is complete; c146_result: exactly when a failure is reported; c146_archive: the archive always holds a beginning of the contents; c146_success_without_archive: success is reported without any archive, or with an existing archive emptied. Not modelled: errors of gzclose (zlib may write data only then)."
  },
  {
   "property": "C147",
   "status": "partial",
   "theorems": [
    "Verif.Priority.c147_running_partial",
    "Verif.Priority.c147_created_priority_ignored",
    "Verif.Priority.c147_created_priority_lost",
    "Verif.Priority.c147_not_running",
    "Verif.Priority.c147_lxrt"
   ],
   "note": "Does not hold. POSIX: c147_running_partial: while the thread runs, priority() is the last accepted priority, at first the inherited one, and setPriority() answers right; c147_created_priority_ignored: the priority given to the constructor has no effect at all (c147_created_priority_lost: witness); c147_not_running: before the start and after a join both calls are undefined (pthread_t 0 or dangling), after the end 0 and false. LXRT: c147_lxrt: setPriority() never changes anything, priority() is always that of the constructor, and tasks get it. Not modelled: cancel, Win32, failing pthread_create."
  },
  {
   "property": "C148",
   "status": "proved",
   "theorems": [
    "Verif.Registry.Opt.c148_as_alone",
    "Verif.Registry.Opt.c148_no_race",
    "Verif.Registry.Opt.c148_race",
    "Verif.Registry.Opt.c148_race_iff",
    "Verif.Registry.Opt.c148_readers"
   ],
   "note": "initialize is not modelled; the text of printHelp counts as its result."
  },
  {
   "property": "C149",
   "status": "partial",
   "theorems": [
    "Verif.Case.c149_lower_partial",
    "Verif.Case.c149_upper_partial",
    "Verif.Case.c149_undefined",
    "Verif.Case.c149_config_bool",
    "Verif.Case.c149_again"
   ],
   "note": "toLower and toUpper pass a char to the C functions (trim converts to unsigned char first): on platforms where char is signed a byte between 128 and 254 is undefined behaviour (c149_undefined), exactly characterised by c149_lower_partial and c149_upper_partial; which values get<bool> accepts is C42."
  },
  {
   "property": "C150",
   "status": "partial",
   "theorems": [
    "Verif.KeyValue.Fail.c150_without_failure",
    "Verif.KeyValue.Fail.c150_no_effect_partial",
    "Verif.KeyValue.Fail.c150_ghost",
    "Verif.KeyValue.Fail.c150_history"
   ],
   "note": "operator[] makes an entry with the default value before the assignment that throws: for a new key it stays (c150_ghost), and the insertion that is tried again says that the key was not new; exactly characterised by c150_no_effect_partial and c150_history. Assumed: an assignment that throws leaves the old value, as for strings."
  }
 ]
}