{
 "claims": [
  {
   "property": "C01",
   "status": "proved",
   "theorems": [
    "Xo.C01_step",
    "Xo.C01_run",
    "Xo.C01_flat_map_is_finite_map"
   ],
   "note": ""
  },
  {
   "property": "C02",
   "status": "proved",
   "theorems": [
    "Xo.C02_step",
    "Xo.C02_run",
    "Xo.C02_flat_set_is_finite_set"
   ],
   "note": ""
  },
  {
   "property": "C03",
   "status": "partial",
   "theorems": [
    "Xo.C03_ofList_outcome",
    "Xo.C03_set_ofList_outcome",
    "Xo.C03_flat_map_init_partial",
    "Xo.C03_flat_set_init_partial",
    "Xo.C03_flat_map_duplicate_survives_erase",
    "Xo.C03_flat_map_init_violated",
    "Xo.C03_flat_set_init_violated"
   ],
   "note": "Violated by the code for literals that repeat a key (C03_flat_map_init_violated, C03_flat_set_init_violated); proved for distinct keys."
  },
  {
   "property": "C04",
   "status": "proved",
   "theorems": [
    "Xo.C04_step",
    "Xo.C04_sorted_vector_is_sorted_bag",
    "Xo.C04_init"
   ],
   "note": ""
  },
  {
   "property": "C05",
   "status": "proved",
   "theorems": [
    "Xo.C05_step",
    "Xo.C05_run",
    "Xo.C05_indexed_map_is_ordered_map",
    "Xo.C05_positions_stable"
   ],
   "note": ""
  },
  {
   "property": "C06",
   "status": "partial",
   "theorems": [
    "Xo.C06_index_stable",
    "Xo.C06_index_unique",
    "Xo.C06_get_or_add_is_first_position",
    "Xo.C06_failed_call_changes_set_violated",
    "Xo.C06_failed_call_keeps_indices_partial"
   ],
   "note": "Indices are stable and unique for every history of successful calls. A rejected call still changes the set (proved as a violation); existing indices are kept even then."
  },
  {
   "property": "C07",
   "status": "partial",
   "theorems": [
    "Xo.C07_step_partial",
    "Xo.C07_lookup_exact_partial",
    "Xo.C07_stored_step",
    "Xo.C07_stored_labels_found_partial",
    "Xo.C07_label_constructors_violated",
    "Xo.C07_relabel_violated"
   ],
   "note": "Exact lookup for every history that does not relabel a labelled slot. Violated for the label constructors and for relabelling (witnesses proved)."
  },
  {
   "property": "C08",
   "status": "proved",
   "theorems": [
    "Xo.C08_step",
    "Xo.C08_storage_is_matrix",
    "Xo.C08_duplicate_label_grows"
   ],
   "note": ""
  },
  {
   "property": "C09",
   "status": "partial",
   "theorems": [
    "Xo.C09_split",
    "Xo.C09_nearest_frame_partial",
    "Xo.C09_empty",
    "Xo.C09_nearest_frame_violated"
   ],
   "note": "For an ascending channel the returned frame is a nearest one, except that a value between the first two frames and nearer to the first gives the second (violation proved)."
  },
  {
   "property": "C10",
   "status": "partial",
   "theorems": [
    "Xo.C10_step",
    "Xo.C10_table_is_labelled_matrix",
    "Xo.C10_additions_keep_cells",
    "Xo.C10_resize_rows_violated"
   ],
   "note": "Adding rows and columns and writing cells is proved for every history. Public resize to more rows is undefined behaviour, proved for every table."
  },
  {
   "property": "C11",
   "status": "partial",
   "theorems": [
    "Xo.C11_step_partial",
    "Xo.C11_run_partial",
    "Xo.C11_within_capacity_partial",
    "Xo.C11_growing_wrapped_violated",
    "Xo.C11_const_back_violated"
   ],
   "note": "Full refinement for every history that never grows a wrapped buffer with push_back, in particular whenever the size stays within the initial capacity. Undefined behaviour characterised exactly; const back() reads the wrong element (proved)."
  },
  {
   "property": "C12",
   "status": "proved",
   "theorems": [
    "Xo.C12_oldest_readable_frame",
    "Xo.C12_advance_empty_shape",
    "Xo.C12_resize"
   ],
   "note": ""
  },
  {
   "property": "C13",
   "status": "proved",
   "theorems": [
    "Xo.C13_step",
    "Xo.C13_flag_set_is_set_of_flags",
    "Xo.C13_flag_beyond_width"
   ],
   "note": ""
  },
  {
   "property": "C14",
   "status": "partial",
   "theorems": [
    "Xo.C14_handles_address_their_element_partial",
    "Xo.C14_contains_partial",
    "Xo.C14_erase",
    "Xo.C14_find_partial",
    "Xo.C14_move_assign_violated",
    "Xo.C14_wrap_violated"
   ],
   "note": "Proved for every history with fewer than 2^w elements. Violated for the source of a move assignment and when the identifier type is exhausted (proved)."
  },
  {
   "property": "C15",
   "status": "proved",
   "theorems": [
    "Xo.C15_get_child",
    "Xo.C15_get_child_index",
    "Xo.C15_set",
    "Xo.C15_set_get",
    "Xo.C15_add_child",
    "Xo.C15_erase",
    "Xo.C15_count_key",
    "Xo.C15_history"
   ],
   "note": ""
  },
  {
   "property": "C16",
   "status": "partial",
   "theorems": [
    "Xo.C16_every_query_is_a_path",
    "Xo.C16_set_then_get",
    "Xo.C16_diverging_paths",
    "Xo.C16_erase_partial",
    "Xo.C16_erase_delimiter_violated",
    "Xo.C16_erase_index_violated"
   ],
   "note": "Reading back and independence of diverging paths are proved for all trees, paths and delimiters. erase_query is proved when the leading keys contain no dot; it is violated for other delimiters with dots in keys and for #index (witnesses proved)."
  },
  {
   "property": "C17",
   "status": "partial",
   "theorems": [
    "Xo.C17_values_partial",
    "Xo.C17_children_partial",
    "Xo.C17_self_merge",
    "Xo.C17_merge_twice",
    "Xo.C17_array_violated"
   ],
   "note": "Proved for every target when the merged-in tree has unique keys. Violated for repeated keys, as in arrays (witness proved)."
  },
  {
   "property": "C18",
   "status": "proved",
   "theorems": [
    "Xo.C18_positions_complete",
    "Xo.C18_positions_once",
    "Xo.C18_count",
    "Xo.C18_set_accessed",
    "Xo.C18_access_marks_only",
    "Xo.C18_read_history",
    "Xo.C18_read_key"
   ],
   "note": ""
  },
  {
   "property": "C19",
   "status": "proved",
   "theorems": [
    "Xo.C19_eq_iff",
    "Xo.C19_equivalence",
    "Xo.C19_reads_keep_equality"
   ],
   "note": ""
  },
  {
   "property": "C20",
   "status": "partial",
   "theorems": [
    "Xo.C20_roundtrip_partial",
    "Xo.C20_concise_roundtrip_partial",
    "Xo.C20_root_value_violated",
    "Xo.C20_concise_empty_violated",
    "Xo.C20_value_chars_violated",
    "Xo.C20_value_macros_violated",
    "Xo.C20_value_operators_violated",
    "Xo.C20_keys_violated",
    "Xo.C20_elements_violated",
    "Xo.C20_shapes_violated",
    "Xo.C20_codes_violated",
    "Xo.C20_concise_value_violated"
   ],
   "note": "Round trip proved for all trees (any depth, width, layout) whose keys and values are in an explicit safe class, for both writers. Outside the class it is violated (witnesses proved for each excluded kind; every root with a value cannot be written)."
  },
  {
   "property": "C21",
   "status": "partial",
   "theorems": [
    "Xo.C21_quote_loop",
    "Xo.C21_terminates_partial",
    "Xo.C21_bound",
    "Xo.C21_backslash_violated"
   ],
   "note": "Every text that does not end with a backslash is read to an end (a tree, an error, or the undefined case of a macro inside a macro body), with an explicit bound on the steps, for any behaviour of included files that end. Violated for every text that ends with a backslash inside a quotation (proved: never ends)."
  },
  {
   "property": "C22",
   "status": "partial",
   "theorems": [
    "Xo.C22_leading",
    "Xo.C22_insert_tokens_partial",
    "Xo.C22_insert_partial",
    "Xo.C22_leading_parse",
    "Xo.C22_colon_violated",
    "Xo.C22_comment_violated"
   ],
   "note": "Blanks and comments before a token never matter. Inserted between tokens they do not matter where the reader is between tokens and the token before does not end with a colon or (for comments) is not an empty quotation / does not end with a slash. Violated in those cases (proved)."
  },
  {
   "property": "C23",
   "status": "partial",
   "theorems": [
    "Xo.C23_roundtrip_partial",
    "Xo.C23_item_after_group_violated",
    "Xo.C23_dropped_violated",
    "Xo.C23_texts_violated",
    "Xo.C23_long_violated",
    "Xo.C23_not_understood"
   ],
   "note": "Round trip proved for all trees of items followed by groups with safe keys and values. Outside: violated (witnesses for each kind; every line with more than 1023 characters, proved in general)."
  },
  {
   "property": "C24",
   "status": "partial",
   "theorems": [
    "Xo.C24_quoted_roundtrip_iff",
    "Xo.C24_quoted_roundtrip_partial",
    "Xo.C24_char_roundtrip_iff",
    "Xo.C24_decode_in_context",
    "Xo.C24_try_quoted",
    "Xo.C24_non_ascii_violated",
    "Xo.C24_unquote_undefined",
    "Xo.C24_signed"
   ],
   "note": "Round trip characterised exactly: strings whose codes are 1..127 are restored; NUL and codes from 128 are not (violation proved), and unquoting a lone quotation mark reads past the end."
  },
  {
   "property": "C25",
   "status": "proved",
   "theorems": [
    "Xo.C25_split",
    "Xo.C25_split_unique",
    "Xo.C25_separators",
    "Xo.C25_concat_then_split",
    "Xo.C25_split_at_first",
    "Xo.C25_split_at_last"
   ],
   "note": "Separators are the characters before the first NUL of sep_chars, because the code passes a C string."
  },
  {
   "property": "C26",
   "status": "proved",
   "theorems": [
    "Xo.C26_trimmed_unique",
    "Xo.C26_trim",
    "Xo.C26_trim_idempotent",
    "Xo.C26_trim_left",
    "Xo.C26_trim_right",
    "Xo.C26_trim_left_right",
    "Xo.C26_blanks"
   ],
   "note": ""
  },
  {
   "property": "C27",
   "status": "proved",
   "theorems": [
    "Xo.C27_replace",
    "Xo.C27_unique",
    "Xo.C27_absent",
    "Xo.C27_replace_char",
    "Xo.C27_replace_char_gone"
   ],
   "note": ""
  },
  {
   "property": "C28",
   "status": "partial",
   "theorems": [
    "Xo.C28_find_nth_partial",
    "Xo.C28_match_at_start_violated"
   ],
   "note": "Exact when the substring does not occur at position 0; otherwise the answer is always 0 (violation proved for every such string)."
  },
  {
   "property": "C29",
   "status": "partial",
   "theorems": [
    "Xo.C29_int",
    "Xo.C29_long",
    "Xo.C29_uint",
    "Xo.C29_ulong",
    "Xo.C29_failure",
    "Xo.C29_fits_partial",
    "Xo.C29_out_of_range_violated",
    "Xo.C29_out_of_range_value"
   ],
   "note": "Round trip for all 32-bit and 64-bit integers and exact failure condition proved. Numbers outside the range give another number and success (violation proved for every such text)."
  },
  {
   "property": "C30",
   "status": "partial",
   "theorems": [
    "Xo.C30_meaning",
    "Xo.C30_trichotomy",
    "Xo.C30_lt_strict",
    "Xo.C30_at_least_below",
    "Xo.C30_transitive_partial",
    "Xo.C30_preorder_partial",
    "Xo.C30_transitive_violated"
   ],
   "note": "< is a strict order, exactly one of <, ==, > holds and is_at_least negates is_below, for all versions. <= and == are transitive unless the middle version has no build while the outer ones do; violated then (proved)."
  },
  {
   "property": "C31",
   "status": "partial",
   "theorems": [
    "Xo.C31_roundtrip_partial",
    "Xo.C31_read_postfix_partial",
    "Xo.C31_postfix_violated",
    "Xo.C31_build_violated"
   ],
   "note": "Round trip proved for versions without postfix that have a build or whose target has the same build. Violated for every version with a postfix and for every target with another build (proved)."
  },
  {
   "property": "C32",
   "status": "partial",
   "theorems": [
    "Xo.C32_decompose",
    "Xo.C32_filename",
    "Xo.C32_parent",
    "Xo.C32_stem",
    "Xo.C32_extension_partial",
    "Xo.C32_stem_extension_iff",
    "Xo.C32_replace_extension_partial",
    "Xo.C32_dotted_directory_violated",
    "Xo.C32_slash",
    "Xo.C32_parent_slash_filename_iff",
    "Xo.C32_replace_stem_partial",
    "Xo.C32_make_preferred"
   ],
   "note": "Exact conditions (iff) for parent_path / filename and stem + extension; replace_extension, replace_stem and replace_filename proved under them. Violated for dots in directory names, roots, backslashes (proved)."
  },
  {
   "property": "C33",
   "status": "proved",
   "theorems": [
    "Xo.C33_step",
    "Xo.C33_run",
    "Xo.C33_factory_is_registry",
    "Xo.C33_register_used_changes_nothing",
    "Xo.C33_find_prop_node",
    "Xo.C33_last_successful",
    "Xo.C33_registrant_restores",
    "Xo.C33_registrant_manual_unregister_terminates"
   ],
   "note": "Refinement of the factory to a registry (map from names to creators), for all histories; registrant scopes restore. Beyond the property: unregistering by hand inside a registrant scope makes its destructor throw (terminate)."
  },
  {
   "property": "C34",
   "status": "partial",
   "theorems": [
    "Xo.C34_returns_requested",
    "Xo.C34_fresh_partial",
    "Xo.C34_fresh_if_creation_succeeds",
    "Xo.C34_created_once_per_time",
    "Xo.C34_no_data_race",
    "Xo.C34_no_deadlock",
    "Xo.C34_settled_forever",
    "Xo.C34_fresh_violated",
    "Xo.C34_failure_reported_again_violated",
    "Xo.C34_created_once_violated_when_time_goes_back",
    "Xo.C34_version_loaded_twice"
   ],
   "note": "All interleavings: returned object matches the request, no data race, no deadlock, creation once per time stamp while stamps do not go back. Freshness proved if creations succeed; violated after a failed reload."
  },
  {
   "property": "C35",
   "status": "partial",
   "theorems": [
    "Xo.C35_call",
    "Xo.C35_run",
    "Xo.C35_memoize_transparent",
    "Xo.C35_at_most_once_violated_for_throwing",
    "Xo.C35_incomparable_arguments_collide",
    "Xo.C35_transparent_violated_for_nan",
    "Xo.C35_recursive_transparent",
    "Xo.C35_thread_safe_transparent",
    "Xo.C35_no_data_race",
    "Xo.C35_no_deadlock",
    "Xo.C35_recursive_call_blocks"
   ],
   "note": "Single-thread, recursive and thread-safe versions return what the function returns, for all histories and interleavings, when the comparator is a strict weak order and the function does not throw; no data race, no deadlock."
  },
  {
   "property": "C36",
   "status": "partial",
   "theorems": [
    "Xo.C36_message",
    "Xo.C36_test",
    "Xo.C36_defined",
    "Xo.C36_set_level_window_violated",
    "Xo.C36_set_level_registers"
   ],
   "note": "Proved for all sequential histories of adding, removing and re-levelling sinks. Missing: between threads the claim is refuted (C36_set_level_window_violated)."
  },
  {
   "property": "C37",
   "status": "partial",
   "theorems": [
    "Xo.C37_accounting",
    "Xo.C37_exclusive",
    "Xo.C37_exclusive_sum",
    "Xo.C37_stop",
    "Xo.C37_same_name_violated",
    "Xo.C37_unbalanced_undefined",
    "Xo.C37_start_stop"
   ],
   "note": "Accounting, exclusive times and their sum proved for all properly nested histories, where a name is its address. Missing: equal texts at different addresses are refuted (C37_same_name_violated)."
  },
  {
   "property": "C38",
   "status": "partial",
   "theorems": [
    "Xo.C38_rejected",
    "Xo.C38_history_partial",
    "Xo.C38_range",
    "Xo.C38_load",
    "Xo.C38_position_violated",
    "Xo.C38_nested_violated",
    "Xo.C38_range_text_violated",
    "Xo.C38_only_settings",
    "Xo.C38_settings_found"
   ],
   "note": "Histories of set calls, loading, rejections and ranges proved for settings with plain ids that are not nested. Missing: position ids, nested settings and non-numeric values of ranged settings are refuted; conversions between text and numbers are parameters."
  },
  {
   "property": "C39",
   "status": "proved",
   "theorems": [
    "Xo.C39_token",
    "Xo.C39_possible",
    "Xo.C39_stays",
    "Xo.C39_isolated",
    "Xo.C39_request_seen",
    "Xo.C39_moved_source_request_undefined"
   ],
   "note": "All histories of creating, copying, moving, assigning and stopping: a token reports a stop exactly if its family was asked to stop. Beyond the property: request_stop on a moved-from source is undefined."
  },
  {
   "property": "C40",
   "status": "partial",
   "theorems": [
    "Xo.C40_timer_partial",
    "Xo.C40_alternation",
    "Xo.C40_restart_paused_violated",
    "Xo.C40_set_running_violated",
    "Xo.C40_set_paused_violated",
    "Xo.C40_pause_twice",
    "Xo.C40_resume_twice"
   ],
   "note": "Proved for every allowed history (any alternation of pause and resume with restarts while running; set to times that are not negative and below the clock reading). restart while paused and the other uses of set are refuted for all values."
  },
  {
   "property": "C41",
   "status": "proved",
   "theorems": [
    "Xo.C41_splits",
    "Xo.C41_sizes",
    "Xo.C41_report",
    "Xo.C41_total_name_lost"
   ],
   "note": "All histories of split, restart and clear. Beyond the property: a split named TOTAL is lost from the report."
  },
  {
   "property": "C42",
   "status": "partial",
   "theorems": [
    "Xo.C42_add_sub_neg",
    "Xo.C42_add_then_sub",
    "Xo.C42_div_partial",
    "Xo.C42_div_violated",
    "Xo.C42_div_int",
    "Xo.C42_div_int_undefined",
    "Xo.C42_distance",
    "Xo.C42_from_nanoseconds",
    "Xo.C42_from_negative_nanoseconds",
    "Xo.C42_literal",
    "Xo.C42_range",
    "Xo.C42_from_units"
   ],
   "note": "Addition, subtraction, negation, division by signed integers, distance and literals for all values; division by a count for times that are not negative. Refuted for all negative times divided by 2 or more."
  },
  {
   "property": "C43",
   "status": "proved",
   "theorems": [
    "Xo.C43_checks",
    "Xo.C43_apart",
    "Xo.C43_due",
    "Xo.C43_first"
   ],
   "note": "All sequences of time stamps from zero on. The first success is one interval after time zero."
  },
  {
   "property": "C44",
   "status": "partial",
   "theorems": [
    "Xo.C44_get_side",
    "Xo.C44_side_unique",
    "Xo.C44_remove_side",
    "Xo.C44_mirror",
    "Xo.C44_mirror_twice",
    "Xo.C44_mirror_in_place",
    "Xo.C44_set_side",
    "Xo.C44_set_then_get_partial",
    "Xo.C44_set_none_violated",
    "Xo.C44_append_before_side",
    "Xo.C44_append_keeps_side_partial",
    "Xo.C44_append_keeps_side_violated"
   ],
   "note": "get/remove/mirror/set for all names. Set then get proved unless setting none on a name with two sides; append keeps the side unless the appended text or the name change it."
  },
  {
   "property": "C45",
   "status": "proved",
   "theorems": [
    "Xo.C45_blank",
    "Xo.C45_to_str",
    "Xo.C45_round_trip",
    "Xo.C45_duplicate_finds_first",
    "Xo.C45_negative_is_first",
    "Xo.C45_explicit_values_shift",
    "Xo.C45_stream_last_word_ignored",
    "Xo.C45_stream"
   ],
   "note": "Round trip for all enumerations with distinct names without explicit values; shown for duplicates, negatives and explicit values what happens instead. Beyond the property: operator>> ignores the last word of a stream."
  },
  {
   "property": "C46",
   "status": "partial",
   "theorems": [
    "Xo.C46_value",
    "Xo.C46_other",
    "Xo.C46_integral_partial",
    "Xo.C46_integral_violated",
    "Xo.C46_floating_partial",
    "Xo.C46_floating_violated",
    "Xo.C46_eqOk_integral",
    "Xo.C46_eqOk_floating",
    "Xo.C46_eqOk_other",
    "Xo.C46_eq",
    "Xo.C46_ne_violated"
   ],
   "note": "Access and == for all three kinds and all histories. Construction makes non-empty except for the sentinel and NaN."
  },
  {
   "property": "C47",
   "status": "partial",
   "theorems": [
    "Xo.C47_agree",
    "Xo.C47_stops_at_nul",
    "Xo.C47_strings_with_nul_collide",
    "Xo.C47_fnv_partial",
    "Xo.C47_fnv_violated"
   ],
   "note": "Agreement for all strings; FNV-1a for all ASCII strings; for a string with exactly one byte from 128 on the FNV-1a claim is refuted."
  },
  {
   "property": "C48",
   "status": "partial",
   "theorems": [
    "Xo.C48_power_of_two",
    "Xo.C48_power_of_two_signed",
    "Xo.C48_power_of_two_violated",
    "Xo.C48_digits_partial",
    "Xo.C48_digits_violated",
    "Xo.C48_digits_base_zero",
    "Xo.C48_gcd_unsigned",
    "Xo.C48_gcd_signed_abs",
    "Xo.C48_gcd_signed_partial",
    "Xo.C48_gcd_signed_violated"
   ],
   "note": "`is_power_of_two` and the unsigned `greatest_common_divisor` are proved for all inputs; `count_digits` is right only in base 10 and the signed `greatest_common_divisor` only up to sign."
  },
  {
   "property": "C49",
   "status": "partial",
   "theorems": [
    "Xo.C49_clamp",
    "Xo.C49_soft_clamp",
    "Xo.C49_wrap_partial",
    "Xo.C49_wrap_violated",
    "Xo.C49_pos_mod_partial",
    "Xo.C49_pos_mod_violated"
   ],
   "note": "`clamp` and `soft_clamp` are proved in full. `wrap` and `pos_mod` are proved up to the end point: the result is congruent and in the closed range."
  },
  {
   "property": "C50",
   "status": "partial",
   "theorems": [
    "Xo.C50_lerp_precise",
    "Xo.C50_linear",
    "Xo.C50_between",
    "Xo.C50_segment_exists",
    "Xo.C50_linear_at",
    "Xo.C50_linear_exact",
    "Xo.C50_linear_error",
    "Xo.C50_constant",
    "Xo.C50_constant_before",
    "Xo.C50_lerp_map",
    "Xo.C50_lerp_map_outside",
    "Xo.C50_lerp",
    "Xo.C50_lerp_precise_violated",
    "Xo.C50_lerp_span_partial",
    "Xo.C50_lerp_span_violated",
    "Xo.C50_regular"
   ],
   "note": "Piecewise linear and constant functions and `lerp_map` are proved in full for every history of inserted points; `lerp_span` and the regular grid for indices in the range of `int`."
  },
  {
   "property": "C51",
   "status": "partial",
   "theorems": [
    "Xo.C51_least_squares",
    "Xo.C51_linear",
    "Xo.C51_linear_error",
    "Xo.C51_linear_same_abscissae",
    "Xo.C51_steps",
    "Xo.C51_median",
    "Xo.C51_repeated_median_partial",
    "Xo.C51_repeated_median_violated"
   ],
   "note": "Linear regression is proved to be the unique least-squares line for all inputs, equidistant regression equals it, and median regression recovers lines; repeated median regression recovers lines only when no two abscissae coincide."
  },
  {
   "property": "C52",
   "status": "proved",
   "theorems": [
    "Xo.C52_polynomial",
    "Xo.C52_line"
   ],
   "note": "Evaluation is proved for every coefficient list; `intersect_y` is the inverse of a line."
  },
  {
   "property": "C53",
   "status": "partial",
   "theorems": [
    "Xo.C53_int_middle",
    "Xo.C53_median",
    "Xo.C53_median_value",
    "Xo.C53_median_slow",
    "Xo.C53_order",
    "Xo.C53_int_violated"
   ],
   "note": "`median`, `median_non_const` and `median_slow` are proved for every non-empty sequence and every rearrangement `std::nth_element` may make, over exact values."
  },
  {
   "property": "C54",
   "status": "partial",
   "theorems": [
    "Xo.C54_monoid",
    "Xo.C54_hamilton",
    "Xo.C54_bilinear",
    "Xo.C54_length",
    "Xo.C54_rotation_any",
    "Xo.C54_rotation",
    "Xo.C54_product_partial",
    "Xo.C54_product_violated",
    "Xo.C54_isometry",
    "Xo.C54_orientation",
    "Xo.C54_linear",
    "Xo.C54_identity",
    "Xo.C54_conjugate",
    "Xo.C54_inverse_partial",
    "Xo.C54_inverse_violated",
    "Xo.C54_axes",
    "Xo.C54_from_quats",
    "Xo.C54_positive",
    "Xo.C54_normalize_fast",
    "Xo.C54_normalize",
    "Xo.C54_normalize_try_fast",
    "Xo.C54_axis_angle",
    "Xo.C54_directions_partial",
    "Xo.C54_directions_violated",
    "Xo.C54_rotation_vector",
    "Xo.C54_rotation_vector_small"
   ],
   "note": "All laws hold for unit quaternions; products and lengths for all quaternions. Missing: the violated parts (rotation by a product of quaternions that are not of length one, `inverse` of quaternions not of length one, opposite directions)."
  },
  {
   "property": "C55",
   "status": "partial",
   "theorems": [
    "Xo.C55_compose",
    "Xo.C55_identity",
    "Xo.C55_inverse",
    "Xo.C55_scaled_partial",
    "Xo.C55_scaled_violated"
   ],
   "note": "Composition, identity and inversion of transforms with unit rotation are proved in full. Transforms with a scale (`transform_srt.h`) compose when both scales are one. Missing: the violated part."
  },
  {
   "property": "C56",
   "status": "partial",
   "theorems": [
    "Xo.C56_accumulate",
    "Xo.C56_order",
    "Xo.C56_first",
    "Xo.C56_join",
    "Xo.C56_parts",
    "Xo.C56_box",
    "Xo.C56_sphere",
    "Xo.C56_other_violated"
   ],
   "note": "Points, boxes of boxes, transformed boxes and spheres are proved for all inputs. Missing: the violated part (other shapes)."
  },
  {
   "property": "C57",
   "status": "partial",
   "theorems": [
    "Xo.C57_segment",
    "Xo.C57_ends",
    "Xo.C57_line",
    "Xo.C57_affine",
    "Xo.C57_reverse",
    "Xo.C57_make",
    "Xo.C57_between",
    "Xo.C57_interpolates",
    "Xo.C57_outside",
    "Xo.C57_tangents",
    "Xo.C57_continuous",
    "Xo.C57_joint_partial",
    "Xo.C57_joint_violated",
    "Xo.C57_joint_violated_witness",
    "Xo.C57_alpha",
    "Xo.C57_alpha_violated",
    "Xo.C57_length",
    "Xo.C57_alpha_zero",
    "Xo.C57_alpha_line"
   ],
   "note": "Segments, splines through all points, continuity over all times, tangents, knot segments and chord lengths. Missing: the violated part; a derivative exists at joints with equal time steps."
  },
  {
   "property": "C58",
   "status": "proved",
   "theorems": [
    "Xo.C58_within",
    "Xo.C58_clamp",
    "Xo.C58_extend",
    "Xo.C58_extend_by",
    "Xo.C58_extend_all",
    "Xo.C58_negate",
    "Xo.C58_text",
    "Xo.C58_single",
    "Xo.C58_prop_node"
   ],
   "note": "Interval operations over exact values, integer text and prop_node forms. `soft_clamped(value)` (bounds.h:42) calls a function with a missing argument, so it cannot be instantiated. Texts of fractional bounds go through `%g`, see C72."
  },
  {
   "property": "C59",
   "status": "partial",
   "theorems": [
    "Xo.C59_value",
    "Xo.C59_exact_partial",
    "Xo.C59_steady_partial",
    "Xo.C59_initial_violated",
    "Xo.C59_lost_sample_violated",
    "Xo.C59_smooth",
    "Xo.C59_delay_error",
    "Xo.C59_nearest"
   ],
   "note": "For every sample distance up to the slot length: slot i holds the sample nearest in time to the end of the slot, without accumulated error, and the value interpolates the two oldest slots (C59_nearest); closed forms for a whole number of steps per slot. Violated: initial value, and samples between two slots."
  },
  {
   "property": "C60",
   "status": "partial",
   "theorems": [
    "Xo.C60_frange_post_increment_step",
    "Xo.C60_step_signed",
    "Xo.C60_irange_signed",
    "Xo.C60_step_signed_violated",
    "Xo.C60_step_zero_violated",
    "Xo.C60_irange_reversed_violated",
    "Xo.C60_step_unsigned",
    "Xo.C60_step_unsigned_never",
    "Xo.C60_even_step_violated",
    "Xo.C60_step_unsigned_exact",
    "Xo.C60_irange_unsigned",
    "Xo.C60_irange_unsigned_exact",
    "Xo.C60_irange_unsigned_reversed_violated",
    "Xo.C60_post_increment",
    "Xo.C60_size_range",
    "Xo.C60_frange",
    "Xo.C60_frange_increment",
    "Xo.C60_frange_size_violated",
    "Xo.C60_frange_one_step_violated",
    "Xo.C60_frange_negative_violated",
    "Xo.C60_frange_post_increment"
   ],
   "note": "Visited values characterised for all signed and unsigned ranges, with and without step; frange for all ranges. size() and reversed or non-dividing ranges are refuted for all such inputs."
  },
  {
   "property": "C61",
   "status": "partial",
   "theorems": [
    "Xo.C61_counters",
    "Xo.C61_counts",
    "Xo.C61_failed_partial",
    "Xo.C61_order",
    "Xo.C61_empty_message_violated",
    "Xo.C61_later_run_violated",
    "Xo.C61_other_exception",
    "Xo.C61_total",
    "Xo.C61_messages"
   ],
   "note": "Counters proved for all histories of one run. Missing: the returned number is refuted for exceptions with an empty message and for later runs (C61_empty_message_violated, C61_later_run_violated)."
  },
  {
   "property": "C62",
   "status": "partial",
   "theorems": [
    "Xo.C62_extremes",
    "Xo.C62_mean_var",
    "Xo.C62_sorted_indices",
    "Xo.C62_top_average_partial",
    "Xo.C62_top_average_padding",
    "Xo.C62_top_average_violated"
   ],
   "note": "Average, variance, standard deviation (as the root of the variance), extremes and sorted indices are proved; `top_average` is proved to average the smallest elements."
  },
  {
   "property": "C63",
   "status": "partial",
   "theorems": [
    "Xo.C63_products",
    "Xo.C63_space",
    "Xo.C63_projection",
    "Xo.C63_projection_zero",
    "Xo.C63_planes",
    "Xo.C63_scaled_violated",
    "Xo.C63_mirror_involution",
    "Xo.C63_mirror",
    "Xo.C63_mirror_bounds",
    "Xo.C63_length",
    "Xo.C63_distance",
    "Xo.C63_normalize",
    "Xo.C63_polar",
    "Xo.C63_degrees"
   ],
   "note": "All identities, projection, mirroring, length, distance (a metric), normalisation and polar coordinates are proved. `scaled` (vec3.h) returns a reference to a local, modelled as undefined behaviour."
  },
  {
   "property": "C64",
   "status": "partial",
   "theorems": [
    "Xo.C64_volume",
    "Xo.C64_dim",
    "Xo.C64_scale",
    "Xo.C64_inertia_partial",
    "Xo.C64_inertia_violated",
    "Xo.C64_scale_by_partial",
    "Xo.C64_scale_uniform",
    "Xo.C64_extent_partial",
    "Xo.C64_extent_violated"
   ],
   "note": "Volumes, sizes, scaling and inertia are proved for all six shapes over the reals; the text form of shapes is C78. Inertia is not linear in the density for the capsule, and not available for the cone. The reported dimensions of a capsule leave out its end caps (C64_extent_violated)."
  },
  {
   "property": "C65",
   "status": "partial",
   "theorems": [
    "Xo.C65_hex_rgb",
    "Xo.C65_hex_rgba",
    "Xo.C65_hex_rounded",
    "Xo.C65_hex_close",
    "Xo.C65_opaque_partial",
    "Xo.C65_opaque_violated",
    "Xo.C65_scale",
    "Xo.C65_scale_violated",
    "Xo.C65_add",
    "Xo.C65_order",
    "Xo.C65_hsv_partial",
    "Xo.C65_hsv_periodic_partial",
    "Xo.C65_hsv_violated",
    "Xo.C65_hsv_periodic_violated",
    "Xo.C65_named",
    "Xo.C65_value_saturation",
    "Xo.C65_clamp",
    "Xo.C65_hsv_injective",
    "Xo.C65_unique",
    "Xo.C65_unique_brightness"
   ],
   "note": "Hexadecimal conversion both ways, order, arithmetic, hue/saturation/value for hues that are not negative, injectivity, unique colours and their brightness. Reading a colour from a prop_node, and hues with rounding, are C129. Violated: colours made from doubles, products with doubles, negative hues."
  },
  {
   "property": "C66",
   "status": "partial",
   "theorems": [
    "Xo.C66_include_malformed",
    "Xo.C66_zml_partial",
    "Xo.C66_zml_cycle_violated",
    "Xo.C66_include_terminates",
    "Xo.C66_include_resolved",
    "Xo.C66_include_cycle",
    "Xo.C66_include_path",
    "Xo.C66_switch"
   ],
   "note": "load_file_with_include: proved in full (terminates for every include graph, nothing left to include, cycles are errors). ZML <<file>>: terminates for acyclic includes; for every cycle or endless chain it never ends (violation proved)."
  },
  {
   "property": "C67",
   "status": "proved",
   "theorems": [
    "Xo.C67_candidates_differ",
    "Xo.C67_created_is_new",
    "Xo.C67_never_collide",
    "Xo.C67_alone",
    "Xo.C67_create",
    "Xo.C67_first_free",
    "Xo.C67_create_directories",
    "Xo.C67_trailing_slash_violated",
    "Xo.C67_find",
    "Xo.C67_find_violated"
   ],
   "note": "Any number of processes with arbitrary interference: a returned path did not exist just before it was made; without deletions no two calls return the same place. A single call: first free candidate, termination, refinement of the sequential loop. `find_unique_directory` may return the path of an existing file, `create_directories` with a trailing slash returns false after making the directory (stated as _violated)."
  },
  {
   "property": "C68",
   "status": "proved",
   "theorems": [
    "Xo.C68_view_element",
    "Xo.C68_find",
    "Xo.C68_find_index",
    "Xo.C68_find_index_none",
    "Xo.C68_find_index_next",
    "Xo.C68_find_ref",
    "Xo.C68_contains",
    "Xo.C68_any_none",
    "Xo.C68_count",
    "Xo.C68_for_each",
    "Xo.C68_for_each_state",
    "Xo.C68_copy",
    "Xo.C68_copy_short",
    "Xo.C68_copy_container",
    "Xo.C68_copy_to_range",
    "Xo.C68_copy_blocks",
    "Xo.C68_append_back",
    "Xo.C68_view",
    "Xo.C68_view_container",
    "Xo.C68_view_count"
   ],
   "note": "All sequences, predicates, start indices, copies and views. Not modelled: index_of."
  },
  {
   "property": "C69",
   "status": "partial",
   "theorems": [
    "Xo.C69_match_partial",
    "Xo.C69_search",
    "Xo.C69_matcher",
    "Xo.C69_matcher_text",
    "Xo.C69_bracket_violated",
    "Xo.C69_set",
    "Xo.C69_is_pattern"
   ],
   "note": "Exact for patterns without [; violated for brackets (witness proved). fnmatch itself is a library function modelled here; character classes inside brackets are not modelled."
  },
  {
   "property": "C70",
   "status": "partial",
   "theorems": [
    "Xo.C70_left",
    "Xo.C70_right_partial",
    "Xo.C70_right_violated",
    "Xo.C70_mid",
    "Xo.C70_left_right"
   ],
   "note": "left_str and mid_str fully; right_str within the string. Beyond it right_str throws (violation proved for all such lengths)."
  },
  {
   "property": "C71",
   "status": "partial",
   "theorems": [
    "Xo.C71_triangle",
    "Xo.C71_triangle_in",
    "Xo.C71_square_partial",
    "Xo.C71_square_violated",
    "Xo.C71_float_to_byte"
   ],
   "note": "Triangle waves and `float_to_byte` are proved in full; the square wave is proved for arguments that are not negative."
  },
  {
   "property": "C73",
   "status": "partial",
   "theorems": [
    "Xo.C73_from_euler",
    "Xo.C73_angles",
    "Xo.C73_rotation_partial",
    "Xo.C73_gimbal_violated"
   ],
   "note": "Euler angles to rotation for all angles and orders; angles recovered in the principal range; rotation recovered away from gimbal lock. Missing: the violated case."
  },
  {
   "property": "C74",
   "status": "partial",
   "theorems": [
    "Xo.C74_lines_partial",
    "Xo.C74_lines_violated",
    "Xo.C74_segment_on",
    "Xo.C74_segment",
    "Xo.C74_plane",
    "Xo.C74_center_box",
    "Xo.C74_center_capsule",
    "Xo.C74_center_cylinder_partial",
    "Xo.C74_center_cylinder_violated",
    "Xo.C74_center_other_violated"
   ],
   "note": "Segments, planes, spheres, boxes and capsules in full; lines when exactly parallel or at least the tolerance from it. Missing: the violated parts."
  },
  {
   "property": "C75",
   "status": "partial",
   "theorems": [
    "Xo.C75_volume",
    "Xo.C75_cone",
    "Xo.C75_box_volume",
    "Xo.C75_inertia",
    "Xo.C75_box_inertia",
    "Xo.C75_capsule_partial",
    "Xo.C75_capsule_violated"
   ],
   "note": "Volumes as Lebesgue measures of the bodies; inertia of spheres, boxes, cylinders, and of capsules about their axis. Missing: the violated part and the inertia of cones, which throws."
  },
  {
   "property": "C72",
   "status": "partial",
   "theorems": [
    "Xo.C72_write_nearest",
    "Xo.C72_read_nearest",
    "Xo.C72_special",
    "Xo.C72_text_stable",
    "Xo.C72_survive",
    "Xo.C72_six_digits",
    "Xo.C72_roundtrip_violated",
    "Xo.C72_injective_violated",
    "Xo.C72_buffer",
    "Xo.C72_bool",
    "Xo.C72_precision",
    "Xo.C72_precision_violated",
    "Xo.C72_text_stable_partial",
    "Xo.C72_text_violated",
    "Xo.C72_survive_all"
   ],
   "note": "Writing (nearest six-digit decimal), reading (nearest number of the format), special values, the exact set of surviving numbers (normal and subnormal) and the buffer size are proved for float and double. Text stability is proved for every finite float and for every finite double but one magnitude, 202403 times the smallest positive double, for which it is false (proved). Survival of every number is false (proved)."
  },
  {
   "property": "C76",
   "status": "partial",
   "theorems": [
    "Xo.C76_clock",
    "Xo.C76_undefined",
    "Xo.C76_read_partial",
    "Xo.C76_milliseconds",
    "Xo.C76_nanoseconds",
    "Xo.C76_read_violated",
    "Xo.C76_negative_violated"
   ],
   "note": "The form of the text and the whole seconds it tells, undefined behaviour beyond the int range, and reading back to the precision written for times from zero to below a minute and the limit are proved. Reading back fails for every time from ten seconds on and is one nanosecond off for negative times (both proved)."
  },
  {
   "property": "C77",
   "status": "partial",
   "theorems": [
    "Xo.C77_set_get",
    "Xo.C77_text_partial",
    "Xo.C77_missing",
    "Xo.C77_malformed",
    "Xo.C77_any",
    "Xo.C77_all",
    "Xo.C77_vector_read",
    "Xo.C77_vector",
    "Xo.C77_vector_layout",
    "Xo.C77_array_partial",
    "Xo.C77_array_violated",
    "Xo.C77_map_partial",
    "Xo.C77_map_set_violated",
    "Xo.C77_map_text"
   ],
   "note": "Proved for all nodes, keys and conversions: reading what was stored, defaults, alternative and repeated keys, vectors (exactly when the elements survive), arrays with enough children, maps converted by to_prop_node. Disproved: maps stored with set are read back empty; arrays with too few children are left partly uninitialised without an error. Floating-point numbers survive exactly if six digits describe them (C72)."
  },
  {
   "property": "C78",
   "status": "partial",
   "theorems": [
    "Xo.C78_capsule_exact",
    "Xo.C78_vec3",
    "Xo.C78_vec3_notations",
    "Xo.C78_vec3_refused",
    "Xo.C78_quat",
    "Xo.C78_euler_partial",
    "Xo.C78_euler_order_violated",
    "Xo.C78_scale_partial",
    "Xo.C78_scale_violated",
    "Xo.C78_transform",
    "Xo.C78_transform_missing",
    "Xo.C78_shape",
    "Xo.C78_box_exact",
    "Xo.C78_capsule_length",
    "Xo.C78_shape_missing",
    "Xo.C78_bounds",
    "Xo.C78_bounds_notations",
    "Xo.C78_bounds_violated"
   ],
   "note": "Proved: vectors and quaternions survive exactly if their components do; the three notations of a vector agree; shapes of all kinds survive; intervals survive exactly if their ends do; transforms; refusal of incomplete values. Disproved: the order of Euler angles can never be read; scales that are not uniform do not survive."
  },
  {
   "property": "C79",
   "status": "partial",
   "theorems": [
    "Xo.C79_begins",
    "Xo.C79_begins_at_partial",
    "Xo.C79_begins_at_violated",
    "Xo.C79_begins_at_zero",
    "Xo.C79_ends",
    "Xo.C79_contains",
    "Xo.C79_char",
    "Xo.C79_equals_any",
    "Xo.C79_append",
    "Xo.C79_lower",
    "Xo.C79_upper",
    "Xo.C79_case_total",
    "Xo.C79_case_violated",
    "Xo.C79_copy",
    "Xo.C79_copy_reads",
    "Xo.C79_copy_empty",
    "Xo.C79_folder_partial",
    "Xo.C79_folder_cases",
    "Xo.C79_folder_violated",
    "Xo.C79_extension",
    "Xo.C79_no_extension",
    "Xo.C79_tidy",
    "Xo.C79_tidy_total",
    "Xo.C79_stack",
    "Xo.C79_stack_undo",
    "Xo.C79_dict_name",
    "Xo.C79_dict_elem",
    "Xo.C79_dict_inverse",
    "Xo.C79_lookup"
   ],
   "note": "Prefix, suffix, containment, case, copying, extensions, tidy_identifier, stacks and dictionaries are proved for all inputs. Three parts are violated: the prefix test with a position denies the empty text at the end, get_filename_folder returns the whole name when there is no folder, and the change of case is undefined beyond ASCII."
  },
  {
   "property": "C80",
   "status": "partial",
   "theorems": [
    "Xo.C80_doc_partial",
    "Xo.C80_error",
    "Xo.C80_unclosed_comment_partial",
    "Xo.C80_files_partial",
    "Xo.C80_missing_file",
    "Xo.C80_latest",
    "Xo.C80_other",
    "Xo.C80_scope",
    "Xo.C80_plain",
    "Xo.C80_inline",
    "Xo.C80_macro_children_violated",
    "Xo.C80_empty_label_violated",
    "Xo.C80_nested_definition_violated",
    "Xo.C80_references_partial",
    "Xo.C80_reference_error",
    "Xo.C80_reference_appends",
    "Xo.C80_reference_first"
   ],
   "note": "Proved for all documents: reading gives the tree that the independent meaning function describes (macros, scopes, inline macros, extended values, arrays, includes over several files; references @path into everything read before, also in groups that are still open), and undefined names, references to nothing, open inline macros, missing files and unclosed comments are errors. Violated: children of a macro with a value go to the previous item, an empty quoted label ends the document silently, a definition inside a definition may use a dangling reference. Not covered: a name used inside its own definition, references in arrays, in the braces of a definition or in the braces behind a value, positions #n in a path."
  },
  {
   "property": "C81",
   "status": "partial",
   "theorems": [
    "Xo.C81_get_key",
    "Xo.C81_found",
    "Xo.C81_other_tree",
    "Xo.C81_names_partial",
    "Xo.C81_leads_back_partial",
    "Xo.C81_array_violated",
    "Xo.C81_repeated_violated",
    "Xo.C81_delimiter_violated",
    "Xo.C81_parent",
    "Xo.C81_same_query",
    "Xo.C81_no_query"
   ],
   "note": "Proved for all trees: a node inside is found with the names on the way, a node of another tree is not, and parents are found. The query leads back if the names on the way are non-empty, free of the delimiter and the first of their kind among their siblings; otherwise it is violated (unnamed children, repeated names, names with the delimiter)."
  },
  {
   "property": "C82",
   "status": "partial",
   "theorems": [
    "Xo.C82_option",
    "Xo.C82_has_option",
    "Xo.C82_plain",
    "Xo.C82_negative_violated",
    "Xo.C82_unreadable_violated",
    "Xo.C82_tree",
    "Xo.C82_tree_plain",
    "Xo.C82_plain_violated",
    "Xo.C82_tree_negative_violated"
   ],
   "note": "Proved for all argument lists of options (with a value that does not begin with a dash) and separated plain arguments. Violated: negative values are not read, an unreadable number gives 0 instead of the default, and the tree keeps only the last plain argument."
  },
  {
   "property": "C83",
   "status": "partial",
   "theorems": [
    "Xo.C83_narrow",
    "Xo.C83_listing",
    "Xo.C83_column",
    "Xo.C83_log",
    "Xo.C83_report",
    "Xo.C83_report_log",
    "Xo.C83_report_empty",
    "Xo.C83_report_keeps_partial",
    "Xo.C83_report_violated",
    "Xo.C83_listing_violated"
   ],
   "note": "The layout of listings, logs and reports is proved for all trees. Violated: a listing marks the whole tree as read, and a report marks unread nodes that have both a value and children as read."
  },
  {
   "property": "C84",
   "status": "partial",
   "theorems": [
    "Xo.C84_reads_back_partial",
    "Xo.C84_quotes_violated",
    "Xo.C84_ambiguous_violated"
   ],
   "note": "Proved for all nodes whose names and values need no quotation marks and whose leaves have values: reading gives the node back. Violated otherwise: the function writes no quotation marks."
  },
  {
   "property": "C85",
   "status": "partial",
   "theorems": [
    "Xo.C85_average_partial",
    "Xo.C85_average_empty",
    "Xo.C85_average_empty_iff",
    "Xo.C85_average_range",
    "Xo.C85_average_negative_violated",
    "Xo.C85_average_cancel_violated",
    "Xo.C85_delta",
    "Xo.C85_delta_sum",
    "Xo.C85_difference_equation",
    "Xo.C85_no_coefficients_violated",
    "Xo.C85_velocity_violated",
    "Xo.C85_linear",
    "Xo.C85_causal",
    "Xo.C85_lowpass_constant",
    "Xo.C85_lowpass_alternating",
    "Xo.C85_first_order_steps",
    "Xo.C85_first_order_between",
    "Xo.C85_first_order_range",
    "Xo.C85_first_order_settles",
    "Xo.C85_fast_between_partial",
    "Xo.C85_fast_violated"
   ],
   "note": "Weighted mean, difference equation, linearity, causality, low-pass behaviour, first-order filter over the reals (exp exact). Rounding is not modelled here; C120 to C124 and C131 treat it for other functions."
  },
  {
   "property": "C86",
   "status": "partial",
   "theorems": [
    "Xo.C86_equal",
    "Xo.C86_equal_zero",
    "Xo.C86_trichotomy",
    "Xo.C86_or_equal",
    "Xo.C86_symmetric_violated",
    "Xo.C86_length",
    "Xo.C86_length_ends",
    "Xo.C86_length_reverse",
    "Xo.C86_insert",
    "Xo.C86_insert_exact",
    "Xo.C86_insert_outside",
    "Xo.C86_insert_short"
   ],
   "note": "All points in a real normed space; comparisons over an ordered field."
  },
  {
   "property": "C87",
   "status": "partial",
   "theorems": [
    "Xo.C87_index",
    "Xo.C87_from_axes",
    "Xo.C87_diagonal",
    "Xo.C87_axes",
    "Xo.C87_axes_rotation",
    "Xo.C87_round_trip",
    "Xo.C87_rotation",
    "Xo.C87_only_rotations",
    "Xo.C87_scaled_violated"
   ],
   "note": "Proved for all rotation matrices over the reals; other matrices give no correct answer (`C87_only_rotations`). Rounding is not modelled here; C120 to C124 and C131 treat it for other functions."
  },
  {
   "property": "C88",
   "status": "partial",
   "theorems": [
    "Xo.C88_result_partial",
    "Xo.C88_result_new",
    "Xo.C88_result_one",
    "Xo.C88_result_violated",
    "Xo.C88_append",
    "Xo.C88_append_bad",
    "Xo.C88_set_error_or_throw",
    "Xo.C88_try_set_error",
    "Xo.C88_cached_partial",
    "Xo.C88_cached_once",
    "Xo.C88_cached_throw",
    "Xo.C88_cached_violated"
   ],
   "note": "C88_result_partial and C88_cached_partial: an error that has a text, and a first call at a time other than the one the cache was made with. The other cases are refuted."
  },
  {
   "property": "C89",
   "status": "partial",
   "theorems": [
    "Xo.C89_array_partial",
    "Xo.C89_array_eq",
    "Xo.C89_moved_violated",
    "Xo.C89_move_block",
    "Xo.C89_self_copy_violated",
    "Xo.C89_resize_violated",
    "Xo.C89_vec_elements",
    "Xo.C89_vec_div",
    "Xo.C89_vec_space",
    "Xo.C89_dot",
    "Xo.C89_null",
    "Xo.C89_vec_eq_partial",
    "Xo.C89_vec_eq_violated",
    "Xo.C89_distance",
    "Xo.C89_distance_refused",
    "Xo.C89_length",
    "Xo.C89_normalize",
    "Xo.C89_mat_make",
    "Xo.C89_mat_set",
    "Xo.C89_mat_resize",
    "Xo.C89_mat_mul_violated",
    "Xo.C89_mat_mul_wide_violated"
   ],
   "note": "C89_array_partial: histories that do not use moved arrays and do not copy an array to itself (resize is specified as a fresh fill); C89_vec_eq_partial: comparison of vectors of the same size. The other cases are refuted. C89_mat_set and C89_mat_resize cover elements and sizes of matrices."
  },
  {
   "property": "C90",
   "status": "partial",
   "theorems": [
    "Xo.C90_record_partial",
    "Xo.C90_nothing_lost",
    "Xo.C90_one_frame",
    "Xo.C90_sentinel_violated",
    "Xo.C90_frame_set",
    "Xo.C90_frame_missing",
    "Xo.C90_vec",
    "Xo.C90_quat",
    "Xo.C90_names",
    "Xo.C90_shared_violated",
    "Xo.C90_stale_violated",
    "Xo.C90_means",
    "Xo.C90_means_empty",
    "Xo.C90_covariance",
    "Xo.C90_cov_symm",
    "Xo.C90_cov_products",
    "Xo.C90_cov_shift",
    "Xo.C90_cov_psd"
   ],
   "note": "Recording, frames by label, vectors, means and covariances are proved for all histories and all data in exact arithmetic. The theorems about recording assume that the recorded values differ from the sentinel."
  },
  {
   "property": "C91",
   "status": "partial",
   "theorems": [
    "Xo.C91_blank",
    "Xo.C91_round_trip_partial",
    "Xo.C91_float_partial",
    "Xo.C91_float_exact",
    "Xo.C91_blank_violated",
    "Xo.C91_no_channels_violated",
    "Xo.C91_double_label"
   ],
   "note": "The round trip is proved for every storage with at least one channel and distinct labels without blanks, and for every number format that reads back what it wrote. It is instantiated with the modelled text of floating point numbers."
  },
  {
   "property": "C92",
   "status": "partial",
   "theorems": [
    "Xo.C92_of_size",
    "Xo.C92_of_int",
    "Xo.C92_add_sub_partial",
    "Xo.C92_wide_violated",
    "Xo.C92_narrow",
    "Xo.C92_next",
    "Xo.C92_order",
    "Xo.C92_move",
    "Xo.C92_self_move_violated",
    "Xo.C92_span",
    "Xo.C92_collection_partial",
    "Xo.C92_full_violated",
    "Xo.C92_span_full_violated",
    "Xo.C92_erase_violated",
    "Xo.C92_handles_partial",
    "Xo.C92_handle_erase"
   ],
   "note": "Proved for every history in which no type has more elements than there are valid indices, for narrow and wide index types."
  },
  {
   "property": "C93",
   "status": "partial",
   "theorems": [
    "Xo.C93_field",
    "Xo.C93_read",
    "Xo.C93_round_trip_partial",
    "Xo.C93_negative_violated",
    "Xo.C93_refused",
    "Xo.C93_no_number",
    "Xo.C93_garbled_violated",
    "Xo.C93_order_partial",
    "Xo.C93_order_violated"
   ],
   "note": "The round trip is proved for all dates without negative fields, the order for years below 10000."
  },
  {
   "property": "C94",
   "status": "partial",
   "theorems": [
    "Xo.C94_zip_partial",
    "Xo.C94_zip_violated",
    "Xo.C94_view_if",
    "Xo.C94_view_steps",
    "Xo.C94_stream_write",
    "Xo.C94_stream_round_trip",
    "Xo.C94_push_back_stream",
    "Xo.C94_stream_end"
   ],
   "note": "Views and streams are proved for all sequences; zip assumes that the second sequence is at least as long as the first."
  },
  {
   "property": "C95",
   "status": "partial",
   "theorems": [
    "Xo.C95_read_partial",
    "Xo.C95_append",
    "Xo.C95_last_violated",
    "Xo.C95_garbage",
    "Xo.C95_errors",
    "Xo.C95_word",
    "Xo.C95_int",
    "Xo.C95_pair",
    "Xo.C95_int_garbage"
   ],
   "note": "Proved for every file in which each value is followed by white space, generically for every type whose texts can be read, with integers, words and pairs as instances. std::istream is modelled by its documented behaviour."
  },
  {
   "property": "C96",
   "status": "partial",
   "theorems": [
    "Xo.C96_acos_accuracy",
    "Xo.C96_acos_error",
    "Xo.C96_acos_order",
    "Xo.C96_acos_opposite",
    "Xo.C96_acos_range",
    "Xo.C96_acos_beyond_violated",
    "Xo.C96_jerk_rest",
    "Xo.C96_jerk_only",
    "Xo.C96_jerk_rises",
    "Xo.C96_jerk_mirror",
    "Xo.C96_evaluate_partial",
    "Xo.C96_evaluate_step",
    "Xo.C96_evaluate_reversed_violated",
    "Xo.C96_angle_measure",
    "Xo.C96_angle_back",
    "Xo.C96_angle_convert",
    "Xo.C96_angle_values",
    "Xo.C96_angle_trig",
    "Xo.C96_angle_product_violated"
   ],
   "note": "The fast arc cosine is within 0.017 (less than one degree) of the arc cosine for every cosine from -1 to 1 (C96_acos_accuracy); this is proved with the sign of the derivative of the error on five pieces, and C96_acos_error shows that the bound is nearly the best. The minimum-jerk curve is the only polynomial of degree at most five with the six end conditions (C96_jerk_rest, C96_jerk_only). The decimal factors of the angle types are compared with the exact ones. Floating-point rounding is not modelled. Evaluating with a step that points away from the end is undefined, the product of two angles depends on the unit, and a cosine slightly beyond 1 gives no angle."
  },
  {
   "property": "C97",
   "status": "partial",
   "theorems": [
    "Xo.C97_total",
    "Xo.C97_read",
    "Xo.C97_read_bom",
    "Xo.C97_write_read",
    "Xo.C97_round_trip_partial",
    "Xo.C97_cut_element",
    "Xo.C97_cut",
    "Xo.C97_value_lost_violated",
    "Xo.C97_root_value_violated",
    "Xo.C97_several_violated",
    "Xo.C97_blank_violated",
    "Xo.C97_empty_key_violated",
    "Xo.C97_cdata_violated",
    "Xo.C97_split_text_violated",
    "Xo.C97_closing_name_violated",
    "Xo.C97_key_space_violated",
    "Xo.C97_decimal_violated",
    "Xo.C97_surrogate_violated"
   ],
   "note": "Proved for all texts that parsing ends with a tree or a refusal (C97_total), for all documents built from elements, attributes with either quote, text with all five named and all numeric references, comments, instructions, CDATA and document types that reading gives the tree the document stands for (C97_read, C97_read_bom), that written trees come back (C97_write_read, C97_round_trip_partial) and that a document cut off within an element is refused (C97_cut_element, C97_cut). The round trip needs: one child at the root, no node with both a value and children, no blank values, keys that are names; each condition is shown to be needed. Line numbers of refusals and the memory pool are not modelled."
  },
  {
   "property": "C98",
   "status": "partial",
   "theorems": [
    "Xo.C98_types",
    "Xo.C98_extension",
    "Xo.C98_save_load_partial",
    "Xo.C98_other_files",
    "Xo.C98_history_partial",
    "Xo.C98_errors",
    "Xo.C98_messages",
    "Xo.C98_supported",
    "Xo.C98_stale_violated",
    "Xo.C98_full_violated",
    "Xo.C98_failed_save_violated",
    "Xo.C98_interrupted_xml_partial",
    "Xo.C98_interrupted_empty_violated",
    "Xo.C98_interrupted_zml_violated",
    "Xo.C98_interrupted_ini_violated",
    "Xo.C98_directory_violated"
   ],
   "note": "Proved for all histories of saves and loads with trees that the type of their file can hold (C98_history_partial, C98_save_load_partial over any format that keeps its trees; C98_types instantiates it with the three formats through C20, C23 and C97), with C98_extension, C98_other_files, C98_errors, C98_supported. Interrupted saves: for XML a file with some of the text is refused or complete (C98_interrupted_xml_partial). Files are identified by the text of their path; line end translation is not modelled."
  },
  {
   "property": "C99",
   "status": "partial",
   "theorems": [
    "Xo.C99_values",
    "Xo.C99_period",
    "Xo.C99_each_once",
    "Xo.C99_seeds_partial",
    "Xo.C99_seeds_violated",
    "Xo.C99_reseed",
    "Xo.C99_uniform",
    "Xo.C99_uniform_float",
    "Xo.C99_vec3",
    "Xo.C99_int_partial",
    "Xo.C99_int_fair",
    "Xo.C99_wide_violated"
   ],
   "note": "Full period (C99_period, C99_each_once), values (C99_values), reseeding after any history (C99_reseed), intervals of real numbers and vectors (C99_uniform, C99_uniform_float, C99_vec3), whole numbers of up to 32 bits: termination and bounds (C99_int_partial) and, for intervals of fewer than 2^31 - 2 numbers, equal frequency (C99_int_fair). Missing: wider intervals, from which some numbers are never drawn (violated), 64-bit types, mt19937 and the normal distribution; for rounding of real numbers see C138. Different seeds: C99_seeds_partial for seeds from 1 to 2^31 - 2; C99_seeds_violated otherwise."
  },
  {
   "property": "C100",
   "status": "partial",
   "theorems": [
    "Xo.C100_plot_partial",
    "Xo.C100_refused",
    "Xo.C100_constant_violated",
    "Xo.C100_one_column_violated",
    "Xo.C100_far_violated"
   ],
   "note": "Functions on real numbers that stay in a range lo < hi, two or more columns, origin within 2^30 rows and columns of the picture. Arithmetic is exact; NaN is modelled for one column."
  },
  {
   "property": "C101",
   "status": "partial",
   "theorems": [
    "Xo.C101_owned",
    "Xo.C101_defined",
    "Xo.C101_no_leak",
    "Xo.C101_clone_partial",
    "Xo.C101_clone_violated",
    "Xo.C101_clone_null_violated",
    "Xo.C101_independent",
    "Xo.C101_cast",
    "Xo.C101_cast_deletes_violated",
    "Xo.C101_dereference"
   ],
   "note": "The history theorems hold for all operations; clone_partial needs an object of exactly the type of the pointer. A program of operations is a list; addresses are never used again."
  },
  {
   "property": "C102",
   "status": "proved",
   "theorems": [
    "Xo.C102_get",
    "Xo.C102_eq",
    "Xo.C102_returns",
    "Xo.C102_from_prop_node"
   ],
   "note": "The table behind the proxies is modelled as an interning set with at most mx values, which the proxy headers leave to the user type."
  },
  {
   "property": "C103",
   "status": "partial",
   "theorems": [
    "Xo.C103_read_partial",
    "Xo.C103_interpolated_partial",
    "Xo.C103_at_violated",
    "Xo.C103_add_frame_violated",
    "Xo.C103_add_channel_violated",
    "Xo.C103_interpolated_violated",
    "Xo.C103_const_violated",
    "Xo.C103_resize"
   ],
   "note": "Reads of frames that were written, with the capacity given at construction and less than 2^64 frames. at() is only correct once the buffer is full."
  },
  {
   "property": "C104",
   "status": "partial",
   "theorems": [
    "Xo.C104_read",
    "Xo.C104_round_trip_partial",
    "Xo.C104_int",
    "Xo.C104_real",
    "Xo.C104_float_partial",
    "Xo.C104_bad_value_violated",
    "Xo.C104_infinity_violated",
    "Xo.C104_double_column",
    "Xo.C104_double_row",
    "Xo.C104_blank_violated",
    "Xo.C104_const_violated",
    "Xo.C104_ends",
    "Xo.C104_ends_int",
    "Xo.C104_ends_float"
   ],
   "note": "Round trip for every table whose labels are words: C104_int exactly, C104_float_partial up to the six digits that are printed. C104_read covers texts with or without a header word and with an optional last line end; C104_double_column, C104_double_row, C104_ends_int and C104_ends_float for all texts. Violated for labels with blanks, for infinity and NaN, for unreadable values (silent) and for the const access by labels."
  },
  {
   "property": "C105",
   "status": "partial",
   "theorems": [
    "Xo.C105_try_find",
    "Xo.C105_find_partial",
    "Xo.C105_absolute_violated",
    "Xo.C105_search_partial",
    "Xo.C105_search_violated",
    "Xo.C105_exclude",
    "Xo.C105_find_files",
    "Xo.C105_order",
    "Xo.C105_directory_violated",
    "Xo.C105_once"
   ],
   "note": "C105_try_find, C105_find_files, C105_exclude, C105_once and C105_order hold for all inputs (C105_once for names that are distinct per directory, not empty and without slash, as on disk). C105_find_partial and C105_search_partial need that an absolute path does not also exist in the current folder, and that the name of an absolute path does not look absolute. Links and unreadable directories are not modelled."
  },
  {
   "property": "C106",
   "status": "partial",
   "theorems": [
    "Xo.C106_find_recursive",
    "Xo.C106_find_recursive_iff",
    "Xo.C106_any",
    "Xo.C106_children",
    "Xo.C106_returned",
    "Xo.C106_references_partial",
    "Xo.C106_fits",
    "Xo.C106_reserve",
    "Xo.C106_references_violated",
    "Xo.C106_alias_violated",
    "Xo.C106_insert"
   ],
   "note": "Searches on all levels, searches for one of several keys, and all functions that add children are proved for all trees and sequences. References stay valid only while the children fit into the reserved memory (C106_references_partial); otherwise they become invalid, and a node cannot be appended to itself or be assigned a copy of a node below it (violations)."
  },
  {
   "property": "C107",
   "status": "partial",
   "theorems": [
    "Xo.C107_load_partial",
    "Xo.C107_save_partial",
    "Xo.C107_save_load_partial",
    "Xo.C107_directories",
    "Xo.C107_save_errors",
    "Xo.C107_history",
    "Xo.C107_remove",
    "Xo.C107_copy",
    "Xo.C107_full_violated",
    "Xo.C107_directory_violated",
    "Xo.C107_backslash_violated",
    "Xo.C107_copy_full"
   ],
   "note": "Histories of saving, appending, copying and removing refine a map from places to texts (C107_history); saving succeeds if nothing is in the way, and makes only the directories above the file. Partial: the path has no backslash and the disk does not become full. A full disk, a directory that is loaded and a backslash in the path are violations."
  },
  {
   "property": "C108",
   "status": "partial",
   "theorems": [
    "Xo.C108_report",
    "Xo.C108_all",
    "Xo.C108_overhead",
    "Xo.C108_line_partial",
    "Xo.C108_tag",
    "Xo.C108_running",
    "Xo.C108_empty_violated",
    "Xo.C108_count_violated"
   ],
   "note": "Order, completeness and figures of the report are proved for all trees of sections, as C37 shows them to be. Partial: counts below 2^31 (C108_line_partial). A report before the first start is undefined, and larger counts are printed wrongly (violations). The text that stringf makes of the figures is a parameter."
  },
  {
   "property": "C109",
   "status": "partial",
   "theorems": [
    "Xo.C109_message",
    "Xo.C109_format_partial",
    "Xo.C109_format_violated",
    "Xo.C109_console",
    "Xo.C109_stream",
    "Xo.C109_prefix",
    "Xo.C109_level_texts",
    "Xo.C109_threads",
    "Xo.C109_progress",
    "Xo.C109_stream_violated",
    "Xo.C109_mixed_violated",
    "Xo.C109_alone",
    "Xo.C109_file_partial",
    "Xo.C109_file_violated",
    "Xo.C109_life_partial",
    "Xo.C109_life_violated"
   ],
   "note": "For every schedule of any number of threads the console holds whole messages in lock order plus a beginning of the current one, per-thread order kept (C109_threads, C109_progress). Each nonempty line gets the prefix (C109_console with the split specification of C25; C109_prefix); C109_stream, C109_message. Missing, with proved violations: formatted messages are cut to 1023 characters (C109_format_violated); stream and file sinks use no lock, so two threads race (C109_stream_violated, C109_mixed_violated); a file that cannot be opened or is full once loses every later message silently (C109_file_violated); a message during construction or destruction of the sink reaches a half-made object (C109_life_violated). Colours of Windows consoles are not modelled."
  },
  {
   "property": "C110",
   "status": "partial",
   "theorems": [
    "Xo.C110_history",
    "Xo.C110_zero_violated",
    "Xo.C110_line_number",
    "Xo.C110_line_number_mono",
    "Xo.C110_fails",
    "Xo.C110_numbers_partial",
    "Xo.C110_range_violated",
    "Xo.C110_optional",
    "Xo.C110_optional_violated",
    "Xo.C110_characters_violated",
    "Xo.C110_line",
    "Xo.C110_line_violated",
    "Xo.C110_try",
    "Xo.C110_seek_partial",
    "Xo.C110_seek_violated"
   ],
   "note": "Every history of operations whose arguments contain no zero stays in the text and is monotone (C110_history, C110_line_number, C110_line_number_mono); C110_fails (if and only if), C110_numbers_partial (round trip for numbers of the type), C110_optional, C110_line, C110_try, C110_seek_partial. Missing, with proved violations: a number outside the type is read as another one without failure (C110_range_violated), after a failure optional numbers are lost (C110_optional_violated), a zero as argument moves the position out of the text (C110_zero_violated), a loop over good() and getc gives one zero too many (C110_characters_violated), get_line never passes the end of a line (C110_line_violated), nothing is found behind a zero in the text (C110_seek_violated). Floating point numbers of char_stream are in C91 (text of storages)."
  },
  {
   "property": "C111",
   "status": "partial",
   "theorems": [
    "Xo.C111_twist_partial",
    "Xo.C111_swing_partial",
    "Xo.C111_axis",
    "Xo.C111_sign_violated",
    "Xo.C111_singular_violated",
    "Xo.C111_singular",
    "Xo.C111_length_violated",
    "Xo.C111_xyz_partial",
    "Xo.C111_vector_angle",
    "Xo.C111_pitch_yaw_roll",
    "Xo.C111_single",
    "Xo.C111_rebuild_violated"
   ],
   "note": "Over the reals: twist is the rotation by the told angle (C111_twist_partial), swing and twist give the rotation (C111_swing_partial), own angle recovered (C111_axis), forms for x, y, z agree (C111_xyz_partial), C111_vector_angle, C111_pitch_yaw_roll, C111_single. Missing, with proved violations: q and -q give angles that differ by a full turn (C111_sign_violated), fast forms and the forms for x, y, z give NaN in the singular case (C111_singular_violated), below the tolerance the returned quaternion is not of unit length (C111_length_violated), pitch, yaw and roll do not rebuild the rotation in any Euler order (C111_rebuild_violated). Rounding is not modelled."
  },
  {
   "property": "C112",
   "status": "partial",
   "theorems": [
    "Xo.C112_round_trip_partial",
    "Xo.C112_load_partial",
    "Xo.C112_throws",
    "Xo.C112_new",
    "Xo.C112_reset",
    "Xo.C112_version_partial",
    "Xo.C112_no_name_violated",
    "Xo.C112_load_keeps_violated",
    "Xo.C112_failed_load_violated",
    "Xo.C112_version_visible_violated",
    "Xo.C112_version_setting_violated",
    "Xo.C112_allowed_range_violated",
    "Xo.C112_unknown_violated"
   ],
   "note": "Settings objects and files as a state machine (files hold trees; their text is C20 and C98). For every history: after a save, new settings from that file read the same for every setting, and saving changes none; loading does to each setting what its entries do as calls of set; throws only for the listed reasons; new settings read defaults; reset; the version of the file. Partial: descriptions without nested settings or one called version, ids without positions, ranged settings whose numbers are written so that they are accepted again. Violated otherwise: see the _violated theorems."
  },
  {
   "property": "C113",
   "status": "partial",
   "theorems": [
    "Xo.C113_every_schedule",
    "Xo.C113_ends",
    "Xo.C113_no_deadlock",
    "Xo.C113_results",
    "Xo.C113_same_verdict",
    "Xo.C113_last_line",
    "Xo.C113_one_writer_partial",
    "Xo.C113_start_overlap_violated",
    "Xo.C113_report",
    "Xo.C113_log_tells_partial",
    "Xo.C113_empty_message_violated",
    "Xo.C113_silent_violated",
    "Xo.C113_last_line_sequential"
   ],
   "note": "For every schedule: all threads end (C113_ends, C113_no_deadlock), each with the results and lines of the sequential code (C113_every_schedule, C113_results links to C61), same number of failures (C113_same_verdict, C113_last_line), exact text of the log of a first run (C113_report). Partial: no two lines at once except first lines (C113_one_writer_partial), error in the log iff failed unless the message of the exception is empty (C113_log_tells_partial). Violated otherwise. Test functions share no data; sinks are a parameter."
  },
  {
   "property": "C114",
   "status": "partial",
   "theorems": [
    "Xo.C114_time_partial",
    "Xo.C114_overflow_violated",
    "Xo.C114_overflow_soon_violated",
    "Xo.C114_monotone",
    "Xo.C114_ticks_partial",
    "Xo.C114_round_trip",
    "Xo.C114_exact",
    "Xo.C114_running_partial",
    "Xo.C114_paused",
    "Xo.C114_tick_count_violated",
    "Xo.C114_tick_count",
    "Xo.C114_set_partial",
    "Xo.C114_old_partial",
    "Xo.C114_old_violated"
   ],
   "note": "For every frequency: time from ticks is rounded down (C114_time_partial), monotone, ticks from time, there and back within one tick, exact when a tick is a whole number of nanoseconds, running, paused and set timers, the old timer. Partial: as long as the intermediate product fits into 64 bits. Violated beyond (C114_overflow_violated, C114_overflow_soon_violated, C114_old_violated) and for tick_count of a paused timer."
  },
  {
   "property": "C115",
   "status": "partial",
   "theorems": [
    "Xo.C115_longest",
    "Xo.C115_tokens_partial",
    "Xo.C115_nothing_lost",
    "Xo.C115_progress",
    "Xo.C115_word_before_quote_violated",
    "Xo.C115_empty_before_operator_violated",
    "Xo.C115_empty_operator_violated"
   ],
   "note": "Round trip of words, quoted words and operators for all settings (C115_tokens_partial), longest operator (C115_longest, if and only if), C115_nothing_lost and C115_progress for all texts without quotation marks. Partial: operators without delimiters and quotation marks, quoted words nonempty and ASCII (C24), operators separated from what follows. Violated: see the _violated theorems."
  },
  {
   "property": "C116",
   "status": "partial",
   "theorems": [
    "Xo.C116_three",
    "Xo.C116_abs",
    "Xo.C116_power",
    "Xo.C116_midpoint",
    "Xo.C116_sign",
    "Xo.C116_same_sign_partial",
    "Xo.C116_same_sign_violated",
    "Xo.C116_set",
    "Xo.C116_between",
    "Xo.C116_intersect",
    "Xo.C116_whole",
    "Xo.C116_round",
    "Xo.C116_abs_signed_partial",
    "Xo.C116_abs_signed_violated",
    "Xo.C116_midpoint_signed_partial",
    "Xo.C116_midpoint_signed_violated",
    "Xo.C116_midpoint_unsigned_partial",
    "Xo.C116_midpoint_unsigned_violated",
    "Xo.C116_even",
    "Xo.C116_byte",
    "Xo.C116_byte_range",
    "Xo.C116_bytes",
    "Xo.C116_invsqrt",
    "Xo.C116_signed_sqrt",
    "Xo.C116_signed_sqrt_mono",
    "Xo.C116_signed_sqrt_rounded",
    "Xo.C116_signed_sqrt_odd"
   ],
   "note": "Missing: midpoint of signed integers whose difference overflows, midpoint of unsigned integers in falling order, absolute value of the smallest integer, same_sign of 0 and a positive number (violated). Signed roots of rounded numbers: C116_signed_sqrt_rounded, C116_signed_sqrt_odd. The midpoint and powers of rounded numbers are in C159."
  },
  {
   "property": "C117",
   "status": "partial",
   "theorems": [
    "Xo.C117_smooth_partial",
    "Xo.C117_range",
    "Xo.C117_middle",
    "Xo.C117_increasing",
    "Xo.C117_lipschitz",
    "Xo.C117_onto",
    "Xo.C117_kink_violated"
   ],
   "note": "Missing: lb = min and ub = max, which the description allows, and where the clamp has a kink (violated). The clamp of rounded numbers is in C160."
  },
  {
   "property": "C118",
   "status": "partial",
   "theorems": [
    "Xo.C118_map",
    "Xo.C118_missing",
    "Xo.C118_back",
    "Xo.C118_look_adds_violated",
    "Xo.C118_void"
   ],
   "note": "Missing: looking changes nothing, which is false (violated): it adds the labels. Labels are those of a table that starts empty."
  },
  {
   "property": "C119",
   "status": "partial",
   "theorems": [
    "Xo.C119_value_partial",
    "Xo.C119_line",
    "Xo.C119_last_frame_violated",
    "Xo.C119_outside",
    "Xo.C119_channel_violated"
   ],
   "note": "Missing: the last frame (refused), channels that are not there (not checked), places before the first frame (undefined)."
  },
  {
   "property": "C120",
   "status": "partial",
   "theorems": [
    "Xo.C120_order",
    "Xo.C120_clamp",
    "Xo.C120_clamp_nan_violated",
    "Xo.C120_min_nan_violated",
    "Xo.C120_running_min",
    "Xo.C120_running_max",
    "Xo.C120_running_nan_violated",
    "Xo.C120_extend",
    "Xo.C120_extend_nan_violated",
    "Xo.C120_sign",
    "Xo.C120_sign_violated",
    "Xo.C120_equal_partial",
    "Xo.C120_equal_violated",
    "Xo.C120_different_violated"
   ],
   "note": "Missing: NaN, for which most of it is false (violated); infinite values do not equal themselves (violated); abs keeps the sign of a negative zero (violated)."
  },
  {
   "property": "C121",
   "status": "partial",
   "theorems": [
    "Xo.C121_lerp_inside",
    "Xo.C121_midpoint_partial",
    "Xo.C121_midpoint_violated",
    "Xo.C121_middle_partial",
    "Xo.C121_middle_violated",
    "Xo.C121_lerp_mono",
    "Xo.C121_lerp_start",
    "Xo.C121_lerp_range_partial",
    "Xo.C121_lerp_violated",
    "Xo.C121_lerp_accuracy"
   ],
   "note": "Missing: differences or sums too big for the type (violated), and the upper end of interpolation when the difference is rounded (violated; only at the parameter one, since C121_lerp_inside shows that every parameter from zero to below one gives a number between the ends). The result is within four roundings of the exact one (C121_lerp_accuracy)."
  },
  {
   "property": "C122",
   "status": "partial",
   "theorems": [
    "Xo.C122_range",
    "Xo.C122_exact_partial",
    "Xo.C122_upper_violated",
    "Xo.C122_nan_violated",
    "Xo.C122_posmod_inf_violated"
   ],
   "note": "Missing: the upper limit itself is returned for small negative values (violated); differences too big for the type (violated); the exact difference is proved for the lower limit zero and values that are not negative."
  },
  {
   "property": "C123",
   "status": "partial",
   "theorems": [
    "Xo.C123_mono",
    "Xo.C123_range_partial",
    "Xo.C123_whole",
    "Xo.C123_range_violated",
    "Xo.C123_order_violated",
    "Xo.C123_empty"
   ],
   "note": "Missing: sums that must be rounded, for which range and independence of the order are false (violated)."
  },
  {
   "property": "C124",
   "status": "partial",
   "theorems": [
    "Xo.C124_range",
    "Xo.C124_hex",
    "Xo.C124_nan_violated",
    "Xo.C124_nearest_violated",
    "Xo.C124_close_partial"
   ],
   "note": "Missing: NaN (undefined behaviour) and the nearest byte, which is missed by up to 2^-17 (violated)."
  },
  {
   "property": "C125",
   "status": "partial",
   "theorems": [
    "Xo.C125_vector",
    "Xo.C125_blank_violated",
    "Xo.C125_set",
    "Xo.C125_set_int",
    "Xo.C125_nested",
    "Xo.C125_bracket_violated",
    "Xo.C125_stream",
    "Xo.C125_short",
    "Xo.C125_garbage",
    "Xo.C125_range"
   ],
   "note": "Missing: texts with blanks and texts inside nested vectors, where different collections have the same text (violated). Streams are modelled for int only."
  },
  {
   "property": "C126",
   "status": "partial",
   "theorems": [
    "Xo.C126_own_partial",
    "Xo.C126_global_violated",
    "Xo.C126_inside_violated",
    "Xo.C126_blank_violated",
    "Xo.C126_same_violated",
    "Xo.C126_unknown_violated"
   ],
   "note": "Missing: templates in no namespace, types inside of templates, names with blanks and texts that are not type names (violated)."
  },
  {
   "property": "C127",
   "status": "partial",
   "theorems": [
    "Xo.C127_replace",
    "Xo.C127_plain",
    "Xo.C127_twice",
    "Xo.C127_result_partial",
    "Xo.C127_missing_violated",
    "Xo.C127_utf8_violated",
    "Xo.C127_format_partial",
    "Xo.C127_format_violated"
   ],
   "note": "Missing: accented letters that are not in the table, text in UTF-8 and formatted text of over 255 characters (violated)."
  },
  {
   "property": "C128",
   "status": "partial",
   "theorems": [
    "Xo.C128_application_partial",
    "Xo.C128_root_violated",
    "Xo.C128_backslash_violated",
    "Xo.C128_long_violated",
    "Xo.C128_no_link",
    "Xo.C128_home_partial",
    "Xo.C128_home_violated",
    "Xo.C128_temp",
    "Xo.C128_current",
    "Xo.C128_current_violated",
    "Xo.C128_name_partial",
    "Xo.C128_name_violated"
   ],
   "note": "Missing: no variable HOME, a removed current directory, programs in the root directory or with a name of over 1023 characters or with a backslash, computer names of 64 characters (violated)."
  },
  {
   "property": "C129",
   "status": "partial",
   "theorems": [
    "Xo.C129_hex",
    "Xo.C129_hex_back",
    "Xo.C129_rgb",
    "Xo.C129_hsv",
    "Xo.C129_rgb_bytes",
    "Xo.C129_same_violated",
    "Xo.C129_word_violated",
    "Xo.C129_forms_violated",
    "Xo.C129_components_partial",
    "Xo.C129_named_violated",
    "Xo.C129_refused_violated",
    "Xo.C129_refused_partial",
    "Xo.C129_total_partial",
    "Xo.C129_text_violated",
    "Xo.C129_hsv_colour",
    "Xo.C129_floor"
   ],
   "note": "Hexadecimal numbers of any number of digits up to sixteen, rgb and hsv texts with any separators, hues that are not negative up to sixteen roundings (C129_hsv_colour), named and placed components, totality for plain texts. Violated: rgb(3,3,3) and 030303 differ, words beginning with a hexadecimal digit and negative numbers are accepted, rgba(...) and #... are refused, named components behind a child that is no number are refused, a refused list can have changed the first components, a text outside ASCII is undefined."
  },
  {
   "property": "C130",
   "status": "partial",
   "theorems": [
    "Xo.C130_history_partial",
    "Xo.C130_fewer_violated",
    "Xo.C130_channel_violated",
    "Xo.C130_stale"
   ],
   "note": "Refinement to a list of frames for every history that does not ask for fewer channels than before, sets only channels that exist and steps only with at least one frame and channel (stepping without is C12). Violated: after a change to fewer channels old values turn up in the next frame; an unknown channel writes to another frame or beyond the array."
  },
  {
   "property": "C131",
   "status": "partial",
   "theorems": [
    "Xo.C131_accuracy",
    "Xo.C131_points",
    "Xo.C131_mono",
    "Xo.C131_range_partial",
    "Xo.C131_first",
    "Xo.C131_point_violated",
    "Xo.C131_overflow_violated",
    "Xo.C131_nan",
    "Xo.C131_map_outside",
    "Xo.C131_map_points",
    "Xo.C131_map_violated"
   ],
   "note": "The stored points, the order inside a segment, the first point, all points of lerp_map and its values outside are proved for differences that are not too big for the type. Between neighbouring points, and at them, the value is within eight roundings of the straight line (C131_accuracy). Passing through the other points exactly and the exact range need differences of values that are numbers of the type (C131_range_partial). Violated without: the function misses points and falls, and gives no number for large differences."
  },
  {
   "property": "C132",
   "status": "partial",
   "theorems": [
    "Xo.C132_index",
    "Xo.C132_write",
    "Xo.C132_units",
    "Xo.C132_defined",
    "Xo.C132_three_partial",
    "Xo.C132_add_partial",
    "Xo.C132_last",
    "Xo.C132_sub_violated",
    "Xo.C132_neg_violated",
    "Xo.C132_scale_violated",
    "Xo.C132_null",
    "Xo.C132_squared_length",
    "Xo.C132_length",
    "Xo.C132_length_violated"
   ],
   "note": "Proved for the first three numbers after every history, and for all four when only additions are used. The fourth number after every history is stated in full (C132_last), and it is not what the property asks: C132_sub_violated, C132_neg_violated, C132_scale_violated and C132_length_violated hold for all vectors with a fourth number other than zero. Binary subtraction does not compile and is not modelled. No rounding."
  },
  {
   "property": "C133",
   "status": "partial",
   "theorems": [
    "Xo.C133_scale",
    "Xo.C133_compose",
    "Xo.C133_inverse",
    "Xo.C133_quotient",
    "Xo.C133_history",
    "Xo.C133_defined",
    "Xo.C133_order",
    "Xo.C133_index",
    "Xo.C133_axes",
    "Xo.C133_equality",
    "Xo.C133_divide",
    "Xo.C133_manhattan",
    "Xo.C133_abs",
    "Xo.C133_clamp",
    "Xo.C133_tolerance",
    "Xo.C133_tolerance_violated",
    "Xo.C133_normalized",
    "Xo.C133_limits",
    "Xo.C133_if"
   ],
   "note": "Proved, with exact arithmetic, except that comparison with a tolerance depends on the order of the two vectors (C133_tolerance_violated)."
  },
  {
   "property": "C134",
   "status": "partial",
   "theorems": [
    "Xo.C134_refused",
    "Xo.C134_stored_violated",
    "Xo.C134_history_partial",
    "Xo.C134_default_violated",
    "Xo.C134_date_violated",
    "Xo.C134_reference_violated"
   ],
   "note": "Refusal of values outside is proved (C134_refused). Storing is violated for every value within the bounds (C134_stored_violated), the first value need not be within (C134_default_violated, C134_date_violated), and writes through the reference are not checked (C134_reference_violated)."
  },
  {
   "property": "C135",
   "status": "partial",
   "theorems": [
    "Xo.C135_average_partial",
    "Xo.C135_empty",
    "Xo.C135_between_partial",
    "Xo.C135_overflow",
    "Xo.C135_large_violated",
    "Xo.C135_order_violated",
    "Xo.C135_operation",
    "Xo.C135_quantity",
    "Xo.C135_variance_partial",
    "Xo.C135_variance_violated",
    "Xo.C135_square_violated"
   ],
   "note": "Proved when the sums of the first few elements, and for the variance the squares, fit the type. C135_overflow shows that for types with sign the condition is also necessary. The variance is the exact one rounded down or one more (C135_variance_partial), and one more occurs (C135_variance_violated)."
  },
  {
   "property": "C136",
   "status": "partial",
   "theorems": [
    "Xo.C136_fast",
    "Xo.C136_accurate",
    "Xo.C136_range",
    "Xo.C136_rest",
    "Xo.C136_stall_violated",
    "Xo.C136_whole_violated"
   ],
   "note": "Both updates and every history stay within the range (C136_fast, C136_accurate, C136_range), rest (C136_rest), for any two formats of at least 24 bits. The exponential function of the platform is a parameter. Missing: a steady input is not always approached, and the factor one and differences too big for the type leave the range (violated)."
  },
  {
   "property": "C137",
   "status": "partial",
   "theorems": [
    "Xo.C137_variance",
    "Xo.C137_opposite",
    "Xo.C137_whole_partial",
    "Xo.C137_equal_violated",
    "Xo.C137_unit_weights",
    "Xo.C137_no_weight",
    "Xo.C137_weight_violated"
   ],
   "note": "Never NaN and never negative (C137_variance), opposite values (C137_opposite), whole numbers (C137_whole_partial), unit weights (C137_unit_weights). Missing: equal values whose sum must be rounded have a variance above zero, and one value with a weight other than one need not come back (violated)."
  },
  {
   "property": "C138",
   "status": "partial",
   "theorems": [
    "Xo.C138_canonical",
    "Xo.C138_uniform_partial",
    "Xo.C138_sequence_partial",
    "Xo.C138_steps",
    "Xo.C138_equal",
    "Xo.C138_upper_violated"
   ],
   "note": "Range of the unit number (C138_canonical), of uniform (C138_uniform_partial), of sequences and vectors (C138_sequence_partial), equal bounds (C138_equal), for any engine with up to 2^32 values, so also for mt19937. Missing: the result is below the upper bound, and bounds whose difference is too big (violated). The distribution is that of libstdc++."
  },
  {
   "property": "C139",
   "status": "partial",
   "theorems": [
    "Xo.C139_table",
    "Xo.C139_file",
    "Xo.C139_ends_partial",
    "Xo.C139_exact_partial",
    "Xo.C139_endless_violated",
    "Xo.C139_last_violated",
    "Xo.C139_int_partial",
    "Xo.C139_int_violated"
   ],
   "note": "Lines and file (C139_table, C139_file), termination with strictly rising numbers when the interval is not lost in the rounding (C139_ends_partial), exact steps (C139_exact_partial), int (C139_int_partial). Missing: intervals lost in the rounding, sums too big for the type and the default interval of int, which do not end, and the last number after rounded steps (violated)."
  },
  {
   "property": "C140",
   "status": "partial",
   "theorems": [
    "Xo.C140_determined",
    "Xo.C140_seeds",
    "Xo.C140_varied",
    "Xo.C140_values",
    "Xo.C140_seed",
    "Xo.C140_int_partial",
    "Xo.C140_fair",
    "Xo.C140_uniform_partial"
   ],
   "note": "Determinacy, seeds, variety, values, seeding and fairness are proved for all states. Partial for whole numbers: that the loop of uniform_int ends is proved for intervals whose length is a power of two only; real numbers are inside the interval but may be the upper bound (C138). The distribution of libstdc++ is modelled for 32 bits; the normal distribution is not."
  },
  {
   "property": "C141",
   "status": "partial",
   "theorems": [
    "Xo.C141_ratio",
    "Xo.C141_round_trip_partial",
    "Xo.C141_negative_violated",
    "Xo.C141_long_violated",
    "Xo.C141_float_violated",
    "Xo.C141_order",
    "Xo.C141_from_order",
    "Xo.C141_undefined",
    "Xo.C141_accuracy",
    "Xo.C141_scale_partial",
    "Xo.C141_scale_violated",
    "Xo.C141_whole_seconds"
   ],
   "note": "Order, accuracy and undefined conversions hold for all times. Partial for there and back: proved up to 2^49 nanoseconds for seconds and milliseconds of type double and below 2^52 for nanoseconds; fails for negative times, longer times and float. Scaling by one is proved for times of fewer bits than the type."
  },
  {
   "property": "C142",
   "status": "partial",
   "theorems": [
    "Xo.C142_select",
    "Xo.C142_changes",
    "Xo.C142_pattern_partial"
   ],
   "note": "Selection by key and changes are proved for all nodes. Partial for patterns: without brackets (those are in C69_set), and keys without the zero character."
  },
  {
   "property": "C143",
   "status": "partial",
   "theorems": [
    "Xo.C143_order",
    "Xo.C143_stream",
    "Xo.C143_urgent",
    "Xo.C143_message_violated",
    "Xo.C143_static"
   ],
   "note": "Proved for every history of sinks, every list of calls and every point where the program may stop: what is kept is a beginning of what was sent, streams keep all of each completed call, and error, critical and flush keep everything so far. Missing: message( level::error, ... ) does not flush, which is shown for every sink with a buffer. Calls of several threads do not overlap in this model."
  },
  {
   "property": "C144",
   "status": "partial",
   "theorems": [
    "Xo.C144_length",
    "Xo.C144_unit_partial",
    "Xo.C144_quat_partial",
    "Xo.C144_short_violated",
    "Xo.C144_long_violated",
    "Xo.C144_zero_violated"
   ],
   "note": "Proved for float and double and all components whose squares are far from overflow, if the computed length is above epsilon: direction, length and is_normalized. Missing, and shown to fail: vectors whose square overflows become zero, vectors with a length of epsilon or less are not changed, and the zero quaternion gives NaN. No contraction to fused multiply-add."
  },
  {
   "property": "C145",
   "status": "proved",
   "theorems": [
    "Xo.C145_history",
    "Xo.C145_product",
    "Xo.C145_rotate",
    "Xo.C145_normalised"
   ],
   "note": "Quaternions and vectors with rounding in float and double: C145_product bounds one product against Mathlib's quaternions, C145_history any list of factors (finite, length and distance from the exact product, linear in the number of factors), C145_normalised the case of normalised factors, C145_rotate the rotated vector against q v q^-1 and its length. Products and sums are rounded one by one, without fused operations."
  },
  {
   "property": "C146",
   "status": "partial",
   "theorems": [
    "Xo.C146_append",
    "Xo.C146_save",
    "Xo.C146_crash_violated",
    "Xo.C146_two_saves_violated",
    "Xo.C146_same_text",
    "Xo.C146_history"
   ],
   "note": "Appending by any number of programs, in any order and with any of them ended by force, keeps everything (C146_append); saves of one program leave the old text or a beginning of the new one (C146_save); saves of the same text by several programs give that text (C146_same_text); a history cut off inside a call changes no other file (C146_history). Violated: a save is not all or nothing (C146_crash_violated, for every text and every cut) and two different texts saved at once can be mixed (C146_two_saves_violated, for all texts that differ)."
  },
  {
   "property": "C147",
   "status": "proved",
   "theorems": [
    "Xo.C147_fast",
    "Xo.C147_history",
    "Xo.C147_try"
   ],
   "note": "One fast normalisation (C147_fast), any number of turns each followed by a fast normalisation (C147_history: bound 2 d² and thirty roundings for rotations within d ≤ 1/64 of unit length, whatever the number of steps), and normalize_try_fast with its default epsilon on both branches (C147_try). Over float and double with rounding to nearest."
  },
  {
   "property": "C148",
   "status": "partial",
   "theorems": [
    "Xo.C148_loop",
    "Xo.C148_hold",
    "Xo.C148_compare_violated",
    "Xo.C148_postfix_violated",
    "Xo.C148_grow_violated"
   ],
   "note": "Loops visit the elements in order (C148_loop) and kept iterators stay at their elements through every history within the capacity (C148_hold). Violated: comparisons and loops after the front has passed the end of the buffer, the value of it++, and push_front that makes the buffer grow."
  },
  {
   "property": "C149",
   "status": "proved",
   "theorems": [
    "Xo.C149_trans",
    "Xo.C149_inv_trans",
    "Xo.C149_there_and_back",
    "Xo.C149_inverse",
    "Xo.C149_chain"
   ],
   "note": "Float and double, every operation rounded on its own (no contraction to fused operations), rotations within delta ≤ 1/32 of unit length, coordinates a small factor below the largest number: C149_trans, C149_inv_trans, C149_there_and_back, C149_inverse, and C149_chain for a product of any number of transforms."
  },
  {
   "property": "C150",
   "status": "partial",
   "theorems": [
    "Xo.C150_sum",
    "Xo.C150_average",
    "Xo.C150_dot",
    "Xo.C150_squared_length",
    "Xo.C150_length",
    "Xo.C150_distance",
    "Xo.C150_polynomial",
    "Xo.C150_weighted",
    "Xo.C150_long_sum_violated",
    "Xo.C150_variance",
    "Xo.C150_deviation",
    "Xo.C150_no_values"
   ],
   "note": "Float and double, every operation rounded on its own, up to an eighth (polynomials: a twenty-fourth) of 2^prec terms and sums a small factor below the largest number: C150_sum, C150_average, C150_dot, C150_squared_length, C150_length, C150_distance, C150_polynomial, C150_weighted, C150_variance, C150_deviation; no values are refused (C150_no_values). Violated beyond that number of terms: a float sum of more than 16777216 ones stays there (C150_long_sum_violated)."
  },
  {
   "property": "C151",
   "status": "partial",
   "theorems": [
    "Xo.C151_filter",
    "Xo.C151_complex_poles",
    "Xo.C151_memory",
    "Xo.C151_rest_violated"
   ],
   "note": "Proved for filters of second order (the only ones the library makes) in float and double, for inputs of any length, if the poles are at most r from zero with 60 roundings ≤ (1-r)^2: C151_filter; C151_memory says for any order what a call returns and remembers; C151_complex_poles gives the condition from the coefficients. Coefficients are parameters: the tangent and root that make them are library functions. Violated: with rounding the output need not come to rest (C151_rest_violated)."
  },
  {
   "property": "C152",
   "status": "partial",
   "theorems": [
    "Xo.C152_outside",
    "Xo.C152_given",
    "Xo.C152_between",
    "Xo.C152_range",
    "Xo.C152_empty",
    "Xo.C152_jump_violated"
   ],
   "note": "Values far below the largest number, different for each colour: C152_given, C152_outside, C152_between, C152_range, C152_empty. Violated for two colours at one value: the sort of the library may keep them in either order, so at a jump either colour may be shown (C152_jump_violated)."
  },
  {
   "property": "C153",
   "status": "partial",
   "theorems": [
    "Xo.C153_order_partial",
    "Xo.C153_before_zero_partial",
    "Xo.C153_distinct_partial",
    "Xo.C153_zero_violated",
    "Xo.C153_default_violated"
   ],
   "note": "Years from 0 to 573935426: C153_order_partial, C153_distinct_partial; years before zero among themselves: C153_before_zero_partial. Violated across the year zero: earlier years count as later (C153_zero_violated). Violated for the initial day zero (C153_default_violated)."
  },
  {
   "property": "C154",
   "status": "partial",
   "theorems": [
    "Xo.C154_first",
    "Xo.C154_last",
    "Xo.C154_between",
    "Xo.C154_at",
    "Xo.C154_empty",
    "Xo.C154_index_violated",
    "Xo.C154_far_apart_violated",
    "Xo.C154_regular",
    "Xo.C154_grid",
    "Xo.C154_regular_violated"
   ],
   "note": "Before, behind, between and at the samples: C154_first, C154_last, C154_between, C154_at. Regular grids: C154_regular (at most 2^22 samples, argument within the grid), C154_grid (where the samples are taken). Missing: extrapolation outside of the grid. Violated for an index that is not a number or beyond the range of int (C154_index_violated, C154_regular_violated), and for neighbouring samples whose difference is too big for the type (C154_far_apart_violated)."
  },
  {
   "property": "C155",
   "status": "partial",
   "theorems": [
    "Xo.C155_no_deadlock_partial",
    "Xo.C155_all_return_partial",
    "Xo.C155_exclusive_partial",
    "Xo.C155_delivery_partial",
    "Xo.C155_change_violated",
    "Xo.C155_log_violated"
   ],
   "note": "For sinks whose handlers only write, as those of the library do: C155_no_deadlock_partial, C155_all_return_partial, C155_exclusive_partial, C155_delivery_partial, for all schedules. Violated for handlers that log (C155_log_violated) or change a sink (C155_change_violated). That writes of different threads to one stream or file can mix is part of C109."
  },
  {
   "property": "C156",
   "status": "partial",
   "theorems": [
    "Xo.C156_accuracy_partial",
    "Xo.C156_middle",
    "Xo.C156_inside_partial",
    "Xo.C156_range_violated",
    "Xo.C156_wide_violated"
   ],
   "note": "C156_middle; C156_accuracy_partial and C156_inside_partial (borders of at most two fifths of the range, no square too big or too small for the type). Violated: the result can be above the upper end by a rounding (C156_range_violated), and it is minus infinity for wide ranges (C156_wide_violated). Missing: borders of more than two fifths; ranges whose border has a square that underflows."
  },
  {
   "property": "C157",
   "status": "partial",
   "theorems": [
    "Xo.C157_jerk_partial",
    "Xo.C157_jerk_range_partial",
    "Xo.C157_jerk_ends",
    "Xo.C157_jerk_violated",
    "Xo.C157_acos",
    "Xo.C157_acos_violated"
   ],
   "note": "C157_acos (all arguments from -1 to 1); C157_jerk_ends; C157_jerk_partial (150 roundings, relative to the cube of the argument); C157_jerk_range_partial (positive but for arguments whose cube is next to the smallest number; at most 1 but for 150 roundings). Violated next to 1: C157_jerk_violated (more than 1, and falling), C157_acos_violated (negative angle, and a smaller angle for a smaller cosine)."
  },
  {
   "property": "C158",
   "status": "proved",
   "theorems": [
    "Xo.C158_quaternion",
    "Xo.C158_length",
    "Xo.C158_axes",
    "Xo.C158_round_trip"
   ],
   "note": "C158_quaternion and C158_length, for all rotations, both types and matrices that are up to a thousandth away; C158_axes and C158_round_trip for quaternions that are up to a ten-thousandth away."
  },
  {
   "property": "C159",
   "status": "partial",
   "theorems": [
    "Xo.C159_between_partial",
    "Xo.C159_halfway_partial",
    "Xo.C159_midpoint_violated",
    "Xo.C159_power",
    "Xo.C159_negative_partial",
    "Xo.C159_negative_violated"
   ],
   "note": "C159_power for all bases and exponents whose power is between 16/2^emax and 2^emax/16. C159_between_partial and C159_halfway_partial need that the difference of the numbers is finite, C159_negative_partial that the positive power is within the range; without that the claims are violated (C159_midpoint_violated, C159_negative_violated)."
  },
  {
   "property": "C160",
   "status": "partial",
   "theorems": [
    "Xo.C160_middle",
    "Xo.C160_order",
    "Xo.C160_range_partial",
    "Xo.C160_range_violated"
   ],
   "note": "C160_middle and C160_order hold for all such arguments. C160_range_partial: the range may be left by three roundings of the bounds; the exact range is violated (C160_range_violated)."
  },
  {
   "property": "C161",
   "status": "partial",
   "theorems": [
    "Xo.C161_cosine",
    "Xo.C161_angle_partial",
    "Xo.C161_angle_violated",
    "Xo.C161_vector_partial",
    "Xo.C161_vector_violated"
   ],
   "note": "C161_cosine and C161_angle_partial hold for all numbers whose squares are within the range; C161_vector_partial gives the rotation vector for real parts from -1. Violated: no rotation in the plane of the axis and numbers whose squares vanish (C161_angle_violated), and rotation vectors of quaternions whose real part is just below -1 (C161_vector_violated)."
  },
  {
   "property": "C162",
   "status": "partial",
   "theorems": [
    "Xo.C162_square_partial",
    "Xo.C162_square_violated",
    "Xo.C162_triangle_partial",
    "Xo.C162_range_partial",
    "Xo.C162_triangle_violated",
    "Xo.C162_pos_mod_partial",
    "Xo.C162_pos_mod_violated",
    "Xo.C162_triangle_in_partial",
    "Xo.C162_triangle_ends",
    "Xo.C162_triangle_in_violated"
   ],
   "note": "Violated: the square wave below zero (C162_square_violated), the range of the triangle wave for arguments beyond the precision (C162_triangle_violated) and between limits (C162_triangle_in_violated), and remainders of small negative numbers (C162_pos_mod_violated). C162_range_partial gives the range of the triangle wave for arguments up to a quarter of 2 to the precision; the partial theorems hold for all numbers well within the range of the type."
  }
 ]
}