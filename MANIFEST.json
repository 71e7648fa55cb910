{
 "claims": [
  {
   "property": "C01",
   "status": "proved",
   "theorems": [
    "Ficus.C01_string_hash_closed_form",
    "Ficus.C01_string_hash_range",
    "Ficus.C01_window_hash_closed_form",
    "Ficus.C01_window_hash_position_independent",
    "Ficus.C01_window_hash_range",
    "Ficus.C01_window_hash_out_of_range"
   ],
   "note": "Closed form, range, position independence and the IndexError case of both hash loops."
  },
  {
   "property": "C02",
   "status": "proved",
   "theorems": [
    "Ficus.C02_event_hash_insertion_order",
    "Ficus.C02_assignment_order"
   ],
   "note": "Permutation invariance through sorting."
  },
  {
   "property": "C03",
   "status": "partial",
   "theorems": [
    "Ficus.C03_event_equality_refuted",
    "Ficus.C03_event_equality_refuted_same_key",
    "Ficus.C03_event_equality_partial",
    "Ficus.C03_trace_equality_of_events"
   ],
   "note": "The full statement is false (two refutations with concrete payloads); the partial theorem needs collision freedom on the pairs at hand."
  },
  {
   "property": "C04",
   "status": "proved",
   "theorems": [
    "Ficus.C04_serialize_is_join",
    "Ficus.C04_parse_serialize",
    "Ficus.C04_round_trip_chars",
    "Ficus.C04_serialize_parse",
    "Ficus.C04_empty_separator",
    "Ficus.C04_no_empty_trace_parsed",
    "Ficus.C04_serialize_logs"
   ],
   "note": "Text format: serialisation is a join; parse after serialise and serialise after parse are identities under separator conditions that are exactly the ones stated; errors for empty separators."
  },
  {
   "property": "C05",
   "status": "partial",
   "theorems": [
    "Ficus.C05_round_trip_partial",
    "Ficus.C05_not_false_boolean",
    "Ficus.C05_not_properties",
    "Ficus.C05_not_int_property",
    "Ficus.C05_not_int_global",
    "Ficus.C05_not_bool_int_default",
    "Ficus.C05_not_missing_default",
    "Ficus.C05_not_classifiers",
    "Ficus.C05_not_other_types",
    "Ficus.C05_full_property_fails",
    "Ficus.C05_namespaces",
    "Ficus.C05_round_trip_iff",
    "Ficus.C05_read_log_iff",
    "Ficus.C05_second_round_trip",
    "Ficus.C05_written",
    "Ficus.C05_write_raises"
   ],
   "note": "The logs that come back unchanged are characterised exactly (C05_round_trip_iff, C05_read_log_iff), and from the second round trip on nothing changes; which entries are written and which exception writing raises are characterised exactly (C05_written, C05_write_raises); one refutation per failing situation; reading proved independent of XML namespaces. XML text layer and the int/float/date parsers are external."
  },
  {
   "property": "C06",
   "status": "proved",
   "theorems": [
    "Ficus.C06_remove_event_exact",
    "Ficus.C06_remove_event_occurrences",
    "Ficus.C06_remove_event_no_empty_trace",
    "Ficus.C06_remove_event_idempotent",
    "Ficus.C06_remove_event_comm",
    "Ficus.C06_remove_absent",
    "Ficus.C06_filter_log_exact",
    "Ficus.C06_attributes_lost",
    "Ficus.C06_remove_events_exact"
   ],
   "note": "Exact results, occurrence counts, idempotence, commutation; loss of attributes is stated as C06_attributes_lost."
  },
  {
   "property": "C07",
   "status": "proved",
   "theorems": [
    "Ficus.C07_remove_events_eq_fold",
    "Ficus.C07_remove_events_any_order"
   ],
   "note": "Set removal is the fold of single removals in any order."
  },
  {
   "property": "C08",
   "status": "proved",
   "theorems": [
    "Ficus.C08_remove_empty_traces_exact",
    "Ficus.C08_default_keeps_events",
    "Ficus.C08_compose"
   ],
   "note": ""
  },
  {
   "property": "C09",
   "status": "proved",
   "theorems": [
    "Ficus.C09_pairs_exact_framed",
    "Ficus.C09_pairs_exact_plain",
    "Ficus.C09_events_count_exact",
    "Ficus.C09_wellformed",
    "Ficus.C09_ignoring_eq_dropping",
    "Ficus.C09_trace_counts_exact"
   ],
   "note": ""
  },
  {
   "property": "C10",
   "status": "proved",
   "theorems": [
    "Ficus.C10_outgoing_sum",
    "Ficus.C10_incoming_sum",
    "Ficus.C10_start_end_sum",
    "Ficus.C10_total"
   ],
   "note": ""
  },
  {
   "property": "C11",
   "status": "proved",
   "theorems": [
    "Ficus.C11_followed_events_exact",
    "Ficus.C11_single_follower_exact",
    "Ficus.C11_log_followers"
   ],
   "note": ""
  },
  {
   "property": "C12",
   "status": "proved",
   "theorems": [
    "Ficus.C12_find_all_events_names"
   ],
   "note": ""
  },
  {
   "property": "C13",
   "status": "proved",
   "theorems": [
    "Ficus.C13_partition",
    "Ficus.C13_every_trace_once",
    "Ficus.C13_histogram"
   ],
   "note": "Groups are exactly the classes of equal hash sequences; perm, non-emptiness, histogram."
  },
  {
   "property": "C14",
   "status": "partial",
   "theorems": [
    "Ficus.C14_variants_partial",
    "Ficus.C14_filter_by_variants_partial",
    "Ficus.C14_collision",
    "Ficus.C14_full_property_fails"
   ],
   "note": "Proved when the name hash does not collide on the log; refuted in general."
  },
  {
   "property": "C15",
   "status": "proved",
   "theorems": [
    "Ficus.C15_concatenation",
    "Ficus.C15_events_kept",
    "Ficus.C15_separator_once",
    "Ficus.C15_no_window_spans_traces"
   ],
   "note": "Concatenation with separators, freshness counted, windows do not span traces; uuid4 is an injective external stream."
  },
  {
   "property": "C16",
   "status": "proved",
   "theorems": [
    "Ficus.C16_dfr_probability",
    "Ficus.C16_dpr_probability",
    "Ficus.C16_plain_values",
    "Ficus.C16_laplace_values",
    "Ficus.C16_entropies",
    "Ficus.C16_fake_name_breaks_sum"
   ],
   "note": "For logs without events named FAKE_START/FAKE_END; with such events the sum can differ from 1 (C16_fake_name_breaks_sum). Real arithmetic, no rounding."
  },
  {
   "property": "C17",
   "status": "proved",
   "theorems": [
    "Ficus.C17_slow_exact",
    "Ficus.C17_fast_exact",
    "Ficus.C17_fast_eq_slow_no_ignored",
    "Ficus.C17_fast_eq_slow",
    "Ficus.C17_slow_entropies",
    "Ficus.C17_entropies_equal",
    "Ficus.C17_ignored_event_differs"
   ],
   "note": "For events outside the ignored set, as stated; the need for that restriction is shown by C17_ignored_event_differs."
  },
  {
   "property": "C18",
   "status": "proved",
   "theorems": [
    "Ficus.C18_ignore_eq_remove",
    "Ficus.C18_information",
    "Ficus.C18_entropies",
    "Ficus.C18_position_entropies"
   ],
   "note": "Counts, directly-follows information and both kinds of entropies."
  },
  {
   "property": "C19",
   "status": "proved",
   "theorems": [
    "Ficus.C19_position_entropy_range",
    "Ficus.C19_all_entropies_range",
    "Ficus.C19_single_trace_nan"
   ],
   "note": "Real arithmetic; nan is modelled as none."
  },
  {
   "property": "C20",
   "status": "proved",
   "theorems": [
    "Ficus.C20_direct_filter",
    "Ficus.C20_result_is_removal",
    "Ficus.C20_untouchable_kept",
    "Ficus.C20_default_entropy_direct",
    "Ficus.C20_pos_entropy_direct"
   ],
   "note": "Termination, legality of every removal and end condition for the direct filter, instantiated for both entropy metrics; untouchable names are kept."
  },
  {
   "property": "C21",
   "status": "partial",
   "theorems": [
    "Ficus.C21_budget_partial",
    "Ficus.C21_zero_budget_unlimited",
    "Ficus.C21_zero_budget_removes"
   ],
   "note": "Budget respected when at least 1; a budget of 0 or less acts as unlimited (refuted as stated, with witness)."
  },
  {
   "property": "C22",
   "status": "proved",
   "theorems": [
    "Ficus.C22_failure_condition",
    "Ficus.C22_failure_is_value_error",
    "Ficus.C22_success_without_untouchable",
    "Ficus.C22_all_untouchable_raises"
   ],
   "note": "Exact condition for the failure; success without untouchable events and empty traces; all-untouchable logs raise."
  },
  {
   "property": "C23",
   "status": "partial",
   "theorems": [
    "Ficus.C23_choice",
    "Ficus.C23_runs",
    "Ficus.C23_no_candidate_no_progress",
    "Ficus.C23_default_percent_stuck",
    "Ficus.C23_terminates_partial"
   ],
   "note": "All runs characterised exactly (C23_runs). Progress fails when no candidate exists (proved for every log with fewer than 20 classes at the default percent); terminates with top_percent = 1 and nothing untouchable."
  },
  {
   "property": "C24",
   "status": "proved",
   "theorems": [
    "Ficus.C24_one_report_list_per_trace",
    "Ficus.C24_reports_are_maximal_tandem_arrays",
    "Ficus.C24_reports_have_distinct_blocks",
    "Ficus.C24_primitive_reports_are_maximal_reports"
   ],
   "note": "reports are genuine maximal repeats, one list per trace, distinct blocks; primitive reports are maximal reports"
  },
  {
   "property": "C25",
   "status": "partial",
   "theorems": [
    "Ficus.C25_reports_exactly_first_occurrences",
    "Ficus.C25_first_occurrence_reported_partial",
    "Ficus.C25_block_lost",
    "Ficus.Rs.C25_reports_exactly_partial"
   ],
   "note": "exact list of reports is proved if hashes do not collide; that every tandem array is reported is refuted by C25_block_lost: a block is looked at only where it occurs first"
  },
  {
   "property": "C26",
   "status": "partial",
   "theorems": [
    "Ficus.C26_blocks_not_powers_of_longer_words_partial",
    "Ficus.C26_primitive_reports_exactly",
    "Ficus.C26_square_of_a_letter_reported",
    "Ficus.C26_primitive_block_rejected",
    "Ficus.Rs.C26_reports_as_a_list_partial"
   ],
   "note": "the primitive detector is characterised exactly; it is not a primitivity test, refuted by two witnesses"
  },
  {
   "property": "C27",
   "status": "proved",
   "theorems": [
    "Ficus.C27_result_is_selection",
    "Ficus.C27_no_duplicate_sets",
    "Ficus.C27_every_set_represented",
    "Ficus.C27_first_representative",
    "Ficus.C27_first_of_every_hash",
    "Ficus.C27_collision_loses_set"
   ],
   "note": "representation of every set needs set hashes that do not collide; without this condition the entries are the first of every hash (C27_first_of_every_hash), witness of a collision (C27_collision_loses_set)"
  },
  {
   "property": "C28",
   "status": "proved",
   "theorems": [
    "Ficus.C28_succeeds",
    "Ficus.C28_each_repeat_set_once",
    "Ficus.C28_children_contained",
    "Ficus.C28_parent_smallest",
    "Ficus.C28_roots_are_maximal",
    "Ficus.C28_roots_exactly_maximal",
    "Ficus.C28_roots_of_created_sets",
    "Ficus.C28_bad_trace_index"
   ],
   "note": "every forest built; C28g adds the hypothesis that string hashes are distinct"
  },
  {
   "property": "C29",
   "status": "proved",
   "theorems": [
    "Ficus.C29_terminates",
    "Ficus.C29_iteration_bound",
    "Ficus.C29_instances_well_placed",
    "Ficus.C29_instances_homogeneous",
    "Ficus.C29_filter_only_selects"
   ],
   "note": "any log, activities, filter, narrowing on or off"
  },
  {
   "property": "C30",
   "status": "proved",
   "theorems": [
    "Ficus.C30_greedy_segmentation",
    "Ficus.C30_smallest_activity_chosen",
    "Ficus.C30_segmentation_unique"
   ],
   "note": "the default filter; intervals are the unique greedy segmentation"
  },
  {
   "property": "C31",
   "status": "proved",
   "theorems": [
    "Ficus.C31_narrowed_covers",
    "Ficus.C31_narrowed_smallest",
    "Ficus.C31_narrowed_smallest_in_built_forest"
   ],
   "note": "any tree; minimality for trees with child sets inside parent sets, as built in C28"
  },
  {
   "property": "C32",
   "status": "proved",
   "theorems": [
    "Ficus.C32_visits_decompose",
    "Ficus.C32_decomposition_unique"
   ],
   "note": "any trace length and well placed instance list; the decomposition is unique"
  },
  {
   "property": "C33",
   "status": "proved",
   "theorems": [
    "Ficus.C33_one_round",
    "Ficus.C33_any_number_of_rounds",
    "Ficus.C33_original_log_restored",
    "Ficus.C33_count_preserved"
   ],
   "note": "any log, any number of nested rounds with fitting instance lists"
  },
  {
   "property": "C34",
   "status": "proved",
   "theorems": [
    "Ficus.C34_new_trace_shape",
    "Ficus.C34_dont_insert",
    "Ficus.C34_single_event_per_gap",
    "Ficus.C34_unknown_strategy"
   ],
   "note": "all strategies, including an unknown one"
  },
  {
   "property": "C35",
   "status": "proved",
   "theorems": [
    "Ficus.C35_unattached_exactly_outside",
    "Ficus.C35_accounts_for_all"
   ],
   "note": "any log and fitting instance lists"
  },
  {
   "property": "C36",
   "status": "proved",
   "theorems": [
    "Ficus.C36_result_exactly",
    "Ficus.C36_existing_instances_kept",
    "Ficus.C36_known_events_in_long_gaps"
   ],
   "note": "any log, activities, filter, minimum and narrowing flag"
  },
  {
   "property": "C37",
   "status": "proved",
   "theorems": [
    "Ficus.C37_count_is_number_of_leaves",
    "Ficus.C37_total_count",
    "Ficus.C37_action_once_per_leaf"
   ],
   "note": "events nested to any depth"
  },
  {
   "property": "C38",
   "status": "proved",
   "theorems": [
    "Ficus.C38_tree_mirrors_extractors",
    "Ficus.C38_leaf_belongs_to_its_root"
   ],
   "note": "tree mirrors extractors for every iteration order of the name set; leaves are the distinct names"
  },
  {
   "property": "C39",
   "status": "proved",
   "theorems": [
    "Ficus.C39_logs_partition_instances"
   ],
   "note": "exact content of every log per name and level"
  },
  {
   "property": "C40",
   "status": "proved",
   "theorems": [
    "Ficus.C40_one_list_per_trace",
    "Ficus.C40_segments_tile_a_prefix"
   ],
   "note": "any oracle for the suffix tree; the missing final segment is part of the statement"
  },
  {
   "property": "C41",
   "status": "partial",
   "theorems": [
    "Ficus.C41_construction",
    "Ficus.C41_sequential",
    "Ficus.C41_empty",
    "Ficus.C41_first_failure_aborts",
    "Ficus.C41_nesting_is_inlining",
    "Ficus.C41_condition_false",
    "Ficus.C41_editing",
    "Ficus.C41_nesting_forgets_colours",
    "Ficus.C41_pipeline_is_not_a_part"
   ],
   "note": "Construction, order, failure, editing and conditions are proved in full. Nesting equals inlining preceded by a reset of the unique colours; without the reset it fails, and a Pipeline object itself is rejected as a part (both proved)."
  },
  {
   "property": "C42",
   "status": "proved",
   "theorems": [
    "Ficus.C42_value_stays",
    "Ficus.C42_absent_raises",
    "Ficus.C42_new_context_empty",
    "Ficus.C42_copy_isolates"
   ],
   "note": "All histories of puts, removals, colour reads, copies and creations over any number of contexts."
  },
  {
   "property": "C43",
   "status": "partial",
   "theorems": [
    "Ficus.C43_logs_kept_partial",
    "Ficus.C43_filters_create",
    "Ficus.C43_in_place_parts_leak",
    "Ficus.C43_renaming_leaks",
    "Ficus.C43_in_place_parts_disciplined",
    "Ficus.C43_fresh_parts_disciplined",
    "Ficus.C43_with_copy_isolates_contexts",
    "Ficus.C43_parallel_isolates_contexts",
    "Ficus.C43_branches_start_alike",
    "Ficus.C43_parallel_empty"
   ],
   "note": "Keys and values of all existing contexts are isolated for all nested pipelines of confined functions. Logs are isolated for parts that only create objects; in-place parts leak (proved, general statement and witnesses)."
  },
  {
   "property": "C44",
   "status": "partial",
   "theorems": [
    "Ficus.C44_hex_injective",
    "Ficus.C44_hex_collision_beyond_bytes",
    "Ficus.C44_next",
    "Ficus.C44_issued_distinct",
    "Ficus.C44_overflow_iff_exhausted",
    "Ficus.C44_overflow_too_early"
   ],
   "note": "Distinctness between resets, the result of a call, hexadecimal names, and OverflowError exactly when exhausted are proved for all histories; the last one without draw_placements_of_events, which marks a triple instead of a text (proved: OverflowError although a colour is free)."
  },
  {
   "property": "C45",
   "status": "partial",
   "theorems": [
    "Ficus.C45_injective_between_resets_partial",
    "Ficus.C45_cache_stays_injective_partial",
    "Ficus.C45_reset_allows_duplicates",
    "Ficus.C45_undefined_colour_not_reserved"
   ],
   "note": "Injective between resets (proved for all histories); fails across resets and for the colour of undefined activities (proved)."
  },
  {
   "property": "C46",
   "status": "proved",
   "theorems": [
    "Ficus.C46_round_size",
    "Ficus.C46_round_shrinks",
    "Ficus.C46_terminates",
    "Ficus.C46_result_is_run",
    "Ficus.C46_run_is_result",
    "Ficus.C46_underlying_events_kept",
    "Ficus.C46_narrowing_option_ignored",
    "Ficus.C46_entries_of_last_round",
    "Ficus.C46_stops_although_instances_found"
   ],
   "note": "Termination with a bound on the rounds, exact description of the runs in both directions, size of a round, preservation of the underlying events. Also shown: the loop can stop although instances were found (all single events), and the narrowing option is ignored."
  },
  {
   "property": "C47",
   "status": "proved",
   "theorems": [
    "Ficus.C47_callbacks_exactly",
    "Ficus.C47_failure_aborts",
    "Ficus.C47_requested_iff_carried",
    "Ficus.C47_before_after_never_sent"
   ],
   "note": "Callbacks and prints of a returning run are exactly the handling of the messages before the first final result; failures abort in order; requested identifiers are exactly those of parts with callbacks. PrintEventlogInfoBeforeAfter can never be sent (TypeError)."
  },
  {
   "property": "C48",
   "status": "proved",
   "theorems": [
    "Ficus.C48_dropped_iff_success",
    "Ficus.C48_failed_run_drops_nothing",
    "Ficus.C48_empty_stream_raises",
    "Ficus.C48_truncated_stream_keeps"
   ],
   "note": "Also: failed runs drop nothing unless the drop itself raised; the empty stream raises AttributeError; a truncated stream drops nothing."
  },
  {
   "property": "C49",
   "status": "partial",
   "theorems": [
    "Ficus.C49_context_kept_partial",
    "Ficus.C49_sent_context",
    "Ficus.C49_second_run_other_backend"
   ],
   "note": "Fails in the code: the backend entry is deleted, so the second run goes to localhost:8080 (C49_second_run_other_backend). Proved: all other entries are kept in order and sent."
  },
  {
   "property": "C50",
   "status": "proved",
   "theorems": [
    "Ficus.C50_deepcopy_value",
    "Ficus.C50_deepcopy_unaffected_by_original",
    "Ficus.C50_original_unaffected_by_deepcopy",
    "Ficus.C50_deepcopy_owns_new_objects",
    "Ficus.C50_copy_shares_traces",
    "Ficus.C50_copy_own_list"
   ],
   "note": "Heap of event, trace and log objects; histories of arbitrary operations. Attribute dictionaries are values."
  },
  {
   "property": "C51",
   "status": "partial",
   "theorems": [
    "Ficus.C51_choice",
    "Ficus.C51_runs",
    "Ficus.C51_till_end_runs",
    "Ficus.C51_single_trace_no_choice",
    "Ficus.C51_single_trace_stuck",
    "Ficus.C51_till_end_never_terminates",
    "Ficus.C51_progress_partial",
    "Ficus.C51_total_range"
   ],
   "note": "Fails for logs with at most one non-empty trace and two classes (proved, including non-termination of the till-end variant); one-step progress otherwise. All runs of the filter and of the till-end variant are characterised exactly."
  },
  {
   "property": "C52",
   "status": "proved",
   "theorems": [
    "Ficus.C52_direct_till_end",
    "Ficus.C52_pos_entropy_direct_till_end"
   ],
   "note": ""
  },
  {
   "property": "C53",
   "status": "proved",
   "theorems": [
    "Ficus.C53_promotion_exact",
    "Ficus.C53_wrong_number_of_extractors",
    "Ficus.C53_not_hierarchical_not_promoted"
   ],
   "note": "exact under hierarchy; witness without it"
  },
  {
   "property": "C54",
   "status": "proved",
   "theorems": [
    "Ficus.C54_split_by_level",
    "Ficus.C54_activities_for_level",
    "Ficus.C54_select_level"
   ],
   "note": ""
  },
  {
   "property": "C55",
   "status": "proved",
   "theorems": [
    "Ficus.C55_name_depends_on_classes",
    "Ficus.C55_names_distinguish_classes",
    "Ficus.C55_names_collide",
    "Ficus.C55_name_from_log"
   ],
   "note": "injective for class names without the separator; collision witness otherwise"
  },
  {
   "property": "C56",
   "status": "proved",
   "theorems": [
    "Ficus.C56_in_place_mutation",
    "Ficus.C56_each_event_once",
    "Ficus.C56_disjoint_unchanged",
    "Ficus.C56_rename",
    "Ficus.C56_rename_fails",
    "Ficus.C56_lifecycle_removed",
    "Ficus.C56_shared_event_renamed_twice",
    "Ficus.C56_filter_shares_events",
    "Ficus.C56_artificial_events",
    "Ficus.C56_artificial_part",
    "Ficus.C56_extractor_part",
    "Ficus.C56_lifecycle_part",
    "Ficus.C56_rename_part",
    "Ficus.C56_filter_parts",
    "Ficus.C56_no_input"
   ],
   "note": "Heap model with arbitrary sharing; an event that occurs twice is mutated twice (witness)."
  },
  {
   "property": "C57",
   "status": "proved",
   "theorems": [
    "Ficus.C57_round_exactly",
    "Ficus.C57_failed_round",
    "Ficus.C57_levels_only_add",
    "Ficus.C57_never_raises"
   ],
   "note": "One round exactly, failed rounds, all levels by induction, and when nothing is raised."
  },
  {
   "property": "C58",
   "status": "partial",
   "theorems": [
    "Ficus.C58_separate_lists_kept_partial",
    "Ficus.C58_sharing_context_sees_new",
    "Ficus.C58_copy_changes_original"
   ],
   "note": "Proved for contexts with another list object; sharing contexts see the new activities exactly (general theorem) and the claim is refuted for a copy."
  },
  {
   "property": "C59",
   "status": "partial",
   "theorems": [
    "Ficus.C59_added_instances_of_level_partial",
    "Ficus.C59_older_level_chosen"
   ],
   "note": "Classes of added instances in general, the level under the hypothesis that no older activity knows a class of the trace; refuted without it."
  },
  {
   "property": "C60",
   "status": "partial",
   "theorems": [
    "Ficus.C60_names_file",
    "Ficus.C60_all_names_written_partial",
    "Ficus.C60_name_lost"
   ],
   "note": "Sections, order, soundness and closure in general; completeness when names determine the names of children; refuted without."
  },
  {
   "property": "C61",
   "status": "proved",
   "theorems": [
    "Ficus.C61_every_node_printed_once"
   ],
   "note": "Permutation of all nodes and the exact order by layers."
  },
  {
   "property": "C62",
   "status": "proved",
   "theorems": [
    "Ficus.C62_one_line_per_node",
    "Ficus.C62_indices_recoverable"
   ],
   "note": "One line per node; the text of the indices is injective up to the triples."
  },
  {
   "property": "C63",
   "status": "proved",
   "theorems": [
    "Ficus.C63_percentage",
    "Ficus.C63_names_of_unattached"
   ],
   "note": "Exact fraction, bounds and extreme cases; names of unattached events."
  },
  {
   "property": "C64",
   "status": "proved",
   "theorems": [
    "Ficus.C64_events_tagged",
    "Ficus.C64_index_error"
   ],
   "note": "Exact payloads, frame, and exactly when IndexError is raised."
  },
  {
   "property": "C65",
   "status": "partial",
   "theorems": [
    "Ficus.C65_full_fill_partial",
    "Ficus.C65_gaps_are_not_filled"
   ],
   "note": "exact result proved; gaps are not filled (refuted)"
  },
  {
   "property": "C66",
   "status": "proved",
   "theorems": [
    "Ficus.C66_net_arrives",
    "Ficus.C66_repeated_identifiers",
    "Ficus.C66_unset_marking"
   ],
   "note": ""
  },
  {
   "property": "C67",
   "status": "proved",
   "theorems": [
    "Ficus.C67_nodes",
    "Ficus.C67_edges",
    "Ficus.C67_closed",
    "Ficus.C67_appearance",
    "Ficus.C67_labels",
    "Ficus.C67_not_visible",
    "Ficus.C67_shared_identifier"
   ],
   "note": ""
  },
  {
   "property": "C68",
   "status": "proved",
   "theorems": [
    "Ficus.C68_graph",
    "Ficus.C68_faithful"
   ],
   "note": ""
  },
  {
   "property": "C69",
   "status": "partial",
   "theorems": [
    "Ficus.C69_distinct_names_partial",
    "Ficus.C69_consistent_names_partial",
    "Ficus.C69_children_lost",
    "Ficus.C69_nothing_invented",
    "Ficus.C69_colons_partial",
    "Ficus.C69_colon_breaks_edges"
   ],
   "note": "exact for distinct or consistent names without colons; refutations for the rest"
  },
  {
   "property": "C70",
   "status": "proved",
   "theorems": [
    "Ficus.C70_fails",
    "Ficus.C70_colors",
    "Ficus.C70_white",
    "Ficus.C70_layout",
    "Ficus.C70_positions_ignored",
    "Ficus.C70_legend_cut_off"
   ],
   "note": "Ignored positions and the legend cut off are proved as disagreements."
  },
  {
   "property": "C71",
   "status": "proved",
   "theorems": [
    "Ficus.C71_colors",
    "Ficus.C71_fails",
    "Ficus.C71_legend_merges"
   ],
   "note": "Merged legend entries and the place of the last label are proved as disagreements."
  },
  {
   "property": "C72",
   "status": "partial",
   "theorems": [
    "Ficus.C72_diversity",
    "Ficus.C72_distinct_partial",
    "Ficus.C72_same_color",
    "Ficus.C72_placements",
    "Ficus.C72_black_taken",
    "Ficus.C72_fails"
   ],
   "note": "Distinctness of the colours needs that all cached colours are distinct and marked; refuted otherwise."
  },
  {
   "property": "C73",
   "status": "proved",
   "theorems": [
    "Ficus.C73_activities",
    "Ficus.C73_same_set",
    "Ficus.C73_fails",
    "Ficus.C73_same_events_and_last_gap"
   ],
   "note": "Shared colours for equal sets of events and the unlabelled last gap are proved as disagreements."
  },
  {
   "property": "C74",
   "status": "proved",
   "theorems": [
    "Ficus.C74_placements",
    "Ficus.C74_marks_lost"
   ],
   "note": "The loss of the marks is proved as a disagreement."
  },
  {
   "property": "C75",
   "status": "partial",
   "theorems": [
    "Ficus.C75_patterns_partial",
    "Ficus.C75_overlap"
   ],
   "note": "Holds for patterns that do not overlap; refuted for overlapping ones."
  },
  {
   "property": "C76",
   "status": "proved",
   "theorems": [
    "Ficus.C76_same_messages",
    "Ficus.C76_same_message",
    "Ficus.C76_only_kept",
    "Ficus.C76_max_length_not_sent"
   ],
   "note": "Model/Front. The dropped maximal length is C76_max_length_not_sent."
  },
  {
   "property": "C77",
   "status": "proved",
   "theorems": [
    "Ficus.C77_messages_regular"
   ],
   "note": "All configurations at any depth."
  },
  {
   "property": "C78",
   "status": "proved",
   "theorems": [
    "Ficus.C78_convertible",
    "Ficus.C78_errors",
    "Ficus.C78_first_failure"
   ],
   "note": "Exact conditions of success and errors."
  },
  {
   "property": "C79",
   "status": "proved",
   "theorems": [
    "Ficus.C79_context_arrives",
    "Ficus.C79_context_fails",
    "Ficus.C79_context_determined",
    "Ficus.C79_names_log",
    "Ficus.C79_info"
   ],
   "note": "EventLogInfo values are always rejected with TypeError, as the code does."
  },
  {
   "property": "C80",
   "status": "proved",
   "theorems": [
    "Ficus.C80_understood",
    "Ficus.C80_refused",
    "Ficus.C80_no_effect"
   ],
   "note": "Exact: understood as asked unless a refused part occurs; refused parts and parameters without effect are C80_refused and C80_no_effect. The reading by the backend is modelled from its Rust source."
  },
  {
   "property": "C81",
   "status": "proved",
   "theorems": [
    "Ficus.Library.C81_table",
    "Ficus.Library.C81_pipeline",
    "Ficus.Library.C81_check",
    "Ficus.Library.C81_forgets",
    "Ficus.Library.C81_clear_early",
    "Ficus.Library.C81_start",
    "Ficus.Library.C81_none",
    "Ficus.Library.C81_none_nested"
   ],
   "note": "Functions called by the parts are parameters without access to contexts."
  },
  {
   "property": "C82",
   "status": "proved",
   "theorems": [
    "Ficus.C82_hashes",
    "Ficus.C82_classes",
    "Ficus.C82_covers",
    "Ficus.C82_collision"
   ],
   "note": "Exact for sequences of hashes, and for classes under the hypothesis that different classes of the trace have different hashes; C82_collision shows that the hypothesis is needed. Suffix tree library under contract LawfulTrees."
  },
  {
   "property": "C83",
   "status": "proved",
   "theorems": [
    "Ficus.C83_hashes",
    "Ficus.C83_classes",
    "Ficus.C83_sublist"
   ],
   "note": "Contract LawfulTrees for the suffix tree library."
  },
  {
   "property": "C84",
   "status": "proved",
   "theorems": [
    "Ficus.C84_hashes",
    "Ficus.C84_classes",
    "Ficus.C84_between",
    "Ficus.C84_covers"
   ],
   "note": "Contract LawfulTrees for the suffix tree library; order of sets arbitrary."
  },
  {
   "property": "C85",
   "status": "proved",
   "theorems": [
    "Ficus.C85_clusters",
    "Ficus.C85_rows",
    "Ficus.C85_color",
    "Ficus.C85_distinct",
    "Ficus.C85_hidden_column",
    "Ficus.C85_plain",
    "Ficus.C85_refused",
    "Ficus.C85_failures",
    "Ficus.C85_projection_too_small"
   ],
   "note": "clusters and plain datasets; the projection of sklearn is a parameter, pandas as described in the model; the exception of a column called cluster_labels is part of the statement"
  },
  {
   "property": "C86",
   "status": "proved",
   "theorems": [
    "Ficus.C86_grid",
    "Ficus.C86_failures",
    "Ficus.C86_entropies",
    "Ficus.C86_entropies_of_log"
   ],
   "note": "matplotlib as a list of calls; the failures for one log are part of the statement"
  },
  {
   "property": "C87",
   "status": "proved",
   "theorems": [
    "Ficus.C87_from_pm4py",
    "Ficus.C87_to_pm4py",
    "Ficus.C87_own_objects",
    "Ficus.C87_independent",
    "Ficus.C87_round_trips"
   ],
   "note": "Objects of pm4py have the shape of those of log/event_log.py and live in the same heap; dictionaries of attributes are values."
  },
  {
   "property": "C88",
   "status": "proved",
   "theorems": [
    "Ficus.C88_pipeline_meaning",
    "Ficus.C88_result_usable",
    "Ficus.C88_removals",
    "Ficus.C88_removals_any_order"
   ],
   "note": "refinement of pipelines on objects by their meaning on values, for all parts and fuel; removals commute"
  },
  {
   "property": "C89",
   "status": "proved",
   "theorems": [
    "Ficus.C89_other_logs",
    "Ficus.C89_new_logs_only",
    "Ficus.C89_on_a_copy",
    "Ficus.C89_artificial_events_in_the_callers_log",
    "Ficus.C89_renamed_events_in_the_callers_log"
   ],
   "note": "footprints of pipelines; two witnesses that the caller's log changes"
  },
  {
   "property": "C90",
   "status": "proved",
   "theorems": [
    "Ficus.C90_same_content",
    "Ficus.C90_equivalence",
    "Ficus.C90_copies"
   ],
   "note": "python's hash of pairs and the texts of values are parameters; copies in the heap model of C50"
  },
  {
   "property": "C91",
   "status": "partial",
   "theorems": [
    "Ficus.C91_blind",
    "Ficus.C91_content_equality_refuted",
    "Ficus.C91_equality_partial"
   ],
   "note": "Refuted by three witnesses; the part that holds: up to collisions, equality of logs is equality of traces and of four dictionaries."
  },
  {
   "property": "C92",
   "status": "proved",
   "theorems": [
    "Ficus.C92_export",
    "Ficus.C92_export_iff",
    "Ficus.C92_failure",
    "Ficus.C92_bare_name",
    "Ficus.C92_unknown_format",
    "Ficus.C92_display",
    "Ficus.C92_into_directory",
    "Ficus.C92_sources_stay"
   ],
   "note": "exact outcome of exports incl. failures; the code fails for bare names (C92_bare_name) and leaves its sources (C92_sources_stay)"
  },
  {
   "property": "C93",
   "status": "proved",
   "theorems": [
    "Ficus.C93_saved_iff",
    "Ficus.C93_saved",
    "Ficus.C93_not_saved",
    "Ficus.C93_bare_name",
    "Ficus.C93_read_back",
    "Ficus.C93_missing"
   ],
   "note": "exact outcome of saving and reading incl. failures; the code fails for bare names (C93_bare_name)"
  },
  {
   "property": "C94",
   "status": "proved",
   "theorems": [
    "Ficus.C94_by_levels",
    "Ficus.C94_no_clash",
    "Ficus.C94_not_a_picture",
    "Ficus.C94_displayed"
   ],
   "note": "exact files of every level; the named file is not a picture (C94_not_a_picture), without a path one file is shared (C94_displayed)"
  },
  {
   "property": "C95",
   "status": "partial",
   "theorems": [
    "Ficus.C95_order",
    "Ficus.C95_same_partial",
    "Ficus.C95_same_refuted"
   ],
   "note": "holds for statements without line feeds (C95_same_partial); refuted in general (C95_same_refuted); independence of order proved (C95_order)"
  },
  {
   "property": "C96",
   "status": "partial",
   "theorems": [
    "Ficus.C96_figure",
    "Ficus.C96_diagram",
    "Ficus.C96_kinds_disagree",
    "Ficus.C96_no_format"
   ],
   "note": "the kinds of figures disagree (C96_kinds_disagree); exact outcome of each kind is proved"
  },
  {
   "property": "C97",
   "status": "proved",
   "theorems": [
    "Ficus.C97_instances",
    "Ficus.C97_segmentation_unique",
    "Ficus.C97_activities",
    "Ficus.C97_repeats",
    "Ficus.C97_kinds_same_places",
    "Ficus.C97_covered_all",
    "Ficus.C97_covered_merged",
    "Ficus.C97_loop_missed"
   ],
   "note": "Hypothesis: the hashes of classes, of sets of classes and (tandem arrays) of blocks do not collide in the searched log; suffix trees follow the contract LawfulTrees; names never raise."
  },
  {
   "property": "C98",
   "status": "proved",
   "theorems": [
    "Ficus.C98_last_searched",
    "Ficus.C98_result",
    "Ficus.C98_single_classes_remain"
   ],
   "note": "Same hypotheses on the hashes of the log searched last; when merged, separators have classes of their own."
  },
  {
   "property": "C99",
   "status": "proved",
   "theorems": [
    "Ficus.C99_report",
    "Ficus.C99_report_same",
    "Ficus.C99_before_after",
    "Ficus.C99_before_raises",
    "Ficus.C99_graph",
    "Ficus.C99_graph_readable",
    "Ficus.C99_graph_ambiguous",
    "Ficus.C99_names_readable",
    "Ficus.C99_names_ambiguous"
   ],
   "note": "Texts are exact for all logs; reading back needs names without line feeds, and the ambiguity otherwise is shown."
  },
  {
   "property": "C100",
   "status": "partial",
   "theorems": [
    "Ficus.C100_own_traces_partial",
    "Ficus.C100_merged_one_list",
    "Ficus.C100_merged_first_row_only",
    "Ficus.C100_merged_wrong_place"
   ],
   "note": "Proved for the search in the traces; for the search in the merged trace, the default, the negation is proved."
  },
  {
   "property": "C101",
   "status": "proved",
   "theorems": [
    "Ficus.C101_get",
    "Ficus.C101_set",
    "Ficus.C101_del",
    "Ficus.C101_insert",
    "Ficus.C101_append",
    "Ficus.C101_iter",
    "Ficus.C101_reversed",
    "Ficus.C101_index",
    "Ficus.C101_searches_agree",
    "Ficus.C101_search_by_hash"
   ],
   "note": "Items of any type; the comparison of items is a parameter (hash equality in the code, see C03). Slices are not modelled."
  },
  {
   "property": "C102",
   "status": "partial",
   "theorems": [
    "Ficus.C102_labels_distinguish",
    "Ficus.C102_line_feeds_collide",
    "Ficus.C102_label_lists_classes",
    "Ficus.C102_hash_graph_partial",
    "Ficus.C102_name_graph_partial",
    "Ficus.C102_hashes_collide",
    "Ficus.C102_colon_breaks_edges"
   ],
   "note": "Missing: names with equal hashes (default labels), classes with colons or line feeds, the name root; there the full property is false (counterexamples are proved)."
  },
  {
   "property": "C103",
   "status": "partial",
   "theorems": [
    "Ficus.C103_class_text_partial",
    "Ficus.C103_class_text_ambiguous",
    "Ficus.C103_activity_text",
    "Ficus.C103_instance_text"
   ],
   "note": "Proved for activities and instances; for class trees names with parentheses are excluded, there the property is false (C103_class_text_ambiguous)."
  },
  {
   "property": "C104",
   "status": "proved",
   "theorems": [
    "Ficus.C104_default_sum",
    "Ficus.C104_table",
    "Ficus.C104_sums_agree",
    "Ficus.C104_position_summaries",
    "Ficus.C104_no_number"
   ],
   "note": "Numbers are real numbers; the sorting by pandas is a parameter; numpy's mean and variance are written out."
  },
  {
   "property": "C105",
   "status": "partial",
   "theorems": [
    "Ficus.C105_options_partial",
    "Ficus.C105_width_ignored",
    "Ficus.C105_independent",
    "Ficus.C105_concrete",
    "Ficus.C105_hashes_ignored",
    "Ficus.C105_fails",
    "Ficus.C105_levels",
    "Ficus.C105_width_lost",
    "Ficus.C105_hashes_lost"
   ],
   "note": "Two parts ignore the width, one ignores use_hashes_as_name and one does not take functions as paths; all other options of all parts are shown to take effect, and which exception a part raises is determined. Functions that create paths do not raise."
  },
  {
   "property": "C106",
   "status": "partial",
   "theorems": [
    "Ficus.C106_direct",
    "Ficus.C106_direct_fails",
    "Ficus.C106_totals",
    "Ficus.C106_gaps",
    "Ficus.C106_differences",
    "Ficus.C106_differences_total",
    "Ficus.C106_indirect_partial",
    "Ficus.C106_indirect_never_ends",
    "Ficus.C106_indirect_empty_traces"
   ],
   "note": "direct removal in full; indirect removal only for runs that end, with refutations"
  },
  {
   "property": "C107",
   "status": "proved",
   "theorems": [
    "Ficus.C107_default",
    "Ficus.C107_default_greatest",
    "Ficus.C107_position",
    "Ficus.C107_position_greatest",
    "Ficus.C107_nothing",
    "Ficus.C107_indirect",
    "Ficus.C107_position_indirect"
   ],
   "note": ""
  },
  {
   "property": "C108",
   "status": "partial",
   "theorems": [
    "Ficus.C108_nothing_invented",
    "Ficus.C108_levels_apart_partial",
    "Ficus.C108_one_extractor_partial",
    "Ficus.C108_events_lost",
    "Ficus.C108_order_matters"
   ],
   "note": "Everything is drawn if the levels have no common texts, and with one extractor that leaves classes as they are; nothing is invented in any case. Refuted in general: C108_events_lost, C108_order_matters."
  },
  {
   "property": "C109",
   "status": "partial",
   "theorems": [
    "Ficus.C109_options_partial",
    "Ficus.C109_filter",
    "Ficus.C109_labels",
    "Ficus.C109_debug",
    "Ficus.C109_in_traces",
    "Ficus.C109_narrow_ignored",
    "Ficus.C109_until_narrow_ignored",
    "Ficus.C109_until_levels",
    "Ficus.C109_narrow_lost",
    "Ficus.C109_min_events_ignored",
    "Ficus.C109_extractor_ignored",
    "Ficus.C109_classes_lost",
    "Ficus.C109_names_decide"
   ],
   "note": "The two discovery parts and the repetition ignore should_narrow_activity, the repetition ignores min_events_in_trace, AddAllPatterns ignores its class extractor, and the order of names decides between activities of the same size. For level, names, filter and debug_prints it is shown what they do and that they do nothing else (labels: if the order of names is kept); for the repetition which levels it gives. What the kind of patterns, the strategy and the extractor do is not part of this claim. Creators of names are total functions, and what is printed before an exception is left out."
  },
  {
   "property": "C110",
   "status": "proved",
   "theorems": [
    "Ficus.Rs.C110_counts",
    "Ficus.Rs.C110_pairs",
    "Ficus.Rs.C110_followers",
    "Ficus.Rs.C110_single",
    "Ficus.Rs.C110_starts_ends",
    "Ficus.Rs.C110_agrees"
   ],
   "note": "Rust event_log_info.rs; every order of iteration over hash maps; agreement with the local create_log_information and create_dfg."
  },
  {
   "property": "C111",
   "status": "proved",
   "theorems": [
    "Ficus.Rs.C111_dfg_exact",
    "Ficus.Rs.C111_same_as_local"
   ],
   "note": "Rust construct_dfg for every order of iteration and every state of the counter of identifiers; agreement with the local create_dfg."
  },
  {
   "property": "C112",
   "status": "partial",
   "theorems": [
    "Ficus.Rs.C112_alpha_sets_partial",
    "Ficus.Rs.C112_collision",
    "Ficus.Rs.C112_loops_and_triangles",
    "Ficus.Rs.C112_alpha_plus_sets_partial"
   ],
   "note": "Exact for hashes that tell the possible sets apart; C112_collision refutes it for other hashes"
  },
  {
   "property": "C113",
   "status": "proved",
   "theorems": [
    "Ficus.Rs.C113_alpha_net"
   ],
   "note": "Exact net, for hashes without collisions as the property says"
  },
  {
   "property": "C114",
   "status": "partial",
   "theorems": [
    "Ficus.Rs.C114_panics_iff",
    "Ficus.Rs.C114_alpha_plus_net_partial",
    "Ficus.Rs.C114_dead_loop"
   ],
   "note": "Exact panics and net; that each class can occur is refuted by C114_dead_loop"
  },
  {
   "property": "C115",
   "status": "proved",
   "theorems": [
    "Ficus.Rs.C115_alpha_plus_plus"
   ],
   "note": ""
  },
  {
   "property": "C116",
   "status": "partial",
   "theorems": [
    "Ficus.Rs.C116_replay_partial",
    "Ficus.Rs.C116_replay_ends",
    "Ficus.Rs.C116_endless"
   ],
   "note": "The replay is exact and never panics for nets without double arcs; that it always ends is proved if silent transitions cannot fire forever and refuted otherwise."
  },
  {
   "property": "C117",
   "status": "proved",
   "theorems": [
    "Ficus.Rs.C117_counts",
    "Ficus.Rs.C117_no_marking",
    "Ficus.Rs.C117_frequencies",
    "Ficus.Rs.C117_class_counts",
    "Ficus.Rs.C117_alpha_counts"
   ],
   "note": "Frequencies are rational numbers in the model."
  },
  {
   "property": "C118",
   "status": "partial",
   "theorems": [
    "Ficus.Rs.C118_ensure_marking_partial",
    "Ficus.Rs.C118_alpha_unfit"
   ],
   "note": "The change of the net is characterised exactly; that the log can be replayed afterwards is refuted for all nets of the alpha algorithm."
  },
  {
   "property": "C119",
   "status": "proved",
   "theorems": [
    "Ficus.Rs.C119_dependency",
    "Ficus.Rs.C119_one_way",
    "Ficus.Rs.C119_parallel",
    "Ficus.Rs.C119_two_loop"
   ],
   "note": "Numbers are rational instead of f64."
  },
  {
   "property": "C120",
   "status": "partial",
   "theorems": [
    "Ficus.Rs.C120_groups_partial"
   ],
   "note": "For hashes that tell apart sets of names; groups are compared by their hashes in the code."
  },
  {
   "property": "C121",
   "status": "partial",
   "theorems": [
    "Ficus.Rs.C121_panics_iff",
    "Ficus.Rs.C121_net_partial"
   ],
   "note": "The cases of a panic are exact; the net is described for hashes that tell apart sets of names and logs without classes named like silent transitions."
  },
  {
   "property": "C122",
   "status": "partial",
   "theorems": [
    "Ficus.Rs.C122_waits_for_all_partial",
    "Ficus.Rs.C122_join_unfit",
    "Ficus.Rs.C122_two_loops_panic"
   ],
   "note": "The full property is refuted by two logs with the default thresholds. For logs without loops of length two, a class never comes more often than a class it depends on. The panic of the replay is shown for one order of iteration."
  },
  {
   "property": "C123",
   "status": "proved",
   "theorems": [
    "Ficus.Rs.C123_filter_by_name",
    "Ficus.Rs.C123_filter_by_names",
    "Ficus.Rs.C123_filter_by_regex"
   ],
   "note": "Model/RsMutations. The regular expression engine is a parameter."
  },
  {
   "property": "C124",
   "status": "proved",
   "theorems": [
    "Ficus.Rs.C124_at_least",
    "Ficus.Rs.C124_local_needs_one_more",
    "Ficus.Rs.C124_agree_iff"
   ],
   "note": "Model/RsMutations; the disagreement with the local part is characterised exactly."
  },
  {
   "property": "C125",
   "status": "partial",
   "theorems": [
    "Ficus.Rs.C125_groups_partial",
    "Ficus.Rs.C125_split_partial",
    "Ficus.Rs.C125_filter_partial",
    "Ficus.Rs.C125_same_traces_partial",
    "Ficus.Rs.C125_collision"
   ],
   "note": "Proved for hashes that tell the names of the log apart; with colliding names the property fails (C125_collision)."
  },
  {
   "property": "C126",
   "status": "proved",
   "theorems": [
    "Ficus.Rs.C126_wraps",
    "Ficus.Rs.C126_times",
    "Ficus.Rs.C126_removed_again"
   ],
   "note": "Model/RsMutations."
  },
  {
   "property": "C127",
   "status": "proved",
   "theorems": [
    "Ficus.Rs.C127_panics_iff",
    "Ficus.Rs.C127_classes",
    "Ficus.Rs.C127_prefix",
    "Ficus.Rs.C127_hashes"
   ],
   "note": "Model/RsMutations. The regular expression engine is a parameter; matches are counted in characters."
  },
  {
   "property": "C128",
   "status": "proved",
   "theorems": [
    "Ficus.Rs.C128_names",
    "Ficus.Rs.C128_only_names",
    "Ficus.Rs.C128_substitute",
    "Ficus.Rs.C128_substitute_atoms"
   ],
   "note": "Model/RsMutations."
  },
  {
   "property": "C129",
   "status": "partial",
   "theorems": [
    "Ficus.Rs.C129_reports_partial",
    "Ficus.Rs.C129_primitive_partial",
    "Ficus.Rs.C129_same_as_local_partial",
    "Ficus.Rs.C129_panics_iff",
    "Ficus.Rs.C129_reports_are_tandem_arrays",
    "Ficus.Rs.C129_hash_of_word",
    "Ficus.Rs.C129_hash_defined",
    "Ficus.Rs.C129_never_panics",
    "Ficus.Rs.C129_hash_same_with_checks",
    "Ficus.Rs.C129_hash_can_overflow",
    "Ficus.Rs.C129_collision"
   ],
   "note": "exact reports, order and counts, and agreement with the local parts, are proved if the hashes of classes and of words have no collisions in a trace; without that assumption reports are proved genuine, and a collision that loses one is exhibited"
  },
  {
   "property": "C130",
   "status": "partial",
   "theorems": [
    "Ficus.Rs.C130_panics_iff",
    "Ficus.Rs.C130_selection",
    "Ficus.Rs.C130_first_of_every_set_partial",
    "Ficus.Rs.C130_any_order",
    "Ficus.Rs.C130_same_as_local_partial",
    "Ficus.Rs.C130_order_differs",
    "Ficus.Rs.C130_collision_loses_set",
    "Ficus.Rs.C130_lengths_may_differ"
   ],
   "note": "Rust backend; completeness and comparison with the local library suppose hashes without collisions (partial theorems), everything else holds for all hashes"
  },
  {
   "property": "C131",
   "status": "proved",
   "theorems": [
    "Ficus.Rs.C131_nodes",
    "Ficus.Rs.C131_edges",
    "Ficus.Rs.C131_graph_of_repeat_sets",
    "Ficus.Rs.C131_all_reachable",
    "Ficus.Rs.C131_redundant_edges",
    "Ficus.Rs.C131_inside_but_not_below"
   ],
   "note": "Rust backend, repeat_sets.rs"
  },
  {
   "property": "C132",
   "status": "partial",
   "theorems": [
    "Ficus.Rs.C132_graphs_are_nested",
    "Ficus.Rs.C132_narrowing",
    "Ficus.Rs.C132_kinds_coincide",
    "Ficus.Rs.C132_extraction",
    "Ficus.Rs.C132_sorts_activities",
    "Ficus.Rs.C132_same_as_local_partial"
   ],
   "note": "Rust backend; the comparison with the local library supposes hashes without collisions"
  },
  {
   "property": "C133",
   "status": "proved",
   "theorems": [
    "Ficus.Rs.C133_new_log",
    "Ficus.Rs.C133_substitution",
    "Ficus.Rs.C133_numbers_of_events",
    "Ficus.Rs.C133_after_extraction",
    "Ficus.Rs.C133_traces_lost"
   ],
   "note": "Model/RsInstances.newTrace and newLog against gaps and blocks of the trace, for every strategy; the hypothesis on the instances is proved for extraction (C133_after_extraction). C133_traces_lost shows what happens without it."
  },
  {
   "property": "C134",
   "status": "proved",
   "theorems": [
    "Ficus.Rs.C134_added",
    "Ficus.Rs.C134_without_instances",
    "Ficus.Rs.C134_idempotent",
    "Ficus.Rs.C134_unattached_log"
   ],
   "note": "Model/RsInstances.addUnattached and unattachedLog. The number of classes and the graph are arbitrary; the fuel is that of the search below an activity."
  },
  {
   "property": "C135",
   "status": "proved",
   "theorems": [
    "Ficus.Rs.C135_logs_from_instances",
    "Ficus.Rs.C135_logs_from_log",
    "Ficus.Rs.C135_same_logs",
    "Ficus.Rs.C135_count",
    "Ficus.Rs.C135_count_kept",
    "Ficus.Rs.C135_name",
    "Ficus.Rs.C135_name_injective",
    "Ficus.Rs.C135_name_clash",
    "Ficus.Rs.C135_shown_are_hashed"
   ],
   "note": "Model/RsInstances.logsFromInstances, logsFromLog, countLog and activityName. C135_name_clash is a witness for the condition on brackets."
  },
  {
   "property": "C136",
   "status": "proved",
   "theorems": [
    "Ficus.Rs.C136_ends",
    "Ficus.Rs.C136_defined",
    "Ficus.Rs.C136_result",
    "Ficus.Rs.C136_how_it_ends",
    "Ficus.Rs.C136_runs",
    "Ficus.Rs.C136_last_run_missing"
   ],
   "note": "Model/RsLoop.untilNoMore, for every search for patterns and every pipeline; what the pipeline may change besides the log is left out"
  },
  {
   "property": "C137",
   "status": "proved",
   "theorems": [
    "Ficus.Rs.C137_levels",
    "Ficus.Rs.C137_missing_log",
    "Ficus.Rs.C137_one_level"
   ],
   "note": "Model/RsLoop.severalLevels, for every search for patterns that finds sub-arrays of the traces"
  },
  {
   "property": "C138",
   "status": "proved",
   "theorems": [
    "Ficus.Rs.C138_suffix_tree"
   ],
   "note": "The nodes built are the suffix tree of the word in the sense of SuffixTreeOf, for every word."
  },
  {
   "property": "C139",
   "status": "partial",
   "theorems": [
    "Ficus.Rs.C139_super_maximal",
    "Ficus.Rs.C139_near_super_maximal_partial",
    "Ficus.Rs.C139_near_super_maximal_missed",
    "Ficus.Rs.C139_near_super_maximal_close",
    "Ficus.Rs.C139_maximal_partial",
    "Ficus.Rs.C139_maximal_covers",
    "Ficus.Rs.C139_maximal_missed",
    "Ficus.Rs.C139_inside",
    "Ficus.Rs.C139_discovery_defined"
   ],
   "note": "Super maximal repeats are reported exactly. Near super maximal repeats are reported if they have a free occurrence that is not at the start of the trace, maximal repeats if two letters follow after different sets of letters; the full statements are false (C139_maximal_missed, C139_near_super_maximal_missed). Nothing else is reported, and each word once."
  },
  {
   "property": "C140",
   "status": "proved",
   "theorems": [
    "Ficus.Rs.C140_document",
    "Ficus.Rs.C140_panics_iff",
    "Ficus.Rs.C140_read_back",
    "Ficus.Rs.C140_ids_determine",
    "Ficus.Rs.C140_ids_unique",
    "Ficus.Rs.C140_names_canonical",
    "Ficus.Rs.C140_names_determine",
    "Ficus.Rs.C140_alpha_canonical",
    "Ficus.Rs.C140_lost",
    "Ficus.Rs.C140_name_clash",
    "Ficus.Rs.C140_name_ambiguous"
   ],
   "note": "documents as events; escaping and the file are external"
  },
  {
   "property": "C141",
   "status": "proved",
   "theorems": [
    "Ficus.Service.C141_one_final",
    "Ficus.Service.C141_unreadable_silent",
    "Ficus.Service.C141_readable",
    "Ficus.Service.C141_all_executed",
    "Ficus.Service.C141_first_failure",
    "Ficus.Service.C141_client_gone",
    "Ficus.Service.C141_get_after",
    "Ficus.Service.C141_drop",
    "Ficus.Service.C141_nothing_left",
    "Ficus.Service.C141_unreadable_raises",
    "Ficus.Service.C141_left_behind",
    "Ficus.Service.C141_kept_for_nobody",
    "Ficus.Service.C141_panic_unnoticed",
    "Ficus.Service.C141_config"
   ],
   "note": "Parts, conversions and the moment the client goes away are parameters. What requests get is stated for pipelines without nested ones; everything else for any depth."
  },
  {
   "property": "C142",
   "status": "proved",
   "theorems": [
    "Ficus.RsXes.C142_reads",
    "Ficus.RsXes.C142_other_ignored",
    "Ficus.RsXes.C142_trace_attributes_lost",
    "Ficus.RsXes.C142_cut_trace",
    "Ficus.RsXes.C142_cut_event",
    "Ficus.RsXes.C142_cut_global",
    "Ficus.RsXes.C142_cut_log",
    "Ficus.RsXes.C142_error_in_trace",
    "Ficus.RsXes.C142_bad_entity",
    "Ficus.RsXes.C142_nested_attributes",
    "Ficus.RsXes.C142_nested_properties",
    "Ficus.RsXes.C142_self_closing_lost",
    "Ficus.RsXes.C142_global_without_scope",
    "Ficus.RsXes.C142_late_defaults"
   ],
   "note": "reading, for all documents; the losses are separate theorems"
  },
  {
   "property": "C143",
   "status": "proved",
   "theorems": [
    "Ficus.RsXes.C143_written_read",
    "Ficus.RsXes.C143_values",
    "Ficus.RsXes.C143_read_again",
    "Ficus.RsXes.C143_late_defaults",
    "Ficus.RsXes.C143_extension_grows"
   ],
   "note": "round trip, for all logs; the losses are part of the statement"
  },
  {
   "property": "C144",
   "status": "proved",
   "theorems": [
    "Ficus.Rs.C144_slow",
    "Ficus.Rs.C144_fast",
    "Ficus.Rs.C144_entropies",
    "Ficus.Rs.C144_local",
    "Ficus.Rs.C144_asked",
    "Ficus.Rs.C144_stale",
    "Ficus.Rs.C144_not_renewed",
    "Ficus.Rs.C144_edges"
   ],
   "note": "Numbers are idealised (natural, rational and real ones instead of f64). C144_stale and C144_not_renewed are the defect: kept values are not renewed when events change. C144_edges: one event on a log without traces, and an ignored name."
  },
  {
   "property": "C145",
   "status": "proved",
   "theorems": [
    "Ficus.Rs.C145_local",
    "Ficus.Rs.C145_values",
    "Ficus.Rs.C145_range"
   ],
   "note": "Numbers are idealised (rational and real ones instead of f64)."
  },
  {
   "property": "C146",
   "status": "proved",
   "theorems": [
    "Ficus.Rs.C146_total",
    "Ficus.Rs.C146_edges",
    "Ficus.Rs.C146_best",
    "Ficus.Rs.C146_defaults",
    "Ficus.Rs.C146_negative_ratio",
    "Ficus.Rs.C146_large_cutoff"
   ],
   "note": "full statement for not negative ratios; negative ones by a counterexample"
  },
  {
   "property": "C147",
   "status": "proved",
   "theorems": [
    "Ficus.Rs.C147_grouping",
    "Ficus.Rs.C147_settled",
    "Ficus.Rs.C147_merge_choice",
    "Ficus.Rs.C147_names",
    "Ficus.Rs.C147_no_clusters",
    "Ficus.Rs.C147_defaults",
    "Ficus.Rs.C147_order",
    "Ficus.Rs.C147_unrelated",
    "Ficus.Rs.C147_only_incoming",
    "Ficus.Rs.C147_loop_lost"
   ],
   "note": ""
  },
  {
   "property": "C148",
   "status": "partial",
   "theorems": [
    "Ficus.Rs.C148_distance_partial",
    "Ficus.Rs.C148_zero",
    "Ficus.Rs.C148_bounds",
    "Ficus.Rs.C148_too_small",
    "Ficus.Rs.C148_not_symmetric"
   ],
   "note": "The code gives the least number of edits where the first entry of the first row is deleted for free (C148_distance_partial); it is not the edit distance (C148_too_small) and not symmetric (C148_not_symmetric). Proved in full: it is a number, it is zero for equal rows only and by at most one below the edit distance."
  },
  {
   "property": "C149",
   "status": "proved",
   "theorems": [
    "Ficus.Rs.C149_defined",
    "Ficus.Rs.C149_symmetric",
    "Ficus.Rs.C149_range",
    "Ficus.Rs.C149_zero"
   ],
   "note": "Over the real numbers."
  },
  {
   "property": "C150",
   "status": "proved",
   "theorems": [
    "Ficus.Rs.C150_traces",
    "Ficus.Rs.C150_range",
    "Ficus.Rs.C150_faithful",
    "Ficus.Rs.C150_equal_rows"
   ],
   "note": "For all sources, class extractors, logs and orders of iteration; rationals for f64."
  },
  {
   "property": "C151",
   "status": "proved",
   "theorems": [
    "Ficus.Rs.C151_words",
    "Ficus.Rs.C151_equal_rows"
   ],
   "note": "For all sources, class extractors and logs."
  },
  {
   "property": "C152",
   "status": "proved",
   "theorems": [
    "Ficus.Rs.C152_activities",
    "Ficus.Rs.C152_total",
    "Ficus.Rs.C152_no_repeat_set"
   ],
   "note": "With the case of an error by event classes."
  },
  {
   "property": "C153",
   "status": "proved",
   "theorems": [
    "Ficus.Rs.C153_logs",
    "Ficus.Rs.C153_nonempty",
    "Ficus.Rs.C153_partition",
    "Ficus.Rs.C153_cluster"
   ],
   "note": "The clustering (linfa) is a parameter that gives one label per row."
  },
  {
   "property": "C154",
   "status": "proved",
   "theorems": [
    "Ficus.Rs.C154_merge",
    "Ficus.Rs.C154_positions",
    "Ficus.Rs.C154_joins_without_clusters",
    "Ficus.Rs.C154_density",
    "Ficus.Rs.C154_means",
    "Ficus.Rs.C154_total"
   ],
   "note": "With the totality and the effect on positions; joins without clusters are a theorem."
  },
  {
   "property": "C155",
   "status": "proved",
   "theorems": [
    "Ficus.Rs.C155_colors",
    "Ficus.Rs.C155_empty",
    "Ficus.Rs.C155_total",
    "Ficus.Rs.C155_rows",
    "Ficus.Rs.C155_shifted"
   ],
   "note": "The shift against the names of activities is a theorem."
  },
  {
   "property": "C156",
   "status": "proved",
   "theorems": [
    "Ficus.Rs.C156_search",
    "Ficus.Rs.C156_few",
    "Ficus.Rs.C156_no_score"
   ],
   "note": "For every fit and every score."
  },
  {
   "property": "C157",
   "status": "proved",
   "theorems": [
    "Ficus.Rs.C157_written_iff",
    "Ficus.Rs.C157_written_read",
    "Ficus.Rs.C157_same_iff",
    "Ficus.Rs.C157_defaults_lost",
    "Ficus.Rs.C157_other_scope",
    "Ficus.Rs.C157_panics",
    "Ficus.Rs.C157_file"
   ],
   "note": "exact conditions for writing, exactly what comes back; the loss of default values is shown to occur"
  },
  {
   "property": "C158",
   "status": "proved",
   "theorems": [
    "Ficus.Rs.C158_readable_iff",
    "Ficus.Rs.C158_reads",
    "Ficus.Rs.C158_counts_lost",
    "Ficus.Rs.C158_no_panic",
    "Ficus.Rs.C158_panics"
   ],
   "note": "exact conditions for reading and exactly what is read; the counts of variants are lost"
  },
  {
   "property": "C159",
   "status": "proved",
   "theorems": [
    "Ficus.Rs.C159_texts",
    "Ficus.Rs.C159_kinds",
    "Ficus.Rs.C159_xes",
    "Ficus.Rs.C159_bxes"
   ],
   "note": "texts and BXES values of lifecycles are injective and read back; the standard ones have the names of the XES standard"
  },
  {
   "property": "C160",
   "status": "partial",
   "theorems": [
    "Ficus.Rs.C160_rule2_partial",
    "Ficus.Rs.C160_rule2_removes_nothing",
    "Ficus.Rs.C160_implied_stays",
    "Ficus.Rs.C160_rule1"
   ],
   "note": "The second rule removes nothing (C160_rule2_removes_nothing), so relations that follow from others stay (C160_implied_stays); C160_rule2_partial says exactly when the result is right. The first rule is characterised fully."
  },
  {
   "property": "C161",
   "status": "proved",
   "theorems": [
    "Ficus.Rs.C161_closure",
    "Ficus.Rs.C161_ends_iff",
    "Ficus.Rs.C161_endless"
   ],
   "note": "Value of the closure and when its computation ends, with a relation for which it does not."
  },
  {
   "property": "C162",
   "status": "partial",
   "theorems": [
    "Ficus.Rs.C162_pairs_partial",
    "Ficus.Rs.C162_one_per_sequence",
    "Ficus.Rs.C162_lost"
   ],
   "note": "Exactly the maximal pairs if no relation follows from two others and the hash tells sequences of names apart; false otherwise (C162_lost)."
  },
  {
   "property": "C163",
   "status": "partial",
   "theorems": [
    "Ficus.Rs.C163_triples_partial",
    "Ficus.Rs.C163_one_per_text",
    "Ficus.Rs.C163_lost"
   ],
   "note": "Exactly the maximal triples if the hash tells the texts of triples apart; false otherwise for every hash (C163_lost)."
  },
  {
   "property": "C164",
   "status": "proved",
   "theorems": [
    "Ficus.Rs.C164_places",
    "Ficus.Rs.C164_lost",
    "Ficus.Rs.C164_net"
   ],
   "note": "Places, net, panic and the missing markings; the relations and the extended sets are parameters."
  },
  {
   "property": "C165",
   "status": "partial",
   "theorems": [
    "Ficus.Rs.C165_extended_partial",
    "Ficus.Rs.C165_one_per_text",
    "Ficus.Rs.C165_lost",
    "Ficus.Rs.C165_two_sets"
   ],
   "note": "Missing: the same for hashes that confuse texts, which is false (C165_lost)."
  },
  {
   "property": "C166",
   "status": "proved",
   "theorems": [
    "Ficus.Rs.C166_first",
    "Ficus.Rs.C166_again",
    "Ficus.Rs.C166_stale",
    "Ficus.Rs.C166_never"
   ],
   "note": "All sequences of questions and added relations; C166_stale shows an answer that no longer holds."
  },
  {
   "property": "C167",
   "status": "proved",
   "theorems": [
    "Ficus.Rs.C167_first",
    "Ficus.Rs.C167_again",
    "Ficus.Rs.C167_far",
    "Ficus.Rs.C167_before_additions",
    "Ficus.Rs.C167_answers"
   ],
   "note": "All sequences of calls; the net is seen through NetView. C167_far says which answers about distant classes are used."
  },
  {
   "property": "C168",
   "status": "proved",
   "theorems": [
    "Ficus.Rs.Itv.C168_tree_iff",
    "Ficus.Rs.Itv.C168_rounds",
    "Ficus.Rs.Itv.C168_panic_iff",
    "Ficus.Rs.Itv.C168_endless_iff",
    "Ficus.Rs.Itv.C168_point",
    "Ficus.Rs.Itv.C168_range",
    "Ficus.Rs.Itv.C168_range_int",
    "Ficus.Rs.Itv.C168_envelopes_empty",
    "Ficus.Rs.Itv.C168_envelopes",
    "Ficus.Rs.Itv.C168_envelopes_point_at_the_end"
   ],
   "note": "Exact conditions for a tree, a panic and an endless loop; exact results of searches for points and ranges; envelopes up to points at the right bound, for which the result is shown to depend on the binary search."
  },
  {
   "property": "C169",
   "status": "proved",
   "theorems": [
    "Ficus.Rs.C169_found",
    "Ficus.Rs.C169_up_to_date",
    "Ficus.Rs.C169_answers"
   ],
   "note": "What is found is exact up to which answers about distant classes are from earlier searches; the nets are a parameter here, C171 has those of the code."
  },
  {
   "property": "C170",
   "status": "proved",
   "theorems": [
    "Ficus.Rs.C170_sets",
    "Ficus.Rs.C170_alpha",
    "Ficus.Rs.C170_alpha_plus",
    "Ficus.Rs.C170_alpha_plus_panics",
    "Ficus.Rs.C170_nfc"
   ],
   "note": "Ending is for every hash; which sets are found, for hashes without collisions, is C112."
  },
  {
   "property": "C171",
   "status": "proved",
   "theorems": [
    "Ficus.Rs.C171_first",
    "Ficus.Rs.C171_later",
    "Ficus.Rs.C171_later_panics",
    "Ficus.Rs.C171_searches",
    "Ficus.Rs.C171_searches_panic",
    "Ficus.Rs.C171_provider",
    "Ficus.Rs.C171_view"
   ],
   "note": "The nets are those of the code; the questions of the search for extended sets are a parameter."
  },
  {
   "property": "C172",
   "status": "proved",
   "theorems": [
    "Ficus.Rs.C172_net",
    "Ficus.Rs.C172_panics",
    "Ficus.Rs.C172_endless"
   ],
   "note": "The answers about distant classes in the search for extended sets are a parameter; which sets are found is C162, C163 and C165. C172_endless is a log for which it never ends."
  },
  {
   "property": "C173",
   "status": "proved",
   "theorems": [
    "Ficus.Rs.C173_panics",
    "Ficus.Rs.C173_start"
   ],
   "note": "The pairs and tuples printed before the merging; the hash is a parameter."
  },
  {
   "property": "C174",
   "status": "partial",
   "theorems": [
    "Ficus.Rs.C174_result_partial",
    "Ficus.Rs.C174_apart_partial",
    "Ficus.Rs.C174_invalid"
   ],
   "note": "The full statement is false (C174_invalid): tuples that are copied in a round lose their second sets. C174_apart_partial: if no two classes go together it ends and all tuples are valid. C174_result_partial, for runs that end: no two can be merged, each is valid or such a copy, there are some if there were some before, and the same ones if none could be merged. That the merging ends for other logs is not proved."
  },
  {
   "property": "C175",
   "status": "proved",
   "theorems": [
    "Ficus.Rs.C175_all",
    "Ficus.Rs.C175_calls"
   ],
   "note": "Traces that are changed during the iteration are not modelled."
  }
 ]
}