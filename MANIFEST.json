{
 "claims": [
  {
   "property": "C01",
   "status": "proved",
   "theorems": [
    "Verif.C01_transform_get",
    "Verif.C01_transform_iterate",
    "Verif.C01_iterate_get",
    "Verif.C01_iterate_end",
    "Verif.C01_two_tail",
    "Verif.C01_C04_finite_lists"
   ],
   "note": ""
  },
  {
   "property": "C02",
   "status": "proved",
   "theorems": [
    "Verif.C02_filter_found",
    "Verif.C02_filter_end",
    "Verif.C02_filter_diverges_iff",
    "Verif.C02_filter_fuel_mono",
    "Verif.C02_filter_iterate",
    "Verif.C02_finite_lists"
   ],
   "note": ""
  },
  {
   "property": "C03",
   "status": "proved",
   "theorems": [
    "Verif.C03_concat_finite",
    "Verif.C03_concat_infinite",
    "Verif.C03_concat_monoid"
   ],
   "note": ""
  },
  {
   "property": "C04",
   "status": "proved",
   "theorems": [
    "Verif.C04_take_get",
    "Verif.C04_take_negative",
    "Verif.C01_C04_finite_lists"
   ],
   "note": ""
  },
  {
   "property": "C05",
   "status": "proved",
   "theorems": [
    "Verif.C05_map_positions",
    "Verif.C05_map_id",
    "Verif.C05_map_comp"
   ],
   "note": ""
  },
  {
   "property": "C06",
   "status": "proved",
   "theorems": [
    "Verif.C06_flatMap_positions",
    "Verif.C06_mapShrinkable_positions"
   ],
   "note": ""
  },
  {
   "property": "C07",
   "status": "proved",
   "theorems": [
    "Verif.C07_filter_throws_iff",
    "Verif.C07_filter_histories",
    "Verif.C07_filter_sound"
   ],
   "note": ""
  },
  {
   "property": "C08",
   "status": "proved",
   "theorems": [
    "Verif.C08_filterTol_throws_iff",
    "Verif.C08_filterTol_sound",
    "Verif.C08_filterTol_shrinks",
    "Verif.C08_filterTol_complete"
   ],
   "note": ""
  },
  {
   "property": "C09",
   "status": "proved",
   "theorems": [
    "Verif.C09_concat_positions",
    "Verif.C09_concat_reach",
    "Verif.C09_concatStatic_positions"
   ],
   "note": ""
  },
  {
   "property": "C10",
   "status": "proved",
   "theorems": [
    "Verif.C10_andThen_positions",
    "Verif.C10_andThen_reach",
    "Verif.C10_andThenStatic_positions"
   ],
   "note": ""
  },
  {
   "property": "C11",
   "status": "proved",
   "theorems": [
    "Verif.C11_take_positions",
    "Verif.C11_take_bound"
   ],
   "note": ""
  },
  {
   "property": "C12",
   "status": "proved",
   "theorems": [
    "Verif.C12_range",
    "Verif.C12_strict"
   ],
   "note": ""
  },
  {
   "property": "C13",
   "status": "proved",
   "theorems": [
    "Verif.C13_exactly_once",
    "Verif.C13_complete"
   ],
   "note": ""
  },
  {
   "property": "C14",
   "status": "proved",
   "theorems": [
    "Verif.C14_logarithmic",
    "Verif.C14_evals"
   ],
   "note": ""
  },
  {
   "property": "C15",
   "status": "proved",
   "theorems": [
    "Verif.C15_threshold_nonneg",
    "Verif.C15_threshold_nonpos"
   ],
   "note": ""
  },
  {
   "property": "C16",
   "status": "proved",
   "theorems": [
    "Verif.C16_signed_no_overflow",
    "Verif.C16_unsigned_no_wrap"
   ],
   "note": ""
  },
  {
   "property": "C17",
   "status": "proved",
   "theorems": [
    "Verif.C17_interval",
    "Verif.C17_every_value_possible"
   ],
   "note": ""
  },
  {
   "property": "C18",
   "status": "proved",
   "theorems": [
    "Verif.C18_inRange",
    "Verif.C18_integers",
    "Verif.C18_natural",
    "Verif.C18_nonNegative",
    "Verif.C18_every_value_possible"
   ],
   "note": ""
  },
  {
   "property": "C19",
   "status": "proved",
   "theorems": [
    "Verif.C19_empty_interval",
    "Verif.C19_empty_natural",
    "Verif.C19_out_of_range_throws"
   ],
   "note": ""
  },
  {
   "property": "C20",
   "status": "proved",
   "theorems": [
    "Verif.C20_arbi",
    "Verif.C20_table",
    "Verif.C20_limits",
    "Verif.C20_every_value_possible"
   ],
   "note": ""
  },
  {
   "property": "C21",
   "status": "partial",
   "theorems": [
    "Verif.C21_char_violated",
    "Verif.C21_char_partial"
   ],
   "note": "The claim is false of the code on platforms with signed char; C21_char_violated shows undefined behaviour, C21_char_partial proves the remaining cases."
  },
  {
   "property": "C22",
   "status": "proved",
   "theorems": [
    "Verif.C22_bool",
    "Verif.C22_bool_both"
   ],
   "note": ""
  },
  {
   "property": "C23",
   "status": "proved",
   "theorems": [
    "Verif.C23_pair_product",
    "Verif.C23_pair_value",
    "Verif.C23_pair_step",
    "Verif.C23_pairOf",
    "Verif.C23_tuple_product",
    "Verif.C23_tuple_value",
    "Verif.C23_tuple_step",
    "Verif.C23_tuple_candidates",
    "Verif.C23_tupleOf",
    "Verif.C23_tupleOf_total"
   ],
   "note": ""
  },
  {
   "property": "C24",
   "status": "proved",
   "theorems": [
    "Verif.C24_defined",
    "Verif.C24_sound",
    "Verif.C24_step"
   ],
   "note": ""
  },
  {
   "property": "C25",
   "status": "proved",
   "theorems": [
    "Verif.C25_exactly_once",
    "Verif.C25_complete"
   ],
   "note": ""
  },
  {
   "property": "C26",
   "status": "proved",
   "theorems": [
    "Verif.C26_elements",
    "Verif.C26_step",
    "Verif.C26_candidates"
   ],
   "note": ""
  },
  {
   "property": "C27",
   "status": "proved",
   "theorems": [
    "Verif.C27_vector",
    "Verif.C27_vector_total",
    "Verif.C27_elements"
   ],
   "note": ""
  },
  {
   "property": "C28",
   "status": "proved",
   "theorems": [
    "Verif.C28_set",
    "Verif.C28_map",
    "Verif.C28_string",
    "Verif.C28_list",
    "Verif.C28_pair",
    "Verif.C28_tuple"
   ],
   "note": ""
  },
  {
   "property": "C29",
   "status": "proved",
   "theorems": [
    "Verif.C29_set",
    "Verif.C29_set_once",
    "Verif.C29_generated"
   ],
   "note": ""
  },
  {
   "property": "C30",
   "status": "proved",
   "theorems": [
    "Verif.C30_map",
    "Verif.C30_map_step",
    "Verif.C30_generated"
   ],
   "note": ""
  },
  {
   "property": "C31",
   "status": "partial",
   "theorems": [
    "Verif.C31_reachable",
    "Verif.C31_substring_partial",
    "Verif.C31_minSize_partial",
    "Verif.C31_violated_minSize",
    "Verif.C31_violated_same",
    "Verif.C31_violated_longer",
    "Verif.C31_generated",
    "Verif.C31_front_longer_violated"
   ],
   "note": "The claim is false of the code (three ways, C31_violated_*); the exact set of reachable strings is proved."
  },
  {
   "property": "C32",
   "status": "proved",
   "theorems": [
    "Verif.Unicode.C32_utf8",
    "Verif.Unicode.C32_cesu8",
    "Verif.Unicode.C32_utf16be",
    "Verif.Unicode.C32_utf16le",
    "Verif.Unicode.C32_substring",
    "Verif.Unicode.C32_total"
   ],
   "note": ""
  },
  {
   "property": "C33",
   "status": "partial",
   "theorems": [
    "Verif.C33_oneOf_partial",
    "Verif.C33_no_other_outcome",
    "Verif.C33_every_alternative_possible",
    "Verif.C33_discarded_again",
    "Verif.C33_zero_weight_violated",
    "Verif.C33_empty_violated",
    "Verif.C33_elementOf"
   ],
   "note": "The zero weight part is false of the code: C33_zero_weight_violated; an empty list of alternatives is read out of bounds: C33_empty_violated. The rest is proved."
  },
  {
   "property": "C34",
   "status": "partial",
   "theorems": [
    "Verif.C34_any_nan_violated",
    "Verif.C34_nan_chosen_violated",
    "Verif.C34_invalid_weight",
    "Verif.C34_exact",
    "Verif.C34_general_partial",
    "Verif.C34_result_range",
    "Verif.C34_nan_violated"
   ],
   "note": "Exact for weights that are multiples of 2^-52 (C34_exact), with the rounding error of the additions in general; NaN is accepted: C34_nan_violated."
  },
  {
   "property": "C35",
   "status": "proved",
   "theorems": [
    "Verif.C35_intervals",
    "Verif.C35_uintervals",
    "Verif.C35_size",
    "Verif.C35_every_value_possible",
    "Verif.C35_empty_rejected",
    "Verif.C35_reversed_rejected",
    "Verif.C35_uintervals_reversed_accepted"
   ],
   "note": ""
  },
  {
   "property": "C36",
   "status": "proved",
   "theorems": [
    "Verif.C36_sound",
    "Verif.C36_first",
    "Verif.C36_complete",
    "Verif.C36_never"
   ],
   "note": ""
  },
  {
   "property": "C37",
   "status": "proved",
   "theorems": [
    "Verif.C37_map",
    "Verif.C37_reach"
   ],
   "note": ""
  },
  {
   "property": "C38",
   "status": "proved",
   "theorems": [
    "Verif.C38_dependency",
    "Verif.C38_complete"
   ],
   "note": ""
  },
  {
   "property": "C39",
   "status": "proved",
   "theorems": [
    "Verif.C39_chain",
    "Verif.C39_complete",
    "Verif.C39_chain_twice"
   ],
   "note": ""
  },
  {
   "property": "C40",
   "status": "proved",
   "theorems": [
    "Verif.C40_derive",
    "Verif.C40_complete"
   ],
   "note": ""
  },
  {
   "property": "C41",
   "status": "proved",
   "theorems": [
    "Verif.C41_aggregate",
    "Verif.C41_accumulate",
    "Verif.C41_aggregate_value",
    "Verif.C41_accumulate_value",
    "Verif.C41_aggregate_complete",
    "Verif.C41_accumulate_complete"
   ],
   "note": ""
  },
  {
   "property": "C42",
   "status": "partial",
   "theorems": [
    "Verif.C42_violated",
    "Verif.C42_partial",
    "Verif.C42_not_from_elemGen_violated"
   ],
   "note": "The claim is false of the code: the element generator is ignored."
  },
  {
   "property": "C43",
   "status": "proved",
   "theorems": [
    "Verif.Engine.C43_true_means_every_run_passed",
    "Verif.Engine.C43_time_limit"
   ],
   "note": ""
  },
  {
   "property": "C44",
   "status": "proved",
   "theorems": [
    "Verif.Engine.C44_false_means_some_run_failed"
   ],
   "note": ""
  },
  {
   "property": "C45",
   "status": "proved",
   "theorems": [
    "Verif.Engine.C45_stops_at_first_failure",
    "Verif.Engine.C45_fresh_arguments"
   ],
   "note": ""
  },
  {
   "property": "C46",
   "status": "proved",
   "theorems": [
    "Verif.Engine.C46_same_seed_same_runs"
   ],
   "note": ""
  },
  {
   "property": "C47",
   "status": "proved",
   "theorems": [
    "Verif.Engine.C47_shrinking_starts_from_the_failing_arguments"
   ],
   "note": ""
  },
  {
   "property": "C48",
   "status": "partial",
   "theorems": [
    "Verif.Engine.C48_passing_reported_violated",
    "Verif.Engine.C48_shrunk_arguments_fail_partial",
    "Verif.Engine.C48_observed",
    "Verif.Engine.C48_leftover_failure_violated"
   ],
   "note": "False of the code in one corner: C48_leftover_failure_violated (a failed expectation left over from a run that ended with PROP_SUCCESS is blamed on the next run); proved for properties without memory whose discarded or early succeeding calls record no failed expectation."
  },
  {
   "property": "C49",
   "status": "proved",
   "theorems": [
    "Verif.Engine.C49_locally_minimal",
    "Verif.Engine.C49_single_argument"
   ],
   "note": ""
  },
  {
   "property": "C50",
   "status": "proved",
   "theorems": [
    "Verif.Engine.C50_shrinking_terminates",
    "Verif.Engine.C50_evaluations_bounded"
   ],
   "note": ""
  },
  {
   "property": "C51",
   "status": "partial",
   "theorems": [
    "Verif.Engine.C51_adopted_violated",
    "Verif.Engine.C51_reported_violated",
    "Verif.Engine.C51_counterexample_without_discard_partial",
    "Verif.Engine.C51_discarded_candidate_adopted_violated"
   ],
   "note": "The claim is false of the code: C51_discarded_candidate_adopted_violated; proved for properties that do not discard during shrinking."
  },
  {
   "property": "C52",
   "status": "partial",
   "theorems": [
    "Verif.Engine.C52_missing_cleanups_violated",
    "Verif.Engine.C52_hooks_paired_partial",
    "Verif.Engine.C52_cleanup_skipped_violated"
   ],
   "note": "The claim is false of the code: C52_cleanup_skipped_violated; the exact pairing is proved for every execution (startup before every call, cleanup after every call that returned)."
  },
  {
   "property": "C53",
   "status": "partial",
   "theorems": [
    "Verif.Engine.C53_success_hides_violated",
    "Verif.Engine.C53_failed_expect_partial",
    "Verif.Engine.C53_failed_expect_ignored_violated"
   ],
   "note": "The claim is false of the code: C53_failed_expect_ignored_violated; proved for runs not ended by Discard or Success."
  },
  {
   "property": "C54",
   "status": "partial",
   "theorems": [
    "Verif.Engine.C54_any_run_violated",
    "Verif.Engine.C54_property_exception_partial",
    "Verif.Engine.C54_generator_exception_escapes_violated"
   ],
   "note": "The claim is false of the code for every property: C54_generator_exception_escapes_violated; proved for exceptions of the property function."
  },
  {
   "property": "C55",
   "status": "partial",
   "theorems": [
    "Verif.Engine.C55_expectations_ignored_violated",
    "Verif.Engine.C55_example_verdict_partial",
    "Verif.Engine.C55_failed_expectation_ignored_violated"
   ],
   "note": "The claim is false of the code: C55_failed_expectation_ignored_violated; the exact verdict is proved."
  },
  {
   "property": "C56",
   "status": "proved",
   "theorems": [
    "Verif.Engine.C56_matrix_covers_product",
    "Verif.Engine.C56_empty_list_undefined"
   ],
   "note": ""
  },
  {
   "property": "C57",
   "status": "partial",
   "theorems": [
    "Verif.Engine.C57_matrix_always_true_violated",
    "Verif.Engine.C57_passing_partial"
   ],
   "note": "The claim is false of the code for every property: C57_matrix_always_true_violated; the other direction (true if nothing fails) and C56 hold."
  },
  {
   "property": "C58",
   "status": "proved",
   "theorems": [
    "Verif.Context.C58_contexts_nest",
    "Verif.Context.C58_block_restores",
    "Verif.Context.C58_no_context"
   ],
   "note": ""
  },
  {
   "property": "C59",
   "status": "proved",
   "theorems": [
    "Verif.Context.C59_tag_counts"
   ],
   "note": ""
  },
  {
   "property": "C60",
   "status": "proved",
   "theorems": [
    "Verif.Unicode.C60_scalar",
    "Verif.Unicode.C60_reject",
    "Verif.Unicode.C60_standard",
    "Verif.Unicode.C60_decode"
   ],
   "note": ""
  },
  {
   "property": "C61",
   "status": "proved",
   "theorems": [
    "Verif.Unicode.C61_valid",
    "Verif.Unicode.C61_total",
    "Verif.Unicode.C61_unique",
    "Verif.Unicode.C61_string"
   ],
   "note": ""
  },
  {
   "property": "C62",
   "status": "partial",
   "theorems": [
    "Verif.C62_aliases_violated",
    "Verif.Unicode.C62_be",
    "Verif.Unicode.C62_le",
    "Verif.Unicode.C62_reject_partial",
    "Verif.Unicode.C62_violated"
   ],
   "note": "The rejection part is false of the code: C62_violated (0x401F600 is encoded as another character); C62_reject_partial says exactly which codes are rejected."
  },
  {
   "property": "C63",
   "status": "proved",
   "theorems": [
    "Verif.Unicode.C63_be",
    "Verif.Unicode.C63_le",
    "Verif.Unicode.C63_total",
    "Verif.Unicode.C63_unique"
   ],
   "note": ""
  },
  {
   "property": "C64",
   "status": "proved",
   "theorems": [
    "Verif.Unicode.C64_scalar",
    "Verif.Unicode.C64_reject",
    "Verif.Unicode.C64_decode",
    "Verif.Unicode.C64_valid",
    "Verif.Unicode.C64_total",
    "Verif.Unicode.C64_unique"
   ],
   "note": ""
  },
  {
   "property": "C65",
   "status": "partial",
   "theorems": [
    "Verif.C65_lone_surrogate_violated",
    "Verif.Unicode.C65_violated_odd",
    "Verif.Unicode.C65_violated_surrogate",
    "Verif.Unicode.C65_valid_partial"
   ],
   "note": "The claim is false of the code: every odd length string and strings ending in a high surrogate unit read past the end; proved for valid strings."
  },
  {
   "property": "C66",
   "status": "proved",
   "theorems": [
    "Verif.Bitmap.C66_slots_exclusive",
    "Verif.Bitmap.C66_no_slot_lost"
   ],
   "note": "Negative arguments of unacquire are not modelled."
  },
  {
   "property": "C67",
   "status": "proved",
   "theorems": [
    "Verif.Bitmap.C67_tryAcquire",
    "Verif.Bitmap.C67_unacquire",
    "Verif.Bitmap.C67_settled"
   ],
   "note": ""
  },
  {
   "property": "C68",
   "status": "proved",
   "theorems": [
    "Verif.Stateful.C68_holds_iff",
    "Verif.Stateful.C68_throws_iff",
    "Verif.Stateful.C68_class_style",
    "Verif.Stateful.C68_without_precondition",
    "Verif.Stateful.C68_without_run",
    "Verif.Stateful.C68_shrinks_to_sublist",
    "Verif.Stateful.C68_class_shrinks_to_sublist",
    "Verif.Stateful.C68_post_check_in_force"
   ],
   "note": ""
  },
  {
   "property": "C69",
   "status": "partial",
   "theorems": [
    "Verif.Stateful.C69_cleanup_runs_as_startup_violated",
    "Verif.Stateful.C69_startup_partial"
   ],
   "note": "The claim is false of the code: C69_cleanup_runs_as_startup_violated; the startup part holds when no cleanup hook is set."
  },
  {
   "property": "C70",
   "status": "proved",
   "theorems": [
    "Verif.Concurrency.C70_no_overflow",
    "Verif.Concurrency.C70_distinct_positions",
    "Verif.Concurrency.C70_log_complete",
    "Verif.Concurrency.C70_replay",
    "Verif.Concurrency.C70_finishes",
    "Verif.Concurrency.C70_invoke_defined"
   ],
   "note": ""
  },
  {
   "property": "C71",
   "status": "partial",
   "theorems": [
    "Verif.Concurrency.C71_log_overflow_violated",
    "Verif.Concurrency.C71_no_overflow_partial"
   ],
   "note": "The claim is false of the code: C71_log_overflow_violated; proved for at most 5000 rear actions."
  },
  {
   "property": "C72",
   "status": "partial",
   "theorems": [
    "Verif.Concurrency.C72_model_updates_lost_violated",
    "Verif.Concurrency.C72_class_style_partial",
    "Verif.Concurrency.C72_class_post_check_partial"
   ],
   "note": "The claim is false of the code in the function style, in every execution: C72_model_updates_lost_violated; proved for the class style."
  },
  {
   "property": "C73",
   "status": "partial",
   "theorems": [
    "Verif.Fork.C73_long_message_violated",
    "Verif.Fork.C73_message_partial",
    "Verif.Fork.C73_value_returned"
   ],
   "note": "The claim is false of the code: C73_long_message_violated; proved for messages of at most 100 bytes."
  },
  {
   "property": "C74",
   "status": "partial",
   "theorems": [
    "Verif.C74_ratio_partial",
    "Verif.C74_multiples_violated",
    "Verif.C74_violated",
    "Verif.C74_one_partial",
    "Verif.C74_two_partial",
    "Verif.C74_power_partial"
   ],
   "note": "The claim is false of the code: C74_violated; proved for one interval, for two, and for totals that are powers of two."
  },
  {
   "property": "C75",
   "status": "partial",
   "theorems": [
    "Verif.C75_inRange_always_violated",
    "Verif.C75_integers_always_violated",
    "Verif.C75_inRange_violated",
    "Verif.C75_integers_violated",
    "Verif.C75_empty_partial"
   ],
   "note": "The claim is false of the code: the inclusive end wraps around; proved for representable inclusive ends."
  },
  {
   "property": "C76",
   "status": "partial",
   "theorems": [
    "Verif.C76_up_to_max_violated",
    "Verif.C76_integers_violated",
    "Verif.C76_integers_partial"
   ],
   "note": "The claim is false of the code for int32_t/int64_t at the upper end; proved for the other six types (and C18_integers for the rest)."
  },
  {
   "property": "C77",
   "status": "partial",
   "theorems": [
    "Verif.C77_bool_iff_violated",
    "Verif.C77_bool_violated",
    "Verif.C77_bool_partial"
   ],
   "note": "The claim is false of the code for p = 0 (draw 0 yields true); proved for p = 1 and for all other draws."
  },
  {
   "property": "C78",
   "status": "partial",
   "theorems": [
    "Verif.C78_elements_stuck",
    "Verif.C78_violated",
    "Verif.C78_elements_partial"
   ],
   "note": "The claim is false of the code: C78_elements_stuck and C78_violated; proved for lists of exactly minSize elements and simultaneous replacement."
  },
  {
   "property": "C79",
   "status": "proved",
   "theorems": [
    "Verif.C79_minimal"
   ],
   "note": ""
  },
  {
   "property": "C80",
   "status": "partial",
   "theorems": [
    "Verif.C80_set_diverges",
    "Verif.C80_violated",
    "Verif.C80_set_terminates_partial"
   ],
   "note": "The claim is false of the code; termination is proved for generators that keep offering new values."
  },
  {
   "property": "C81",
   "status": "partial",
   "theorems": [
    "Verif.C81_string_prefix",
    "Verif.C81_violated",
    "Verif.C81_trailing_partial"
   ],
   "note": "The claim is false of the code: C81_string_prefix; trailing characters are removed."
  },
  {
   "property": "C82",
   "status": "proved",
   "theorems": [
    "Verif.Unicode.C82_utf8",
    "Verif.Unicode.C82_cesu8",
    "Verif.Unicode.C82_valid"
   ],
   "note": ""
  },
  {
   "property": "C83",
   "status": "proved",
   "theorems": [
    "Verif.Unicode.C83_utf8",
    "Verif.Unicode.C83_cesu8",
    "Verif.Unicode.C83_utf16"
   ],
   "note": ""
  },
  {
   "property": "C84",
   "status": "proved",
   "theorems": [
    "Verif.C84_unicode",
    "Verif.C84_every_value_possible"
   ],
   "note": ""
  },
  {
   "property": "C85",
   "status": "partial",
   "theorems": [
    "Verif.C85_violated",
    "Verif.C85_second_partial",
    "Verif.C85_second_stuck_violated"
   ],
   "note": "The claim is false of the code: C85_violated; proved for first generators without shrinks."
  },
  {
   "property": "C86",
   "status": "partial",
   "theorems": [
    "Verif.C86_violated",
    "Verif.C86_stable_partial",
    "Verif.C86_every_time_violated"
   ],
   "note": "The claim is false of the code: C86_violated; proved for second generators that do not draw."
  },
  {
   "property": "C87",
   "status": "proved",
   "theorems": [
    "Verif.C87_construct",
    "Verif.C87_ctor"
   ],
   "note": ""
  },
  {
   "property": "C88",
   "status": "partial",
   "theorems": [
    "Verif.Engine.C88_not_tried_again_violated",
    "Verif.Engine.C88_minimal_in_each_argument_violated",
    "Verif.Engine.C88_last_argument_partial"
   ],
   "note": "The claim is false of the code: C88_minimal_in_each_argument_violated; what does hold is C49."
  },
  {
   "property": "C89",
   "status": "partial",
   "theorems": [
    "Verif.Context.C89_expect_macros_partial",
    "Verif.Context.C89_expect_false_violated"
   ],
   "note": "False of the code for PROP_EXPECT_FALSE (C89_expect_false_violated); proved for the other macros."
  },
  {
   "property": "C90",
   "status": "partial",
   "theorems": [
    "Verif.Context.C90_assert_false_partial",
    "Verif.Context.C90_assert_false_operator_partial",
    "Verif.Context.C90_assert_false_violated",
    "Verif.Macros.C90_single_partial",
    "Verif.Macros.C90_equal_violated",
    "Verif.Macros.C90_less_violated"
   ],
   "note": "The claim is false of the code: C90_assert_false_violated; proved for single operands."
  },
  {
   "property": "C91",
   "status": "partial",
   "theorems": [
    "Verif.Context.C91_streq2_partial",
    "Verif.Context.C91_prefix_violated",
    "Verif.C91_every_prefix_violated"
   ],
   "note": "The claim is false of the code: C91_prefix_violated; the exact meaning is proved."
  },
  {
   "property": "C92",
   "status": "partial",
   "theorems": [
    "Verif.Context.C92_streamed_text_partial",
    "Verif.Context.C92_passing_expectation_silent",
    "Verif.Context.C92_message_overwrites_violated",
    "Verif.C92_always_overwrites_violated"
   ],
   "note": "The claim is false of the code: C92_message_overwrites_violated; what is shown is proved exactly."
  },
  {
   "property": "C93",
   "status": "partial",
   "theorems": [
    "Verif.Stateful.C93_every_second_go_violated",
    "Verif.Stateful.C93_second_go_throws_violated",
    "Verif.Stateful.C93_class_style_partial"
   ],
   "note": "The claim is false of the code: C93_second_go_throws_violated; the class style can be run again: C93_class_style_partial."
  },
  {
   "property": "C94",
   "status": "partial",
   "theorems": [
    "Verif.Stateful.C94_largest_values_default_violated",
    "Verif.Stateful.C94_settings_partial",
    "Verif.Stateful.C94_defaults",
    "Verif.Stateful.C94_largest_values_ignored_violated",
    "Verif.Stateful.C94_all_settings_partial"
   ],
   "note": "False of the code for the largest values: C94_largest_values_ignored_violated; proved for all other values, and for all sequences of calls of setters (C94_all_settings_partial; setOnCleanup is C69)."
  },
  {
   "property": "C95",
   "status": "partial",
   "theorems": [
    "Verif.Concurrency.C95_rear_failure_gives_no_verdict_violated",
    "Verif.Concurrency.C95_class_rear_failure_violated",
    "Verif.Concurrency.C95_front_failure_partial",
    "Verif.Concurrency.C95_front_end_partial"
   ],
   "note": "The claim is false of the code: C95_rear_failure_gives_no_verdict_violated and C95_class_rear_failure_violated; proved for front actions."
  },
  {
   "property": "C96",
   "status": "partial",
   "theorems": [
    "Verif.Concurrency.C96_single_thread_skips_rear_violated",
    "Verif.Concurrency.C96_all_rear_actions_partial",
    "Verif.Concurrency.C96_post_check_partial"
   ],
   "note": "The claim is false of the code for a concurrency of 0 and 1: C96_single_thread_skips_rear_violated; proved for two and more threads."
  },
  {
   "property": "C97",
   "status": "partial",
   "theorems": [
    "Verif.Concurrency.C97_failed_expectations_ignored_violated",
    "Verif.Concurrency.C97_verdict_partial",
    "Verif.Concurrency.C97_time_limit_partial",
    "Verif.Concurrency.C97_test_partial",
    "Verif.Concurrency.C97_test_time_limit_partial",
    "Verif.Concurrency.C97_lists_partial",
    "Verif.Concurrency.C97_class_lists_partial"
   ],
   "note": "The claim is false of the code: C97_failed_expectations_ignored_violated; the exact verdict in terms of exceptions is proved."
  },
  {
   "property": "C98",
   "status": "partial",
   "theorems": [
    "Verif.Concurrency.C98_many_runs_means_none_violated",
    "Verif.Concurrency.C98_number_of_runs_partial"
   ],
   "note": "The claim is false of the code: C98_many_runs_means_none_violated; proved for less than 2^31 runs."
  },
  {
   "property": "C99",
   "status": "partial",
   "theorems": [
    "Verif.Fork.C99_large_result_hangs_violated",
    "Verif.Fork.C99_exit_hangs_violated",
    "Verif.Fork.C99_comes_back_partial"
   ],
   "note": "The claim is false of the code: C99_large_result_hangs_violated, C99_exit_hangs_violated; proved for results that fit."
  },
  {
   "property": "C100",
   "status": "partial",
   "theorems": [
    "Verif.Fork.C100_child_escapes_violated",
    "Verif.Fork.C100_child_ends_partial"
   ],
   "note": "The claim is false of the code: C100_child_escapes_violated; proved for all other endings."
  },
  {
   "property": "C101",
   "status": "partial",
   "theorems": [
    "Verif.C101_huge_violated",
    "Verif.C101_defined_partial"
   ],
   "note": "The claim is false of the code: C101_huge_violated (all numbers from 2^32 on); proved for all others."
  },
  {
   "property": "C102",
   "status": "proved",
   "theorems": [
    "Verif.C102_values",
    "Verif.C102_complete"
   ],
   "note": ""
  },
  {
   "property": "C103",
   "status": "proved",
   "theorems": [
    "Verif.C103_special"
   ],
   "note": ""
  },
  {
   "property": "C104",
   "status": "partial",
   "theorems": [
    "Verif.C104_integer_part_violated"
   ],
   "note": "The claim is false of the code: C104_integer_part_violated; what is arrived at is C102."
  },
  {
   "property": "C105",
   "status": "partial",
   "theorems": [
    "Verif.C105_repeat_violated",
    "Verif.C105_distinct_partial"
   ],
   "note": "The claim is false of the code for powers of two: C105_repeat_violated; proved for all other numbers."
  },
  {
   "property": "C106",
   "status": "proved",
   "theorems": [
    "Verif.C106_generated",
    "Verif.C106_shrinkable"
   ],
   "note": ""
  },
  {
   "property": "C107",
   "status": "partial",
   "theorems": [
    "Verif.C107_larger_violated",
    "Verif.C107_halved_partial"
   ],
   "note": "The claim is false of the code below 1/2: C107_larger_violated; proved from 1/2 on, with a factor of 1/2."
  },
  {
   "property": "C108",
   "status": "proved",
   "theorems": [
    "Verif.Engine.C108_greedy",
    "Verif.Engine.C108_single_argument"
   ],
   "note": ""
  },
  {
   "property": "C109",
   "status": "proved",
   "theorems": [
    "Verif.Engine.C109_interval_threshold",
    "Verif.Engine.C109_nearest"
   ],
   "note": ""
  },
  {
   "property": "C110",
   "status": "proved",
   "theorems": [
    "Verif.Engine.C110_vector_minimal",
    "Verif.Engine.C110_vector_length"
   ],
   "note": ""
  },
  {
   "property": "C111",
   "status": "proved",
   "theorems": [
    "Verif.Engine.C111_passes",
    "Verif.Engine.C111_falsifies",
    "Verif.Engine.C111_runs_forever",
    "Verif.Engine.C111_returns"
   ],
   "note": ""
  },
  {
   "property": "C112",
   "status": "proved",
   "theorems": [
    "Verif.Make.C112_explicit_generators",
    "Verif.Make.C112_number_of_generators"
   ],
   "note": ""
  },
  {
   "property": "C113",
   "status": "partial",
   "theorems": [
    "Verif.Engine.C113_void_callable_gone_violated",
    "Verif.Engine.C113_bool_callable_partial",
    "Verif.Engine.C113_void_callable_partial"
   ],
   "note": "The claim is false of the code for callables returning void: C113_void_callable_gone_violated; proved for callables returning bool, and for void while the callable exists."
  },
  {
   "property": "C114",
   "status": "partial",
   "theorems": [
    "Verif.Containers.C114_moving_function_violated",
    "Verif.Containers.C114_shrinks_lost_violated",
    "Verif.Containers.C114_front_lost_violated",
    "Verif.Containers.C114_map_partial"
   ],
   "note": "The claim is false of the code for functions that modify their argument: C114_moving_function_violated, C114_shrinks_lost_violated; proved for functions that leave it as it is."
  },
  {
   "property": "C115",
   "status": "partial",
   "theorems": [
    "Verif.Unicode.C115_utf16be_violated",
    "Verif.Unicode.C115_utf16le_violated",
    "Verif.Unicode.C115_reject_partial"
   ],
   "note": "The claim is false of the code for unpaired surrogates followed by two more bytes: C115_utf16be_violated, C115_utf16le_violated; proved for all other malformed strings."
  },
  {
   "property": "C116",
   "status": "partial",
   "theorems": [
    "Verif.Concurrency.C116_precondition_overtaken_violated",
    "Verif.Concurrency.C116_precondition_partial"
   ],
   "note": "The claim is false of the code for actions that interfere: C116_precondition_overtaken_violated; proved for actions that do not make each other's preconditions false."
  },
  {
   "property": "C117",
   "status": "proved",
   "theorems": [
    "Verif.Bitmap.C117_wait_free",
    "Verif.Bitmap.C117_acquire_alone"
   ],
   "note": ""
  },
  {
   "property": "C118",
   "status": "partial",
   "theorems": [
    "Verif.C118_sizes_partial",
    "Verif.C118_string_violated",
    "Verif.C118_always_empty_violated",
    "Verif.C118_undefined_violated"
   ],
   "note": "The claim is false of the code for bounds of 2^32 and more: C118_string_violated, C118_always_empty_violated, C118_undefined_violated; proved for maximal sizes below 2^32."
  },
  {
   "property": "C119",
   "status": "partial",
   "theorems": [
    "Verif.C119_arguments_identified_partial",
    "Verif.C119_end_of_line_partial",
    "Verif.C119_chars_partial",
    "Verif.C119_chars_text_partial",
    "Verif.C119_cstr_partial",
    "Verif.C119_cstr_needs_end",
    "Verif.C119_nested_null_violated",
    "Verif.C119_set_violated",
    "Verif.C119_empty_set_violated",
    "Verif.C119_default_violated"
   ],
   "note": "The claim is false of the code for Nullable of Nullable and for sets of strings: C119_nested_null_violated, C119_set_violated; proved for all other types of the universe Ty."
  },
  {
   "property": "C120",
   "status": "partial",
   "theorems": [
    "Verif.C120_accurate_partial",
    "Verif.C120_close_partial",
    "Verif.C120_sign_partial",
    "Verif.C120_special_partial",
    "Verif.C120_identified_violated",
    "Verif.C120_float_violated"
   ],
   "note": "The claim is false of the code: C120_identified_violated, C120_float_violated; proved: the text is accurate to half a unit of the sixth digit."
  },
  {
   "property": "C121",
   "status": "partial",
   "theorems": [
    "Verif.C121_reported_partial",
    "Verif.C121_time_partial",
    "Verif.C121_large_violated",
    "Verif.C121_negative",
    "Verif.C121_not_a_number"
   ],
   "note": "The claim is false of the code for seeds of 2^63 and more: C121_large_violated; proved for smaller seeds."
  },
  {
   "property": "C122",
   "status": "proved",
   "theorems": [
    "Verif.Engine.C122_false_means_something_failed",
    "Verif.Engine.C122_property_function_failed"
   ],
   "note": ""
  },
  {
   "property": "C123",
   "status": "partial",
   "theorems": [
    "Verif.Engine.C123_true_means_nothing_failed_partial",
    "Verif.Engine.C123_success_in_cleanup_hides_failures_violated"
   ],
   "note": "The claim is false of the code when Discard or Success is thrown: C123_success_in_cleanup_hides_failures_violated; proved for all other runs, with the exact sequence of events."
  },
  {
   "property": "C124",
   "status": "proved",
   "theorems": [
    "Verif.Concurrency.C124_start_together",
    "Verif.Concurrency.C124_start_together_class",
    "Verif.Concurrency.C124_joined",
    "Verif.Concurrency.C124_joined_class",
    "Verif.Concurrency.C124_no_deadlock",
    "Verif.Concurrency.C124_no_deadlock_class",
    "Verif.Concurrency.C124_same_executions",
    "Verif.Concurrency.C124_same_results",
    "Verif.Concurrency.C124_same_executions_class",
    "Verif.Concurrency.C124_same_results_class"
   ],
   "note": ""
  },
  {
   "property": "C125",
   "status": "partial",
   "theorems": [
    "Verif.Concurrency.C125_overlapping_expectations_race_violated",
    "Verif.Concurrency.C125_expectations_race_violated",
    "Verif.Concurrency.C125_class_always_races_violated",
    "Verif.Concurrency.C125_one_thread_partial",
    "Verif.Concurrency.C125_class_one_thread_partial",
    "Verif.Concurrency.C125_no_overlap_partial"
   ],
   "note": "The claim is false of the code: C125_overlapping_expectations_race_violated, C125_expectations_race_violated, C125_class_always_races_violated; proved when one thread only uses the macros, and for executions whose actions do not overlap."
  },
  {
   "property": "C126",
   "status": "proved",
   "theorems": [
    "Verif.Recursive.C126_sized",
    "Verif.Recursive.C126_every_box",
    "Verif.Recursive.C126_depth_irrelevant",
    "Verif.Recursive.C126_map_same",
    "Verif.Recursive.C126_map_shrinks"
   ],
   "note": ""
  },
  {
   "property": "C127",
   "status": "partial",
   "theorems": [
    "Verif.Recursive.C127_ok_or_runs_on",
    "Verif.Recursive.C127_lower_bound_violated",
    "Verif.Recursive.C127_unlucky_violated",
    "Verif.Recursive.C127_half_violated",
    "Verif.Recursive.C127_documented_partial"
   ],
   "note": "The claim is false of the code: C127_lower_bound_violated, C127_unlucky_violated, C127_half_violated; proved: for bounds of 0 and at most 2 the fraction of sequences of draws with which the call returns tends to one (C127_documented_partial)."
  },
  {
   "property": "C128",
   "status": "partial",
   "theorems": [
    "Verif.Settings.C128_expression_partial",
    "Verif.Settings.C128_variable_partial",
    "Verif.Settings.C128_vector_partial",
    "Verif.Settings.C128_lost_violated",
    "Verif.Settings.C128_reference_violated"
   ],
   "note": "The claim is false of the code when a setter is chained behind setElemGen or setKeyGen: C128_lost_violated, C128_reference_violated; proved for the value of the expression, and for the variable when they come last."
  },
  {
   "property": "C129",
   "status": "proved",
   "theorems": [
    "Verif.Settings.C129_derived",
    "Verif.Settings.C129_reference",
    "Verif.Settings.C129_copies"
   ],
   "note": ""
  },
  {
   "property": "C130",
   "status": "partial",
   "theorems": [
    "Verif.Concurrency.C130_generated_partial",
    "Verif.Concurrency.C130_function_partial",
    "Verif.Concurrency.C130_class_partial",
    "Verif.Concurrency.C130_just_violated"
   ],
   "note": "The claim is false of the code for initial objects given with just(value): C130_just_violated; proved for generators that make new objects, for both styles."
  },
  {
   "property": "C131",
   "status": "partial",
   "theorems": [
    "Verif.Concurrency.C131_order_partial",
    "Verif.Concurrency.C131_cleanups_partial",
    "Verif.Concurrency.C131_no_cleanup_violated"
   ],
   "note": "The claim is false of the code when actions or post check do not return normally: C131_no_cleanup_violated; proved: order of the calls, and one cleanup for each normal return."
  },
  {
   "property": "C132",
   "status": "partial",
   "theorems": [
    "Verif.Concurrency.C132_fresh_partial",
    "Verif.Concurrency.C132_just_violated",
    "Verif.Concurrency.C132_front_violated",
    "Verif.Concurrency.C132_rears_violated"
   ],
   "note": "The claim is false of the code for initial objects given with just(value): C132_just_violated (of every such test); proved for generators that make new objects."
  },
  {
   "property": "C133",
   "status": "partial",
   "theorems": [
    "Verif.Macros.C133_compares_partial",
    "Verif.Macros.C133_parentheses_partial",
    "Verif.Macros.C133_exact_partial",
    "Verif.Macros.C133_which_first_partial",
    "Verif.Macros.C133_which_second_partial",
    "Verif.Macros.C133_which_order_partial",
    "Verif.Macros.C133_conditional_violated",
    "Verif.Macros.C133_mask_violated",
    "Verif.Macros.C133_second_violated"
   ],
   "note": "The claim is false of the code: C133_conditional_violated, C133_mask_violated, C133_second_violated; proved exactly for which arguments it holds (C133_exact_partial, C133_compares_partial)."
  },
  {
   "property": "C134",
   "status": "partial",
   "theorems": [
    "Verif.Macros.C134_reading_partial",
    "Verif.Macros.C134_passing_partial",
    "Verif.Macros.C134_twice_violated",
    "Verif.Macros.C134_report_violated"
   ],
   "note": "The claim is false of the code for failing expectations with side effects: C134_twice_violated, C134_report_violated; proved for arguments that only read, and for expectations that pass."
  },
  {
   "property": "C135",
   "status": "partial",
   "theorems": [
    "Verif.Engine.C135_unused_state_partial",
    "Verif.Engine.C135_starts_from_failing_partial",
    "Verif.Engine.C135_counter_violated"
   ],
   "note": "The claim is false of the code for generators whose state matters: C135_counter_violated; proved for generators whose state influences neither values nor engine (all theorems about forAll carry over)."
  },
  {
   "property": "C136",
   "status": "proved",
   "theorems": [
    "Verif.Engine.C136_no_role",
    "Verif.Engine.C136_reported",
    "Verif.C136_interval",
    "Verif.C136_integers",
    "Verif.C136_bool",
    "Verif.C136_floating",
    "Verif.C136_vector",
    "Verif.C136_string",
    "Verif.C136_set",
    "Verif.C136_map",
    "Verif.C136_pair",
    "Verif.C136_tuple",
    "Verif.C136_transform",
    "Verif.Engine.C136_documented"
   ],
   "note": "For floating point numbers of magnitude 2^32 and more nothing is said: making their shrinks is undefined behaviour (C101). Strings: only the length is simplest, characters are not shrunk."
  },
  {
   "property": "C137",
   "status": "partial",
   "theorems": [
    "Verif.Engine.C137_one_more_run_partial",
    "Verif.Engine.C137_timed_out",
    "Verif.Engine.C137_discards_violated",
    "Verif.Engine.C137_shrinking_ignores_limit",
    "Verif.Engine.C137_shrinking_violated"
   ],
   "note": "The claim is false of the code for runs that are discarded (C137_discards_violated) and for shrinking (C137_shrinking_violated, C137_shrinking_ignores_limit); proved for all other calls."
  },
  {
   "property": "C138",
   "status": "proved",
   "theorems": [
    "Verif.C138_interval",
    "Verif.C138_equally_likely",
    "Verif.C138_whole_type",
    "Verif.C138_every_value"
   ],
   "note": "Under the assumption that draws are independent and uniform (Spec/Chance.lean); probabilities are exact rationals."
  },
  {
   "property": "C139",
   "status": "partial",
   "theorems": [
    "Verif.C139_bool_partial",
    "Verif.C139_bool_one",
    "Verif.C139_violated",
    "Verif.C139_nullable"
   ],
   "note": "Exact equality is false of the code: C139_violated; proved up to 2^-64 (Nullable: 0.95 up to 2^-53). Under the assumption that draws are independent and uniform."
  },
  {
   "property": "C140",
   "status": "partial",
   "theorems": [
    "Verif.C140_discarding_even",
    "Verif.C140_discarding_weighted",
    "Verif.C140_discarding_rest",
    "Verif.C140_nested_even",
    "Verif.C140_even",
    "Verif.C140_nested_weighted",
    "Verif.C140_weighted",
    "Verif.C140_nested_rest",
    "Verif.C140_rest",
    "Verif.C140_elementOf_weighted",
    "Verif.C140_elementOf_rest",
    "Verif.C140_elementOf_even",
    "Verif.C140_incomplete_violated",
    "Verif.C140_zero_violated"
   ],
   "note": "False of the code for weights of a sum below 1 (C140_incomplete_violated) and for alternatives nothing is left for (C140_zero_violated); proved for the documented cases, exactly without weights, else up to an error bound. Alternatives may have loops themselves (C140_nested_...) or discard (C140_discarding_...; they are tried again and keep their shares). Under the assumption that draws are independent and uniform."
  },
  {
   "property": "C141",
   "status": "proved",
   "theorems": [
    "Verif.C141_vector",
    "Verif.C141_string",
    "Verif.C141_sizes",
    "Verif.C141_pair",
    "Verif.C141_tuple",
    "Verif.C141_nested_containers",
    "Verif.C141_nested_pair",
    "Verif.C141_nested_tuple"
   ],
   "note": "Under the assumption that draws are independent and uniform. Sets and maps: C145."
  },
  {
   "property": "C142",
   "status": "proved",
   "theorems": [
    "Verif.C142_transform",
    "Verif.C142_filter",
    "Verif.C142_nested_filter",
    "Verif.C142_nested_transform"
   ],
   "note": "Under the assumption that draws are independent and uniform. The probabilities are limits for more and more rounds of the loop."
  },
  {
   "property": "C143",
   "status": "partial",
   "theorems": [
    "Verif.C143_intervals_partial",
    "Verif.C143_uintervals_partial",
    "Verif.C143_unicode_partial",
    "Verif.C143_violated"
   ],
   "note": "Exact equality is false of the code: C143_violated; proved up to an error bound. Under the assumption that draws are independent and uniform."
  },
  {
   "property": "C144",
   "status": "partial",
   "theorems": [
    "Verif.Engine.C144_with_args",
    "Verif.Engine.C144_unchanged_partial",
    "Verif.Engine.C144_simplest_violated",
    "Verif.Engine.C144_other_argument_violated",
    "Verif.Engine.C144_same_object_violated"
   ],
   "note": "False of the code if the function changes objects: C144_simplest_violated, C144_other_argument_violated, C144_same_object_violated. Proved for the arguments printed first, and for functions that change nothing. The model covers one forAll."
  },
  {
   "property": "C145",
   "status": "proved",
   "theorems": [
    "Verif.C145_set",
    "Verif.C145_sizes",
    "Verif.C145_map",
    "Verif.C145_any_set",
    "Verif.C145_any_map",
    "Verif.C145_nested_set",
    "Verif.C145_nested_sizes",
    "Verif.C145_nested_map",
    "Verif.Engine.C145_nested_returns"
   ],
   "note": "Under the assumption that draws are independent and uniform. The theorems C145_nested_* are about generators with loops: the number of rounds of the loop that fills the set and of the loops inside grow together."
  },
  {
   "property": "C146",
   "status": "proved",
   "theorems": [
    "Verif.C146_value",
    "Verif.C146_nan",
    "Verif.C146_undefined"
   ],
   "note": "Under the assumption that draws are independent and uniform."
  },
  {
   "property": "C147",
   "status": "proved",
   "theorems": [
    "Verif.C147_nested_accumulate",
    "Verif.C147_nested_sizes",
    "Verif.C147_dependency",
    "Verif.C147_chain",
    "Verif.C147_derive",
    "Verif.C147_accumulate",
    "Verif.C147_sizes",
    "Verif.C147_nested_dependency",
    "Verif.C147_nested_chain",
    "Verif.C147_nested_derive"
   ],
   "note": "Under the assumption that draws are independent and uniform. The theorems C147_nested_* are about generators with loops, for finitely many first values and first shrinks of them."
  },
  {
   "property": "C148",
   "status": "proved",
   "theorems": [
    "Verif.Engine.C148_arguments",
    "Verif.Engine.C148_found",
    "Verif.Engine.C148_reported",
    "Verif.Engine.C148_discards",
    "Verif.Engine.C148_discards_reported",
    "Verif.Engine.C148_returns"
   ],
   "note": "Under the assumption that draws are independent and uniform."
  },
  {
   "property": "C149",
   "status": "partial",
   "theorems": [
    "Verif.Printing.C149_text_partial",
    "Verif.Printing.C149_settings_partial",
    "Verif.Printing.C149_fill_violated",
    "Verif.Printing.C149_hex_violated",
    "Verif.Printing.C149_width_violated"
   ],
   "note": "The text and the base: C149_text_partial, C149_settings_partial. Violated for the fill character, for other bases and for a field width left on the stream."
  },
  {
   "property": "C150",
   "status": "partial",
   "theorems": [
    "Verif.Throwing.C150_nothing_thrown",
    "Verif.Throwing.C150_map",
    "Verif.Throwing.C150_other_exceptions_partial",
    "Verif.Throwing.C150_map_first",
    "Verif.Throwing.C150_map_later",
    "Verif.Throwing.C150_map_integer_violated",
    "Verif.Throwing.C150_never_false_violated",
    "Verif.Throwing.C150_success_violated",
    "Verif.Throwing.C150_discard_violated",
    "Verif.Throwing.C150_escapes_violated",
    "Verif.Throwing.C150_other_arguments_violated",
    "Verif.Throwing.C150_neighbour_violated"
   ],
   "note": "Proved when nothing is thrown, and for the verdict when neither Discard nor Success is thrown. Violated otherwise: failures are forgotten, other arguments are reported, exceptions leave forAll."
  },
  {
   "property": "C151",
   "status": "partial",
   "theorems": [
    "Verif.Output.C151_reason_partial",
    "Verif.Output.C151_leftover_violated",
    "Verif.Output.C151_exception_violated"
   ],
   "note": "Proved if nothing is left behind by earlier calls and the reported call does not both record a failed expectation and throw. Violated otherwise."
  },
  {
   "property": "C152",
   "status": "partial",
   "theorems": [
    "Verif.Output.C152_printed",
    "Verif.Output.C152_all_calls",
    "Verif.Output.C152_counted_partial",
    "Verif.Output.C152_enclosing",
    "Verif.Output.C152_discarded_violated"
   ],
   "note": "Exact numbers proved for all calls; those of the runs that count if discarded calls record no tags. Violated otherwise."
  },
  {
   "property": "C153",
   "status": "proved",
   "theorems": [
    "Verif.Output.C153_steps",
    "Verif.Output.C153_lines"
   ],
   "note": "All property functions and shrink trees."
  },
  {
   "property": "C154",
   "status": "proved",
   "theorems": [
    "Verif.Engine.C154_calls",
    "Verif.Engine.C154_generators",
    "Verif.Engine.C154_attained",
    "Verif.C154_integer",
    "Verif.C154_interval",
    "Verif.C154_integers",
    "Verif.C154_bool",
    "Verif.C154_floating",
    "Verif.C154_vector",
    "Verif.C154_string",
    "Verif.C154_set",
    "Verif.C154_map",
    "Verif.C154_pair",
    "Verif.C154_tuple",
    "Verif.C154_transform",
    "Verif.C154_filter",
    "Verif.C154_constant",
    "Verif.C154_oneOf",
    "Verif.C154_dependent",
    "Verif.C154_aggregate",
    "Verif.C154_accumulate",
    "Verif.C154_pointers"
   ],
   "note": "All trees, with a function that attains the bound; floating point numbers whose shrinks are undefined (C101) are excluded."
  },
  {
   "property": "C155",
   "status": "partial",
   "theorems": [
    "Verif.Ownership.C155_new_objects_partial",
    "Verif.Ownership.C155_same_object_violated",
    "Verif.Ownership.C155_run",
    "Verif.Ownership.C155_just_violated",
    "Verif.Ownership.C155_shared"
   ],
   "note": "Proved for new objects and for shared_ptrs; violated exactly if a raw pointer is produced twice."
  },
  {
   "property": "C156",
   "status": "partial",
   "theorems": [
    "Verif.Throwing.C156_normal_form_partial",
    "Verif.Throwing.C156_accepted_twice_partial",
    "Verif.Throwing.C156_changed_violated",
    "Verif.Throwing.C156_throws_violated",
    "Verif.Throwing.C156_shrink_throws",
    "Verif.Throwing.C156_lookahead_throws",
    "Verif.Throwing.C156_shrinks_violated"
   ],
   "note": "Proved for conditions that leave or normalise their argument; violated by others. Shrinks are taken not to depend on the stored value (C114 treats strings)."
  },
  {
   "property": "C157",
   "status": "partial",
   "theorems": [
    "Verif.Concurrency.C157_rear_violated",
    "Verif.Concurrency.C157_class_rear_violated",
    "Verif.Concurrency.C157_spawner_partial",
    "Verif.Concurrency.C157_class_spawner_partial",
    "Verif.Concurrency.C157_verdict_partial",
    "Verif.Concurrency.C157_created_partial",
    "Verif.Concurrency.C157_class_created_partial"
   ],
   "note": "Proved for the thread of the spawner and if all threads are created; violated for rear threads."
  },
  {
   "property": "C158",
   "status": "partial",
   "theorems": [
    "Verif.Concurrency.C158_huge_violated",
    "Verif.Concurrency.C158_threads_partial"
   ],
   "note": "Proved for 2 <= n < 2^31; violated from 2^31 on."
  },
  {
   "property": "C159",
   "status": "partial",
   "theorems": [
    "Verif.Context.C159_accurate_partial",
    "Verif.Context.C159_all_partial",
    "Verif.Context.C159_at_most_partial",
    "Verif.Context.C159_only_all_partial",
    "Verif.Context.C159_hundred_violated",
    "Verif.Context.C159_counts_shown",
    "Verif.Context.C159_lines"
   ],
   "note": "Proved for all counts, 100% only below two million values; violated beyond."
  },
  {
   "property": "C160",
   "status": "partial",
   "theorems": [
    "Verif.C160_undefined_violated",
    "Verif.C160_probability_partial",
    "Verif.C160_tiny_partial"
   ],
   "note": "Undefined for exactly the numbers stated; proved for the others."
  },
  {
   "property": "C161",
   "status": "partial",
   "theorems": [
    "Verif.Comb.C161_dependency_partial",
    "Verif.Comb.C161_chain_partial",
    "Verif.Comb.C161_derive",
    "Verif.Comb.C161_alone_partial",
    "Verif.Comb.C161_dependency_violated",
    "Verif.Comb.C161_chain_violated"
   ],
   "note": "Proved for derive and for factories that leave their argument alone; violated for the others. Shrinks are taken not to depend on the stored value (C114 treats strings)."
  },
  {
   "property": "C162",
   "status": "partial",
   "theorems": [
    "Verif.C162_interval_partial",
    "Verif.C162_ascii_partial",
    "Verif.C162_every_value_partial",
    "Verif.C162_undefined_violated",
    "Verif.C162_empty_partial",
    "Verif.C162_others_partial",
    "Verif.C162_others_violated",
    "Verif.C162_unsigned"
   ],
   "note": "Proved for bounds of the same sign and for unsigned char; violated, for signed char, for ranges that begin below zero and end at or above it."
  },
  {
   "property": "C163",
   "status": "partial",
   "theorems": [
    "Verif.C163_chance_violated",
    "Verif.C163_set_violated",
    "Verif.C163_map_violated",
    "Verif.C163_returns_partial",
    "Verif.C163_set_partial",
    "Verif.C163_map_partial"
   ],
   "note": "Violated if a set or map of size two or more begins with NaN; it is proved exactly when the generators return, what they return, and with which probability they hang. Any rebalancing of the trees is allowed for."
  },
  {
   "property": "C164",
   "status": "partial",
   "theorems": [
    "Verif.Bitmap.C164_others_partial",
    "Verif.Bitmap.C164_detected_partial",
    "Verif.Bitmap.C164_twice_violated",
    "Verif.Bitmap.C164_victim_violated"
   ],
   "note": "Violated for slots that another thread holds or is about to take; slots that are never given back by mistake are safe in every execution."
  },
  {
   "property": "C165",
   "status": "partial",
   "theorems": [
    "Verif.Bitmap.C165_copy",
    "Verif.Bitmap.C165_quiet_partial",
    "Verif.Bitmap.C165_lost_violated",
    "Verif.Bitmap.C165_reset",
    "Verif.Bitmap.C165_reset_forgets"
   ],
   "note": "Violated for copies made while a thread is in a call on the original; reset forgets who holds slots."
  },
  {
   "property": "C166",
   "status": "proved",
   "theorems": [
    "Verif.C166_filter_calls",
    "Verif.C166_filter",
    "Verif.C166_set_calls",
    "Verif.C166_set",
    "Verif.C166_map",
    "Verif.C166_oneOf"
   ],
   "note": "The number of rounds is shown to be the number of calls of the generator; the averages are sums of the probabilities that m rounds are not enough. The draws are ideal (Spec/Chance.lean)."
  },
  {
   "property": "C167",
   "status": "partial",
   "theorems": [
    "Verif.Recursive.C167_returns_partial",
    "Verif.Recursive.C167_violated",
    "Verif.Recursive.C167_even_partial"
   ],
   "note": "Exact condition for a return with probability one (the theorem is an equivalence); violated beyond it. The fuel bounds both the depth of the recursion and the rounds of each oneOf."
  },
  {
   "property": "C168",
   "status": "partial",
   "theorems": [
    "Verif.Stateful.C168_minimal_partial",
    "Verif.Stateful.C168_class_minimal_partial",
    "Verif.Stateful.C168_last_action_partial",
    "Verif.Stateful.C168_class_last_action_partial",
    "Verif.Stateful.C168_violated"
   ],
   "note": "Violated in general, by a closed witness with four actions. Proved: minimality for failures that persist when actions are added, and for all actions the position of the last reported one."
  },
  {
   "property": "C169",
   "status": "proved",
   "theorems": [
    "Verif.Unicode.C169_independent",
    "Verif.Unicode.C169_limit",
    "Verif.Unicode.C169_default",
    "Verif.Unicode.C169_lengths"
   ],
   "note": "Under the assumption that draws are independent and uniform. The number of characters is what is drawn as the size; encodings are of different lengths in bytes."
  },
  {
   "property": "C170",
   "status": "partial",
   "theorems": [
    "Verif.Fork.C170_descriptors",
    "Verif.Fork.C170_many",
    "Verif.Fork.C170_children_partial",
    "Verif.Fork.C170_interrupted_violated",
    "Verif.Fork.C170_outcome",
    "Verif.Fork.C170_output_partial",
    "Verif.Fork.C170_output_twice_violated"
   ],
   "note": "Violated for interrupted waits and for text in the buffer, for every returned value. Descriptors: holds for all calls that come back."
  },
  {
   "property": "C171",
   "status": "partial",
   "theorems": [
    "Verif.Erasure.C171_shrinkables",
    "Verif.Erasure.C171_exact",
    "Verif.Erasure.C171_generators_partial",
    "Verif.Erasure.C171_other_type_violated"
   ],
   "note": "Violated for generators of another type, for every generator that returns. For generators of the right type all operations are shown equal to the ones without erasure, so the other theorems carry over."
  },
  {
   "property": "C172",
   "status": "partial",
   "theorems": [
    "Verif.StreamPointers.C172_values_partial",
    "Verif.StreamPointers.C172_transform_violated",
    "Verif.StreamPointers.C172_filter_two_violated"
   ],
   "note": "Violated for every stream of shared pointers made by transform, filter or two."
  },
  {
   "property": "C173",
   "status": "partial",
   "theorems": [
    "Verif.LazyShrink.C173_finite",
    "Verif.LazyShrink.C173_stops_partial",
    "Verif.LazyShrink.C173_never_exactly",
    "Verif.LazyShrink.C173_never_violated"
   ],
   "note": "Violated for every property that fails, by shrinkables the library itself does not make (its own are finite); exactly characterised."
  },
  {
   "property": "C174",
   "status": "partial",
   "theorems": [
    "Verif.C174_filter",
    "Verif.C174_oneOf",
    "Verif.C174_elementOf",
    "Verif.C174_lazy",
    "Verif.C174_intervals",
    "Verif.C174_dependency",
    "Verif.C174_chain",
    "Verif.C174_derive",
    "Verif.C174_aggregate",
    "Verif.C174_accumulate_partial",
    "Verif.C174_accumulate_violated",
    "Verif.C174_sharedPtr",
    "Verif.C174_nullable",
    "Verif.C174_construct_violated",
    "Verif.C174_string_violated",
    "Verif.C174_set_violated",
    "Verif.C174_map_violated"
   ],
   "note": "Violated for construct, strings, sets, maps and accumulate, exactly described (the reported values are as generated); proved for all other combinators, in particular through dependent generators that are called again while shrinking."
  },
  {
   "property": "C175",
   "status": "partial",
   "theorems": [
    "Verif.ConstructRefs.C175_changing_partial",
    "Verif.ConstructRefs.C175_reading",
    "Verif.ConstructRefs.C175_moved_violated",
    "Verif.ConstructRefs.C175_alias_violated",
    "Verif.ConstructRefs.C175_copied_partial",
    "Verif.ConstructRefs.C175_kept_violated",
    "Verif.ConstructRefs.C175_generators"
   ],
   "note": "Violated for references to what just generates (the constant changes) and for objects that keep references (dangling), for all constructors of these kinds; everything else proved."
  },
  {
   "property": "C176",
   "status": "proved",
   "theorems": [
    "Verif.Engine.C176_calls",
    "Verif.Engine.C176_until_failure",
    "Verif.Engine.C176_no_discards",
    "Verif.Engine.C176_passing"
   ],
   "note": "For independent, equally likely draws (Spec/Chance.lean), tests without time limit and the hypotheses of C148; averages are limits over the number of discards a run may have."
  },
  {
   "property": "C177",
   "status": "partial",
   "theorems": [
    "Verif.Engine.C177_integers_partial",
    "Verif.Engine.C177_sign_violated",
    "Verif.Engine.C177_float_violated",
    "Verif.Engine.C177_float_sign_violated"
   ],
   "note": "Violated: no negative number is ever reported as a positive one, for integers and floating point numbers. Holds: the absolute value of integers does not grow and their sign does not change. C107 has the magnitude of floating point numbers."
  },
  {
   "property": "C178",
   "status": "partial",
   "theorems": [
    "Verif.Process.C178_one_seed_violated",
    "Verif.Process.C178_same_inputs_violated",
    "Verif.Process.C178_nothing_new_violated",
    "Verif.Process.C178_setSeed_partial"
   ],
   "note": "Violated for all tests without setSeed, whatever their functions, times and the environment are; holds for seeds that are given."
  },
  {
   "property": "C179",
   "status": "partial",
   "theorems": [
    "Verif.Drawing.C179_forAll_partial",
    "Verif.Drawing.C179_alive",
    "Verif.Drawing.C179_single_partial",
    "Verif.Drawing.C179_gone_violated",
    "Verif.Drawing.C179_looking_violated",
    "Verif.Drawing.C179_next_violated",
    "Verif.Drawing.C179_generation_violated",
    "Verif.Drawing.C179_returns_violated"
   ],
   "note": "Violated for dependency, chain, derive and what is built from them wherever the first value has shrinks; holds without shrinks and for shrinking in forAll. All other generators of the model take the engine only when they are called."
  },
  {
   "property": "C180",
   "status": "proved",
   "theorems": [
    "Verif.C180_chances",
    "Verif.C180_shrinks"
   ],
   "note": "Proved for values that fall into finitely many cases with a range each; shrinking for all ranges."
  },
  {
   "property": "C181",
   "status": "partial",
   "theorems": [
    "Verif.C181_partial",
    "Verif.C181_maximum_violated",
    "Verif.C181_size_violated"
   ],
   "note": "Violated for negative numbers; holds for numbers from 0 on."
  },
  {
   "property": "C182",
   "status": "proved",
   "theorems": [
    "Verif.Live.C182_pairs",
    "Verif.Live.C182_derived",
    "Verif.Live.C182_tuples",
    "Verif.Live.C182_reported",
    "Verif.Live.C182_returns"
   ],
   "note": "Proved on a model that follows the engine through all levels (Model/Live.lean); for one level it is proved to do the same as the model of C179. Tuples of chained components have components of one type in the model."
  },
  {
   "property": "C183",
   "status": "partial",
   "theorems": [
    "Verif.Live.C183_tuple_violated",
    "Verif.Live.C183_flatMap_violated",
    "Verif.Live.C183_plain_partial",
    "Verif.Live.C183_bound_partial"
   ],
   "note": "Violated: exact numbers of calls for tuples (Fibonacci) and nested flatMap (2^n-1) of values with shrinks. Partial: one call each for values without shrinks; 2^(n+1)-1 as an upper bound for all generators, taken on in an example."
  },
  {
   "property": "C184",
   "status": "partial",
   "theorems": [
    "Verif.Live.C184_left",
    "Verif.Live.C184_derive",
    "Verif.Live.C184_right",
    "Verif.Live.C184_map",
    "Verif.Live.C184_maps",
    "Verif.Live.C184_assoc_partial",
    "Verif.Live.C184_assoc_violated",
    "Verif.Live.C184_values_violated"
   ],
   "note": "Proved: functor laws of map, left and right identity of flatMap, flatMap with just is map, what flatMap makes of factories that do not draw. Associativity is partial (factories that do not draw) and violated in general: 6 against 7 calls of generators, different values from the same seed."
  },
  {
   "property": "C185",
   "status": "proved",
   "theorems": [
    "Verif.Live.C185_total",
    "Verif.Live.C185_pairWith",
    "Verif.Live.C185_tupleWith",
    "Verif.Live.C185_flatMap",
    "Verif.Live.C185_map",
    "Verif.Live.C185_assoc",
    "Verif.Live.C185_tuple"
   ],
   "note": "Proved for all generators built from generators that always return with pairWith, tupleWith, flatMap and map (Built, Spec/ChanceLive.lean), with uniform independent draws as in C138."
  },
  {
   "property": "C186",
   "status": "partial",
   "theorems": [
    "Verif.CString.C186_strings_partial",
    "Verif.CString.C186_rest_violated",
    "Verif.CString.C186_end_violated",
    "Verif.CString.C186_message",
    "Verif.CString.C186_message2"
   ],
   "note": "Violated for n beyond the terminating zero (memory behind it is compared) and beyond the buffer (undefined). Partial: exact for n up to the zeros. The messages of failing comparisons are proved to show what was compared."
  },
  {
   "property": "C187",
   "status": "partial",
   "theorems": [
    "Verif.C187_replay_partial",
    "Verif.C187_order",
    "Verif.C187_runs",
    "Verif.C187_simple",
    "Verif.C187_unnamed_violated",
    "Verif.C187_comma_violated",
    "Verif.C187_class_violated"
   ],
   "note": "Violated for unnamed actions, names with commas and the class style (all general). Partial: replay from the text for well named actions; order of the names = order of execution; simple actions."
  },
  {
   "property": "C188",
   "status": "partial",
   "theorems": [
    "Verif.C188_settings_partial",
    "Verif.C188_time_limit_partial",
    "Verif.C188_no_limit",
    "Verif.C188_discards_violated"
   ],
   "note": "Violated: the time limit is not looked at between discarded attempts. Partial: settings for all sequences of calls (numbers below 2^31, see C98 and C158 for larger ones), time limit up to the first attempt that is not discarded."
  },
  {
   "property": "C189",
   "status": "proved",
   "theorems": [
    "Verif.Engine.C189_any_set_found",
    "Verif.Engine.C189_settles_set",
    "Verif.Engine.C189_settles_map",
    "Verif.Engine.C189_settles_string",
    "Verif.Engine.C189_settles_transform",
    "Verif.Engine.C189_settles_nested",
    "Verif.Engine.C189_set_found",
    "Verif.Engine.C189_found",
    "Verif.Engine.C189_reported",
    "Verif.Engine.C189_returns",
    "Verif.Engine.C189_arguments",
    "Verif.Engine.C189_settles",
    "Verif.Engine.C189_settles_filter",
    "Verif.Engine.C189_settles_oneOf"
   ],
   "note": "Holds for the model; extends C148 from generators with a fixed number of draws to generators that draw again until they succeed."
  },
  {
   "property": "C190",
   "status": "proved",
   "theorems": [
    "Verif.Stateful.C190_exact",
    "Verif.Stateful.C190_returns",
    "Verif.Stateful.C190_begins",
    "Verif.Stateful.C190_none",
    "Verif.Stateful.C190_some",
    "Verif.Stateful.C190_go",
    "Verif.Stateful.C190_arguments",
    "Verif.Stateful.C190_found",
    "Verif.Stateful.C190_broken_action",
    "Verif.Stateful.C190_class_go",
    "Verif.Stateful.C190_class_found",
    "Verif.Stateful.C190_class_broken_action",
    "Verif.Stateful.C190_class_never_run"
   ],
   "note": "Holds for the function style; probabilities as limits over the number of draws."
  },
  {
   "property": "C191",
   "status": "proved",
   "theorems": [
    "Verif.Engine.C191_same_test",
    "Verif.Engine.C191_calls"
   ],
   "note": "Holds for every configuration, including functions with state and generators that throw."
  },
  {
   "property": "C192",
   "status": "proved",
   "theorems": [
    "Verif.Engine.C192_cut_off",
    "Verif.Engine.C192_failure_kept",
    "Verif.Engine.C192_true_shorter"
   ],
   "note": "Holds for every configuration, whatever function, hooks and generators do."
  },
  {
   "property": "C193",
   "status": "proved",
   "theorems": [
    "Verif.Engine.C193_quiet_hooks",
    "Verif.Engine.C193_any_quiet_hooks"
   ],
   "note": "Holds for every configuration with quiet hooks."
  },
  {
   "property": "C194",
   "status": "proved",
   "theorems": [
    "Verif.Comb.C194_filter",
    "Verif.Comb.C194_oneOf",
    "Verif.Comb.C194_elementOf",
    "Verif.Comb.C194_vector",
    "Verif.Comb.C194_string",
    "Verif.Comb.C194_set",
    "Verif.Comb.C194_map",
    "Verif.Comb.C194_pair",
    "Verif.Comb.C194_tuple",
    "Verif.Comb.C194_construct",
    "Verif.Live.C194_flatMap",
    "Verif.Live.C194_pairWith",
    "Verif.Live.C194_tupleWith"
   ],
   "note": "Sets and maps for functions that keep and reflect the order, as the model's elements are compared."
  },
  {
   "property": "C195",
   "status": "partial",
   "theorems": [
    "Verif.Comb.C195_values",
    "Verif.Comb.C195_shrinks_partial",
    "Verif.Comb.C195_shrinks_violated",
    "Verif.Comb.C195_implied"
   ],
   "note": "Values, states and implied conditions as stated. What can be reached by shrinking with both conditions at once can be reached after filtering twice (C195_shrinks_partial), but not the other way round (C195_shrinks_violated): a refused candidate is replaced by its first shrink, which the first filter has removed already if it refuses it."
  },
  {
   "property": "C196",
   "status": "proved",
   "theorems": [
    "Verif.Engine.C196_test",
    "Verif.Engine.C196_seen"
   ],
   "note": "Holds for every configuration."
  },
  {
   "property": "C197",
   "status": "partial",
   "theorems": [
    "Verif.Engine.C197_same_end_partial",
    "Verif.Engine.C197_reported_violated"
   ],
   "note": "Proved up to shrinking. The discarding test takes a discarded candidate for a failing one and reports it (C197_reported_violated, see C51)."
  },
  {
   "property": "C198",
   "status": "partial",
   "theorems": [
    "Verif.Engine.C198_test_partial",
    "Verif.Engine.C198_seen_partial",
    "Verif.Engine.C198_greedy",
    "Verif.Engine.C198_pair",
    "Verif.Engine.C198_order_violated"
   ],
   "note": "Holds if the compiler evaluates the calls of shrinkN (arguments of a function call, Property.hpp:410-411) from left to right, which C++ does not promise; from right to left the reports differ (C198_order_violated)."
  },
  {
   "property": "C199",
   "status": "proved",
   "theorems": [
    "Verif.Engine.C199_together",
    "Verif.Engine.C199_stricter",
    "Verif.Engine.C199_success"
   ],
   "note": "PROP_SUCCESS ends the run, checks after it are not made (C199_success)."
  },
  {
   "property": "C200",
   "status": "partial",
   "theorems": [
    "Verif.Object.C200_in_force",
    "Verif.Object.C200_independent_partial",
    "Verif.Object.C200_separate",
    "Verif.Object.C200_copies_violated"
   ],
   "note": "The settings are in force. Copies share the function object, so if the function has a state, tests of one copy change what tests of the other find (C200_copies_violated). Also found: PropertyBase::setDefaultNumRuns is declared and documented, but has no definition; a program that calls it is not linked, which a theorem about executions cannot express."
  },
  {
   "property": "C201",
   "status": "proved",
   "theorems": [
    "Verif.Shr.C201_map",
    "Verif.Shr.C201_flatMap",
    "Verif.Shr.C201_filter",
    "Verif.Shr.C201_filter_map",
    "Verif.Shr.C201_take",
    "Verif.Shr.C201_concat",
    "Verif.Shr.C201_andThen",
    "Verif.Shr.C201_static",
    "Verif.Strm.C201_streams",
    "Verif.Strm.C201_streams_take"
   ],
   "note": "filter without tolerance; for the filter with tolerance, which generators use, see C195."
  },
  {
   "property": "C202",
   "status": "partial",
   "theorems": [
    "Verif.Engine.C202_true",
    "Verif.Engine.C202_false",
    "Verif.Engine.C202_inner_inputs_violated"
   ],
   "note": "The last sentence fails: inner tests without a seed of their own get the seed of the process, hence try the same inputs in each run of the outer test (C202_inner_inputs_violated)."
  },
  {
   "property": "C203",
   "status": "proved",
   "theorems": [
    "Verif.Concurrency.C203_every_order",
    "Verif.Concurrency.C203_results",
    "Verif.Concurrency.C203_terminates",
    "Verif.Concurrency.C203_commuting",
    "Verif.Concurrency.C203_same_result",
    "Verif.Concurrency.C203_sequential",
    "Verif.Concurrency.C203_class_every_order",
    "Verif.Concurrency.C203_class_results",
    "Verif.Concurrency.C203_class_commuting",
    "Verif.Concurrency.C203_class_same_result"
   ],
   "note": "User functions are single steps, as in all theorems about concurrent runs; the class style for lists of together at most 5000 actions (C71)."
  },
  {
   "property": "C204",
   "status": "partial",
   "theorems": [
    "Verif.Engine.C204_example_fails_partial",
    "Verif.Engine.C204_expectations_violated",
    "Verif.Engine.C204_success_violated",
    "Verif.Engine.C204_matrix_violated",
    "Verif.Engine.C204_passed_runs"
   ],
   "note": "Fails for properties that tell failures by PROP_EXPECT (C204_expectations_violated) or use PROP_SUCCESS (C204_success_violated); matrix() always returns true (C204_matrix_violated)."
  },
  {
   "property": "C205",
   "status": "proved",
   "theorems": [
    "Verif.Engine.C205_tuple",
    "Verif.Engine.C205_arguments",
    "Verif.Engine.C205_test",
    "Verif.Engine.C205_limit",
    "Verif.Engine.C205_unused_arguments",
    "Verif.Engine.C205_unused_test",
    "Verif.Engine.C205_unused_limit"
   ],
   "note": "For generators that draw with an ideal engine and follow a finite experiment (C205_limit: loops in the limit); shrinks are not part of the events."
  }
 ]
}