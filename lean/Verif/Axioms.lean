import Verif.Props.ActionNames
import Verif.Props.BinSearch
import Verif.Props.BindLaws
import Verif.Props.Bitmap
import Verif.Props.BitmapMisuse
import Verif.Props.BoolRange
import Verif.Props.Branch
import Verif.Props.CString
import Verif.Props.ChainFilter
import Verif.Props.Chance
import Verif.Props.ChanceAccLimit
import Verif.Props.ChanceActions
import Verif.Props.ChanceCalls
import Verif.Props.ChanceClass
import Verif.Props.ChanceComb
import Verif.Props.ChanceCombLimit
import Verif.Props.ChanceDep
import Verif.Props.ChanceDepLimit
import Verif.Props.ChanceDiscard
import Verif.Props.ChanceFilterLimit
import Verif.Props.ChanceFloat
import Verif.Props.ChanceFloatSet
import Verif.Props.ChanceIntervals
import Verif.Props.ChanceLive
import Verif.Props.ChanceOneOf
import Verif.Props.ChanceOrder
import Verif.Props.ChanceRounds
import Verif.Props.ChanceSet
import Verif.Props.ChanceSetAny
import Verif.Props.ChanceSetLimit
import Verif.Props.ChanceSetTest
import Verif.Props.ChanceSettle
import Verif.Props.ChanceTest
import Verif.Props.ChanceTestLimit
import Verif.Props.ChanceUnicode
import Verif.Props.Char
import Verif.Props.Combinator
import Verif.Props.Concurrency
import Verif.Props.ConcurrencyGo
import Verif.Props.ConcurrencySettings
import Verif.Props.Conditions
import Verif.Props.ConstructRefs
import Verif.Props.Containers
import Verif.Props.Context
import Verif.Props.Cost
import Verif.Props.CutOff
import Verif.Props.DiscardFilter
import Verif.Props.Drawing
import Verif.Props.EndToEnd
import Verif.Props.Erasure
import Verif.Props.Factories
import Verif.Props.Faults
import Verif.Props.FaultsData
import Verif.Props.FilterTwice
import Verif.Props.FloatSet
import Verif.Props.Floating
import Verif.Props.Fork
import Verif.Props.ForkTrace
import Verif.Props.Format
import Verif.Props.Handshake
import Verif.Props.Hooks
import Verif.Props.Integral
import Verif.Props.Interleavings
import Verif.Props.LazyShrink
import Verif.Props.ListLike
import Verif.Props.Macro
import Verif.Props.MapCommutes
import Verif.Props.MapDepends
import Verif.Props.MapTest
import Verif.Props.Matrix
import Verif.Props.NegativeSizes
import Verif.Props.Nested
import Verif.Props.NestedCalls
import Verif.Props.NestedTests
import Verif.Props.OneOf
import Verif.Props.Output
import Verif.Props.Ownership
import Verif.Props.PairTuple
import Verif.Props.Percent
import Verif.Props.Pointee
import Verif.Props.Printing
import Verif.Props.Process
import Verif.Props.Property
import Verif.Props.PropertyMake
import Verif.Props.PropertyObject
import Verif.Props.PropertyState
import Verif.Props.QuietHooks
import Verif.Props.Race
import Verif.Props.Recursive
import Verif.Props.Replay
import Verif.Props.Seed
import Verif.Props.Settings
import Verif.Props.ShrinkLaws
import Verif.Props.Shrinkable
import Verif.Props.Signs
import Verif.Props.Simplest
import Verif.Props.SimplestComb
import Verif.Props.Sizes
import Verif.Props.Spawn
import Verif.Props.Stateful
import Verif.Props.StatefulMinimal
import Verif.Props.StatefulSettings
import Verif.Props.Stream
import Verif.Props.StreamPointers
import Verif.Props.Support
import Verif.Props.Throwing
import Verif.Props.TimeLimit
import Verif.Props.Together
import Verif.Props.TupleTest
import Verif.Props.Unicode
import Verif.Props.UnicodeText
import Verif.Props.Verdict
/-
The axioms every property theorem depends on, printed during the build. Only `propext`,
`Classical.choice` and `Quot.sound` may appear.
-/
#print axioms Verif.C187_replay_partial
#print axioms Verif.C187_order
#print axioms Verif.C187_runs
#print axioms Verif.C187_simple
#print axioms Verif.C187_unnamed_violated
#print axioms Verif.C187_comma_violated
#print axioms Verif.C187_class_violated
#print axioms Verif.C16_signed_no_overflow
#print axioms Verif.C16_unsigned_no_wrap
#print axioms Verif.C12_range
#print axioms Verif.C12_strict
#print axioms Verif.C13_exactly_once
#print axioms Verif.C13_complete
#print axioms Verif.C14_logarithmic
#print axioms Verif.C14_evals
#print axioms Verif.C15_threshold_nonneg
#print axioms Verif.C15_threshold_nonpos
#print axioms Verif.Live.C184_left
#print axioms Verif.Live.C184_derive
#print axioms Verif.Live.C184_right
#print axioms Verif.Live.C184_map
#print axioms Verif.Live.C184_maps
#print axioms Verif.Live.C184_assoc_partial
#print axioms Verif.Live.C184_assoc_violated
#print axioms Verif.Live.C184_values_violated
#print axioms Verif.Bitmap.C66_slots_exclusive
#print axioms Verif.Bitmap.C66_no_slot_lost
#print axioms Verif.Bitmap.C67_tryAcquire
#print axioms Verif.Bitmap.C67_unacquire
#print axioms Verif.Bitmap.C67_settled
#print axioms Verif.Bitmap.C117_wait_free
#print axioms Verif.Bitmap.C117_acquire_alone
#print axioms Verif.Bitmap.C164_others_partial
#print axioms Verif.Bitmap.C164_detected_partial
#print axioms Verif.Bitmap.C164_twice_violated
#print axioms Verif.Bitmap.C164_victim_violated
#print axioms Verif.Bitmap.C165_copy
#print axioms Verif.Bitmap.C165_quiet_partial
#print axioms Verif.Bitmap.C165_lost_violated
#print axioms Verif.Bitmap.C165_reset
#print axioms Verif.Bitmap.C165_reset_forgets
#print axioms Verif.C160_undefined_violated
#print axioms Verif.C160_probability_partial
#print axioms Verif.C160_tiny_partial
#print axioms Verif.Recursive.C167_returns_partial
#print axioms Verif.Recursive.C167_violated
#print axioms Verif.Recursive.C167_even_partial
#print axioms Verif.CString.C186_strings_partial
#print axioms Verif.CString.C186_rest_violated
#print axioms Verif.CString.C186_end_violated
#print axioms Verif.CString.C186_message
#print axioms Verif.CString.C186_message2
#print axioms Verif.C180_chances
#print axioms Verif.C180_shrinks
#print axioms Verif.C138_interval
#print axioms Verif.C138_equally_likely
#print axioms Verif.C138_whole_type
#print axioms Verif.C138_every_value
#print axioms Verif.C139_bool_partial
#print axioms Verif.C139_bool_one
#print axioms Verif.C139_violated
#print axioms Verif.C147_nested_accumulate
#print axioms Verif.C147_nested_sizes
#print axioms Verif.Stateful.C190_exact
#print axioms Verif.Stateful.C190_returns
#print axioms Verif.Stateful.C190_begins
#print axioms Verif.Stateful.C190_none
#print axioms Verif.Stateful.C190_some
#print axioms Verif.Stateful.C190_go
#print axioms Verif.Stateful.C190_arguments
#print axioms Verif.Stateful.C190_found
#print axioms Verif.Stateful.C190_broken_action
#print axioms Verif.Engine.C176_calls
#print axioms Verif.Engine.C176_until_failure
#print axioms Verif.Engine.C176_no_discards
#print axioms Verif.Engine.C176_passing
#print axioms Verif.Stateful.C190_class_go
#print axioms Verif.Stateful.C190_class_found
#print axioms Verif.Stateful.C190_class_broken_action
#print axioms Verif.Stateful.C190_class_never_run
#print axioms Verif.C141_vector
#print axioms Verif.C141_string
#print axioms Verif.C141_sizes
#print axioms Verif.C141_pair
#print axioms Verif.C141_tuple
#print axioms Verif.C142_transform
#print axioms Verif.C142_filter
#print axioms Verif.C139_nullable
#print axioms Verif.C141_nested_containers
#print axioms Verif.C141_nested_pair
#print axioms Verif.C141_nested_tuple
#print axioms Verif.C147_dependency
#print axioms Verif.C147_chain
#print axioms Verif.C147_derive
#print axioms Verif.C147_accumulate
#print axioms Verif.C147_sizes
#print axioms Verif.C147_nested_dependency
#print axioms Verif.C147_nested_chain
#print axioms Verif.C147_nested_derive
#print axioms Verif.C140_discarding_even
#print axioms Verif.C140_discarding_weighted
#print axioms Verif.C140_discarding_rest
#print axioms Verif.C142_nested_filter
#print axioms Verif.C142_nested_transform
#print axioms Verif.C146_value
#print axioms Verif.C146_nan
#print axioms Verif.C146_undefined
#print axioms Verif.C163_chance_violated
#print axioms Verif.C143_intervals_partial
#print axioms Verif.C143_uintervals_partial
#print axioms Verif.C143_unicode_partial
#print axioms Verif.C143_violated
#print axioms Verif.Live.C185_total
#print axioms Verif.Live.C185_pairWith
#print axioms Verif.Live.C185_tupleWith
#print axioms Verif.Live.C185_flatMap
#print axioms Verif.Live.C185_map
#print axioms Verif.Live.C185_assoc
#print axioms Verif.Live.C185_tuple
#print axioms Verif.C140_nested_even
#print axioms Verif.C140_even
#print axioms Verif.C140_nested_weighted
#print axioms Verif.C140_weighted
#print axioms Verif.C140_nested_rest
#print axioms Verif.C140_rest
#print axioms Verif.C140_elementOf_weighted
#print axioms Verif.C140_elementOf_rest
#print axioms Verif.C140_elementOf_even
#print axioms Verif.C140_incomplete_violated
#print axioms Verif.C140_zero_violated
#print axioms Verif.Engine.C205_tuple
#print axioms Verif.Engine.C205_arguments
#print axioms Verif.Engine.C205_test
#print axioms Verif.Engine.C205_limit
#print axioms Verif.Engine.C205_unused_arguments
#print axioms Verif.Engine.C205_unused_test
#print axioms Verif.Engine.C205_unused_limit
#print axioms Verif.C166_filter_calls
#print axioms Verif.C166_filter
#print axioms Verif.C166_set_calls
#print axioms Verif.C166_set
#print axioms Verif.C166_map
#print axioms Verif.C166_oneOf
#print axioms Verif.C145_set
#print axioms Verif.C145_sizes
#print axioms Verif.C145_map
#print axioms Verif.C145_any_set
#print axioms Verif.C145_any_map
#print axioms Verif.C145_nested_set
#print axioms Verif.C145_nested_sizes
#print axioms Verif.C145_nested_map
#print axioms Verif.Engine.C189_any_set_found
#print axioms Verif.Engine.C189_settles_set
#print axioms Verif.Engine.C189_settles_map
#print axioms Verif.Engine.C189_settles_string
#print axioms Verif.Engine.C189_settles_transform
#print axioms Verif.Engine.C189_settles_nested
#print axioms Verif.Engine.C145_nested_returns
#print axioms Verif.Engine.C189_set_found
#print axioms Verif.Engine.C148_arguments
#print axioms Verif.Engine.C148_found
#print axioms Verif.Engine.C148_reported
#print axioms Verif.Engine.C148_discards
#print axioms Verif.Engine.C148_discards_reported
#print axioms Verif.Engine.C148_returns
#print axioms Verif.Engine.C189_found
#print axioms Verif.Engine.C189_reported
#print axioms Verif.Engine.C189_returns
#print axioms Verif.Engine.C189_arguments
#print axioms Verif.Engine.C189_settles
#print axioms Verif.Engine.C189_settles_filter
#print axioms Verif.Engine.C189_settles_oneOf
#print axioms Verif.Unicode.C169_independent
#print axioms Verif.Unicode.C169_limit
#print axioms Verif.Unicode.C169_default
#print axioms Verif.Unicode.C169_lengths
#print axioms Verif.C162_interval_partial
#print axioms Verif.C162_ascii_partial
#print axioms Verif.C162_every_value_partial
#print axioms Verif.C162_undefined_violated
#print axioms Verif.C162_empty_partial
#print axioms Verif.C162_others_partial
#print axioms Verif.C162_others_violated
#print axioms Verif.C162_unsigned
#print axioms Verif.C36_sound
#print axioms Verif.C36_first
#print axioms Verif.C36_complete
#print axioms Verif.C36_never
#print axioms Verif.C37_map
#print axioms Verif.C37_reach
#print axioms Verif.C38_dependency
#print axioms Verif.C38_complete
#print axioms Verif.C39_chain
#print axioms Verif.C39_complete
#print axioms Verif.C39_chain_twice
#print axioms Verif.C40_derive
#print axioms Verif.C40_complete
#print axioms Verif.C85_violated
#print axioms Verif.C85_second_partial
#print axioms Verif.C86_violated
#print axioms Verif.C86_stable_partial
#print axioms Verif.C41_aggregate
#print axioms Verif.C41_accumulate
#print axioms Verif.C41_aggregate_value
#print axioms Verif.C41_accumulate_value
#print axioms Verif.C41_aggregate_complete
#print axioms Verif.C41_accumulate_complete
#print axioms Verif.C42_violated
#print axioms Verif.C42_partial
#print axioms Verif.C87_construct
#print axioms Verif.C87_ctor
#print axioms Verif.Concurrency.C70_no_overflow
#print axioms Verif.Concurrency.C70_distinct_positions
#print axioms Verif.Concurrency.C70_log_complete
#print axioms Verif.Concurrency.C70_replay
#print axioms Verif.Concurrency.C70_finishes
#print axioms Verif.Concurrency.C70_invoke_defined
#print axioms Verif.Concurrency.C71_log_overflow_violated
#print axioms Verif.Concurrency.C71_no_overflow_partial
#print axioms Verif.Concurrency.C72_model_updates_lost_violated
#print axioms Verif.Concurrency.C72_class_style_partial
#print axioms Verif.Concurrency.C72_class_post_check_partial
#print axioms Verif.Concurrency.C95_rear_failure_gives_no_verdict_violated
#print axioms Verif.Concurrency.C95_class_rear_failure_violated
#print axioms Verif.Concurrency.C95_front_failure_partial
#print axioms Verif.Concurrency.C95_front_end_partial
#print axioms Verif.Concurrency.C96_single_thread_skips_rear_violated
#print axioms Verif.Concurrency.C96_all_rear_actions_partial
#print axioms Verif.Concurrency.C96_post_check_partial
#print axioms Verif.Concurrency.C97_failed_expectations_ignored_violated
#print axioms Verif.Concurrency.C97_verdict_partial
#print axioms Verif.Concurrency.C97_time_limit_partial
#print axioms Verif.Concurrency.C98_many_runs_means_none_violated
#print axioms Verif.Concurrency.C98_number_of_runs_partial
#print axioms Verif.Concurrency.C116_precondition_overtaken_violated
#print axioms Verif.Concurrency.C116_precondition_partial
#print axioms Verif.Concurrency.C130_generated_partial
#print axioms Verif.Concurrency.C130_function_partial
#print axioms Verif.Concurrency.C130_class_partial
#print axioms Verif.Concurrency.C130_just_violated
#print axioms Verif.Concurrency.C131_order_partial
#print axioms Verif.Concurrency.C131_cleanups_partial
#print axioms Verif.Concurrency.C131_no_cleanup_violated
#print axioms Verif.Concurrency.C132_fresh_partial
#print axioms Verif.Concurrency.C132_just_violated
#print axioms Verif.Concurrency.C132_front_violated
#print axioms Verif.Concurrency.C132_rears_violated
#print axioms Verif.Concurrency.C97_test_partial
#print axioms Verif.Concurrency.C97_test_time_limit_partial
#print axioms Verif.Concurrency.C97_lists_partial
#print axioms Verif.Concurrency.C97_class_lists_partial
#print axioms Verif.C188_settings_partial
#print axioms Verif.C188_time_limit_partial
#print axioms Verif.C188_no_limit
#print axioms Verif.C188_discards_violated
#print axioms Verif.Throwing.C156_normal_form_partial
#print axioms Verif.Throwing.C156_accepted_twice_partial
#print axioms Verif.Throwing.C156_changed_violated
#print axioms Verif.Throwing.C156_throws_violated
#print axioms Verif.Throwing.C156_shrink_throws
#print axioms Verif.Throwing.C156_lookahead_throws
#print axioms Verif.Throwing.C156_shrinks_violated
#print axioms Verif.ConstructRefs.C175_changing_partial
#print axioms Verif.ConstructRefs.C175_reading
#print axioms Verif.ConstructRefs.C175_moved_violated
#print axioms Verif.ConstructRefs.C175_alias_violated
#print axioms Verif.ConstructRefs.C175_copied_partial
#print axioms Verif.ConstructRefs.C175_kept_violated
#print axioms Verif.ConstructRefs.C175_generators
#print axioms Verif.C29_set
#print axioms Verif.C29_set_once
#print axioms Verif.C29_generated
#print axioms Verif.C28_set
#print axioms Verif.C80_set_diverges
#print axioms Verif.C80_violated
#print axioms Verif.C80_set_terminates_partial
#print axioms Verif.C30_map
#print axioms Verif.C30_map_step
#print axioms Verif.C28_map
#print axioms Verif.C30_generated
#print axioms Verif.C31_reachable
#print axioms Verif.C31_substring_partial
#print axioms Verif.C31_minSize_partial
#print axioms Verif.C31_violated_minSize
#print axioms Verif.C31_violated_same
#print axioms Verif.C31_violated_longer
#print axioms Verif.C28_string
#print axioms Verif.C31_generated
#print axioms Verif.C81_string_prefix
#print axioms Verif.C81_violated
#print axioms Verif.C81_trailing_partial
#print axioms Verif.Context.C58_contexts_nest
#print axioms Verif.Context.C58_block_restores
#print axioms Verif.Context.C58_no_context
#print axioms Verif.Context.C59_tag_counts
#print axioms Verif.Context.C89_expect_macros_partial
#print axioms Verif.Context.C89_expect_false_violated
#print axioms Verif.Context.C90_assert_false_partial
#print axioms Verif.Context.C90_assert_false_operator_partial
#print axioms Verif.Context.C90_assert_false_violated
#print axioms Verif.Context.C91_streq2_partial
#print axioms Verif.Context.C91_prefix_violated
#print axioms Verif.Context.C92_streamed_text_partial
#print axioms Verif.Context.C92_passing_expectation_silent
#print axioms Verif.Context.C92_message_overwrites_violated
#print axioms Verif.Engine.C154_calls
#print axioms Verif.Engine.C154_generators
#print axioms Verif.Engine.C154_attained
#print axioms Verif.C154_integer
#print axioms Verif.C154_interval
#print axioms Verif.C154_integers
#print axioms Verif.C154_bool
#print axioms Verif.C154_floating
#print axioms Verif.C154_vector
#print axioms Verif.C154_string
#print axioms Verif.C154_set
#print axioms Verif.C154_map
#print axioms Verif.C154_pair
#print axioms Verif.C154_tuple
#print axioms Verif.C154_transform
#print axioms Verif.C154_filter
#print axioms Verif.C154_constant
#print axioms Verif.C154_oneOf
#print axioms Verif.C154_dependent
#print axioms Verif.C154_aggregate
#print axioms Verif.C154_accumulate
#print axioms Verif.C154_pointers
#print axioms Verif.Engine.C192_cut_off
#print axioms Verif.Engine.C192_failure_kept
#print axioms Verif.Engine.C192_true_shorter
#print axioms Verif.Engine.C197_same_end_partial
#print axioms Verif.Engine.C197_reported_violated
#print axioms Verif.Drawing.C179_forAll_partial
#print axioms Verif.Drawing.C179_alive
#print axioms Verif.Drawing.C179_single_partial
#print axioms Verif.Drawing.C179_gone_violated
#print axioms Verif.Drawing.C179_looking_violated
#print axioms Verif.Drawing.C179_next_violated
#print axioms Verif.Drawing.C179_generation_violated
#print axioms Verif.Drawing.C179_returns_violated
#print axioms Verif.Engine.C108_greedy
#print axioms Verif.Engine.C108_single_argument
#print axioms Verif.Engine.C109_interval_threshold
#print axioms Verif.Engine.C109_nearest
#print axioms Verif.Engine.C110_vector_minimal
#print axioms Verif.Engine.C110_vector_length
#print axioms Verif.Erasure.C171_shrinkables
#print axioms Verif.Erasure.C171_exact
#print axioms Verif.Erasure.C171_generators_partial
#print axioms Verif.Erasure.C171_other_type_violated
#print axioms Verif.Comb.C161_dependency_partial
#print axioms Verif.Comb.C161_chain_partial
#print axioms Verif.Comb.C161_derive
#print axioms Verif.Comb.C161_alone_partial
#print axioms Verif.Comb.C161_dependency_violated
#print axioms Verif.Comb.C161_chain_violated
#print axioms Verif.Engine.C48_passing_reported_violated
#print axioms Verif.Engine.C51_adopted_violated
#print axioms Verif.Engine.C51_reported_violated
#print axioms Verif.Engine.C52_missing_cleanups_violated
#print axioms Verif.Engine.C53_success_hides_violated
#print axioms Verif.Engine.C54_any_run_violated
#print axioms Verif.Engine.C55_expectations_ignored_violated
#print axioms Verif.Engine.C88_not_tried_again_violated
#print axioms Verif.C31_front_longer_violated
#print axioms Verif.C34_any_nan_violated
#print axioms Verif.C34_nan_chosen_violated
#print axioms Verif.C42_not_from_elemGen_violated
#print axioms Verif.C77_bool_iff_violated
#print axioms Verif.C85_second_stuck_violated
#print axioms Verif.C86_every_time_violated
#print axioms Verif.C62_aliases_violated
#print axioms Verif.C65_lone_surrogate_violated
#print axioms Verif.C91_every_prefix_violated
#print axioms Verif.C92_always_overwrites_violated
#print axioms Verif.Stateful.C93_every_second_go_violated
#print axioms Verif.Stateful.C94_largest_values_default_violated
#print axioms Verif.C74_ratio_partial
#print axioms Verif.C74_multiples_violated
#print axioms Verif.C75_inRange_always_violated
#print axioms Verif.C75_integers_always_violated
#print axioms Verif.C76_up_to_max_violated
#print axioms Verif.Comb.C195_values
#print axioms Verif.Comb.C195_shrinks_partial
#print axioms Verif.Comb.C195_shrinks_violated
#print axioms Verif.Comb.C195_implied
#print axioms Verif.C163_set_violated
#print axioms Verif.C163_map_violated
#print axioms Verif.C163_returns_partial
#print axioms Verif.C163_set_partial
#print axioms Verif.C163_map_partial
#print axioms Verif.C101_huge_violated
#print axioms Verif.C101_defined_partial
#print axioms Verif.C102_values
#print axioms Verif.C102_complete
#print axioms Verif.C103_special
#print axioms Verif.C104_integer_part_violated
#print axioms Verif.C105_repeat_violated
#print axioms Verif.C105_distinct_partial
#print axioms Verif.C106_generated
#print axioms Verif.C106_shrinkable
#print axioms Verif.C107_larger_violated
#print axioms Verif.C107_halved_partial
#print axioms Verif.Fork.C73_long_message_violated
#print axioms Verif.Fork.C73_message_partial
#print axioms Verif.Fork.C73_value_returned
#print axioms Verif.Fork.C99_large_result_hangs_violated
#print axioms Verif.Fork.C99_exit_hangs_violated
#print axioms Verif.Fork.C99_comes_back_partial
#print axioms Verif.Fork.C100_child_escapes_violated
#print axioms Verif.Fork.C100_child_ends_partial
#print axioms Verif.Fork.C170_descriptors
#print axioms Verif.Fork.C170_many
#print axioms Verif.Fork.C170_children_partial
#print axioms Verif.Fork.C170_interrupted_violated
#print axioms Verif.Fork.C170_outcome
#print axioms Verif.Fork.C170_output_partial
#print axioms Verif.Fork.C170_output_twice_violated
#print axioms Verif.Printing.C149_text_partial
#print axioms Verif.Printing.C149_settings_partial
#print axioms Verif.Printing.C149_fill_violated
#print axioms Verif.Printing.C149_hex_violated
#print axioms Verif.Printing.C149_width_violated
#print axioms Verif.Concurrency.C124_start_together
#print axioms Verif.Concurrency.C124_start_together_class
#print axioms Verif.Concurrency.C124_joined
#print axioms Verif.Concurrency.C124_joined_class
#print axioms Verif.Concurrency.C124_no_deadlock
#print axioms Verif.Concurrency.C124_no_deadlock_class
#print axioms Verif.Concurrency.C124_same_executions
#print axioms Verif.Concurrency.C124_same_results
#print axioms Verif.Concurrency.C124_same_executions_class
#print axioms Verif.Concurrency.C124_same_results_class
#print axioms Verif.Engine.C122_false_means_something_failed
#print axioms Verif.Engine.C122_property_function_failed
#print axioms Verif.Engine.C123_true_means_nothing_failed_partial
#print axioms Verif.Engine.C123_success_in_cleanup_hides_failures_violated
#print axioms Verif.C17_interval
#print axioms Verif.C17_every_value_possible
#print axioms Verif.C18_inRange
#print axioms Verif.C18_integers
#print axioms Verif.C18_natural
#print axioms Verif.C18_nonNegative
#print axioms Verif.C18_every_value_possible
#print axioms Verif.C19_empty_interval
#print axioms Verif.C19_empty_natural
#print axioms Verif.C19_out_of_range_throws
#print axioms Verif.C75_inRange_violated
#print axioms Verif.C75_integers_violated
#print axioms Verif.C75_empty_partial
#print axioms Verif.C76_integers_violated
#print axioms Verif.C76_integers_partial
#print axioms Verif.C20_arbi
#print axioms Verif.C20_table
#print axioms Verif.C20_limits
#print axioms Verif.C20_every_value_possible
#print axioms Verif.C21_char_violated
#print axioms Verif.C21_char_partial
#print axioms Verif.C22_bool
#print axioms Verif.C22_bool_both
#print axioms Verif.C77_bool_violated
#print axioms Verif.C77_bool_partial
#print axioms Verif.Concurrency.C203_every_order
#print axioms Verif.Concurrency.C203_results
#print axioms Verif.Concurrency.C203_terminates
#print axioms Verif.Concurrency.C203_commuting
#print axioms Verif.Concurrency.C203_same_result
#print axioms Verif.Concurrency.C203_sequential
#print axioms Verif.Concurrency.C203_class_every_order
#print axioms Verif.Concurrency.C203_class_results
#print axioms Verif.Concurrency.C203_class_commuting
#print axioms Verif.Concurrency.C203_class_same_result
#print axioms Verif.LazyShrink.C173_finite
#print axioms Verif.LazyShrink.C173_stops_partial
#print axioms Verif.LazyShrink.C173_never_exactly
#print axioms Verif.LazyShrink.C173_never_violated
#print axioms Verif.C24_defined
#print axioms Verif.C25_exactly_once
#print axioms Verif.C24_sound
#print axioms Verif.C25_complete
#print axioms Verif.C24_step
#print axioms Verif.C26_elements
#print axioms Verif.C26_step
#print axioms Verif.C26_candidates
#print axioms Verif.C27_vector
#print axioms Verif.C27_vector_total
#print axioms Verif.C28_list
#print axioms Verif.C28_pair
#print axioms Verif.C28_tuple
#print axioms Verif.C79_minimal
#print axioms Verif.C78_elements_stuck
#print axioms Verif.C78_violated
#print axioms Verif.C78_elements_partial
#print axioms Verif.C27_elements
#print axioms Verif.Macros.C133_compares_partial
#print axioms Verif.Macros.C133_parentheses_partial
#print axioms Verif.Macros.C133_exact_partial
#print axioms Verif.Macros.C133_which_first_partial
#print axioms Verif.Macros.C133_which_second_partial
#print axioms Verif.Macros.C133_which_order_partial
#print axioms Verif.Macros.C133_conditional_violated
#print axioms Verif.Macros.C133_mask_violated
#print axioms Verif.Macros.C133_second_violated
#print axioms Verif.Macros.C90_single_partial
#print axioms Verif.Macros.C90_equal_violated
#print axioms Verif.Macros.C90_less_violated
#print axioms Verif.Macros.C134_reading_partial
#print axioms Verif.Macros.C134_passing_partial
#print axioms Verif.Macros.C134_twice_violated
#print axioms Verif.Macros.C134_report_violated
#print axioms Verif.Comb.C194_filter
#print axioms Verif.Comb.C194_oneOf
#print axioms Verif.Comb.C194_elementOf
#print axioms Verif.Comb.C194_vector
#print axioms Verif.Comb.C194_string
#print axioms Verif.Comb.C194_set
#print axioms Verif.Comb.C194_map
#print axioms Verif.Comb.C194_pair
#print axioms Verif.Comb.C194_tuple
#print axioms Verif.Comb.C194_construct
#print axioms Verif.Live.C194_flatMap
#print axioms Verif.Live.C194_pairWith
#print axioms Verif.Live.C194_tupleWith
#print axioms Verif.Engine.C196_test
#print axioms Verif.Engine.C196_seen
#print axioms Verif.Engine.C55_example_verdict_partial
#print axioms Verif.Engine.C55_failed_expectation_ignored_violated
#print axioms Verif.Engine.C56_matrix_covers_product
#print axioms Verif.Engine.C56_empty_list_undefined
#print axioms Verif.Engine.C57_matrix_always_true_violated
#print axioms Verif.Engine.C57_passing_partial
#print axioms Verif.C181_partial
#print axioms Verif.C181_maximum_violated
#print axioms Verif.C181_size_violated
#print axioms Verif.Live.C182_pairs
#print axioms Verif.Live.C182_derived
#print axioms Verif.Live.C182_tuples
#print axioms Verif.Live.C182_reported
#print axioms Verif.Live.C182_returns
#print axioms Verif.Live.C183_tuple_violated
#print axioms Verif.Live.C183_flatMap_violated
#print axioms Verif.Live.C183_plain_partial
#print axioms Verif.Live.C183_bound_partial
#print axioms Verif.Engine.C202_true
#print axioms Verif.Engine.C202_false
#print axioms Verif.Engine.C202_inner_inputs_violated
#print axioms Verif.C34_invalid_weight
#print axioms Verif.C34_exact
#print axioms Verif.C34_general_partial
#print axioms Verif.C34_result_range
#print axioms Verif.C34_nan_violated
#print axioms Verif.C33_oneOf_partial
#print axioms Verif.C33_no_other_outcome
#print axioms Verif.C33_every_alternative_possible
#print axioms Verif.C33_discarded_again
#print axioms Verif.C33_zero_weight_violated
#print axioms Verif.C33_empty_violated
#print axioms Verif.C33_elementOf
#print axioms Verif.C35_intervals
#print axioms Verif.C35_uintervals
#print axioms Verif.C35_size
#print axioms Verif.C35_every_value_possible
#print axioms Verif.C35_empty_rejected
#print axioms Verif.C35_reversed_rejected
#print axioms Verif.C35_uintervals_reversed_accepted
#print axioms Verif.C74_violated
#print axioms Verif.C74_one_partial
#print axioms Verif.C74_two_partial
#print axioms Verif.C74_power_partial
#print axioms Verif.C84_unicode
#print axioms Verif.C84_every_value_possible
#print axioms Verif.Output.C151_reason_partial
#print axioms Verif.Output.C151_leftover_violated
#print axioms Verif.Output.C151_exception_violated
#print axioms Verif.Output.C152_printed
#print axioms Verif.Output.C152_all_calls
#print axioms Verif.Output.C152_counted_partial
#print axioms Verif.Output.C152_enclosing
#print axioms Verif.Output.C152_discarded_violated
#print axioms Verif.Output.C153_steps
#print axioms Verif.Output.C153_lines
#print axioms Verif.Ownership.C155_new_objects_partial
#print axioms Verif.Ownership.C155_same_object_violated
#print axioms Verif.Ownership.C155_run
#print axioms Verif.Ownership.C155_just_violated
#print axioms Verif.Ownership.C155_shared
#print axioms Verif.C23_pair_product
#print axioms Verif.C23_pair_value
#print axioms Verif.C23_pair_step
#print axioms Verif.C23_pairOf
#print axioms Verif.C23_tuple_product
#print axioms Verif.C23_tuple_value
#print axioms Verif.C23_tuple_step
#print axioms Verif.C23_tuple_candidates
#print axioms Verif.C23_tupleOf
#print axioms Verif.C23_tupleOf_total
#print axioms Verif.Context.C159_accurate_partial
#print axioms Verif.Context.C159_all_partial
#print axioms Verif.Context.C159_at_most_partial
#print axioms Verif.Context.C159_only_all_partial
#print axioms Verif.Context.C159_hundred_violated
#print axioms Verif.Context.C159_counts_shown
#print axioms Verif.Context.C159_lines
#print axioms Verif.Engine.C144_with_args
#print axioms Verif.Engine.C144_unchanged_partial
#print axioms Verif.Engine.C144_simplest_violated
#print axioms Verif.Engine.C144_other_argument_violated
#print axioms Verif.Engine.C144_same_object_violated
#print axioms Verif.C119_arguments_identified_partial
#print axioms Verif.C119_end_of_line_partial
#print axioms Verif.C119_chars_partial
#print axioms Verif.C119_chars_text_partial
#print axioms Verif.C119_cstr_partial
#print axioms Verif.C119_cstr_needs_end
#print axioms Verif.C119_nested_null_violated
#print axioms Verif.C119_set_violated
#print axioms Verif.C119_empty_set_violated
#print axioms Verif.C119_default_violated
#print axioms Verif.C120_accurate_partial
#print axioms Verif.C120_close_partial
#print axioms Verif.C120_sign_partial
#print axioms Verif.C120_special_partial
#print axioms Verif.C120_identified_violated
#print axioms Verif.C120_float_violated
#print axioms Verif.Process.C178_one_seed_violated
#print axioms Verif.Process.C178_same_inputs_violated
#print axioms Verif.Process.C178_nothing_new_violated
#print axioms Verif.Process.C178_setSeed_partial
#print axioms Verif.Engine.C43_true_means_every_run_passed
#print axioms Verif.Engine.C43_time_limit
#print axioms Verif.Engine.C44_false_means_some_run_failed
#print axioms Verif.Engine.C45_stops_at_first_failure
#print axioms Verif.Engine.C45_fresh_arguments
#print axioms Verif.Engine.C46_same_seed_same_runs
#print axioms Verif.Engine.C47_shrinking_starts_from_the_failing_arguments
#print axioms Verif.Engine.C48_shrunk_arguments_fail_partial
#print axioms Verif.Engine.C48_observed
#print axioms Verif.Engine.C48_leftover_failure_violated
#print axioms Verif.Engine.C49_locally_minimal
#print axioms Verif.Engine.C49_single_argument
#print axioms Verif.Engine.C88_minimal_in_each_argument_violated
#print axioms Verif.Engine.C88_last_argument_partial
#print axioms Verif.Engine.C50_shrinking_terminates
#print axioms Verif.Engine.C50_evaluations_bounded
#print axioms Verif.Engine.C51_counterexample_without_discard_partial
#print axioms Verif.Engine.C51_discarded_candidate_adopted_violated
#print axioms Verif.Engine.C52_hooks_paired_partial
#print axioms Verif.Engine.C52_cleanup_skipped_violated
#print axioms Verif.Engine.C53_failed_expect_partial
#print axioms Verif.Engine.C53_failed_expect_ignored_violated
#print axioms Verif.Engine.C54_property_exception_partial
#print axioms Verif.Engine.C54_generator_exception_escapes_violated
#print axioms Verif.Make.C112_explicit_generators
#print axioms Verif.Make.C112_number_of_generators
#print axioms Verif.Engine.C113_void_callable_gone_violated
#print axioms Verif.Engine.C113_bool_callable_partial
#print axioms Verif.Engine.C113_void_callable_partial
#print axioms Verif.Containers.C114_moving_function_violated
#print axioms Verif.Containers.C114_shrinks_lost_violated
#print axioms Verif.Containers.C114_front_lost_violated
#print axioms Verif.Containers.C114_map_partial
#print axioms Verif.Object.C200_in_force
#print axioms Verif.Object.C200_independent_partial
#print axioms Verif.Object.C200_separate
#print axioms Verif.Object.C200_copies_violated
#print axioms Verif.Engine.C135_unused_state_partial
#print axioms Verif.Engine.C135_starts_from_failing_partial
#print axioms Verif.Engine.C135_counter_violated
#print axioms Verif.Engine.C193_quiet_hooks
#print axioms Verif.Engine.C193_any_quiet_hooks
#print axioms Verif.Concurrency.C125_overlapping_expectations_race_violated
#print axioms Verif.Concurrency.C125_expectations_race_violated
#print axioms Verif.Concurrency.C125_class_always_races_violated
#print axioms Verif.Concurrency.C125_one_thread_partial
#print axioms Verif.Concurrency.C125_class_one_thread_partial
#print axioms Verif.Concurrency.C125_no_overlap_partial
#print axioms Verif.Recursive.C126_sized
#print axioms Verif.Recursive.C126_every_box
#print axioms Verif.Recursive.C126_depth_irrelevant
#print axioms Verif.Recursive.C126_map_same
#print axioms Verif.Recursive.C126_map_shrinks
#print axioms Verif.Recursive.C127_ok_or_runs_on
#print axioms Verif.Recursive.C127_lower_bound_violated
#print axioms Verif.Recursive.C127_unlucky_violated
#print axioms Verif.Recursive.C127_half_violated
#print axioms Verif.Recursive.C127_documented_partial
#print axioms Verif.Engine.C204_example_fails_partial
#print axioms Verif.Engine.C204_expectations_violated
#print axioms Verif.Engine.C204_success_violated
#print axioms Verif.Engine.C204_matrix_violated
#print axioms Verif.Engine.C204_passed_runs
#print axioms Verif.C121_reported_partial
#print axioms Verif.C121_time_partial
#print axioms Verif.C121_large_violated
#print axioms Verif.C121_negative
#print axioms Verif.C121_not_a_number
#print axioms Verif.Settings.C128_expression_partial
#print axioms Verif.Settings.C128_variable_partial
#print axioms Verif.Settings.C128_vector_partial
#print axioms Verif.Settings.C128_lost_violated
#print axioms Verif.Settings.C128_reference_violated
#print axioms Verif.Settings.C129_derived
#print axioms Verif.Settings.C129_reference
#print axioms Verif.Settings.C129_copies
#print axioms Verif.Shr.C201_map
#print axioms Verif.Shr.C201_flatMap
#print axioms Verif.Shr.C201_filter
#print axioms Verif.Shr.C201_filter_map
#print axioms Verif.Shr.C201_take
#print axioms Verif.Shr.C201_concat
#print axioms Verif.Shr.C201_andThen
#print axioms Verif.Shr.C201_static
#print axioms Verif.Strm.C201_streams
#print axioms Verif.Strm.C201_streams_take
#print axioms Verif.C05_map_positions
#print axioms Verif.C05_map_id
#print axioms Verif.C05_map_comp
#print axioms Verif.C06_flatMap_positions
#print axioms Verif.C06_mapShrinkable_positions
#print axioms Verif.C07_filter_throws_iff
#print axioms Verif.C07_filter_histories
#print axioms Verif.C07_filter_sound
#print axioms Verif.C08_filterTol_throws_iff
#print axioms Verif.C08_filterTol_sound
#print axioms Verif.C08_filterTol_shrinks
#print axioms Verif.C08_filterTol_complete
#print axioms Verif.C09_concat_positions
#print axioms Verif.C09_concat_reach
#print axioms Verif.C09_concatStatic_positions
#print axioms Verif.C10_andThen_positions
#print axioms Verif.C10_andThen_reach
#print axioms Verif.C10_andThenStatic_positions
#print axioms Verif.C11_take_positions
#print axioms Verif.C11_take_bound
#print axioms Verif.Engine.C177_integers_partial
#print axioms Verif.Engine.C177_sign_violated
#print axioms Verif.Engine.C177_float_violated
#print axioms Verif.Engine.C177_float_sign_violated
#print axioms Verif.Engine.C136_no_role
#print axioms Verif.Engine.C136_reported
#print axioms Verif.C136_interval
#print axioms Verif.C136_integers
#print axioms Verif.C136_bool
#print axioms Verif.C136_floating
#print axioms Verif.C136_vector
#print axioms Verif.C136_string
#print axioms Verif.C136_set
#print axioms Verif.C136_map
#print axioms Verif.C136_pair
#print axioms Verif.C136_tuple
#print axioms Verif.C136_transform
#print axioms Verif.Engine.C136_documented
#print axioms Verif.C174_filter
#print axioms Verif.C174_oneOf
#print axioms Verif.C174_elementOf
#print axioms Verif.C174_lazy
#print axioms Verif.C174_intervals
#print axioms Verif.C174_dependency
#print axioms Verif.C174_chain
#print axioms Verif.C174_derive
#print axioms Verif.C174_aggregate
#print axioms Verif.C174_accumulate_partial
#print axioms Verif.C174_accumulate_violated
#print axioms Verif.C174_sharedPtr
#print axioms Verif.C174_nullable
#print axioms Verif.C174_construct_violated
#print axioms Verif.C174_string_violated
#print axioms Verif.C174_set_violated
#print axioms Verif.C174_map_violated
#print axioms Verif.C118_sizes_partial
#print axioms Verif.C118_string_violated
#print axioms Verif.C118_always_empty_violated
#print axioms Verif.C118_undefined_violated
#print axioms Verif.Concurrency.C157_rear_violated
#print axioms Verif.Concurrency.C157_class_rear_violated
#print axioms Verif.Concurrency.C157_spawner_partial
#print axioms Verif.Concurrency.C157_class_spawner_partial
#print axioms Verif.Concurrency.C157_verdict_partial
#print axioms Verif.Concurrency.C157_created_partial
#print axioms Verif.Concurrency.C157_class_created_partial
#print axioms Verif.Concurrency.C158_huge_violated
#print axioms Verif.Concurrency.C158_threads_partial
#print axioms Verif.Stateful.C68_holds_iff
#print axioms Verif.Stateful.C68_throws_iff
#print axioms Verif.Stateful.C68_class_style
#print axioms Verif.Stateful.C68_without_precondition
#print axioms Verif.Stateful.C68_without_run
#print axioms Verif.Stateful.C68_shrinks_to_sublist
#print axioms Verif.Stateful.C68_class_shrinks_to_sublist
#print axioms Verif.Stateful.C68_post_check_in_force
#print axioms Verif.Stateful.C69_cleanup_runs_as_startup_violated
#print axioms Verif.Stateful.C69_startup_partial
#print axioms Verif.Stateful.C93_second_go_throws_violated
#print axioms Verif.Stateful.C93_class_style_partial
#print axioms Verif.Stateful.C94_settings_partial
#print axioms Verif.Stateful.C94_defaults
#print axioms Verif.Stateful.C94_largest_values_ignored_violated
#print axioms Verif.Stateful.C168_minimal_partial
#print axioms Verif.Stateful.C168_class_minimal_partial
#print axioms Verif.Stateful.C168_last_action_partial
#print axioms Verif.Stateful.C168_class_last_action_partial
#print axioms Verif.Stateful.C168_violated
#print axioms Verif.Stateful.C94_all_settings_partial
#print axioms Verif.C01_transform_get
#print axioms Verif.C01_transform_iterate
#print axioms Verif.C01_iterate_get
#print axioms Verif.C01_iterate_end
#print axioms Verif.C01_two_tail
#print axioms Verif.C02_filter_found
#print axioms Verif.C02_filter_end
#print axioms Verif.C02_filter_diverges_iff
#print axioms Verif.C02_filter_fuel_mono
#print axioms Verif.C02_filter_iterate
#print axioms Verif.C03_concat_finite
#print axioms Verif.C03_concat_infinite
#print axioms Verif.C03_concat_monoid
#print axioms Verif.C04_take_get
#print axioms Verif.C04_take_negative
#print axioms Verif.C01_C04_finite_lists
#print axioms Verif.C02_finite_lists
#print axioms Verif.StreamPointers.C172_values_partial
#print axioms Verif.StreamPointers.C172_transform_violated
#print axioms Verif.StreamPointers.C172_filter_two_violated
#print axioms Verif.Engine.C191_same_test
#print axioms Verif.Engine.C191_calls
#print axioms Verif.Throwing.C150_nothing_thrown
#print axioms Verif.Throwing.C150_map
#print axioms Verif.Throwing.C150_other_exceptions_partial
#print axioms Verif.Throwing.C150_map_first
#print axioms Verif.Throwing.C150_map_later
#print axioms Verif.Throwing.C150_map_integer_violated
#print axioms Verif.Throwing.C150_never_false_violated
#print axioms Verif.Throwing.C150_success_violated
#print axioms Verif.Throwing.C150_discard_violated
#print axioms Verif.Throwing.C150_escapes_violated
#print axioms Verif.Throwing.C150_other_arguments_violated
#print axioms Verif.Throwing.C150_neighbour_violated
#print axioms Verif.Engine.C137_one_more_run_partial
#print axioms Verif.Engine.C137_timed_out
#print axioms Verif.Engine.C137_discards_violated
#print axioms Verif.Engine.C137_shrinking_ignores_limit
#print axioms Verif.Engine.C137_shrinking_violated
#print axioms Verif.Engine.C199_together
#print axioms Verif.Engine.C199_stricter
#print axioms Verif.Engine.C199_success
#print axioms Verif.Engine.C198_test_partial
#print axioms Verif.Engine.C198_seen_partial
#print axioms Verif.Engine.C198_greedy
#print axioms Verif.Engine.C198_pair
#print axioms Verif.Engine.C198_order_violated
#print axioms Verif.Unicode.C60_scalar
#print axioms Verif.Unicode.C60_reject
#print axioms Verif.Unicode.C60_standard
#print axioms Verif.Unicode.C60_decode
#print axioms Verif.Unicode.C61_valid
#print axioms Verif.Unicode.C61_total
#print axioms Verif.Unicode.C61_unique
#print axioms Verif.Unicode.C61_string
#print axioms Verif.Unicode.C62_be
#print axioms Verif.Unicode.C62_le
#print axioms Verif.Unicode.C62_reject_partial
#print axioms Verif.Unicode.C62_violated
#print axioms Verif.Unicode.C115_utf16be_violated
#print axioms Verif.Unicode.C115_utf16le_violated
#print axioms Verif.Unicode.C115_reject_partial
#print axioms Verif.Unicode.C63_be
#print axioms Verif.Unicode.C63_le
#print axioms Verif.Unicode.C63_total
#print axioms Verif.Unicode.C63_unique
#print axioms Verif.Unicode.C64_scalar
#print axioms Verif.Unicode.C64_reject
#print axioms Verif.Unicode.C64_decode
#print axioms Verif.Unicode.C64_valid
#print axioms Verif.Unicode.C64_total
#print axioms Verif.Unicode.C64_unique
#print axioms Verif.Unicode.C32_utf8
#print axioms Verif.Unicode.C32_cesu8
#print axioms Verif.Unicode.C32_utf16be
#print axioms Verif.Unicode.C32_utf16le
#print axioms Verif.Unicode.C32_substring
#print axioms Verif.Unicode.C32_total
#print axioms Verif.Unicode.C65_violated_odd
#print axioms Verif.Unicode.C65_violated_surrogate
#print axioms Verif.Unicode.C65_valid_partial
#print axioms Verif.Unicode.C82_utf8
#print axioms Verif.Unicode.C82_cesu8
#print axioms Verif.Unicode.C82_valid
#print axioms Verif.Unicode.C83_utf8
#print axioms Verif.Unicode.C83_cesu8
#print axioms Verif.Unicode.C83_utf16
#print axioms Verif.Engine.C111_passes
#print axioms Verif.Engine.C111_falsifies
#print axioms Verif.Engine.C111_runs_forever
#print axioms Verif.Engine.C111_returns
