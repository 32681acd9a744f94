Axioms of the theorems named in MANIFEST.json (#print axioms).

## propext (29)
  C03_plain_readers_partial
  C06_eq_refl_symm
  C06_eq_hash_partial
  C06_custom_violation
  C43_violation_mismatch
  C43_violation_no_intercept
  C45_violation_empty
  C45_violation_level
  C58_one_unit_partial
  C58_violation_two_units
  C63_violation_nan_description
  C63_description_partial
  C65_plain
  C69_listed_shown
  C69_violation_unlisted
  C69_violation_level_0
  C69_violation_second_call
  C70_no_order
  C70_spread
  C70_violation_unlisted
  C70_no_keys
  C72_list_name
  C87_shared_violation
  C87_to_sql_violation
  C89_unknown_mode
  C89_labels_violation
  C90_classes_partial
  C90_classes_violation
  C90_name_violation

## no axioms (1)
  C55_violation_units

## propext, Quot.sound (43)
  C03_numbers_kept_partial
  C03_names_violation
  C101_nth_violation
  C11_hoisted_is_implied
  C14_ends_exchange
  C14_null_key_sql_violation
  C25_value
  C25_unique
  C25_every_reading
  C25_no_comment
  C26_flatten_partial
  C40_bootstrap
  C41_one_row
  C45_roundtrip
  C45_roundtrip_scalar
  C57_violation_null
  C68_id_only
  C68_violation_falsy_id
  C69_second_call_partial
  C72_operators
  C72_rename_single
  C73_merge_conditions
  C87_history_partial
  C87_root_partial
  C87_right_partial
  C87_alternates_violation
  C89_cause
  C89_advice
  C89_beam
  C89_swallowed_violation
  C90_constructor
  C90_pipe_partial
  C90_filtered_partial
  C90_rejects
  C90_filter_violation
  C90_wide_violation
  C90_alone_violation
  C90_equal_columns_violation
  C90_names
  C92_distinct_partial
  C92_kept_partial
  C93_prepost_several
  C93_mixed_partial

## propext, Classical.choice, Quot.sound (585)
  C01_cache_transparent_partial
  C01_collision_violation
  C02_fingerprint_sound_partial
  C02_cache_slot_sound_partial
  C02_operator_violation
  C02_filter_violation
  C02_own_filter_violation
  C03_numbers_violation
  C04_no_key_history_partial
  C04_split_call_partial
  C04_stale_split_violation
  C04_wrong_slot_violation
  C05_no_trace
  C05_fresh_no_trace
  C05_objCall
  C07_python_where_is_conjunction
  C07_python_where_set
  C07_add_where_history
  C07_sql_where_is_conjunction_partial
  C07_sql_or_newline_violation
  C08_split_commutes_partial
  C08_split_commutes_plain
  C08_slices_occur
  C08_filtered_slice_violation
  C09_filter_is_prefilter
  C09_nested_filters_conjoin
  C10_push_preserves
  C10_push_conditions
  C100_weights_partial
  C100_weights_sql_partial
  C100_quantile_partial
  C100_missing_violation
  C100_quantile_violation
  C100_zero_weight_violation
  C101_tree
  C101_statistics
  C101_query
  C101_quantile
  C101_nth_partial
  C101_diversity
  C101_entropy
  C101_jackknife
  C101_jackknife_tree
  C101_stderr
  C101_linear_models
  C102_nodes
  C102_labels
  C102_edges
  C102_multiplicity
  C102_connected
  C102_one_node_one_object
  C102_readable
  C102_strict_violation
  C102_label_violation
  C61_fista_rate
  C61_converges
  C49_rate
  C49_converges
  C104_numbers
  C104_neg
  C104_metric
  C104_number_left
  C104_number_right
  C104_neg_metric
  C105_unbiased
  C105_stderr
  C105_rows
  C105_exact
  C105_jackknife
  C105_poisson
  C106_units
  C106_stderr
  C106_interval
  C106_statistics
  C106_quantile
  C107_copies
  C107_statistics
  C107_quantile
  C107_quantile_grows
  C108_other_columns
  C108_statistics
  C108_query
  C109_totals_partial
  C109_missing_violation
  C109_extremes_partial
  C109_mean_partial
  C11_hoisting_exact
  C12_sql_agrees_partial
  C12_duplicate_column_violation
  C12_shifted_columns_violation
  C12_empty_sum_violation
  C12_filtered_count_violation
  C13_failing_children_ignored
  C13_columns
  C13_succeeds
  C13_warnings
  C13_rename
  C13_rename_error
  C13_nested_list
  C14_nth
  C14_nth_unique
  C14_sql_agrees
  C14_missing_keys
  C14_sql_missing_keys
  C15_sql_agrees_partial
  C15_knot_violation
  C15_single_value_violation
  C15_missing_weight_violation
  C16_bounded
  C16_monotone
  C16_ends
  C16_plain_bounded
  C16_plain_monotone
  C17_terminates
  C17_deterministic
  C17_complete
  C17_fixed
  C18_expansion_value
  C18_statistic
  C18_name_and_filter_kept
  C18_arithmetic
  C19_complete_rows_partial
  C19_dot
  C19_cov_missing_violation
  C19_weighted_mean_missing_violation
  C20_prefix_fresh
  C20_columns_kept
  C20_request_gets_its_value_partial
  C20_equal_requests_share
  C20_parse_stable
  C20_commuted_requests_share
  C20_operator_names_violation
  C20_all_requests_partial
  C20_all_served
  C20_row_values
  C21_no_special
  C21_idempotent
  C21_identifier_chars
  C21_no_leading_digit_partial
  C21_defined
  C21_leading_digit_violation
  C21_other_chars_violation
  C21_no_alias_violation
  C22_columns_partial
  C22_add_terminates
  C22_unnamed_violation
  C23_violation
  C23_name_partial
  C23_no_conflict_partial
  C24_add_terminates
  C24_free_name_terminates
  C24_add
  C24_history
  C24_history_total
  C24_extend_violation
  C24_extend_partial
  C24_extend_total
  C24_extend_meaning_partial
  C24_extend_capture_violation
  C26_filter_violation
  C26_groupby_violation
  C27_values
  C27_names_partial
  C27_refused
  C27_names_violation
  C28_share
  C28_sums_to_one
  C28_sql_agrees
  C28_metric
  C29_cumulative_partial
  C29_running
  C29_sql_cumulative
  C29_sql_agrees
  C29_violation_custom
  C29_missing
  C29_violation_missing_sql
  C30_hhi_bounds
  C30_slices
  C30_sql_agrees
  C30_metric
  C30_nothing_violation
  C31_entropy_bounds
  C31_sql_agrees
  C31_sql_defined
  C32_topk_max
  C32_topk_mono
  C32_topk_all
  C32_sql_agrees
  C33_nxx_least
  C33_sql_agrees
  C34_percent
  C34_absolute
  C34_rows
  C34_keyerror
  C34_base_row
  C34_sql_agrees_partial
  C34_sql_agrees
  C34_violation_missing_base
  C34_metric_percent
  C34_metric_absolute
  C35_value
  C35_single
  C35_same_ratios
  C35_sql_agrees
  C36_shift
  C36_shift_sql
  C36_shift_multi
  C36_cuped_sql_agrees
  C36_prepost_sql_agrees
  C36_cuped_balanced_partial
  C36_prepost_balanced_partial
  C36_balanced_multi
  C36_violation_constant
  C36_missing_shift
  C36_missing_shift_sql
  C36_missing_agrees_partial
  C36_missing_complete
  C36_missing_violation
  C36_missing_covariate_violation
  C37_fast_op
  C37_fast_split
  C37_fast_scalar
  C37_sql_adjusted
  C37_sql_plain_partial
  C37_sql_coarse
  C37_tree_op
  C37_tree_split_partial
  C37_violation_sql_null_unit
  C38_op_same_slices
  C38_missing_level
  C38_sql_slices
  C38_sql_fast_general_partial
  C38_violation_filter
  C38_violation_sql_filter
  C38_violation_sql_op_filter
  C39_value
  C39_sql_agrees
  C39_mean
  C39_violation_one_unit
  C40_jackknife
  C41_same_units
  C41_scalar
  C41_scalar_general
  C41_levels
  C41_levels_partial
  C41_levels_nofilter
  C41_poisson_rows
  C41_poisson
  C41_poisson_levels
  C41_violation_filter
  C41_poisson_general
  C41_poisson_levels_partial
  C41_poisson_levels_nofilter
  C41_poisson_violation_filter
  C42_interval
  C42_missing
  C42_se_nonneg
  C42_refused_partial
  C42_violation_zero
  C43_partial
  C44_traverse_complete
  C44_traverse_once
  C44_parent_before_child
  C44_leaves
  C45_cells
  C45_levels
  C46_iff
  C46_fuel
  C46_jk_bs
  C47_symmetrize
  C47_iff
  C47_matrices
  construct_general
  C47_violation_split_name
  C48_ridge
  C48_ridge_computed
  C48_normalized
  C48_normalized_computed
  C48_same_as_pandas
  C48_violation_collinear
  C49_soft_threshold
  C49_rest_is_minimiser
  C49_minimiser_rests
  C49_rows
  C49_user
  C49_stop_bound
  C49_violation_zero_ratio
  C50_sql
  C50_pandas
  C51_newton
  C51_fista
  C52_sig_minus_b
  C52_weight
  C52_gradient
  C52_hessian
  C53_colour
  C53_flip
  C53_missing_bounds
  C53_null_ratio
  C53_value_irrelevant
  C54_warned_partial
  C54_consistent
  C54_violation_tolerance
  C54_violation_raises
  C55_within_batch_partial
  C55_violation_batches
  C56_case
  C56_max
  C56_cutoffs
  C56_uniform
  C57_size_partial
  C57_uniform
  C57_units_partial
  C57_violation_zero
  C59_sql_multiplied_partial
  C59_violation_names
  C59_violation_sql_multiplied
  C60_violation_momentum
  C61_newton_rest
  C61_newton_returns
  C61_minimiser_rests
  C61_fista_rest
  C61_user
  C61_violation_labels
  C61_newton_stop
  C61_fista_stop
  C62_hidden_partial
  C62_violation_auto_decide
  C63_single_partial
  C63_dict_partial
  C63_violation_unlisted
  C63_violation_null_dim
  C63_repeated
  C64_control_first
  C65_violation_control_id
  C66_theta_is_slope
  C66_cuped_value
  C66_prepost_value
  C66_shortcut
  C66_violation_constant_covariate
  C66_missing_slope_partial
  C66_missing_level_sql
  C66_missing_level_violation
  C67_experiment
  C67_control
  C67_no_value
  C67_nothing
  C67_range
  C67_range_missing
  C67_violation_default_ratio
  C67_violation_percent
  C68_cell_partial
  C68_default_dims_partial
  C68_violation_ten_dims
  C69_sorted
  C69_order
  C69_missing_last
  C69_columns_partial
  C69_unlisted_last
  C70_metric_order_partial
  C71_index_partial
  C71_levels
  C71_violation_diversity
  C71_superset
  C72_names_partial
  C72_rename_root
  C72_violation_nested_rename
  C72_violation_template
  C72_violation_single_rename
  C72_violation_constant_template
  C72_violation_lost_column
  C73_valid_partial
  C73_index_partial
  C73_violation_distribution
  C73_violation_diversity
  C73_violation_product
  C73_violation_alias
  C74_slot_exact_partial
  C74_simple
  C74_operation
  C74_positive_violation
  C74_cov_order_violation
  C74_functions_and_names_violation
  C75_no_confusion_partial
  C75_transparent_partial
  C75_constant_violation
  C75_baseline_violation
  C75_slice_violation
  C76_any_division
  C76_mixed_mode_partial
  C76_failing_child_violation
  C76_null_group_violation
  C76_empty_sum_violation
  C77_agrees_on_all_data
  C77_agrees_partial
  C77_defined
  C77_cov_violation
  C77_weighted_mean_violation
  C77_textbook
  C78_reading_unique
  C78_base_partial
  C78_not_base_partial
  C78_mh_exclude_partial
  C78_split_partial
  C78_loo_partial
  C78_loo_agrees_partial
  C78_case_partial
  C78_user_condition_partial
  C78_sql_condition_partial
  C78_quote_violation
  C78_eqeq_violation
  C78_date_violation
  C78_backslash_violation
  C78_newline_violation
  C78_loo_null_violation
  C78_user_condition_violation
  C78_slice_partial
  C78_slices_partial
  C78_slice_violation
  C78_user_rows_partial
  C78_user_rows_positive_partial
  C78_user_null_violation
  C79_history
  C79_pure_history
  C79_pipe
  C79_pipe_total
  C79_reuse
  C79_copy
  C79_copy_total
  C79_push
  C79_push_total
  C79_add_where
  C79_copy_independent
  C79_leak_violation
  C79_shared_violation
  C79_name_violation
  C79_new
  C79_combine
  C79_rename
  C79_fmt
  C80_columns
  C80_se_columns
  C80_sql_ci
  C80_sql_se
  C80_sql_change
  C80_sql
  C80_dataframe_ci
  C80_dataframe_se
  C80_null_violation
  C80_expressions
  C81_percent
  C81_absolute
  C81_exists
  C81_dataframe
  C81_sql
  C81_cache_partial
  C81_cache_one_use
  C81_sql_violation
  C81_cache_violation
  C81_equal_violation
  C81_cache_own_partial
  C82_accepts_op
  C82_accepts_list
  C82_accepts_violation
  C82_dataframe_partial
  C82_value_partial
  C82_dataframe_violation
  C82_sql_partial
  C82_sql_violation
  C82_sql_list_violation
  C83_reads_partial
  C83_reading_unique
  C83_column
  C83_text_source
  C83_user_select
  C83_select_name_violated
  C83_user_with_violated
  C83_self_join_violated
  C83_user_with
  C84_preaggregated
  C84_resampled
  C84_poisson
  C84_poisson_rows
  C84_slices
  C84_succeeds
  C84_names
  C84_violation_missing_unit
  C84_violation_filter
  C84_violation_name
  C84_violation_twice
  C84_sample
  C84_poisson_sample
  C84_sql
  C84_sql_resampled
  C84_sql_poisson
  C84_sql_columns
  C84_violation_sql_count
  C85_root
  C85_default_mode
  C85_nested_violation
  C85_nested_argument
  C85_poisson_zero
  C86_shows_partial
  C86_shows_columns
  C86_only
  C86_change_partial
  C86_plain
  C86_splits
  C86_expr_id_partial
  C86_violation_float
  C86_violation_float_control
  C86_violation_template
  C86_violation_dim_name
  C86_colour_partial
  C86_expr_id_text
  C88_se_partial
  C88_ci_partial
  C88_all_fail
  C88_iterator
  C88_leave_out
  C88_slice_violation
  C88_rename_violation
  C89_queries
  C89_one_query
  C89_labels_partial
  C91_slices
  C91_error
  C91_slice_alone
  C91_cache_partial
  C91_child_error
  C91_split_violation
  C91_hash_violation
  C91_empty_violation
  C91_concat_violation
  C91_fallback_violation
  C92_reuse_violation
  C92_hidden_violation
  C92_across_violation
  C93_cuped_one
  C93_cuped_several
  C93_prepost_one
  C93_sql
  C93_mixed_violation
  C94_complete
  C94_balanced_partial
  C94_violation
  C94_nothing
  C94_logit_rest
  C94_logit_partial
  C94_logit_nothing
  C94_logit_complete
  C94_logit_l2_violation
  C94_logit_violation
  C94_enet_complete
  C95_classes
  C95_binary
  C95_labels_partial
  C95_intercept_violation
  C95_class_violation
  C95_complete
  C96_logit
  C96_refused
  C96_accepted
  C96_enet_partial
  C96_positive_violation
  C97_history_partial
  C97_leave_one_out_partial
  C97_other_data
  C97_filter
  C97_filter_below
  C97_mean
  C97_levels
  C98_point_estimate_partial
  C98_missing_unit_violation
  C99_round_trip_partial
  C99_rows_partial
  C99_cleanup
  C99_same_instant_violation
  C99_na_violation
  C99_digits_violation
  C99_shards_violation
  C99_brackets_violation
  C99_example
  C99_set_violation
  C99_question_violation
