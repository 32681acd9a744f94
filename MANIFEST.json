{
 "claims": [
  {
   "property": "C01",
   "status": "partial",
   "theorems": [
    "Verif.C01_cache_transparent_partial",
    "Verif.C01_collision_violation"
   ],
   "note": "Proved for call sequences whose metrics avoid the fingerprint collision of arithmetic with Mean; the code violates the full statement (witness)."
  },
  {
   "property": "C02",
   "status": "partial",
   "theorems": [
    "Verif.C02_fingerprint_sound_partial",
    "Verif.C02_cache_slot_sound_partial",
    "Verif.C02_operator_violation",
    "Verif.C02_filter_violation",
    "Verif.C02_own_filter_violation"
   ],
   "note": "The code violates the full statement (three witnesses); soundness proved for trees without the colliding shape."
  },
  {
   "property": "C03",
   "status": "partial",
   "theorems": [
    "Verif.C03_plain_readers_partial",
    "Verif.C03_numbers_kept_partial",
    "Verif.C03_names_violation",
    "Verif.C03_numbers_violation"
   ],
   "note": "A cached table is handed out by reference; violated when a reader writes in place (witnesses)."
  },
  {
   "property": "C04",
   "status": "partial",
   "theorems": [
    "Verif.C04_no_key_history_partial",
    "Verif.C04_split_call_partial",
    "Verif.C04_stale_split_violation",
    "Verif.C04_wrong_slot_violation"
   ],
   "note": "The metric object keeps its cache key after a keyed call; violated (witnesses), proved for histories of calls without key."
  },
  {
   "property": "C05",
   "status": "proved",
   "theorems": [
    "Verif.C05_no_trace",
    "Verif.C05_fresh_no_trace",
    "Verif.C05_objCall"
   ],
   "note": "Both of the model with a state per node and of the one-object view used by C04 (C05_objCall)."
  },
  {
   "property": "C06",
   "status": "partial",
   "theorems": [
    "Verif.C06_eq_refl_symm",
    "Verif.C06_eq_hash_partial",
    "Verif.C06_custom_violation"
   ],
   "note": "Violated for custom metrics (witness); proved for trees of built-in metrics."
  },
  {
   "property": "C07",
   "status": "partial",
   "theorems": [
    "Verif.C07_python_where_is_conjunction",
    "Verif.C07_python_where_set",
    "Verif.C07_add_where_history",
    "Verif.C07_sql_where_is_conjunction_partial",
    "Verif.C07_sql_or_newline_violation"
   ],
   "note": "Python side complete; SQL side violated when 'or' is surrounded by newlines instead of blanks."
  },
  {
   "property": "C08",
   "status": "partial",
   "theorems": [
    "Verif.C08_split_commutes_partial",
    "Verif.C08_split_commutes_plain",
    "Verif.C08_slices_occur",
    "Verif.C08_filtered_slice_violation"
   ],
   "note": "Full for trees without filters, lists, HHI. With filters the code violates it when a filter leaves no row of a slice (witness proved); proved under the exact side condition SliceCovered."
  },
  {
   "property": "C09",
   "status": "proved",
   "theorems": [
    "Verif.C09_filter_is_prefilter",
    "Verif.C09_nested_filters_conjoin"
   ],
   "note": ""
  },
  {
   "property": "C10",
   "status": "proved",
   "theorems": [
    "Verif.C10_push_preserves",
    "Verif.C10_push_conditions"
   ],
   "note": "Trees without resampling operations, as the property says."
  },
  {
   "property": "C100",
   "status": "partial",
   "theorems": [
    "Verif.C100_weights_partial",
    "Verif.C100_weights_sql_partial",
    "Verif.C100_quantile_partial",
    "Verif.C100_missing_violation",
    "Verif.C100_quantile_violation",
    "Verif.C100_zero_weight_violation"
   ],
   "note": "Proved for complete data, all statistics and arithmetic of them with filters anywhere; in SQL where there is something to add up; for weighted quantiles with positive weights against weight 1. Violated by the code: the weight of a missing value counts in a weighted mean; the median of 0, 0, 1 is 0 but 1/3 with weights 1; a value with weight 0 moves a weighted quantile (witnesses proved)."
  },
  {
   "property": "C101",
   "status": "partial",
   "theorems": [
    "Verif.C101_tree",
    "Verif.C101_statistics",
    "Verif.C101_query",
    "Verif.C101_quantile",
    "Verif.C101_nth_partial",
    "Verif.C101_nth_violation",
    "Verif.C101_diversity",
    "Verif.C101_entropy",
    "Verif.C101_jackknife",
    "Verif.C101_jackknife_tree",
    "Verif.C101_stderr",
    "Verif.C101_linear_models"
   ],
   "note": "Proved for metric trees with errors, statistics with missing values, query columns, quantiles, diversity indices, and Nth with distinct keys. Nth with equal keys depends on the order (witness proved). Exact arithmetic: floating point sums depend on the order in their last digits. The tables of Jackknife are the same line for line, and with them arithmetic on them and standard errors; so are linear models from statistics, and fits on the data if sklearn's fit is. Bootstrap (whose random draws are positions of rows), other models and cumulative distributions by value are not included."
  },
  {
   "property": "C102",
   "status": "partial",
   "theorems": [
    "Verif.C102_nodes",
    "Verif.C102_labels",
    "Verif.C102_edges",
    "Verif.C102_multiplicity",
    "Verif.C102_connected",
    "Verif.C102_one_node_one_object",
    "Verif.C102_readable",
    "Verif.C102_strict_violation",
    "Verif.C102_label_violation"
   ],
   "note": "Proved: nodes, labels and edges are those of the tree, the drawing is connected, and without strict the labelled tree with the order of the children can be read off. Violated: a strict drawing (the default) hides that a child occurs twice (C102_strict_violation), and a label does not tell a condition from a part of the name (C102_label_violation). Addresses of objects are assumed to identify them (they are all alive). Not modelled: pydot's text and its quoting."
  },
  {
   "property": "C103",
   "status": "proved",
   "theorems": [
    "Verif.C61_fista_rate",
    "Verif.C61_converges",
    "Verif.C49_rate",
    "Verif.C49_converges"
   ],
   "note": "O(1/T^2) rate of the code's iterations with its momentum and step sizes, exact arithmetic, the largest eigenvalue given by any function that bounds the quadratic form of the matrices; the minimiser is assumed to exist. For the logistic loss the curvature bound 1/4 of the sigmoid is proved; 3.999999 is below the limit 4. Early stops by tol are C60 (they can be far away)."
  },
  {
   "property": "C104",
   "status": "proved",
   "theorems": [
    "Verif.C104_numbers",
    "Verif.C104_neg",
    "Verif.C104_metric",
    "Verif.C104_number_left",
    "Verif.C104_number_right",
    "Verif.C104_neg_metric"
   ],
   "note": "Results whose rows have the same index levels; numbers are exact. Power is a parameter of the model and not in the statement."
  },
  {
   "property": "C105",
   "status": "proved",
   "theorems": [
    "Verif.C105_unbiased",
    "Verif.C105_stderr",
    "Verif.C105_rows",
    "Verif.C105_exact",
    "Verif.C105_jackknife",
    "Verif.C105_poisson"
   ],
   "note": "In one slice without operation levels. pandas and numpy are taken to draw independently, uniformly (with Poisson weights of rate 1) and exactly; numbers are real."
  },
  {
   "property": "C106",
   "status": "proved",
   "theorems": [
    "Verif.C106_units",
    "Verif.C106_stderr",
    "Verif.C106_interval",
    "Verif.C106_statistics",
    "Verif.C106_quantile"
   ],
   "note": "Powers are not in the statement (their unit depends on the values of the exponent). Columns that split or group keep their unit, and filters may only use such columns (SameFilter). Factors are positive; in C106_statistics they may be any number, except for Correlation and CV. Arithmetic is exact."
  },
  {
   "property": "C107",
   "status": "proved",
   "theorems": [
    "Verif.C107_copies",
    "Verif.C107_statistics",
    "Verif.C107_quantile",
    "Verif.C107_quantile_grows"
   ],
   "note": "n is at least 1. Powers of parts that grow have no factor and are not in the statement. The copies follow each other; for another order see C101."
  },
  {
   "property": "C108",
   "status": "proved",
   "theorems": [
    "Verif.C108_other_columns",
    "Verif.C108_statistics",
    "Verif.C108_query"
   ],
   "note": "That a filter reads the columns it names only is a hypothesis (FiltersIn, CondsIn), since df.query and the database are outside the model. Operations over SQL are not in C108_query."
  },
  {
   "property": "C109",
   "status": "partial",
   "theorems": [
    "Verif.C109_totals_partial",
    "Verif.C109_missing_violation",
    "Verif.C109_extremes_partial",
    "Verif.C109_mean_partial"
   ],
   "note": "Proved where no row that passes the filters lacks a value of the further columns. Violated otherwise (witness): groupby drops such rows (metrics.py:576), so that they are in no part, but they count in the whole."
  },
  {
   "property": "C11",
   "status": "proved",
   "theorems": [
    "Verif.C11_hoisted_is_implied",
    "Verif.C11_hoisting_exact"
   ],
   "note": ""
  },
  {
   "property": "C12",
   "status": "partial",
   "theorems": [
    "Verif.C12_sql_agrees_partial",
    "Verif.C12_duplicate_column_violation",
    "Verif.C12_shifted_columns_violation",
    "Verif.C12_empty_sum_violation",
    "Verif.C12_filtered_count_violation"
   ],
   "note": "The code violates the full statement (four witnesses proved); proved outside these points."
  },
  {
   "property": "C13",
   "status": "proved",
   "theorems": [
    "Verif.C13_failing_children_ignored",
    "Verif.C13_columns",
    "Verif.C13_succeeds",
    "Verif.C13_warnings",
    "Verif.C13_rename",
    "Verif.C13_rename_error",
    "Verif.C13_nested_list"
   ],
   "note": ""
  },
  {
   "property": "C14",
   "status": "proved",
   "theorems": [
    "Verif.C14_nth",
    "Verif.C14_nth_unique",
    "Verif.C14_ends_exchange",
    "Verif.C14_sql_agrees",
    "Verif.C14_null_key_sql_violation",
    "Verif.C14_missing_keys",
    "Verif.C14_sql_missing_keys"
   ],
   "note": "Which row is taken is proved for all sort columns, with missing keys too, for Python (last in both orders) and for SQL (first in ascending order, last in descending order); in ascending order the two differ (witness). With split_by, a slice with too few rows has no row rather than a null row; both read as null."
  },
  {
   "property": "C15",
   "status": "partial",
   "theorems": [
    "Verif.C15_sql_agrees_partial",
    "Verif.C15_knot_violation",
    "Verif.C15_single_value_violation",
    "Verif.C15_missing_weight_violation"
   ],
   "note": "The code violates it: at the quantile point of every inner value the query returns twice the value, and the median of a single-valued slice is 0 (proved in general); proved for every other q."
  },
  {
   "property": "C16",
   "status": "proved",
   "theorems": [
    "Verif.C16_bounded",
    "Verif.C16_monotone",
    "Verif.C16_ends",
    "Verif.C16_plain_bounded",
    "Verif.C16_plain_monotone"
   ],
   "note": "For the Python computation; positive weights, or no weight."
  },
  {
   "property": "C17",
   "status": "proved",
   "theorems": [
    "Verif.C17_terminates",
    "Verif.C17_deterministic",
    "Verif.C17_complete",
    "Verif.C17_fixed"
   ],
   "note": "Loop as a transition relation, so non-termination was expressible."
  },
  {
   "property": "C18",
   "status": "proved",
   "theorems": [
    "Verif.C18_expansion_value",
    "Verif.C18_statistic",
    "Verif.C18_name_and_filter_kept",
    "Verif.C18_arithmetic"
   ],
   "note": "Non-negative weights (as numpy.cov demands); operations and other leaves are arbitrary parameters that use children through their values. NaN and infinity are one undefined value."
  },
  {
   "property": "C19",
   "status": "partial",
   "theorems": [
    "Verif.C19_complete_rows_partial",
    "Verif.C19_dot",
    "Verif.C19_cov_missing_violation",
    "Verif.C19_weighted_mean_missing_violation"
   ],
   "note": "The code violates it (witnesses): Cov uses per-column means, the weighted mean counts weights of missing values. Proved for Dot always, and for all statistics when columns are missing together."
  },
  {
   "property": "C20",
   "status": "partial",
   "theorems": [
    "Verif.C20_prefix_fresh",
    "Verif.C20_columns_kept",
    "Verif.C20_request_gets_its_value_partial",
    "Verif.C20_equal_requests_share",
    "Verif.C20_parse_stable",
    "Verif.C20_commuted_requests_share",
    "Verif.C20_operator_names_violation",
    "Verif.C20_all_requests_partial",
    "Verif.C20_all_served",
    "Verif.C20_row_values"
   ],
   "note": "Freshness and no-overwrite hold unconditionally; 'every request gets its own value' is proved for column names without blanks, parentheses, commas and leading digits, and is false (witness) for names that look like derived columns."
  },
  {
   "property": "C21",
   "status": "partial",
   "theorems": [
    "Verif.C21_no_special",
    "Verif.C21_idempotent",
    "Verif.C21_identifier_chars",
    "Verif.C21_no_leading_digit_partial",
    "Verif.C21_defined",
    "Verif.C21_leading_digit_violation",
    "Verif.C21_other_chars_violation",
    "Verif.C21_no_alias_violation"
   ],
   "note": "Escaping is idempotent and every escaped alias is free of the special characters; for printable ASCII names the result consists of identifier characters. The claim as stated is false of the code in three ways, each with a kernel-checked witness: characters outside the table survive, a leading digit can survive, and a name made only of characters that escape to nothing has no alias."
  },
  {
   "property": "C22",
   "status": "partial",
   "theorems": [
    "Verif.C22_columns_partial",
    "Verif.C22_add_terminates",
    "Verif.C22_unnamed_violation"
   ],
   "note": "For columns with a name; columns without an alias can be selected under the same (empty) alias, witness included."
  },
  {
   "property": "C23",
   "status": "partial",
   "theorems": [
    "Verif.C23_violation",
    "Verif.C23_name_partial",
    "Verif.C23_no_conflict_partial"
   ],
   "note": "The full claim is false: when an equal expression is already selected under another alias the caller's column keeps its own alias (witness). Proved when the expression is not selected yet or no alias conflict exists."
  },
  {
   "property": "C24",
   "status": "partial",
   "theorems": [
    "Verif.C24_add_terminates",
    "Verif.C24_free_name_terminates",
    "Verif.C24_add",
    "Verif.C24_history",
    "Verif.C24_history_total",
    "Verif.C24_extend_violation",
    "Verif.C24_extend_partial",
    "Verif.C24_extend_total",
    "Verif.C24_extend_meaning_partial",
    "Verif.C24_extend_capture_violation"
   ],
   "note": "add and merge: proved for every sequence of requests. extend (combining two WITH clauses) violates the claim: kernel-checked witnesses show a subquery that reads the wrong table after two renamings, and one that reads a table of the other clause instead of a table of the database; proved that every table means what it meant (as a tree of queries) when no new name is a word of the texts and no table of the database has the name of a table of the first clause."
  },
  {
   "property": "C25",
   "status": "proved",
   "theorems": [
    "Verif.C25_value",
    "Verif.C25_unique",
    "Verif.C25_every_reading",
    "Verif.C25_no_comment"
   ],
   "note": "Texts of columns that are not themselves built by arithmetic are closed (names, calls) or contain + or -; a hand-written raw column such as 'a OR b' is outside the model."
  },
  {
   "property": "C26",
   "status": "partial",
   "theorems": [
    "Verif.C26_flatten_partial",
    "Verif.C26_filter_violation",
    "Verif.C26_groupby_violation"
   ],
   "note": "The full claim is false of the code; both failing shapes have kernel-checked witnesses. Proved for every nesting depth under Written.safe, which covers the queries the library builds itself."
  },
  {
   "property": "C27",
   "status": "partial",
   "theorems": [
    "Verif.C27_values",
    "Verif.C27_names_partial",
    "Verif.C27_refused",
    "Verif.C27_names_violation"
   ],
   "note": "Values and groups: proved. The name under which a caller looks for a value is right if no name is used for two expressions (C27_names_partial), and wrong otherwise after two mergings (C27_names_violation)."
  },
  {
   "property": "C28",
   "status": "proved",
   "theorems": [
    "Verif.C28_share",
    "Verif.C28_sums_to_one",
    "Verif.C28_sql_agrees",
    "Verif.C28_metric"
   ],
   "note": "Exact arithmetic. Division by zero and NaN are one missing value."
  },
  {
   "property": "C29",
   "status": "partial",
   "theorems": [
    "Verif.C29_cumulative_partial",
    "Verif.C29_running",
    "Verif.C29_sql_cumulative",
    "Verif.C29_sql_agrees",
    "Verif.C29_violation_custom",
    "Verif.C29_missing",
    "Verif.C29_violation_missing_sql"
   ],
   "note": "False of the code for a custom order that does not list every category (kernel-checked witness); proved for every other order, ascending or descending. Missing values: C29_missing (pandas skips them and leaves the cell missing); the SQL window SUM fills the cell of a NULL category with the preceding running share (C29_violation_missing_sql)."
  },
  {
   "property": "C30",
   "status": "proved",
   "theorems": [
    "Verif.C30_hhi_bounds",
    "Verif.C30_slices",
    "Verif.C30_sql_agrees",
    "Verif.C30_metric",
    "Verif.C30_nothing_violation"
   ],
   "note": "Exact arithmetic."
  },
  {
   "property": "C31",
   "status": "proved",
   "theorems": [
    "Verif.C31_entropy_bounds",
    "Verif.C31_sql_agrees",
    "Verif.C31_sql_defined"
   ],
   "note": "Over the reals."
  },
  {
   "property": "C32",
   "status": "proved",
   "theorems": [
    "Verif.C32_topk_max",
    "Verif.C32_topk_mono",
    "Verif.C32_topk_all",
    "Verif.C32_sql_agrees"
   ],
   "note": "Growth with k needs non-negative values."
  },
  {
   "property": "C33",
   "status": "proved",
   "theorems": [
    "Verif.C33_nxx_least",
    "Verif.C33_sql_agrees"
   ],
   "note": "Exact arithmetic: rounding at the threshold is not modelled."
  },
  {
   "property": "C34",
   "status": "partial",
   "theorems": [
    "Verif.C34_percent",
    "Verif.C34_absolute",
    "Verif.C34_rows",
    "Verif.C34_keyerror",
    "Verif.C34_base_row",
    "Verif.C34_sql_agrees_partial",
    "Verif.C34_sql_agrees",
    "Verif.C34_violation_missing_base",
    "Verif.C34_metric_percent",
    "Verif.C34_metric_absolute"
   ],
   "note": "Python values, rows and baseline row proved; SQL agrees for slices that have the baseline. It does not otherwise (kernel-checked witness), so the full row-by-row claim is false of the code."
  },
  {
   "property": "C35",
   "status": "proved",
   "theorems": [
    "Verif.C35_value",
    "Verif.C35_single",
    "Verif.C35_same_ratios",
    "Verif.C35_sql_agrees"
   ],
   "note": "Exact arithmetic; infinities of a division by zero count as missing."
  },
  {
   "property": "C36",
   "status": "partial",
   "theorems": [
    "Verif.C36_shift",
    "Verif.C36_shift_sql",
    "Verif.C36_shift_multi",
    "Verif.C36_cuped_sql_agrees",
    "Verif.C36_prepost_sql_agrees",
    "Verif.C36_cuped_balanced_partial",
    "Verif.C36_prepost_balanced_partial",
    "Verif.C36_balanced_multi",
    "Verif.C36_violation_constant",
    "Verif.C36_missing_shift",
    "Verif.C36_missing_shift_sql",
    "Verif.C36_missing_agrees_partial",
    "Verif.C36_missing_complete",
    "Verif.C36_missing_violation",
    "Verif.C36_missing_covariate_violation"
   ],
   "note": "Balance gives the plain change only if the covariate varies; a constant covariate makes the result missing (kernel-checked witness). With several covariates the regression is any function of its rows, least squares where needed. With missing values: shift invariance holds for all tables; SQL and Python agree if every stratum has both values or neither, and disagree otherwise (C36_missing_violation)."
  },
  {
   "property": "C37",
   "status": "partial",
   "theorems": [
    "Verif.C37_fast_op",
    "Verif.C37_fast_split",
    "Verif.C37_fast_scalar",
    "Verif.C37_sql_adjusted",
    "Verif.C37_sql_plain_partial",
    "Verif.C37_sql_coarse",
    "Verif.C37_tree_op",
    "Verif.C37_tree_split_partial",
    "Verif.C37_violation_sql_null_unit"
   ],
   "note": "Python: proved for Sum, Count and every tree of arithmetic over them. SQL: a unit whose values are all missing makes the leave-one-out value missing (kernel-checked witness), so the SQL half is conditional."
  },
  {
   "property": "C38",
   "status": "partial",
   "theorems": [
    "Verif.C38_op_same_slices",
    "Verif.C38_missing_level",
    "Verif.C38_sql_slices",
    "Verif.C38_sql_fast_general_partial",
    "Verif.C38_violation_filter",
    "Verif.C38_violation_sql_filter",
    "Verif.C38_violation_sql_op_filter"
   ],
   "note": "Without filters below the Jackknife the slices agree; a filter on a leaf makes fast and general differ (kernel-checked witnesses), so the full claim is false of the code."
  },
  {
   "property": "C39",
   "status": "partial",
   "theorems": [
    "Verif.C39_value",
    "Verif.C39_sql_agrees",
    "Verif.C39_mean",
    "Verif.C39_violation_one_unit"
   ],
   "note": "Value, SQL agreement and the mean identity proved; the fast path accepts a single unit (kernel-checked witness)."
  },
  {
   "property": "C40",
   "status": "proved",
   "theorems": [
    "Verif.C40_jackknife",
    "Verif.C40_bootstrap"
   ],
   "note": "The batches of replicates are not independent for Poisson by unit: see C55."
  },
  {
   "property": "C41",
   "status": "partial",
   "theorems": [
    "Verif.C41_same_units",
    "Verif.C41_one_row",
    "Verif.C41_scalar",
    "Verif.C41_scalar_general",
    "Verif.C41_levels",
    "Verif.C41_levels_partial",
    "Verif.C41_levels_nofilter",
    "Verif.C41_poisson_rows",
    "Verif.C41_poisson",
    "Verif.C41_poisson_levels",
    "Verif.C41_violation_filter",
    "Verif.C41_poisson_general",
    "Verif.C41_poisson_levels_partial",
    "Verif.C41_poisson_levels_nofilter",
    "Verif.C41_poisson_violation_filter"
   ],
   "note": "Sum, Count, Max, Min, all multisets of units, all weights. By operation level a leaf filter makes preaggregated data keep a level that recomputing drops (kernel-checked witness)."
  },
  {
   "property": "C42",
   "status": "partial",
   "theorems": [
    "Verif.C42_interval",
    "Verif.C42_missing",
    "Verif.C42_se_nonneg",
    "Verif.C42_refused_partial",
    "Verif.C42_violation_zero"
   ],
   "note": "confidence=0 is not refused but silently treated as no confidence (kernel-checked witness). scipy's quantile is an abstract increasing symmetric function."
  },
  {
   "property": "C43",
   "status": "partial",
   "theorems": [
    "Verif.C43_partial",
    "Verif.C43_violation_mismatch",
    "Verif.C43_violation_no_intercept"
   ],
   "note": "Proved for trees whose arithmetic combines equal widths or width 1 and whose regressions have an intercept; false otherwise (kernel-checked witnesses)."
  },
  {
   "property": "C44",
   "status": "proved",
   "theorems": [
    "Verif.C44_traverse_complete",
    "Verif.C44_traverse_once",
    "Verif.C44_parent_before_child",
    "Verif.C44_leaves"
   ],
   "note": ""
  },
  {
   "property": "C45",
   "status": "partial",
   "theorems": [
    "Verif.C45_roundtrip",
    "Verif.C45_roundtrip_scalar",
    "Verif.C45_cells",
    "Verif.C45_violation_empty",
    "Verif.C45_violation_level",
    "Verif.C45_levels"
   ],
   "note": "Round trip of tables with at least one row and no unnamed level that carries no information, and of scalars; cells are kept in general. A table without rows does not come back (kernel-checked witness)."
  },
  {
   "property": "C46",
   "status": "proved",
   "theorems": [
    "Verif.C46_iff",
    "Verif.C46_fuel",
    "Verif.C46_jk_bs"
   ],
   "note": "Exact characterisation, both directions."
  },
  {
   "property": "C47",
   "status": "proved",
   "theorems": [
    "Verif.C47_symmetrize",
    "Verif.C47_iff",
    "Verif.C47_matrices",
    "Verif.construct_general",
    "Verif.C47_violation_split_name"
   ],
   "note": "symmetrize_triangular rebuilds exactly the symmetric matrix of the given upper triangle, and is defined exactly for triangular lengths; with the column names the queries produce, construct_matrix_from_elements gives X'X/n and X'y/n of the raw rows for any number of features. Recorded disagreement: a split column named like a statistic (e.g. `x0`) makes it fail, C47_violation_split_name; C47_matrices excludes it by the hypothesis NoClash."
  },
  {
   "property": "C48",
   "status": "proved",
   "theorems": [
    "Verif.C48_ridge",
    "Verif.C48_ridge_computed",
    "Verif.C48_normalized",
    "Verif.C48_normalized_computed",
    "Verif.C48_same_as_pandas",
    "Verif.C48_violation_collinear"
   ],
   "note": "Unique minimiser of the penalised squared loss on the raw rows, with/without intercept and normalisation, and equal to what Model.compute gives on a DataFrame for any solver that minimises. Exact real arithmetic, no NULLs in the regression columns. Singular systems (collinear features with alpha 0) raise instead: C48_violation_collinear."
  },
  {
   "property": "C49",
   "status": "proved",
   "theorems": [
    "Verif.C49_soft_threshold",
    "Verif.C49_rest_is_minimiser",
    "Verif.C49_minimiser_rests",
    "Verif.C49_rows",
    "Verif.C49_user",
    "Verif.C49_stop_bound",
    "Verif.C49_violation_zero_ratio",
    "Verif.C49_rate",
    "Verif.C49_converges"
   ],
   "note": "Fixed points of the proximal step = minimisers of the elastic net objective over the raw rows, also in the user's parameters alpha and l1_ratio (C49_user); C49_stop_bound bounds the loss gap by the residual of the last step. l1_ratio = 0 is refused although the message allows it (C49_violation_zero_ratio). See C60 for what the stopping rule does not give."
  },
  {
   "property": "C50",
   "status": "proved",
   "theorems": [
    "Verif.C50_sql",
    "Verif.C50_pandas"
   ],
   "note": "Both the SQL route (all rows, in the data or not) and Model.compute, for any solver with an optimal intercept."
  },
  {
   "property": "C51",
   "status": "proved",
   "theorems": [
    "Verif.C51_newton",
    "Verif.C51_fista"
   ],
   "note": "Newton's method and the proximal method on all slices at once give each slice exactly what a model without a split gives on its rows from the same starting point, failures included, whatever order the engine returns keys and statistics in. The starting point is given per slice (the code draws it at random); the text of a slice's condition (NULL keys, dates, texts with quotes) is not modelled: the condition is taken to hold for exactly the rows with that key."
  },
  {
   "property": "C52",
   "status": "proved",
   "theorems": [
    "Verif.C52_sig_minus_b",
    "Verif.C52_weight",
    "Verif.C52_gradient",
    "Verif.C52_hessian"
   ],
   "note": "sig_minus_b and the curvature weight are exact on both branches; gradient and Hessian columns (with the index arithmetic for the diagonal of the l2 penalty) are the derivatives of sklearn's objective, for all data, coefficients, penalties none/l2, with/without intercept. The gradient is that of the smooth part for l1/elasticnet. Exact real arithmetic, no NULLs."
  },
  {
   "property": "C53",
   "status": "proved",
   "theorems": [
    "Verif.C53_colour",
    "Verif.C53_flip",
    "Verif.C53_missing_bounds",
    "Verif.C53_null_ratio",
    "Verif.C53_value_irrelevant"
   ],
   "note": "For all intervals with lower <= upper and a ratio that is not null: green/red exactly when the whole interval is on the good/bad side; flip exchanges. Cells with a null ratio (controls) are never coloured, missing bounds never colour."
  },
  {
   "property": "C54",
   "status": "partial",
   "theorems": [
    "Verif.C54_warned_partial",
    "Verif.C54_consistent",
    "Verif.C54_violation_tolerance",
    "Verif.C54_violation_raises"
   ],
   "note": "Consistent values are shown exactly once per control (C54_consistent, any table). Violated otherwise: thresh = 1**-5 is 1, so disagreements below 1 are silently resolved to the minimum (C54_violation_tolerance), and if no group is consistent the display raises an UnboundLocalError (C54_violation_raises). Warnings are given exactly for disagreements above 1 (C54_warned_partial; missing: 0 in place of 1)."
  },
  {
   "property": "C55",
   "status": "partial",
   "theorems": [
    "Verif.C55_within_batch_partial",
    "Verif.C55_violation_batches",
    "Verif.C55_violation_units"
   ],
   "note": "Holds for one unit within one query only; the code repeats the weights in every batch and lets different units collide."
  },
  {
   "property": "C56",
   "status": "proved",
   "theorems": [
    "Verif.C56_case",
    "Verif.C56_max",
    "Verif.C56_cutoffs",
    "Verif.C56_uniform"
   ],
   "note": "Exact arithmetic on the literal cutoffs of the query."
  },
  {
   "property": "C57",
   "status": "partial",
   "theorems": [
    "Verif.C57_size_partial",
    "Verif.C57_uniform",
    "Verif.C57_units_partial",
    "Verif.C57_violation_zero",
    "Verif.C57_violation_null"
   ],
   "note": "RAND()=0 loses a row and missing units are drawn in SQL only; otherwise proved."
  },
  {
   "property": "C58",
   "status": "partial",
   "theorems": [
    "Verif.C58_one_unit_partial",
    "Verif.C58_violation_two_units"
   ],
   "note": "Holds for one resampler; two resamplers by different units in one tree share keys."
  },
  {
   "property": "C59",
   "status": "partial",
   "theorems": [
    "Verif.C59_sql_multiplied_partial",
    "Verif.C59_violation_names",
    "Verif.C59_violation_sql_multiplied"
   ],
   "note": "Both halves are false of the code in general (kernel-checked witnesses)."
  },
  {
   "property": "C60",
   "status": "partial",
   "theorems": [
    "Verif.C60_violation_momentum",
    "Verif.C49_stop_bound"
   ],
   "note": "Violated: the stopping test looks only at the change of the coefficients; with momentum the iteration can stand still for one step, and stop, at any distance from the minimum (C60_violation_momentum, for all distances R and iteration limits >= 4). What holds instead is C49_stop_bound."
  },
  {
   "property": "C61",
   "status": "partial",
   "theorems": [
    "Verif.C61_newton_rest",
    "Verif.C61_newton_returns",
    "Verif.C61_minimiser_rests",
    "Verif.C61_fista_rest",
    "Verif.C61_user",
    "Verif.C61_violation_labels",
    "Verif.C61_newton_stop",
    "Verif.C61_fista_stop",
    "Verif.C61_fista_rate",
    "Verif.C61_converges"
   ],
   "note": "Proved for labels as numbers: at rest = minimiser (Newton none/l2, both directions for l2; proximal l1/elasticnet), l2 never fails, and in the user's parameters penalty, C, l1_ratio with the intercept first (C61_user). Violated for labels other than 0 and 1, which sklearn maps to 0 and 1 but the SQL uses as numbers: with labels >= 1 and an intercept no coefficients are at rest, C61_violation_labels."
  },
  {
   "property": "C62",
   "status": "partial",
   "theorems": [
    "Verif.C62_hidden_partial",
    "Verif.C62_violation_auto_decide"
   ],
   "note": "Proved without auto_decide_control_vals. With it, the control rows dropped by show_control=False are put back with their values: C62_violation_auto_decide. A Description column in the data and sort_by are not modelled."
  },
  {
   "property": "C63",
   "status": "partial",
   "theorems": [
    "Verif.C63_single_partial",
    "Verif.C63_dict_partial",
    "Verif.C63_violation_unlisted",
    "Verif.C63_violation_null_dim",
    "Verif.C63_repeated",
    "Verif.C63_violation_nan_description",
    "Verif.C63_description_partial"
   ],
   "note": "Proved for one control and for a dict of controls, rows with non-null keys. Violated: experiments the dict does not mention vanish silently (C63_violation_unlisted), as do rows with a null dimension (C63_violation_null_dim)."
  },
  {
   "property": "C64",
   "status": "proved",
   "theorems": [
    "Verif.C64_control_first"
   ],
   "note": "All tables, switches and forms of ctrl_id, without sort_by."
  },
  {
   "property": "C65",
   "status": "partial",
   "theorems": [
    "Verif.C65_plain",
    "Verif.C65_violation_control_id"
   ],
   "note": "Control_Id, kept by display_expr_info=True when metric_order is not given, is formatted as a metric and always shows N/A: C65_violation_control_id."
  },
  {
   "property": "C66",
   "status": "partial",
   "theorems": [
    "Verif.C66_theta_is_slope",
    "Verif.C66_cuped_value",
    "Verif.C66_prepost_value",
    "Verif.C66_shortcut",
    "Verif.C66_violation_constant_covariate",
    "Verif.C66_missing_slope_partial",
    "Verif.C66_missing_level_sql",
    "Verif.C66_missing_level_violation"
   ],
   "note": "Proved wherever the slope exists. Violated where the covariate is constant in a slice: one covariate gives a missing value, the regression for several gives the unadjusted value (C66_violation_constant_covariate). With missing values the slope is that of the complete strata if every stratum has both values or neither; otherwise compute_on's slope is not, and its change moves with the level of the metric (C66_missing_level_violation)."
  },
  {
   "property": "C67",
   "status": "partial",
   "theorems": [
    "Verif.C67_experiment",
    "Verif.C67_control",
    "Verif.C67_no_value",
    "Verif.C67_nothing",
    "Verif.C67_range",
    "Verif.C67_range_missing",
    "Verif.C67_violation_default_ratio",
    "Verif.C67_violation_percent"
   ],
   "note": "Contents of all cells proved, over a given rendering of numbers. Two statements of the documentation about the formats are false of the code (kernel-checked)."
  },
  {
   "property": "C68",
   "status": "partial",
   "theorems": [
    "Verif.C68_cell_partial",
    "Verif.C68_id_only",
    "Verif.C68_default_dims_partial",
    "Verif.C68_violation_falsy_id",
    "Verif.C68_violation_ten_dims"
   ],
   "note": "False for the experiment ids 0 and '', which are not shown, and for ten or more default dimensions (witnesses); proved otherwise."
  },
  {
   "property": "C69",
   "status": "partial",
   "theorems": [
    "Verif.C69_sorted",
    "Verif.C69_order",
    "Verif.C69_missing_last",
    "Verif.C69_listed_shown",
    "Verif.C69_columns_partial",
    "Verif.C69_second_call_partial",
    "Verif.C69_violation_unlisted",
    "Verif.C69_violation_level_0",
    "Verif.C69_violation_second_call",
    "Verif.C69_unlisted_last"
   ],
   "note": "The order of the rows is proved. False of the code (witnesses): values that 'order' does not list become NaN, a lone key column gets a level_0 column, the caller's sort_by is changed."
  },
  {
   "property": "C70",
   "status": "partial",
   "theorems": [
    "Verif.C70_metric_order_partial",
    "Verif.C70_no_order",
    "Verif.C70_spread",
    "Verif.C70_violation_unlisted",
    "Verif.C70_no_keys"
   ],
   "note": "A metric that metric_order does not list is not shown (proved), so that the full claim is false."
  },
  {
   "property": "C71",
   "status": "partial",
   "theorems": [
    "Verif.C71_index_partial",
    "Verif.C71_levels",
    "Verif.C71_violation_diversity",
    "Verif.C71_superset"
   ],
   "note": "Proved for all trees in which diversity operations have no child with an index (witness that it is false there), over the value model of metric trees."
  },
  {
   "property": "C72",
   "status": "partial",
   "theorems": [
    "Verif.C72_names_partial",
    "Verif.C72_rename_root",
    "Verif.C72_operators",
    "Verif.C72_violation_nested_rename",
    "Verif.C72_violation_template",
    "Verif.C72_violation_single_rename",
    "Verif.C72_violation_constant_template",
    "Verif.C72_violation_lost_column",
    "Verif.C72_rename_single",
    "Verif.C72_list_name"
   ],
   "note": "Proved for orderly trees (class NM.Orderly: distinct names of index and value columns, distributions of metrics without an index, diversities of simple metrics, one simple operand if the numbers of columns differ). The violations show that the claim is false outside. Jackknife, Bootstrap, models and MultiplyBy-like metrics are not in this model."
  },
  {
   "property": "C73",
   "status": "partial",
   "theorems": [
    "Verif.C73_valid_partial",
    "Verif.C73_index_partial",
    "Verif.C73_violation_distribution",
    "Verif.C73_violation_diversity",
    "Verif.C73_violation_product",
    "Verif.C73_violation_alias",
    "Verif.C73_merge_conditions"
   ],
   "note": "Same class as C72; the violations are queries outside that databases reject or whose index columns are wrong."
  },
  {
   "property": "C74",
   "status": "partial",
   "theorems": [
    "Verif.C74_slot_exact_partial",
    "Verif.C74_simple",
    "Verif.C74_operation",
    "Verif.C74_positive_violation",
    "Verif.C74_cov_order_violation",
    "Verif.C74_functions_and_names_violation"
   ],
   "note": "Exact characterisation of which metrics share a slot, for all trees of built-in classes. The claim is false for the arguments the violation theorems name (positive, selection, solver, class weights of the regressions; order of the variables of Cov with missing values; function of a CompositeMetric; column names). Custom classes: see C06."
  },
  {
   "property": "C75",
   "status": "partial",
   "theorems": [
    "Verif.C75_no_confusion_partial",
    "Verif.C75_transparent_partial",
    "Verif.C75_constant_violation",
    "Verif.C75_baseline_violation",
    "Verif.C75_slice_violation"
   ],
   "note": "Keys are compared by their hashes only. Proved: no confusion and transparent caching when texts/tuples do not collide by accident and all numbers are multiples of one fraction 1/d below (2^61 - 1)/d in size, other than -1 (d = 1: ordinary integers; d = 2^56: floats such as 0.1). False otherwise: CPython's hash(-1) == hash(-2) and hash(n/d) == hash((n + k (2^61 - 1))/d), e.g. 0.5 and 2^60, so e.g. MetricList([Sum(x) * -1, Sum(x) * -2]) shows the first value twice; likewise baselines and slices."
  },
  {
   "property": "C76",
   "status": "partial",
   "theorems": [
    "Verif.C76_any_division",
    "Verif.C76_mixed_mode_partial",
    "Verif.C76_failing_child_violation",
    "Verif.C76_null_group_violation",
    "Verif.C76_empty_sum_violation"
   ],
   "note": "Any division of the tree is right if the queries are (C76_any_division); mixed mode has exactly the outcome of compute_on, errors included, for aggregations, arithmetic, lists, Distribution, HHI and changes, outside the points of the three violations. Missing: the queries of whole subtrees in default mode (C12), models, Jackknife, Bootstrap, PrePostChange, MH."
  },
  {
   "property": "C77",
   "status": "partial",
   "theorems": [
    "Verif.C77_agrees_on_all_data",
    "Verif.C77_agrees_partial",
    "Verif.C77_defined",
    "Verif.C77_cov_violation",
    "Verif.C77_weighted_mean_violation",
    "Verif.C77_textbook"
   ],
   "note": "Unweighted Variance, StandardDeviation, CV, Correlation, Mean, Count, Max, Min, normalized Dot and arithmetic of them: SQL = compute_on on all data (C77_agrees_on_all_data). Sums, weighted statistics and Cov: on data that fit (C77_agrees_partial); outside, violated. Not modelled: that a database evaluates the standard's formulas exactly; floating point."
  },
  {
   "property": "C78",
   "status": "partial",
   "theorems": [
    "Verif.C78_reading_unique",
    "Verif.C78_base_partial",
    "Verif.C78_not_base_partial",
    "Verif.C78_mh_exclude_partial",
    "Verif.C78_split_partial",
    "Verif.C78_loo_partial",
    "Verif.C78_loo_agrees_partial",
    "Verif.C78_case_partial",
    "Verif.C78_user_condition_partial",
    "Verif.C78_sql_condition_partial",
    "Verif.C78_quote_violation",
    "Verif.C78_eqeq_violation",
    "Verif.C78_date_violation",
    "Verif.C78_backslash_violation",
    "Verif.C78_newline_violation",
    "Verif.C78_loo_null_violation",
    "Verif.C78_user_condition_violation",
    "Verif.C78_slice_partial",
    "Verif.C78_slices_partial",
    "Verif.C78_slice_violation",
    "Verif.C78_user_rows_partial",
    "Verif.C78_user_rows_positive_partial",
    "Verif.C78_user_null_violation"
   ],
   "note": "Proved for names that are words and for integers and strings that need no escape, any number of columns, all rows with NULLs; conditions of =, !=, <, <=, >, >=, not, and, or, parentheses; the rows that df.query keeps are those the database keeps if the values are there or nothing is negated. Violated for strings with quotation marks, backslashes, line breaks or ==, for dates, (leave-one-out) for rows without a unit, and for rows without the value under != or not. Not modelled: <>, in, between, is null, arithmetic, floats, booleans, typing of literals by the database."
  },
  {
   "property": "C79",
   "status": "partial",
   "theorems": [
    "Verif.C79_history",
    "Verif.C79_pure_history",
    "Verif.C79_pipe",
    "Verif.C79_pipe_total",
    "Verif.C79_reuse",
    "Verif.C79_copy",
    "Verif.C79_copy_total",
    "Verif.C79_push",
    "Verif.C79_push_total",
    "Verif.C79_add_where",
    "Verif.C79_copy_independent",
    "Verif.C79_leak_violation",
    "Verif.C79_shared_violation",
    "Verif.C79_name_violation",
    "Verif.C79_new",
    "Verif.C79_combine",
    "Verif.C79_rename",
    "Verif.C79_fmt"
   ],
   "note": "Proved for every history of the modelled steps. Violated: an operation is its own first result, so a filter added to that result is in all later results; a metric is shared with what is built from it, so a filter added to it later changes those; a custom name of an operation is lost by applying it. Not modelled: caches (C01-C05), lists passed in by the user, Model.__call__."
  },
  {
   "property": "C80",
   "status": "partial",
   "theorems": [
    "Verif.C80_columns",
    "Verif.C80_se_columns",
    "Verif.C80_sql_ci",
    "Verif.C80_sql_se",
    "Verif.C80_sql_change",
    "Verif.C80_sql",
    "Verif.C80_dataframe_ci",
    "Verif.C80_dataframe_se",
    "Verif.C80_null_violation",
    "Verif.C80_expressions"
   ],
   "note": "Proved for all tables whose slice keys are not NULL, in SQL and DataFrame/mixed modes against one specification. Missing, and proved false (C80_null_violation): with a NULL slice key the LEFT JOIN USING loses the standard error in SQL mode."
  },
  {
   "property": "C81",
   "status": "partial",
   "theorems": [
    "Verif.C81_percent",
    "Verif.C81_absolute",
    "Verif.C81_exists",
    "Verif.C81_dataframe",
    "Verif.C81_sql",
    "Verif.C81_cache_partial",
    "Verif.C81_cache_one_use",
    "Verif.C81_sql_violation",
    "Verif.C81_cache_violation",
    "Verif.C81_equal_violation",
    "Verif.C81_cache_own_partial"
   ],
   "note": "Proved for DataFrames without reuse of cached results by other objects or with other splits in between, and for SQL with include_base=True and a control in every slice. Missing, and proved false: SQL mode without include_base lacks the control's value (C81_sql_violation); an object called with splits a, b, a gets the result of a with the compared values of b (C81_cache_violation); an equal metric reading the cached result fails with a KeyError (C81_equal_violation). PrePostChange and CUPED not covered."
  },
  {
   "property": "C82",
   "status": "partial",
   "theorems": [
    "Verif.C82_accepts_op",
    "Verif.C82_accepts_list",
    "Verif.C82_accepts_violation",
    "Verif.C82_dataframe_partial",
    "Verif.C82_value_partial",
    "Verif.C82_dataframe_violation",
    "Verif.C82_sql_partial",
    "Verif.C82_sql_violation",
    "Verif.C82_sql_list_violation"
   ],
   "note": "Proved for names that do not clash and, in queries, list filters that are part of the global filter. False otherwise (theorems _violation): Sum('x', where='a') / Sum('x') divides the numerator by itself in SQL; a list filter that is not global yields a reference to a missing column; a user's function with op(2, 2) = 1 is accepted."
  },
  {
   "property": "C83",
   "status": "partial",
   "theorems": [
    "Verif.C83_reads_partial",
    "Verif.C83_reading_unique",
    "Verif.C83_column",
    "Verif.C83_text_source",
    "Verif.C83_user_select",
    "Verif.C83_select_name_violated",
    "Verif.C83_user_with_violated",
    "Verif.C83_self_join_violated",
    "Verif.C83_user_with"
   ],
   "note": "Proved by mutual induction on the query for all nesting depths: the printed text is read, by a lexer and reader defined for any text, as exactly what the object says; unique. Texts put in by the user must be expressions, names, tables or statements (WF). Excluded and shown to fail: tables whose name begins with SELECT (printed in parentheses, where the grammar, like that of BigQuery, has only queries and joins), statements beginning with WITH and a tab, a join of a table with itself (printed as the table). Missing: a join as the second table of a join, quoted names as aliases, comments in user texts."
  },
  {
   "property": "C84",
   "status": "partial",
   "theorems": [
    "Verif.C84_preaggregated",
    "Verif.C84_resampled",
    "Verif.C84_poisson",
    "Verif.C84_poisson_rows",
    "Verif.C84_slices",
    "Verif.C84_succeeds",
    "Verif.C84_names",
    "Verif.C84_violation_missing_unit",
    "Verif.C84_violation_filter",
    "Verif.C84_violation_name",
    "Verif.C84_violation_twice",
    "Verif.C84_sample",
    "Verif.C84_poisson_sample",
    "Verif.C84_sql",
    "Verif.C84_sql_resampled",
    "Verif.C84_sql_poisson",
    "Verif.C84_sql_columns",
    "Verif.C84_violation_sql_count"
   ],
   "note": "Proved for every tree, table, split, sample and weight when no row lacks a value in the grouping columns, no filter empties a slice of the sample and the new columns have distinct names (C84_names: the names in use tell sums from maxima unless a column is named with underscores and special characters only). Violated otherwise: rows without a unit are dropped from the point estimate; slices emptied by a filter appear with 0; a column split by twice raises; a column named _ is not weighted."
  },
  {
   "property": "C85",
   "status": "partial",
   "theorems": [
    "Verif.C85_root",
    "Verif.C85_default_mode",
    "Verif.C85_nested_violation",
    "Verif.C85_nested_argument",
    "Verif.C85_poisson_zero"
   ],
   "note": "Proved for a metric that is called itself (over a child without resampling). Violated below any other metric: compute_util_metric_on_sql passes return_dataframe positionally where MetricWithCI expects batch_size, so that every query has one resample and sql_batch_size is ignored; a Poisson bootstrap by unit then has standard error 0 on a database that reads True as 1."
  },
  {
   "property": "C86",
   "status": "partial",
   "theorems": [
    "Verif.C86_shows_partial",
    "Verif.C86_shows_columns",
    "Verif.C86_only",
    "Verif.C86_change_partial",
    "Verif.C86_plain",
    "Verif.C86_splits",
    "Verif.C86_expr_id_partial",
    "Verif.C86_violation_float",
    "Verif.C86_violation_float_control",
    "Verif.C86_violation_template",
    "Verif.C86_violation_dim_name",
    "Verif.C86_colour_partial",
    "Verif.C86_expr_id_text"
   ],
   "note": "Proved for slices without missing values, condition columns of integers and texts (or any ids that tell the conditions apart), and templates that end like the default ones. Violated: condition columns of integers and of floats together (the control is not recognised), templates that keep names (display() can fail), a condition column named Dim_.. without split_by."
  },
  {
   "property": "C87",
   "status": "partial",
   "theorems": [
    "Verif.C87_history_partial",
    "Verif.C87_root_partial",
    "Verif.C87_right_partial",
    "Verif.C87_alternates_violation",
    "Verif.C87_shared_violation",
    "Verif.C87_to_sql_violation"
   ],
   "note": "Violated: the mark `_is_root_node` stays on a Jackknife or Bootstrap that has a filter or can be precomputed, and the next query takes it for the root. For every such metric in a list each second compute_on_sql of the list has SE and degrees of freedom in the place of the bounds (proved for all lists and all numbers of calls). Proved: any history for metrics with a confidence level at the root only; histories without such metrics for every metric."
  },
  {
   "property": "C88",
   "status": "partial",
   "theorems": [
    "Verif.C88_se_partial",
    "Verif.C88_ci_partial",
    "Verif.C88_all_fail",
    "Verif.C88_iterator",
    "Verif.C88_leave_out",
    "Verif.C88_slice_violation",
    "Verif.C88_rename_violation"
   ],
   "note": "Proved between resamples and between the metrics of a list. Violated between slices (an exception on one slice loses the resample for all slices of the metric) and for lists with rename_columns (a failing metric loses the resample for the whole list); witnesses proved."
  },
  {
   "property": "C89",
   "status": "partial",
   "theorems": [
    "Verif.C89_queries",
    "Verif.C89_one_query",
    "Verif.C89_unknown_mode",
    "Verif.C89_cause",
    "Verif.C89_advice",
    "Verif.C89_beam",
    "Verif.C89_labels_partial",
    "Verif.C89_swallowed_violation",
    "Verif.C89_labels_violation"
   ],
   "note": "Queries and causes for any tree and any execute that raises no NotImplementedError. Violated by the code: a NotImplementedError raised by execute is swallowed and other queries are run; the batches of a Bootstrap have equal labels in Beam if the clock does not advance. Not covered: the query for the base values of a change, marks left by earlier calls (C87)."
  },
  {
   "property": "C90",
   "status": "partial",
   "theorems": [
    "Verif.C90_constructor",
    "Verif.C90_pipe_partial",
    "Verif.C90_filtered_partial",
    "Verif.C90_classes_partial",
    "Verif.C90_rejects",
    "Verif.C90_filter_violation",
    "Verif.C90_classes_violation",
    "Verif.C90_name_violation",
    "Verif.C90_wide_violation",
    "Verif.C90_alone_violation",
    "Verif.C90_equal_columns_violation",
    "Verif.C90_names"
   ],
   "note": "Constructor and pipe for any metrics with distinct columns and a response of one column. Violated by the code: LinearRegression and Lasso in magic mode drop the filter of the list, LogisticRegression's check of the classes too; a name is lost by the pipe; a response with two columns, a list with the response only and columns that compute the same are fit wrongly or fail in magic mode. The values of the columns are not in this model (C09, C76)."
  },
  {
   "property": "C91",
   "status": "partial",
   "theorems": [
    "Verif.C91_slices",
    "Verif.C91_error",
    "Verif.C91_slice_alone",
    "Verif.C91_cache_partial",
    "Verif.C91_child_error",
    "Verif.C91_split_violation",
    "Verif.C91_hash_violation",
    "Verif.C91_empty_violation",
    "Verif.C91_concat_violation",
    "Verif.C91_fallback_violation"
   ],
   "note": "Slices, order, labels, rows and exceptions proved for every function and all hashes; transparency of the cache proved for all programs (nested helpers, filters, slices in slices, caught exceptions) by an invariant over the cache, under the conditions that split values are multiples of one fraction of ordinary size other than -1 and that helpers are not asked for the running split. Violated by the code otherwise: a helper asked without split under a running split gets the split result (a share of the total is always 1), the slices -1 and -2 share cache entries, no rows give IndexError, a ValueError of concat with several split columns gives None, a NotImplementedError of a child is dropped."
  },
  {
   "property": "C92",
   "status": "partial",
   "theorems": [
    "Verif.C92_distinct_partial",
    "Verif.C92_kept_partial",
    "Verif.C92_reuse_violation",
    "Verif.C92_hidden_violation",
    "Verif.C92_across_violation"
   ],
   "note": "Proved for all histories in which no address is given twice, in particular (C92_kept_partial) when no metric is dropped, whatever addresses the memory gives, nothing outside the fingerprint changes and instances sharing across differ only in the fingerprint. Violated by the code otherwise: an address that is given again makes a new metric return the value of the dropped one (C92_reuse_violation); hidden state changes are not noticed; cache_across_instances shares between instances that differ in hidden state. Children and differing data, split or cache key are not modelled here (C75, C91)."
  },
  {
   "property": "C93",
   "status": "partial",
   "theorems": [
    "Verif.C93_cuped_one",
    "Verif.C93_cuped_several",
    "Verif.C93_prepost_one",
    "Verif.C93_prepost_several",
    "Verif.C93_sql",
    "Verif.C93_mixed_partial",
    "Verif.C93_mixed_violation"
   ],
   "note": "Proved on DataFrames and for the one query, and for one metric in mixed mode. With several metrics in mixed mode (SQL with several covariates always uses it) the claim is false: only the first has a result and the others are taken for covariates (C93_mixed_violation)."
  },
  {
   "property": "C94",
   "status": "partial",
   "theorems": [
    "Verif.C94_complete",
    "Verif.C94_balanced_partial",
    "Verif.C94_violation",
    "Verif.C94_nothing",
    "Verif.C94_logit_rest",
    "Verif.C94_logit_partial",
    "Verif.C94_logit_nothing",
    "Verif.C94_logit_complete",
    "Verif.C94_logit_l2_violation",
    "Verif.C94_logit_violation",
    "Verif.C94_enet_complete"
   ],
   "note": "Complete rows: exactly the model of C48. With y missing in some rows and no penalty: the fit of the complete rows when the features' averages over them are those over all rows. The full claim is false of the code: C94_violation has groups exactly on a line of slope 1 and another slope, any number depending on the level of y, over SQL, while Python refuses. Elastic net and logistic regression with missing values are not modelled. LogisticRegression: at rest the fit of the complete groups without a penalty; with one it is the fit for C times (groups / complete groups), so that with l2 the claim holds only if all coefficients are 0 (C94_logit_l2_violation)."
  },
  {
   "property": "C95",
   "status": "partial",
   "theorems": [
    "Verif.C95_classes",
    "Verif.C95_binary",
    "Verif.C95_labels_partial",
    "Verif.C95_intercept_violation",
    "Verif.C95_class_violation",
    "Verif.C95_complete"
   ],
   "note": "The columns and their values exactly, for every fitted model. Names are unique for features with distinct names, none called intercept, and classes written without a space; C95_intercept_violation and C95_class_violation show that they are not outside."
  },
  {
   "property": "C96",
   "status": "partial",
   "theorems": [
    "Verif.C96_logit",
    "Verif.C96_refused",
    "Verif.C96_accepted",
    "Verif.C96_enet_partial",
    "Verif.C96_positive_violation"
   ],
   "note": "LogisticRegression over SQL without a split: proved for all options that change the problem (penalty, C, l1_ratio, class_weight, intercept_scaling, fit_intercept): what is not refused is minimised when at rest (labels 0 and 1, see C61 for others). ElasticNet and Lasso: positive=True is accepted and not used over SQL (violation); proved without it. Options about the search (solver, dual, ...) are not modelled."
  },
  {
   "property": "C97",
   "status": "partial",
   "theorems": [
    "Verif.C97_history_partial",
    "Verif.C97_leave_one_out_partial",
    "Verif.C97_other_data",
    "Verif.C97_filter",
    "Verif.C97_filter_below",
    "Verif.C97_mean",
    "Verif.C97_levels"
   ],
   "note": "Proved for all histories of calls of metrics and Jackknifes with one cache, if Jackknifes by one unit are all on the same data, have no filter of their own and no unweighted mean is used; calls and parts of metrics may fail. The code violates the claim otherwise: four kinds of histories with wrong leave-one-out values are proved."
  },
  {
   "property": "C98",
   "status": "partial",
   "theorems": [
    "Verif.C98_point_estimate_partial",
    "Verif.C98_missing_unit_violation"
   ],
   "note": "A Jackknife of sums and counts, on a fresh cache, is that of the rows that have a unit; without rows that lack one the point estimate is the metric's value. With such rows the code violates the claim (proved on a case)."
  },
  {
   "property": "C99",
   "status": "partial",
   "theorems": [
    "Verif.C99_round_trip_partial",
    "Verif.C99_rows_partial",
    "Verif.C99_cleanup",
    "Verif.C99_same_instant_violation",
    "Verif.C99_na_violation",
    "Verif.C99_digits_violation",
    "Verif.C99_shards_violation",
    "Verif.C99_brackets_violation",
    "Verif.C99_example",
    "Verif.C99_set_violation",
    "Verif.C99_question_violation"
   ],
   "note": "Proved for tables whose files can be told apart: texts that pandas does not take for missing values or numbers, one kind per column; directories without wildcards (`[]` is none). Violated by the code otherwise (seven theorems: among them, a directory called a?b or run[!b-d] makes it read and delete the files of other directories). Not modelled: carriage returns, rounding of floating point numbers by the parser, empty or equal names of columns."
  }
 ]
}