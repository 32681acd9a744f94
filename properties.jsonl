{"id": "C01", "title": "Caching is transparent", "statement": "For every metric tree and every sequence of compute_on calls that share one cache dict under a key bound to one DataFrame, each call returns the value the same call returns with no cache at all.", "quantifier": "all metric trees, DataFrames, split_by lists, and all finite sequences of calls sharing a cache", "why_tests_cant": "A wrong hit only shows when two particular metrics of one tree or history collide; the space of pairs and histories is unbounded.", "anchors": ["metrics.py:Metric._compute_with_caching_and_postprocessing", "metrics.py:Metric.wrap_cache_key", "utils.py:CacheKey"]}
{"id": "C02", "title": "Metrics that share a cache identity compute the same numbers", "statement": "Whenever two metrics have equal fingerprints (so that they are stored in the same cache slot for the same data, split_by and filters) they compute the same numbers on every DataFrame.", "quantifier": "all pairs of metric trees and all DataFrames", "why_tests_cant": "Quantifies over all pairs of expressions; tests only compare chosen pairs (Mean versus Sum/Count).", "anchors": ["metrics.py:Metric.get_fingerprint", "metrics.py:CompositeMetric.get_fingerprint", "metrics.py:Ratio.get_fingerprint", "utils.py:CacheKey.__init__"]}
{"id": "C03", "title": "Reading a cached result does not change what later readers get", "statement": "After a result was stored in a cache, any number of later computations that read it (directly, or as a child of arithmetic on metrics) leave it as it was, names and numbers, so every later read returns the same table.", "quantifier": "all cached tables and all sequences of later reads and of metric arithmetic built on them", "why_tests_cant": "Needs three or more uses of one cached multi-column result in a particular order; the number of histories is unbounded.", "anchors": ["metrics.py:Metric.get_cached", "metrics.py:CompositeMetric.compute_on_children", "operations.py:Operation.manipulate", "utils.py:apply_name_tmpl"]}
{"id": "C04", "title": "A metric object has no memory of earlier calls", "statement": "The value of metric.compute_on(df, split_by, cache_key=k, cache=c) depends on the arguments and on the content of c, not on which compute_on calls were made on the same metric object before.", "quantifier": "all metric objects and all finite histories of compute_on calls on them", "why_tests_cant": "The hidden state is an attribute left behind by earlier calls; tests exercise fresh objects.", "anchors": ["metrics.py:Metric._compute_with_caching_and_postprocessing", "metrics.py:Metric.wrap_cache_key", "utils.py:CacheKey.__init__"]}
{"id": "C05", "title": "A computation without cache_key leaves no trace, even when it fails", "statement": "When compute_on is called without a cache_key, then after it returns or raises, at whatever point of the tree the failure happened, the cache it used is empty and no metric of the tree keeps a cache key.", "quantifier": "all metric trees, all DataFrames, all failure points", "why_tests_cant": "The failure point ranges over every node and every slice.", "anchors": ["metrics.py:Metric._compute_with_caching_and_postprocessing", "metrics.py:Metric.clean_up_cache", "metrics.py:Metric.compute_slices", "metrics.py:Metric.traverse"]}
{"id": "C06", "title": "Equality of metrics agrees with hashing", "statement": "Metric equality is reflexive and symmetric, and metrics that compare equal have equal hashes, so metrics can be used as dict keys.", "quantifier": "all pairs of metrics, built-in or custom", "why_tests_cant": "Pairs of arbitrary trees.", "anchors": ["metrics.py:Metric.__eq__", "metrics.py:Metric.__hash__", "metrics.py:Metric.get_fingerprint"]}
{"id": "C07", "title": "A filter list means a set of conditions", "statement": "The effect of where=[...] and of any sequence of add_where calls depends only on the set of conditions given, not on order or repetition: the combined condition holds of a row exactly if every condition does, also when a condition contains 'or'.", "quantifier": "all lists of conditions, all rows, all sequences of add_where", "why_tests_cant": "Orders and multiplicities are unbounded; string precedence bugs appear only for particular mixes of and/or.", "anchors": ["metrics.py:Metric.where", "metrics.py:Metric.add_where", "sql.py:Filters"]}
{"id": "C08", "title": "Splitting commutes with computing", "statement": "For every metric built from the aggregations and arithmetic, the row of compute_on(df, split_by) for slice v equals compute_on of the rows of df whose split_by columns are v, and slices are exactly the values that occur.", "quantifier": "all metric trees, DataFrames, split_by lists and slice values", "why_tests_cant": "Any vectorised group-by path can mishandle one slice; data shapes are unbounded.", "anchors": ["metrics.py:Metric.compute_slices", "metrics.py:Metric.split_data", "metrics.py:SimpleMetric", "metrics.py:CompositeMetric.compute_on_children"]}
{"id": "C09", "title": "A filter on a metric equals filtering the data", "statement": "For a metric with where=f, compute_on(df) equals the unfiltered metric's compute_on of the rows satisfying f, and filters of nested metrics combine by conjunction.", "quantifier": "all metric trees with filters at any node, all DataFrames", "why_tests_cant": "Nesting depth and filter placement are unbounded.", "anchors": ["metrics.py:Metric.compute_through", "metrics.py:Metric.where"]}
{"id": "C10", "title": "Moving all filters to the leaves does not change results", "statement": "The metric tree in which every filter has been pushed down to the leaf metrics computes the same numbers as the original tree for every tree without resampling operations.", "quantifier": "all filtered trees without resampling, all DataFrames", "why_tests_cant": "All shapes of trees.", "anchors": ["utils.py:push_filters_to_leaf"]}
{"id": "C11", "title": "The filter hoisted to the query's WHERE holds for every leaf", "statement": "The condition meterstick hoists to the global WHERE of a query is implied, for every leaf metric of the tree, by the filters on the path from the root to that leaf, and hoisting plus the remaining per-leaf conditions is exactly the original condition.", "quantifier": "all filtered trees and rows", "why_tests_cant": "Intersections over arbitrary trees.", "anchors": ["utils.py:get_global_filter", "metrics.py:SimpleMetric.get_sql_and_with_clause", "sql.py:Filters.remove"]}
{"id": "C12", "title": "SQL and DataFrame computation agree", "statement": "For Sum, Count, count distinct, Mean (weighted or not), Max, Min, Dot, arithmetic of these and lists of these, with filters anywhere, the generated aggregate query evaluated under SQL null semantics gives, per group, the same numbers as compute_on (null for an empty sum excepted: pandas gives 0, SQL gives NULL).", "quantifier": "all such metric trees, DataFrames with nulls, groups", "why_tests_cant": "The two evaluators must agree on every tree and data set.", "anchors": ["metrics.py:SimpleMetric.get_sql_and_with_clause", "metrics.py:CompositeMetric.get_sql_and_with_clause", "sql.py:Column.expression"]}
{"id": "C13", "title": "A failing metric in a list does not affect the others", "statement": "If some metrics of a MetricList raise, the result holds exactly the columns of the metrics that succeed, in order, with the values they have on their own; a rename with a wrong number of names is refused, never misapplied.", "quantifier": "all lists of metrics, failing at any subset", "why_tests_cant": "All failing subsets.", "anchors": ["metrics.py:MetricList.compute_slices", "metrics.py:MetricList.manipulate", "metrics.py:MetricList.compute_on_children"]}
{"id": "C14", "title": "Nth picks the right row from either end", "statement": "Nth(var, n, sort_by) returns, per slice, the n-th row's value in sort order for n>=0, the |n|-th from the end for n<0, and null if there is no such row; Nth(-1) with ascending order equals Nth(0) with descending order.", "quantifier": "all n, all slices, both orders, with or without dropna", "why_tests_cant": "All positions and sizes including off-by-one boundaries.", "anchors": ["metrics.py:Nth"]}
{"id": "C15", "title": "Weighted quantile in SQL equals the weighted quantile in Python", "statement": "For positive weights and every quantile in [0,1], the generated SQL computes the same interpolated quantile as compute_on.", "quantifier": "all non-empty weighted samples and all quantiles", "why_tests_cant": "A knot of the interpolation must coincide with the requested quantile; tests use generic quantiles.", "anchors": ["metrics.py:Quantile.compute_slices", "metrics.py:Quantile.get_sql_and_with_clause"]}
{"id": "C16", "title": "Quantile results are ordered and bounded", "statement": "A quantile, weighted or not, is non-decreasing in the quantile and always lies between the smallest and the largest value of the slice.", "quantifier": "all weighted and unweighted samples and quantiles", "why_tests_cant": "Unbounded samples.", "anchors": ["metrics.py:Quantile.compute_slices"]}
{"id": "C17", "title": "Expansion into elementary metrics terminates and is complete", "statement": "Expanding a metric tree into its equivalent always terminates and leaves only metrics that have no further equivalent (Sum, Count, Max, Min, Nth, Quantile, and operations over them).", "quantifier": "all metric trees", "why_tests_cant": "Termination over all trees.", "anchors": ["utils.py:get_fully_expanded_equivalent_metric_tree", "metrics.py:Metric.get_equivalent"]}
{"id": "C18", "title": "Expansion preserves values", "statement": "The expansion of Mean, Dot, Variance, StandardDeviation, CV, Cov and Correlation, weighted or not, biased or not, computes the textbook statistic on every complete data set, and the expanded tree keeps the filter and the name.", "quantifier": "all data sets without nulls, all option combinations", "why_tests_cant": "Algebraic identities over all data.", "anchors": ["metrics.py:Mean.get_equivalent_without_filter", "metrics.py:Dot.get_equivalent_without_filter", "metrics.py:Variance.get_equivalent_without_filter", "metrics.py:Cov.get_equivalent_without_filter", "metrics.py:Correlation.get_equivalent_without_filter", "metrics.py:CV.get_equivalent_without_filter"]}
{"id": "C19", "title": "Covariance of data with missing values uses complete pairs", "statement": "Cov and Dot-based statistics of two columns with missing values equal the statistic of the rows where both are present.", "quantifier": "all data sets with nulls", "why_tests_cant": "Needs nulls in one column only.", "anchors": ["metrics.py:Cov.get_equivalent_without_filter", "metrics.py:Cov.get_sql_columns"]}
{"id": "C20", "title": "Auxiliary columns never clash", "statement": "Two different derived columns requested during expansion never share a name, equal requests share one, and a derived column never overwrites a column of the user's DataFrame.", "quantifier": "all requested expressions and column names", "why_tests_cant": "All names.", "anchors": ["utils.py:parse_auxiliary_col", "utils.py:add_auxiliary_cols", "utils.py:get_unique_prefix"]}
{"id": "C21", "title": "Every generated alias is a valid identifier", "statement": "For every metric name, the alias used in the query contains only characters that are legal in an unquoted SQL identifier, does not begin with a digit, and escaping twice is the same as escaping once.", "quantifier": "all strings", "why_tests_cant": "All strings.", "anchors": ["sql.py:escape_alias"]}
{"id": "C22", "title": "Selected columns have unique names and none is lost", "statement": "However columns are added to a query, no two of its columns have the same alias, no two have the same expression, earlier columns keep their position, and every added expression is selected.", "quantifier": "all sequences of column additions", "why_tests_cant": "All sequences; name clashes trigger renaming that can clash again.", "anchors": ["sql.py:Columns.add", "sql.py:add_suffix"]}
{"id": "C23", "title": "A name always refers to the column it was given to", "statement": "After columns were added to a query, the alias a caller's column ends up with is the alias under which its own expression is selected.", "quantifier": "all sequences of column additions", "why_tests_cant": "Needs a clash followed by a repeated expression.", "anchors": ["sql.py:Columns.add", "sql.py:Columns.get_alias"]}
{"id": "C24", "title": "Named subqueries are never confused", "statement": "Adding or merging subqueries into the WITH clause returns a name under which exactly the table that was added can be read (up to merging of columns), and names stay unique; tables added earlier keep their names.", "quantifier": "all sequences of additions and merges", "why_tests_cant": "All sequences.", "anchors": ["sql.py:Datasources.add", "sql.py:Datasources.merge", "sql.py:Datasources.extend"]}
{"id": "C25", "title": "Printed column arithmetic has the intended value", "statement": "For every arithmetic expression over query columns, the generated SQL text parsed with SQL precedence denotes the same value as the arithmetic written in Python (division yielding null on zero).", "quantifier": "all expression trees", "why_tests_cant": "Parenthesisation bugs need particular nestings.", "anchors": ["sql.py:Column.__add__", "sql.py:Column.__sub__", "sql.py:Column.__mul__", "sql.py:Column.__div__", "sql.py:add_parenthesis_if_needed"]}
{"id": "C26", "title": "Query flattening preserves the result", "statement": "When a query over a subquery is flattened into a single query, the flattened query returns the same rows for every table.", "quantifier": "all pairs of outer and inner queries, all tables", "why_tests_cant": "All queries and tables.", "anchors": ["sql.py:Sql.__init__"]}
{"id": "C27", "title": "Merging compatible queries keeps both answers", "statement": "If two queries are found compatible, the merged query returns, for every table, the columns of both with the values they have separately.", "quantifier": "all pairs of compatible queries, all tables", "why_tests_cant": "All pairs.", "anchors": ["sql.py:is_compatible", "sql.py:Sql.merge"]}
{"id": "C28", "title": "Distribution sums to one", "statement": "Within every slice, the values of Distribution add up to 1 whenever the slice's total is not zero, each value is the share child/total, and SQL and Python agree.", "quantifier": "all children values, slices and categories", "why_tests_cant": "All data.", "anchors": ["operations.py:Distribution.compute_on_children", "operations.py:Distribution.get_sql_and_with_clause"]}
{"id": "C29", "title": "CumulativeDistribution climbs to one", "statement": "For non-negative children, cumulative distribution values within a slice are non-decreasing, lie in [0,1] and end at 1, in ascending, descending, custom or by-value order; each equals the share of everything up to it.", "quantifier": "all non-negative data, all orders", "why_tests_cant": "All data and orders.", "anchors": ["operations.py:CumulativeDistribution.compute_on_children", "operations.py:CumulativeDistribution.get_sql_and_with_clause"]}
{"id": "C30", "title": "HHI lies between 1/n and 1", "statement": "For non-negative data with positive total over n categories, HHI is in [1/n, 1]; 1 exactly when one category has everything, 1/n exactly when all are equal.", "quantifier": "all non-negative data", "why_tests_cant": "All data.", "anchors": ["diversity.py:HHI.compute_on_children"]}
{"id": "C31", "title": "Entropy lies between 0 and log n", "statement": "For positive data over n categories entropy is in [0, log n]; it reaches log n for equal shares.", "quantifier": "all positive data", "why_tests_cant": "All data.", "anchors": ["diversity.py:Entropy.compute_on_children"]}
{"id": "C32", "title": "TopK is the largest share k categories can have", "statement": "TopK equals the maximum over all sets of k categories of their combined share; it grows with k and is 1 for k >= n.", "quantifier": "all data, all k", "why_tests_cant": "All subsets.", "anchors": ["diversity.py:TopK.compute_on_children"]}
{"id": "C33", "title": "Nxx is the least number of categories reaching the share", "statement": "For non-negative data with positive total and 0 < share <= 1, Nxx is the minimal number of categories whose combined share reaches the share.", "quantifier": "all non-negative data, all shares", "why_tests_cant": "All subsets; boundary when a cumulative share hits the threshold exactly.", "anchors": ["diversity.py:Nxx.nxx_for_one_col", "diversity.py:Nxx.get_sql_and_with_clause"]}
{"id": "C34", "title": "Percent and absolute change are computed against the right baseline", "statement": "In every slice and for every condition, PercentChange is (value/base - 1)*100 and AbsoluteChange is value - base with base the baseline's value in the same slice; the baseline row appears exactly when include_base is set (as 0); SQL and Python agree row by row.", "quantifier": "all children tables, slices, conditions and baselines", "why_tests_cant": "All tables, including slices in which the baseline is missing.", "anchors": ["operations.py:PercentChange.compute_on_children", "operations.py:AbsoluteChange.compute_on_children", "operations.py:Comparison.get_sql_and_with_clause"]}
{"id": "C35", "title": "Mantel-Haenszel change has the textbook value", "statement": "MH is (sum_k A_k d_k/(c_k+d_k)) / (sum_k B_k c_k/(c_k+d_k)) as a percent change, equals the plain percent change of the ratio with a single stratum and whenever all strata have the same ratios, and SQL and Python agree.", "quantifier": "all stratified data", "why_tests_cant": "All data.", "anchors": ["operations.py:MH.compute_mh", "operations.py:MH.get_sql_and_with_clause"]}
{"id": "C36", "title": "Covariate adjustment removes shifts and keeps the plain change under balance", "statement": "CUPED and PrePostChange results do not change when a constant is added to a covariate; with identical covariate means the adjusted change is the unadjusted change; SQL and Python agree for one covariate.", "quantifier": "all pre-aggregated data", "why_tests_cant": "All data.", "anchors": ["operations.py:CUPED.adjust_value", "operations.py:PrePostChange.adjust_value", "operations.py:CUPED.get_change_raw_sql"]}
{"id": "C37", "title": "Jackknife leave-one-out values are right", "statement": "The precomputed leave-one-out value total - bucket equals the metric computed on the data without that unit for Sum and Count in every slice, and so does every metric that expands to them.", "quantifier": "all data, units and slices", "why_tests_cant": "All data.", "anchors": ["operations.py:Jackknife.precompute_sum_or_count_for_jackknife", "operations.py:Jackknife.get_samples", "operations.py:get_jackknife_data_fast"]}
{"id": "C38", "title": "Jackknife leave-one-out has the right slices", "statement": "The slices of the fast leave-one-out table are exactly those of recomputing on the data without the unit: a slice that only the left-out unit has is absent, every other slice is present, also if the unit does not occur in it.", "quantifier": "all data, units and slices", "why_tests_cant": "Sparse unit/slice combinations.", "anchors": ["utils.py:adjust_slices_for_loo", "operations.py:get_jackknife_data_fast"]}
{"id": "C39", "title": "Jackknife standard error has the textbook value", "statement": "The standard error from n leave-one-out estimates is sqrt((n-1)/n * sum (x_i - mean)^2); for the mean of n units it is s/sqrt(n); computing needs at least two units; SQL and Python agree.", "quantifier": "all lists of estimates", "why_tests_cant": "All data.", "anchors": ["operations.py:Jackknife.get_stderrs", "operations.py:get_se_sql", "operations.py:Jackknife.get_samples"]}
{"id": "C40", "title": "Processing resamples in batches covers each exactly once", "statement": "For every number of units or replicates and every batch size, the batches used in SQL mode cover every leave-one-out unit exactly once, respectively produce exactly the requested number of replicates.", "quantifier": "all counts and batch sizes", "why_tests_cant": "All remainders.", "anchors": ["operations.py:Jackknife.compute_children_sql", "operations.py:Bootstrap.compute_children_sql"]}
{"id": "C41", "title": "Bootstrap on preaggregated units equals bootstrap on rows", "statement": "For every multiset of resampled units, Sum, Count, Max and Min computed from per-unit aggregates equal the same metric computed from all rows of the resampled units; weighting by Poisson counts equals repeating rows.", "quantifier": "all data, all multisets of units", "why_tests_cant": "All resamples.", "anchors": ["operations.py:get_preaggregated_data", "operations.py:get_preaggregated_metric", "operations.py:PoissonBootstrap.get_samples"]}
{"id": "C42", "title": "Confidence intervals are consistent", "statement": "The interval reported is symmetric around the point estimate, contains it, has half width equal to the critical value times the standard error, and grows with the confidence level; a confidence outside (0,1) is refused.", "quantifier": "all estimates, standard errors and levels", "why_tests_cant": "All reals.", "anchors": ["operations.py:MetricWithCI.compute_ci", "operations.py:MetricWithCI.get_ci_width", "operations.py:MetricWithCI.__init__"]}
{"id": "C43", "title": "The number of output columns is predicted correctly", "statement": "count_features of a tree is the number of columns its result has.", "quantifier": "all trees", "why_tests_cant": "All trees.", "anchors": ["operations.py:count_features"]}
{"id": "C44", "title": "Tree traversal visits every node once", "statement": "Traversing a metric tree yields every metric of the tree exactly once, parents before children, and the leaves are exactly the nodes without children.", "quantifier": "all trees", "why_tests_cant": "All shapes.", "anchors": ["metrics.py:Metric.traverse", "utils.py:get_leaf_metrics"]}
{"id": "C45", "title": "Melting loses nothing", "statement": "Melting a wide result and unmelting it gives back the same table, for all tables with distinct metric names and a unique index.", "quantifier": "all tables", "why_tests_cant": "All tables.", "anchors": ["utils.py:melt", "utils.py:unmelt"]}
{"id": "C46", "title": "Only precomputable trees take the fast path", "statement": "A tree is accepted for the preaggregated bootstrap / fast jackknife only if every leaf of its expansion can be computed from unit-level aggregates.", "quantifier": "all trees", "why_tests_cant": "All trees.", "anchors": ["operations.py:is_metric_precomputable", "operations.py:Jackknife.can_precompute"]}
{"id": "C47", "title": "Sufficient statistics matrices are rebuilt correctly", "statement": "From the upper-triangle list the square matrix is rebuilt exactly when the length is a triangular number; it is symmetric and has the given entries; other lengths are refused.", "quantifier": "all lists", "why_tests_cant": "All sizes.", "anchors": ["models.py:symmetrize_triangular", "models.py:construct_matrix_from_elements"]}
{"id": "C48", "title": "Ridge in SQL solves the ridge problem", "statement": "The coefficients computed from sufficient statistics minimise the penalised squared loss on the raw rows, with intercept unpenalised, with or without normalisation.", "quantifier": "all data sets, all alpha >= 0", "why_tests_cant": "All data.", "anchors": ["models.py:compute_ridge_coefs", "models.py:compute_coef_for_normalize_ridge", "models.py:get_sufficient_stats_elements"]}
{"id": "C49", "title": "A resting point of the elastic net iteration is a minimiser", "statement": "A fixed point of the proximal iteration minimises the elastic net objective; soft thresholding is the exact proximal map of the absolute value.", "quantifier": "all data, all penalties", "why_tests_cant": "All reals.", "anchors": ["models.py:fista_for_elastic_net", "models.py:soft_thresholding"]}
{"id": "C50", "title": "Normalised coefficients predict the same", "statement": "Turning coefficients fitted on normalised features back to the original scale leaves every prediction unchanged.", "quantifier": "all coefficients, norms, averages and rows", "why_tests_cant": "All reals.", "anchors": ["models.py:compute_normalized_coef"]}
{"id": "C51", "title": "Slices of a split model are optimised independently", "statement": "In the split Newton and proximal iterations, a slice's final coefficients equal those of running the algorithm on that slice alone, whatever the other slices do and whenever they converge.", "quantifier": "all families of slices and all convergence orders", "why_tests_cant": "All interleavings of convergence.", "anchors": ["models.py:newtons_method", "models.py:fista_for_logistic_regression"]}
{"id": "C52", "title": "The stable logistic formulas are exact", "statement": "The numerically stable forms used for the logistic gradient and curvature are identities: sigmoid(z) - b for either sign of z, sigmoid*(1-sigmoid) for the weight.", "quantifier": "all reals", "why_tests_cant": "All reals.", "anchors": ["models.py:sig_minus_b", "models.py:LogisticRegression.compute_on_sql_magic_mode"]}
{"id": "C53", "title": "Colours match significance", "statement": "In the confidence interval display a cell is green/red exactly when its interval excludes zero on the good/bad side, never both, and flip_color exchanges the two.", "quantifier": "all intervals", "why_tests_cant": "All reals.", "anchors": ["confidence_interval_display.py:MetricFormatter.__call__"]}
{"id": "C54", "title": "Inconsistent control values are reported", "statement": "When rows for the same control disagree about the control's value, the display warns and drops them; consistent values are shown once per control.", "quantifier": "all tables", "why_tests_cant": "The tolerance matters only for small differences.", "anchors": ["confidence_interval_display.py:add_control_rows"]}
{"id": "C55", "title": "Replicates use different randomness", "statement": "In a SQL Poisson bootstrap by unit, the text hashed for a weight is different for every slice, unit and replicate, also when the replicates are computed in several queries.", "quantifier": "all slices, units, numbers of replicates and batch sizes", "why_tests_cant": "Collisions need particular values and sizes.", "anchors": ["operations.py:PoissonBootstrap.get_resampled_data_sql", "operations.py:Bootstrap.compute_children_sql"]}
{"id": "C56", "title": "SQL Poisson weights follow Poisson(1)", "statement": "The weight assigned to a uniform variable is at most k exactly if the variable is at most the Poisson(1) distribution function at k, to 15 decimals; the hashed variable is always in range.", "quantifier": "all uniform values, all weights, all 64 bit hashes", "why_tests_cant": "All reals.", "anchors": ["operations.py:PoissonBootstrap.get_resampled_data_sql"]}
{"id": "C57", "title": "A SQL bootstrap resample has the size of the data", "statement": "Every SQL bootstrap resample consists of exactly as many rows (units) as the data has, each a row (unit) of the data, drawn from the same candidates as in Python.", "quantifier": "all data, all outcomes of RAND()", "why_tests_cant": "Edge outcomes of RAND().", "anchors": ["operations.py:bootstrap_by_row", "operations.py:bootstrap_by_unit"]}
{"id": "C58", "title": "Cached samples are reused only for the same sample", "statement": "A value cached for one resample is returned only for the same resample of the same data.", "quantifier": "all sequences of resamples in one tree", "why_tests_cant": "Depends on the combination of resamplers in a tree.", "anchors": ["operations.py:MetricWithCI.compute_on_samples", "operations.py:Bootstrap.get_samples", "operations.py:PoissonBootstrap.get_samples"]}
{"id": "C59", "title": "Preaggregated columns are kept apart", "statement": "Different leaf metrics get different columns in preaggregated data, and weights multiply exactly the columns holding sums and counts.", "quantifier": "all column names", "why_tests_cant": "All names.", "anchors": ["operations.py:get_preaggregated_metric_var", "operations.py:PoissonBootstrap.get_resampled_data_sql"]}
{"id": "C60", "title": "An elastic net that stops by itself is near a minimiser", "statement": "When the elastic net iteration stops before its last allowed step, its coefficients are within the tolerance of a minimiser of the objective.", "quantifier": "all data, penalties, tolerances and starting points", "why_tests_cant": "Whether the iteration stops early depends on the data and the momentum.", "anchors": ["models.py:fista_for_elastic_net"]}
{"id": "C61", "title": "A logistic regression at rest on SQL is the minimiser sklearn looks for", "statement": "If an iteration of LogisticRegression on SQL leaves the coefficients where they are, they minimise sklearn's objective for the same penalty, labels and rows, and the minimiser stays where it is; with an l2 penalty the iteration never meets a singular matrix.", "quantifier": "all data with two labels, all penalties, with or without intercept, all starting points", "why_tests_cant": "Ranges over all data, penalties and coefficients.", "anchors": ["models.py:LogisticRegression", "models.py:newtons_method", "models.py:fista_for_logistic_regression"]}
{"id": "C62", "title": "Hidden controls stay hidden", "statement": "With show_control=False the display has no control rows and, unless asked, no metric values.", "quantifier": "all tables, all forms of ctrl_id, all other switches", "why_tests_cant": "Combinations of switches over all tables.", "anchors": ["confidence_interval_display.py:_pre_aggregate_df", "confidence_interval_display.py:add_control_rows"]}
{"id": "C63", "title": "Every experiment row is displayed as itself", "statement": "Each row of the data is shown under its own slice, experiment, control and metric, with its own numbers.", "quantifier": "all tables, all control assignments", "why_tests_cant": "Depends on which experiments and dimensions are null or unmentioned, over all tables.", "anchors": ["confidence_interval_display.py:_sorted_long_to_wide", "confidence_interval_display.py:_add_is_control_and_control_id"]}
{"id": "C64", "title": "The control comes first in its slice", "statement": "Without sort_by, the slices are in order and in each slice a control precedes its experiments.", "quantifier": "all tables", "why_tests_cant": "All orders of rows and ids.", "anchors": ["confidence_interval_display.py:_sorted_long_to_wide"]}
{"id": "C65", "title": "Information columns show their content", "statement": "Columns that describe the experiment (dimensions, Experiment_Id, Is_Control, Description, Control_Id) are shown as they are when display_expr_info asks for them.", "quantifier": "all columns and ids", "why_tests_cant": "All contents.", "anchors": ["confidence_interval_display.py:_get_formatter"]}
{"id": "C66", "title": "The adjusted values are those of a regression on the covariate", "statement": "CUPED with one covariate reports the difference of the averages minus the slope of the least squares line of the slice times the difference of the covariate; PrePostChange reports the percent change between the heights, at the slice's average covariate, of the least squares lines of the condition and of the baseline. Using the regression meant for several covariates with just one gives the same values.", "quantifier": "all tables, slices, conditions and least squares solvers", "why_tests_cant": "All data; a test compares with one regression of one table.", "anchors": ["operations.py:CUPED.adjust_value", "operations.py:PrePostChange.adjust_value"]}
{"id": "C67", "title": "A metric cell shows the value, the ratio and its interval", "statement": "A cell of the confidence interval display shows the metric's value, the ratio and the ratio's confidence interval, in this order and in the requested formats and units; a control shows only its value, a missing value is shown as a dash (or left out on request), a missing bound as N/A. With CI_Range instead of bounds the interval is centred at the ratio with that width.", "quantifier": "all cells, all formats", "why_tests_cant": "All numbers, all combinations of missing numbers and formats.", "anchors": ["confidence_interval_display.py:MetricFormatter.__call__", "confidence_interval_display.py:MetricFormatter._format_value", "confidence_interval_display.py:_pre_aggregate_df"]}
{"id": "C68", "title": "A dimension cell identifies its row", "statement": "The first column of the display shows the description, the experiment id and the values of all dimensions in the order of the dimensions; dimensions that are not named by the caller are taken in the order of their numbers.", "quantifier": "all ids, descriptions, and lists of dimensions of any length", "why_tests_cant": "All lengths and all ids.", "anchors": ["confidence_interval_display.py:dimension_formatter", "confidence_interval_display.py:get_formatted_df"]}
{"id": "C69", "title": "sort_by sorts the rows and does nothing else", "statement": "With sort_by the display shows the same rows, ordered by the given columns from the most important to the least, upwards or downwards, by 'order' where it is given, with missing numbers last; the values and the columns are unchanged and a second identical call gives the same display.", "quantifier": "all tables, all sort_by", "why_tests_cant": "All tables and all combinations of keys.", "anchors": ["confidence_interval_display.py:_sorted_long_to_wide", "confidence_interval_display.py:get_formatted_df"]}
{"id": "C70", "title": "metric_order orders the metrics", "statement": "Every metric of the data is shown in a column, those listed in metric_order in that order; without aggregation the columns of the dimensions, ids and metrics are all shown.", "quantifier": "all lists of metrics and orders", "why_tests_cant": "All lists.", "anchors": ["confidence_interval_display.py:get_formatted_df"]}
{"id": "C71", "title": "A metric declares the index of its result", "statement": "The levels of the index of compute_on beyond split_by are exactly the extra index that the metric tree declares and that compute_on_sql uses to cut its rows; every row has a value for every split column and every such level.", "quantifier": "all metric trees of any depth, all DataFrames, all split_by", "why_tests_cant": "All trees of operations, lists and arithmetic.", "anchors": ["utils.py:get_extra_idx", "metrics.py:Metric.compute_on_sql_sql_mode", "operations.py:Operation.extra_index"]}
{"id": "C72", "title": "compute_on and compute_on_sql label the columns alike", "statement": "For every metric tree the columns of compute_on_sql have the names of the columns of compute_on, in the same order, including default templates, names given by the user and rename_columns.", "quantifier": "all metric trees of any depth, all split_by, all names", "why_tests_cant": "All trees; names arise by composing templates through every level, in two different ways.", "anchors": ["metrics.py:CompositeMetric.compute_on_children", "metrics.py:CompositeMetric.get_sql_and_with_clause", "metrics.py:MetricList.get_sql_and_with_clause", "operations.py:Operation.compute_on_children", "sql.py:Column"]}
{"id": "C73", "title": "Generated queries are accepted by the database, with the index first", "statement": "Every query that to_sql generates reads, at every depth, only columns that its source offers (USING columns on both sides), and selects the split columns, then the index columns of the operations from the outside to the inside, then the values, so that compute_on_sql takes the right columns as the index.", "quantifier": "all metric trees of any depth over all tables, all split_by", "why_tests_cant": "All trees; merging and joining of subqueries depends on their whole structure.", "anchors": ["metrics.py:MetricList.get_sql_and_with_clause", "metrics.py:CompositeMetric.get_sql_and_with_clause", "operations.py:Comparison.get_sql_and_with_clause", "operations.py:Distribution.get_sql_and_with_clause", "diversity.py:HHI.get_sql_and_with_clause", "sql.py:Sql.merge"]}
{"id": "C74", "title": "Every argument that matters is part of a metric's cache identity", "statement": "Two metrics built from the built-in classes share a place in the cache only if they have the same class, filters, children and arguments (weights, degrees of freedom, quantiles, baselines, strata, units, confidence, replicates, penalties, ...), up to names and the documented rewritings (order of filters, Ratio, Sum over Count as Mean, counting from the end in Nth), so that no result of another metric is ever served.", "quantifier": "all pairs of metric trees over the 33 built-in classes and all their arguments", "why_tests_cant": "All pairs of trees and argument values.", "anchors": ["metrics.py:Metric.get_fingerprint", "metrics.py:CompositeMetric.get_fingerprint", "metrics.py:Ratio.get_fingerprint", "metrics.py:SimpleMetric.__init__", "operations.py:Operation.__init__", "models.py:Model.__init__", "diversity.py:DiversityBase.__init__"]}
{"id": "C75", "title": "Different keys of the cache are never confused", "statement": "Within one computation, a result is served from the cache only for the metric, data, filters, split and slice it was computed for: keys that differ in any of these are never taken for the same, whatever numbers, texts and baselines they contain.", "quantifier": "all pairs of keys, all trees and histories of computations sharing a cache", "why_tests_cant": "Collisions depend on the values; all pairs of values cannot be tried.", "anchors": ["utils.py:CacheKey.__eq__", "utils.py:CacheKey.__hash__", "metrics.py:Metric.in_cache", "metrics.py:Metric.get_cached"]}
{"id": "C76", "title": "Every mode of compute_on_sql gives the result of compute_on", "statement": "However the work is divided between the database and Python (default mode, which computes in SQL whatever it can, or mixed mode, which computes only the leaves there), compute_on_sql returns the same columns and values for the same groups as compute_on on the same data, or raises the same error.", "quantifier": "all metric trees, filters, splits, tables, orders in which the database returns rows, and sets of classes that have a SQL generator", "why_tests_cant": "All trees, tables and divisions of a tree cannot be enumerated.", "anchors": ["metrics.py:Metric.compute_through_sql", "metrics.py:Metric.compute_on_sql_mixed_mode", "metrics.py:Metric.compute_children_sql", "metrics.py:MetricList.compute_children_sql", "operations.py:Operation.compute_on_sql_mixed_mode"]}
{"id": "C77", "title": "Statistics computed in SQL equal those computed on the DataFrame", "statement": "For Variance, StandardDeviation, CV, Correlation and Cov (weighted or not), together with the simple aggregations and arithmetic of them, with filters on any of them, the column meterstick writes (VAR_SAMP, STDDEV_POP, CORR, COVAR_SAMP, or the arithmetic of sums it falls back to), evaluated by the definitions of the SQL standard with the shared filter in WHERE and the rest inside the aggregates, has the value compute_on computes on the same rows, undefined exactly where that is undefined.", "quantifier": "all arithmetic trees of leaf metrics, all filters, all rows with missing values, including none, one, and constant columns", "why_tests_cant": "Two different formulas must agree on all data, with every placement of filters and every pattern of missing values.", "anchors": ["metrics.py:Variance.get_sql_columns", "metrics.py:StandardDeviation.get_sql_columns", "metrics.py:CV.get_sql_columns", "metrics.py:Correlation.get_sql_columns", "metrics.py:Cov.get_sql_columns", "metrics.py:SimpleMetric.get_sql_and_with_clause"]}
{"id": "C78", "title": "Conditions in the SQL text mean what was given", "statement": "A baseline, a left-out unit, a value in `order`, a slice of a split model, or a `where` that is given to meterstick reaches the database as text. The database reads that text back as the condition that was meant: the baseline query keeps exactly the rows with the baseline's values, its complement the others, the leave-one-out query the rows of the other units, the CASE of an order gives the position of the value, the condition of a slice of a logistic regression keeps the rows of that slice, and a `where` written with == for DataFrames is the same condition in SQL.", "quantifier": "all column names and values, any number of columns, all rows including NULLs, all conditions of comparisons, and, or, not and parentheses", "why_tests_cant": "It must hold for every string a value may contain and every nesting of a condition; tests use a few letters.", "anchors": ["operations.py:_format_to_condition", "operations.py:Comparison.get_sql_and_with_clause", "operations.py:MH.get_sql_and_with_clause", "operations.py:CumulativeDistribution.get_ordered_col", "operations.py:Jackknife.compute_children_sql", "sql.py:Filter"]}
{"id": "C79", "title": "Building metrics does not disturb metrics built before", "statement": "A metric that can be computed stays the same metric whatever is built from it or beside it later: piping it into operations, arithmetic, lists, deep copies, pushing filters. One operation can be applied to any number of metrics and each result is that operation, with the settings it was made with, over its metric. A deep copy can be given a filter without any effect on the original, and the other way round.", "quantifier": "all histories of constructing, piping, copying, filtering and renaming, all sharing of sub-metrics", "why_tests_cant": "References are shared and the first application of an operation changes it in place; whether somebody notices depends on the order of a whole history.", "anchors": ["operations.py:Operation.__call__", "metrics.py:Metric.__or__", "metrics.py:Metric.__deepcopy__", "metrics.py:Metric.add_where", "utils.py:push_filters_to_leaf"]}
{"id": "C80", "title": "Beside every estimate stand its own standard error, interval and compared value", "statement": "A call of Jackknife, Bootstrap or PoissonBootstrap returns, for every metric and every slice of the point estimates and for no other slice, the point estimate together with the standard error (or, with a confidence level, the two bounds with n-1 degrees of freedom) computed from the resampled estimates of that very metric in that very slice, and for comparisons the value and the base value of that slice; metrics come in the order of the children, and SQL and DataFrame modes put the same numbers in the same places.", "quantifier": "all numbers of metrics, slices, replicates and missing replicates; with and without slices, confidence level and comparison; all aliases that are different identifiers", "why_tests_cant": "The numbers are put together by position (every second or third column) and by joins on slices; a shift by one column or a join that loses a slice still gives a well-formed table of plausible numbers, and tests compare a few small tables.", "anchors": ["operations.py: MetricWithCI.compute_slices, MetricWithCI.compute_ci, MetricWithCI.compute_on_children, MetricWithCI.get_stderrs_or_ci_half_width, MetricWithCI.compute_on_sql_sql_mode, MetricWithCI.compute_on_sql_mixed_mode, MetricWithCI.get_sql_and_with_clause, get_se_sql"]}
{"id": "C81", "title": "The values shown beside a change belong to it", "statement": "When Jackknife or Bootstrap with a confidence level is applied to PercentChange or AbsoluteChange, the table of compared values attached to the result, which display() shows, has one row for every slice and condition including the control, with the value of the compared metric on the same data and filters, so that every shown change is the change from the shown control value to the shown value; also when the result comes from a cache, and the same in SQL mode.", "quantifier": "all metrics, data, slices and conditions; all histories of calls on any number of objects sharing a cache", "why_tests_cant": "The table is saved and restored under a key remembered by the object, apart from the result; only certain orders of calls mix them up, and the mixed table is well-formed.", "anchors": ["operations.py: MetricWithCI.compute_change_base, MetricWithCI.manipulate, MetricWithCI.add_base_to_res, get_display_fn, MetricWithCI.compute_on_sql_sql_mode, MetricWithCI.get_sql_and_with_clause", "metrics.py: Metric._compute_with_caching_and_postprocessing, Metric.wrap_cache_key"]}
{"id": "C82", "title": "MH compares each ratio's own numerator and denominator", "statement": "MH of a ratio or of a list of ratios is computed from the numerators and denominators of these ratios: a metric that is not a division is refused; the result has one column per ratio, in order and under its name; and in each column the numbers compared are the numerator and the denominator of that very ratio, under the filters of MH, of the list, of the ratio and of the metric itself, both on a DataFrame and in the generated query, where the names used in the final SELECT refer unambiguously to the columns of these aggregations.", "quantifier": "every ratio and every list of ratios of single-column metrics with any names, filters and aggregations; every table of groups, baseline and include_base; every global and local filter", "why_tests_cant": "Whether a column found by name is the right one depends on the names and filters of all metrics at once (columns are merged, renamed with suffixes and looked up again); tests use a few metrics with distinct names.", "anchors": ["/repo/operations.py: MH.check_is_ratio, MH.compute_children, MH.compute_on_children, MH.compute_mh, MH.get_sql_and_with_clause", "/repo/metrics.py: MetricList.get_sql_and_with_clause", "/repo/sql.py: Columns.add, Sql.merge"]}
{"id": "C83", "title": "The text of a query is read as the query", "statement": "The SQL text that to_sql gives out, read by a database with the usual lexical rules and grammar, is the statement the query object describes: the same WITH tables, the same columns under the same names, the same source (tables, subqueries and joins with their ON or USING), the same WHERE condition, GROUP BY and ORDER BY, at every level of nesting; and the text of a column is its function applied to its arguments, each counted only where all filters hold, over its window. A text has at most one reading.", "quantifier": "All query objects, nested in WITH and FROM to any depth, with any columns, filters, joins, and query texts given by the user; all columns; all orders of sorting.", "why_tests_cant": "Nesting depth, number of columns, filters and joins, and the texts are unbounded; tests compare a few generated texts with expected ones.", "anchors": ["sql.py:Sql.__str__", "sql.py:Datasource", "sql.py:Join", "sql.py:Column.expression", "sql.py:Columns", "sql.py:Filters"]}
{"id": "C84", "title": "Preaggregated data give the same result as the rows", "statement": "A Bootstrap or PoissonBootstrap by unit whose aggregations are sums, counts, maxima and minima computes on a preaggregated table with one row per slice and unit; for every metric tree, table, split and sample (any units drawn any number of times, any Poisson weights), the result on the sample of the preaggregated table equals the result of the metric on the same sample of the original rows.", "quantifier": "all metric trees of Sum, Count, Max, Min with arithmetic, lists, filters and operations; all tables, splits, units, naming schemes; all lists of drawn units and all weights", "why_tests_cant": "The samples are random and the trees, filters and tables are unbounded; tests compare a few metrics with a fixed seed.", "anchors": ["operations.py:get_preaggregated_data", "operations.py:get_preaggregated_metric_tree", "operations.py:get_preaggregated_metric", "operations.py:Bootstrap.get_samples", "operations.py:PoissonBootstrap.get_samples", "utils.py:get_extra_split_by", "utils.py:push_filters_to_leaf"]}
{"id": "C85", "title": "The batch size is the one that was asked for", "statement": "compute_on_sql(mode='mixed') of a Jackknife or Bootstrap sends queries with at most batch_size resamples each, where batch_size is the argument of compute_on_sql, else the attribute sql_batch_size, else the default of the class (1 for Jackknife, 1000 for Bootstrap), and no more queries than that needs; this holds wherever the metric stands in a tree of metrics.", "quantifier": "all trees of metrics, numbers of units or replicates, arguments and attributes, and sets of metrics that have a query of their own", "why_tests_cant": "The number and the size of the queries depend on the whole path of calls from the root to the resampling metric; tests look at results, which do not show the size of batches, and use flat trees.", "anchors": ["metrics.py:Metric.compute_util_metric_on_sql", "metrics.py:MetricList.compute_children_sql", "operations.py:MetricWithCI.compute_on_sql", "operations.py:MetricWithCI.compute_on_sql_mixed_mode", "operations.py:Jackknife.compute_children_sql", "operations.py:Bootstrap.compute_children_sql"]}
{"id": "C86", "title": "display() shows the result", "statement": "res.display() of a Jackknife or Bootstrap with a confidence level over a PercentChange or AbsoluteChange does not fail and shows, for every slice and experiment, under each metric's own name, the metric's value, the change and the interval that the result has there; exactly the baseline is shown as the control, without change; the change shown is that of the values shown; no other rows are shown. For any other metric it shows every estimate with its interval in the row of its slice.", "quantifier": "all results, compared values, numbers of slices, condition columns and metrics, name templates, values of show_control", "why_tests_cant": "Joins, renaming of index levels, texts made of tuples and defaults interact for arbitrary names and values; tests compare a few rendered tables.", "anchors": ["operations.py:get_display_fn", "operations.py:MetricWithCI.final_compute", "operations.py:MetricWithCI.add_display_fn", "confidence_interval_display.py:get_formatted_df"]}
{"id": "C87", "title": "SQL does not depend on the SQL generated before", "statement": "metric.to_sql(...) and metric.compute_on_sql(...) give what they give on newly built metrics: neither earlier calls on the same metric nor calls on other metrics that contain it, or are contained in it, change whether NotImplementedError is raised or which columns the result has; a Jackknife or Bootstrap with a confidence level always yields the estimate and the bounds of the interval.", "quantifier": "all trees of metrics, with objects shared between places and between trees, and all finite histories of to_sql and compute_on_sql calls in both modes", "why_tests_cant": "The state is a mark on the metric object that survives the call; tests compute each metric once or build it anew.", "anchors": ["operations.py:MetricWithCI.to_sql", "operations.py:MetricWithCI.get_sql_and_with_clause", "operations.py:MetricWithCI.compute_through_sql", "metrics.py:Metric.compute_through_sql", "metrics.py:MetricList.compute_children_sql"]}
{"id": "C88", "title": "A resample that fails costs only itself", "statement": "When a metric raises an exception on a resample of a Jackknife or Bootstrap, the standard errors and intervals in the result are those of the remaining resamples, for every other metric and every other slice those of all resamples on which they have a value; the failure is printed; an error is raised only if nothing at all can be computed, or if the resamples cannot be drawn.", "quantifier": "all numbers of resamples, slices and metrics, and all patterns of failures among them", "why_tests_cant": "The number of patterns is exponential; tests make one resample fail for all metrics.", "anchors": ["operations.py:MetricWithCI.compute_on_samples", "operations.py:MetricWithCI.compute_on_children", "metrics.py:Metric.compute_slices", "metrics.py:MetricList.compute_slices"]}
{"id": "C89", "title": "Every mode runs the queries it promises and errors keep their cause", "statement": "compute_on_sql runs exactly the queries its documentation promises, each once: in the default mode one for every metric that can be computed in SQL and is not part of one that can, in mode 'mixed' only those of leaf metrics, in mode 'magic' the statistics of models; beside these the units of a Jackknife that is not computed in SQL. An unknown mode runs nothing. When a query fails nothing is run after it, its error stands at the end of the chain of causes of the exception the user sees, and the advice in the message names a mode other than the one that failed. compute_on_beam runs the same queries, each under a label of its own.", "quantifier": "all trees of metrics, models, Jackknifes and Bootstraps, all filters and splits, all modes, all behaviours of execute over time, all clocks", "why_tests_cant": "The queries depend on the shape of the whole tree, on what is already cached and on the behaviour of execute; tests use a handful of trees and a database that does not fail.", "anchors": ["metrics.py:Metric.compute_through_sql", "metrics.py:Metric.compute_on_sql", "metrics.py:Metric.compute_children_sql", "metrics.py:Metric.compute_on_beam", "models.py:Model.compute_through_sql", "operations.py:MetricWithCI.compute_through_sql", "operations.py:MetricWithCI.compute_on_sql_mixed_mode"]}
{"id": "C90", "title": "A model is fit on the columns it was given", "statement": "A regression model, whether built from y and x or by piping a MetricList to it, is fit with the column of the first metric as response and the columns of the others, in order, as explanatory variables, under the filters of the list and of the model, on a DataFrame and in every mode of compute_on_sql alike; both ways of building it give the same name and the same labels of the coefficients, and a name that was given is kept.", "quantifier": "all classes of models, all metrics and (nested) lists of metrics with any filters and any number of columns, all groups, names and queries (with or without joined subqueries)", "why_tests_cant": "Positions of columns are computed from the number of features, from merged columns and from attributes set by two different routes; tests use two or three distinct features without filters on the list.", "anchors": ["models.py:Model.__init__", "models.py:Model.__call__", "models.py:Model.compute", "models.py:get_data", "models.py:LinearRegression.compute_on_sql_magic_mode", "models.py:Lasso.compute_on_sql_magic_mode", "models.py:LogisticRegression.compute_on_sql_magic_mode", "sql.py:Columns.add"]}
{"id": "C91", "title": "A metric defined by its compute() is computed slice by slice", "statement": "For a user-defined metric that overwrites compute(): compute_on(df, split_by) calls compute once for every combination of values of the split columns that occurs in rows passing the metric's filters, with exactly those rows in their order, and labels the result with that combination, in increasing order; its exceptions reach the user; and if compute() or compute_slices() computes helper metrics with compute_util_metric_on, sharing the cache, every helper gives the result for the data, filters and split it was asked for - never one cached for another slice, filter or split - however metrics, filters and slices are nested and whatever is raised and caught on the way.", "quantifier": "all user programs (any nesting of helper calls, any values, exceptions raised and caught), all data, filters and splits", "why_tests_cant": "the user's function and the way helper metrics are nested are arbitrary; a cache hit for the wrong slice or split only shows for particular values and orders of calls", "anchors": ["metrics.py: Metric.compute_slices, Metric.compute_on_children, Metric.split_data, Metric.compute_util_metric_on, Metric.wrap_cache_key, Metric._compute_with_caching_and_postprocessing", "utils.py: CacheKey"]}
{"id": "C92", "title": "User-defined metrics that share a cache never take each other's values", "statement": "When several user-defined metrics are computed with the same cache and cache key, each gives the value of its own compute() as the object is at that moment, whatever metrics were created, changed or dropped before.", "quantifier": "every history of creating, changing, dropping and computing instances, with every assignment of addresses that the memory may make, all classes, attributes and values", "why_tests_cant": "Whether an address is given again depends on the allocator and on the whole history of the process; a test sees one history and usually keeps its metrics in variables.", "anchors": ["metrics.py:Metric.get_fingerprint", "metrics.py:Metric.compute_through", "utils.py:CacheKey.__init__"]}
{"id": "C93", "title": "Adjusting several metrics at once adjusts each on its own", "statement": "CUPED and PrePostChange of a metric with several columns return for every column what they return for this column alone with the same covariates, on a DataFrame, in one query, and where the metrics are computed by queries and adjusted in Python.", "quantifier": "all tables, numbers of metrics and covariates, slices, conditions and least squares solvers", "why_tests_cant": "All tables and numbers of columns; the columns are told from the covariates by position, and a wrong split gives a plausible number.", "anchors": ["operations.py:CUPED.adjust_value", "operations.py:PrePostChange.adjust_value", "operations.py:CUPED.compute_children_sql", "operations.py:PrePostChange.compute_children_sql", "operations.py:CUPED.get_change_raw_sql"]}
{"id": "C94", "title": "A regression over SQL uses the groups that have all the values, or refuses", "statement": "When some group lacks the dependent variable or a feature, LinearRegression and Ridge with mode='magic' return the coefficients of the fit on the groups that have all the values, or refuse as the same model does on a DataFrame; with no missing values they return what they return on the complete rows.", "quantifier": "all tables, positions of the missing values, numbers of features, with and without intercept", "why_tests_cant": "All tables with missing values; each average of the query skips its own rows, and the coefficients from averages over different rows look plausible.", "anchors": ["models.py:get_sufficient_stats_elements", "models.py:compute_ridge_coefs", "models.py:Model.compute"]}
{"id": "C95", "title": "Every coefficient of a logistic regression stands under its own name", "statement": "The result of LogisticRegression on a DataFrame has a column for each feature and the intercept, for each class if there are more than two, and the column contains the coefficient that sklearn fitted for this feature and class; no two columns have the same name.", "quantifier": "all fitted models: numbers and names of classes and features, coefficients", "why_tests_cant": "All numbers of classes and features; labels and values are two lists built in different ways, and a transposed matrix gives plausible numbers.", "anchors": ["models.py:LogisticRegression.compute"]}
{"id": "C96", "title": "An option of a regression has its effect or is refused", "statement": "Over SQL, a regression either solves the problem that all of the user's options describe (penalty and its strength, l1_ratio, class weights, a scaled intercept, non-negative coefficients), or raises an error; no option is dropped silently.", "quantifier": "all options, all data", "why_tests_cant": "All combinations of options, all real data.", "anchors": ["models.py:LogisticRegression", "models.py:ElasticNet", "models.py:Lasso"]}
{"id": "C97", "title": "A Jackknife is that of its own data, whatever the cache holds", "statement": "With one cache for several calls, a Jackknife returns the leave-one-out values and the point estimate of the metric on the data it is called on, with its own filters, no matter which metrics and Jackknifes were computed before with the same or other cache keys; the value for a unit is the metric on the rows of the other units.", "quantifier": "all histories of calls, all metrics, units, filters, split_by and data", "why_tests_cant": "The number and order of calls that share a cache are not bounded.", "anchors": ["operations.py:Jackknife", "operations.py:Resample", "metrics.py:Metric.compute_through", "utils.py:CacheKey"]}
{"id": "C98", "title": "The point estimate of a Jackknife is the value of its metric", "statement": "The point estimate that a Jackknife reports with the standard error is the value that its metric has without the Jackknife, on the same rows.", "quantifier": "all metrics of sums and counts, all data and split_by", "why_tests_cant": "All data, with rows that lack a unit.", "anchors": ["operations.py:Jackknife.compute_slices", "operations.py:Jackknife.get_samples_with_precomputation"]}
{"id": "C99", "title": "A PCollection that is read through files comes back", "statement": "pcollection_to_df_via_file_io returns a DataFrame with the columns of the PCollection and exactly its rows, each as often as it occurs and with every value unchanged, however the rows are divided into files and whatever else is in the directory; with cleanup the directory is left as it was.", "quantifier": "all tables (texts with commas, quotation marks and line breaks, missing values), all numbers of shards, all orders of listing, all directories", "why_tests_cant": "All texts and all divisions into shards, and all orders in which an operating system can list files.", "anchors": ["utils.py:pcollection_to_df_via_file_io"]}
{"id": "C100", "title": "A weight counts rows", "statement": "If the weights of the rows are whole numbers, then a weighted metric (Mean, Variance, StandardDeviation, Correlation, Cov by frequency weights, Dot, Quantile, and arithmetic of them) has the value that the same metric without the weight has on the data in which every row is repeated as often as its weight says, on DataFrames and in SQL.", "quantifier": "all tables, all whole weights including 0, all arithmetic of the metrics with filters anywhere", "why_tests_cant": "A test tries a few weights on a small table; that the weighted formulas (with their degrees of freedom, centring and filters) agree with repetition is an identity over all tables and weights.", "anchors": ["/repo/metrics.py:1764-1860 Dot, Mean", "/repo/metrics.py:2320-2640 Variance, StandardDeviation, Correlation, Cov", "/repo/metrics.py:2058-2317 Quantile"]}
{"id": "C101", "title": "The order of the rows does not matter", "statement": "Rearranging the rows of the data changes no result: the same index values, the same numbers, or the same error.", "quantifier": "all tables and all rearrangements of their rows, all splits, all trees of aggregations, statistics, quantiles, arithmetic, lists, distributions, changes and diversity indices with filters anywhere; the tables of Jackknife (in Python, fast or not, and in SQL), standard errors and linear models", "why_tests_cant": "Tests compare a table with a few shuffles of itself at most; that no code path depends on the order is a statement about all n! orders of all tables.", "anchors": ["/repo/metrics.py:436-548 compute_through, compute_slices", "/repo/metrics.py:1708-2640 aggregations", "/repo/operations.py:199-656", "/repo/diversity.py", "/repo/operations.py:2363-2454, 3403-3534 Jackknife", "/repo/models.py:100-130, 316-334, 476-547"]}
{"id": "C102", "title": "The drawing shows the tree", "statement": "visualize_metric_tree draws the tree of metrics: one node for each metric and each number, labelled with its name and its condition; two nodes are joined exactly if one is a child of the other; everything drawn hangs together; and who sees the drawing (not strict) can read the tree off it.", "quantifier": "all trees of metrics, with objects shared between places, with any names and conditions, strict or not", "why_tests_cant": "Tests compare the text of one drawing; that nothing is left out, drawn twice or merged holds for trees of every shape and for every sharing of objects.", "anchors": ["/repo/metrics.py:905-952 visualize_metric_tree, to_dot, traverse", "/repo/metrics.py:255-271 where"]}
{"id": "C103", "title": "With enough iterations the proximal methods reach scikit-learn's minimum", "statement": "For Lasso and ElasticNet, and for LogisticRegression with the l1 or elasticnet penalty, computed on SQL: after T iterations the objective that scikit-learn documents exceeds its minimum by at most a constant of the data and the starting point over (T + 1) squared, and T is max_iter whenever the iteration has not stopped by itself; so with a tol that never stops the iteration the coefficients come as close to the minimum as one likes when max_iter grows.", "quantifier": "all data, all penalties of these kinds, with or without intercept, all starting points, every max_iter", "why_tests_cant": "A statement about a limit and about all data; tests compare a few fits with scikit-learn at a fixed tolerance, and a step size that is too large diverges only on some data.", "anchors": ["models.py:fista_for_logistic_regression", "models.py:fista_for_elastic_net", "models.py:ElasticNet.compute_coef_for_elastic_net"]}
{"id": "C104", "title": "Arithmetic of metrics is arithmetic of their numbers", "statement": "For metrics a and b with the same index levels, (a + b), (a - b), (a * b) and (a / b) have a row exactly where a or b has one, and the number there is the sum, difference, product or quotient of the two numbers in the extended reals, NaN standing for a missing one: NaN if either is NaN or where the operation has no value (inf - inf, 0 * inf, 0 / 0, inf / inf), otherwise x / 0 an infinity of the sign of x. Columns meet one by one, or one column meets all. A number on either side meets every row of the metric, and -m is the opposite of every number with the rows of m.", "quantifier": "all metrics, data, splits, filters, and all finite, infinite and missing values", "why_tests_cant": "a test tries a few values and rarely an infinity on either side, a missing row on one side, or a zero divisor with a negative dividend", "anchors": ["metrics.py: CompositeMetric.compute_on_children, Metric.__add__, __radd__, __sub__, __rsub__, __mul__, __rmul__, __div__, __rdiv__, __neg__"]}
{"id": "C105", "title": "Bootstrapping a sum or count is unbiased", "statement": "In a slice with rows, for Sum and Count (with a filter and missing values): the average of Bootstrap's replicate over all equally likely draws is the point estimate, by unit (recomputed or on preaggregated data) and by row; the mean squared deviation of a replicate is the sum of the squared deviations of the units' values from their mean, and so is the average of the squared standard error that m replicates give, for every m >= 2. All replicates equal the point estimate just if all units have the same value. Jackknife's squared standard error is (n - 1) / n times that number. With Poisson weights of rate 1 the expected replicate is the point estimate and its variance is the sum of the squares of the units' values.", "quantifier": "all data, filters, numbers of units and of replicates, all draws and all weights", "why_tests_cant": "a test with random numbers sees a few replicates and has to allow for a tolerance that hides a bias", "anchors": ["operations.py: Bootstrap.get_samples, PoissonBootstrap.get_samples, get_preaggregated_data, MetricWithCI.get_stderrs, Jackknife.get_stderrs"]}
{"id": "C106", "title": "Results change with the unit of the data as their formula says", "statement": "If the numbers of every column are multiplied by a positive factor (dollars to cents), the result of a metric is multiplied by the factor that dimensional analysis gives its formula: that of the column for Sum, Mean, Max, Min and the weighted mean, the product for Dot and for products, the quotient for ratios, 1 for counts, Distribution, HHI and PercentChange, that of the metric for AbsoluteChange; the index, missing and infinite values and errors stay. Standard errors and interval bounds are multiplied by it. For a change of zero point as well (Celsius to Fahrenheit) means and quantiles (weighted or not) are converted as values are, variances multiplied by the square of the factor, standard deviations by its size, and correlations stay.", "quantifier": "All columns, missing values, positive factors, zero points (statistics), filters that read only unscaled columns, split-by, nested metrics built from leaves, + - * / and -, lists, Distribution, HHI, AbsoluteChange and PercentChange; any replicates and confidence.", "why_tests_cant": "The relation compares two runs on every dataset and for every composite metric; a test compares a few.", "anchors": ["metrics.py:CompositeMetric.compute_children", "metrics.py:Sum,Mean,Dot,Max,Min,Variance,StandardDeviation,CV,Correlation", "operations.py:Distribution,HHI,AbsoluteChange,PercentChange,MetricWithCI", "metrics.py:Quantile.compute_slices"]}
{"id": "C107", "title": "Data given several times", "statement": "On a DataFrame whose rows are there n times (pd.concat([df] * n)), the result of a metric is that on df times the factor its formula says: n for Sum, Count and Dot, 1 for Mean, Max, Min, distinct Count, weighted Mean, normalized Dot, Distribution, HHI and PercentChange, the product or quotient for products and quotients; the index, missing and infinite values and errors are the same. Mean, weighted Quantile, Correlation, and Variance, StandardDeviation and CV without Bessel's correction stay; Variance with it is multiplied by (nm - n) / (nm - 1) for m values.", "quantifier": "All numbers of copies, data, missing values, filters, split-by, nested metrics from leaves, + - * /, powers of parts that do not grow, -, lists, Distribution, HHI, AbsoluteChange and PercentChange.", "why_tests_cant": "It relates two runs for every dataset, number of copies and composite metric.", "anchors": ["metrics.py:CompositeMetric.compute_children", "metrics.py:Sum,Count,Mean,Dot,Max,Min,Variance,StandardDeviation,CV,Correlation", "operations.py:Distribution,HHI,AbsoluteChange,PercentChange", "metrics.py:Quantile.compute_slices"]}
{"id": "C108", "title": "Columns that a metric does not name do not matter", "statement": "If two tables have, row by row, the same values in all columns that a metric names (in its aggregations, weights, operations and filters) and in those of split_by, compute_on gives the same result on both, errors included, and so does the query of compute_on_sql: other columns may be added, dropped or changed.", "quantifier": "All tables, sets of columns, filters, split-by and nested metrics from leaves, arithmetic with any meaning of **, lists, Distribution, HHI, AbsoluteChange and PercentChange; for queries, statistics with and without weights and their arithmetic.", "why_tests_cant": "It relates two runs for every table, metric and set of other columns.", "anchors": ["metrics.py:Metric.compute_on,Metric.split_data,SimpleMetric.get_sql_and_with_clause", "metrics.py:CompositeMetric.compute_children", "operations.py:Operation.compute_slices"]}
{"id": "C109", "title": "Totals add up over slices", "statement": "The value of Sum, Count or Dot in a slice of split_by is the sum of its values in the parts that a finer split_by (with more columns) gives; the Max is the greatest and the Min the least of the parts' values; the Mean is the total of the parts' sums divided by the total of their counts.", "quantifier": "All tables, columns, filters, split_by and further columns, any number of slices and parts.", "why_tests_cant": "It relates two runs for every table and pair of split_by.", "anchors": ["metrics.py:Metric.split_data", "metrics.py:Sum,Count,Dot,Max,Min,Mean"]}
