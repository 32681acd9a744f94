# A Lean 4 model of google/meterstick

`properties.jsonl` properties · `MANIFEST.json` claims and theorem names · `AXIOMS.txt` axioms of every claimed theorem ·
`seeded/LOG.jsonl` wrong programs tried · `lean/` Lean project.

## Trusted base

* Lean 4.33.0's kernel. No axioms are added; every theorem depends on at most `propext`, `Classical.choice` and `Quot.sound`
  (per theorem: `AXIOMS.txt`, from `#print axioms`). No compiled evaluation: witnesses are checked by `decide`, `decide +kernel`,
  `rfl` or `simp`.
* That the definitions under `lean/Verif/Model/` say what the Python code says. The code was never run. Each definition cites
  the file and lines it was read from and lists its simplifications.
* That the specifications under `lean/Verif/Spec/` and the statements under `lean/Verif/Props/` say what the English says.
* External behaviour taken as given, always as a definition or as a hypothesis/parameter of the theorem, never as an axiom:
  pandas `query`, `groupby` (drops missing keys, sorts), `sum/count/nunique/mean/max/min` (skip missing values), alignment of
  indexed arithmetic, `sort_values`, `xs`, `reindex`, `merge`, `melt`-like reshaping; numpy `linalg.solve`, `interp`, eigenvalues
  (given); SQL aggregates, three-valued NULLs, `IF`, `JOIN`, window sums; `scipy.stats.t.ppf` (an increasing symmetric
  function); sklearn's `fit` (any minimiser of its objective); the meaning of a filter string (any row predicate) except in C07,
  where conditions are parsed token by token; random numbers and hashes (arbitrary).
* Numbers are exact (`Rat`, or `Real` where log, exp and sqrt matter). Rounding, overflow, signed zero and dtypes are outside.

## Layout

`Verif/Model` definitions only, mirroring /repo function by function · `Verif/Spec` small independent specifications (textbook
formulas, "the rows with key k", "is a minimiser") · `Verif/Lemmas` helper lemmas · `Verif/Props` the property theorems and,
beside each, a concrete instance meeting its hypotheses.

Conventions. `_partial`: the English property holds only under the theorem's hypotheses, the note in MANIFEST says what is
missing. `_violation`: the code breaks the English property on a concrete input; the theorem is the negation on that input,
so the full property cannot be proved of this code, and the partial theorem beside it says where it does hold.

## What is modelled, by file of /repo

* metrics.py — modelled: `compute_on`/`compute_through`/`compute_slices` (Metric), caching and cleaning (Cache, CacheState,
  CacheAlias), filters (Filters, WhereText), equality, hash and fingerprints (Equality, Cache, Fingerprint, HashKey), traversal
  (Traverse), the arithmetic operators, MetricList, CompositeMetric, Count/Sum/Dot/Mean/Max/Min (Metric), Nth (Nth), Quantile
  (Quantile), Variance/SD/CV/Correlation/Cov (Expand), their aggregate queries (SqlQuery), the modes of `compute_on_sql`
  (MixedMode), names of columns (Names),
  shape of the queries (QueryShape).
  Not modelled: `compute_on_beam` (Apache Beam IO), `to_dot`/`visualize_metric_tree` (drawing), `__str__`, the module level
  wrappers `compute_on`, `compute_on_sql`, `to_sql` (they call the methods).
* operations.py — modelled: Distribution, CumulativeDistribution (Distribution), PercentChange, AbsoluteChange, MH
  (Comparison), PrePostChange, CUPED (Adjust), Jackknife (Jackknife), Bootstrap, PoissonBootstrap (Resample), standard errors
  and intervals (StdErr), `is_metric_precomputable` (Precompute), `count_features` (Width), names and queries (Names, QueryShape).
  Not modelled: `get_display_fn`, `final_compute` of the confidence interval classes (attach a display method).
* sql.py — modelled: aliases and columns (SqlAlias), arithmetic (SqlArith), filters (WhereText), WITH clauses (SqlWith),
  flattening (SqlFlatten), compatibility and merging (SqlWith, QueryShape), the text of a
  query (QueryText). Not modelled: `__lt__`, `__getitem__` and similar string behaviour of components.
* utils.py — modelled: melt/unmelt (Melt), `get_extra_idx` (ExtraIdx), filters (Filters), CacheKey (Cache), expansion (Expand),
  auxiliary columns (AuxCols), `adjust_slices_for_loo` (Jackknife). Not modelled: `pcollection_to_df_via_file_io`.
* diversity.py — modelled (Distribution; HHI also in Metric, names and queries in Names, QueryShape).
* models.py — modelled: sufficient statistics, Ridge, LinearRegression (Suff), Lasso, ElasticNet (ElasticNet), logistic
  regression on SQL (Logistic), names of coefficients (MultiClass).
  Not modelled: sklearn itself (any minimiser), warnings.
* confidence_interval_display.py — modelled: all decisions and contents of cells (Display, DisplayDims). Not modelled: CSS and
  the HTML text (`render`); HTML is a tree.

## Plan, property by property (method in brackets)

* C01 evaluator with a cache as association list refines the cacheless one, for every sequence of calls [induction on trees and
  call sequences; invariant: every entry is the value of its key]. * C02 fingerprint function on trees, sound where no arithmetic
  has Mean's shape [induction]; violated. * C03 store whose reads alias entries [induction on histories]; violated.
* C04 one object's remembered key [invariant over histories]; violated. * C05 evaluator with exceptions and `finally`, state per
  node [induction]. * C06 equality and hash [case analysis on fingerprints, induction]; violated for custom metrics.
* C07 tokenised condition language with precedence, parser as relation [induction on conditions]; violated for newlines.
* C08 slices as sublists of rows [induction on trees]; violated when a filter empties a slice. * C09, C10, C11 [induction on
  trees]. * C12 compile to one aggregate query, evaluate with NULLs [induction]; violated. * C13 exceptions as values [induction
  on lists]. * C14 sorted permutations, position arithmetic. * C15, C16 piecewise linear interpolation [induction on knots]; without a weight positions in the sorted values (`Props/QuantilePlain`).
* C17 the loop as a transition relation [termination measure]. * C18, C19 algebra of sums over all data [induction, field
  arithmetic]; C19 violated. * C20 name loop as recursion [freshness by length]; violated for operator-like names.
* C21–C24 text as character lists [induction over text, lists of columns, histories of requests]; violations. C24 also: two WITH clauses combined, what every table means [invariant over the tables of the second clause]. * C25 printer and
  a grammar relation, unambiguity [induction on expressions]. * C26, C27 row semantics of nested queries [induction on nesting].
* C28–C33 list algebra over ordered fields, log-sum inequality for C31. * C34–C36, C66 table algebra, normal equations.
* C37–C41, C46 leave-one-out algebra, permutations and multisets of units [induction on rows and trees]. * C42 monotone critical
  value. * C43–C45 trees and tables [induction]. * C47–C52, C60, C61 matrices over reals, convexity, fixed points, induction on
  iterations; C51 simulation between the run on all slices and the runs per slice. * C53, C54, C62–C65, C67–C70 decision logic,
  list and order algebra for all tables. * C55–C59 hashes and cutoffs as arbitrary functions, exact arithmetic on the literals.
* C71 declared index vs. keys of the value model [induction on trees]. * C72, C73 names and scoping of generated queries for
  all orderly trees [induction on trees; well-formedness invariant of queries].
* C74 constructors and `get_fingerprint` of the 33 classes against a canonical form of what the user wrote [mutual induction on
  trees]; violated. * C75 keys compared by hash: hashes of texts and tuples arbitrary, CPython's hash of numbers exact [injectivity
  by mutual induction on values; invariant of the cache]; violated for -1/-2 and numbers equal modulo 2^61 - 1.
* C76 the modes of compute_on_sql over an arbitrary set of queries, row order of the database arbitrary [mutual induction on trees,
  tables up to permutation]; violated (failing children of lists, missing keys, empty sums).
* C77 the SQL columns of all leaf metrics by the formulas of the SQL standard against pandas' two-pass formulas and the expansion
  [algebra of sums; induction on trees with the hoisted filter]; violated (covariance of columns not missing together, empty sums).
* C78 the texts of baseline, leave-one-out and order conditions and of `where`, character by character, read by a lexer and a parser of
  GoogleSQL in the specification [induction on the text and on the fuel of the parser]; violated (quotes, backslashes, dates, `==`, NULL).
* C79 a heap of metric objects with pipes, arithmetic, copies, filters and names added in any order [frame lemmas by induction on
  trees, invariant of the memo of deepcopy, induction on the history]; violated (first use of an operation, shared children).
* C80 the query of Jackknife/Bootstrap (columns selected, table of standard errors grouped by slice, LEFT JOIN USING), the decoding of
  its result and the DataFrame assembly, as tables keyed by slices of any number of metrics [induction on rows and columns; both
  modes against one specification by slice and metric]; violated (a NULL slice key loses its standard error).
* C81 the table of compared values of any metric tree, the join in `display()`, and its saving and restoring with cached results as a state
  machine over histories of calls on any objects sharing a cache [invariant, induction on the history]; violated (SQL without
  include_base, an object used with two splits, equal metrics sharing a cache).
* C82 how MH finds the numerator and the denominator of each ratio: the check of the child, the suffixed join of DataFrames and the
  choice of columns by name, and in queries the merged columns of MHRaw and the names found by merging each metric again [induction
  over ratios, invariant of the columns]; violated (equal names; a filter on the list that is not global).
* C83 the text of a query: how query objects (WITH, SELECT, FROM with joins and subqueries to any depth, WHERE, GROUP BY, ORDER BY)
  and columns (function, filters, window) are printed, character by character, against a lexer and a reader for SELECT statements
  that are defined for any texts [mutual structural induction on the query; partial correctness of the reader for statements given
  as text]; violated (table names beginning with SELECT, WITH followed by a tab, self joins).
* C84 the preaggregated table and metric of a bootstrap by unit, and the samples of Bootstrap and PoissonBootstrap from it and from the
  rows, for any tree of sums, counts, maxima and minima with filters and operations [a relation between rows and preaggregated rows
  closed under concatenation, permutation, restriction to a unit and weights; mutual induction on the tree], and the same for the
  preaggregating query of `to_sql` and the columns selected from it; violated (missing units,
  slices emptied by a filter, a column split by twice, columns named `_`).
* C85 Python's binding of positional and keyword arguments, the two signatures of `compute_on_sql`, the call in
  `compute_util_metric_on_sql` and the sizes of the batches; a call on a tree yields the list of runs in batches [mutual induction on
  the tree: argument, else attribute, else default, with ceil(n / b) queries, for the metric that is called itself]; violated below
  any other metric (its `batch_size` is `True`; the standard error of a Poisson bootstrap by unit is then 0). Not modelled: the cache,
  which may skip equal calls, and the computation of the base of a change.
* C86 `final_compute`, `add_display_fn` and `get_display_fn`: the join of result and compared values, the names of the metrics without
  the suffix of the change, experiment ids of one or several condition columns, the default of `show_control`, the dimensions
  [the table for `get_formatted_df` has unique keys, then C63; injectivity of `str(tuple)` by a prefix argument on the texts]; violated
  (condition columns of integers and floats, templates without suffix, condition columns named `Dim_..`). Not modelled: escapes in
  `repr`, integers stored as objects, Timestamps.
* C87 the attribute `_is_root_node` of every Jackknife and Bootstrap, `to_sql`, `get_sql_and_with_clause` (on the metric or on a deep
  copy) and the fall-back of `compute_on_sql` to mixed mode; the outcome is the list of columns or NotImplementedError [mutual
  induction on the tree: two states that agree on the objects with a confidence level give the same outcome; a tidy call leaves no
  mark; induction on histories]; violated (the mark stays on a metric that is precomputed or filtered: every second `compute_on_sql`
  of a list of metrics has other columns). Not modelled: caches, the base of a change, operations that ask a child twice.
* C88 `compute_on_samples`, the loop over slices and `MetricList.compute_slices` with exceptions as values, for all patterns of failures
  of metrics, slices and resamples and for an iterator that raises [induction on the resamples; the table of C80]; violated (a slice on
  which a metric fails takes the other slices of the resample with it; so does a metric in a list with `rename_columns`). Not modelled:
  exceptions that are not an `Exception`, metrics with several columns, a resample without any slice.
* C89 the queries given to `execute` and the exceptions, as a state machine with the trace of queries and the shared cache, over any tree of
  metrics, models, Jackknifes and Bootstraps and an `execute` that may behave differently every time [invariant linking cache and trace,
  mutual induction on trees; the promise of each mode as a reachability relation]; violated (NotImplementedError by `execute`, labels
  of Bootstrap batches). Not covered: base values of a change, the empty text as mode.
* C90 the two ways to build a model, and the columns picked as y and x on a DataFrame (by position from the front) and in magic mode (by
  position from the back of merged columns), symbolically: a column is what it computes and its filters [induction on trees of metrics
  and on merged columns]; violated (filter of the list, name, wide or equal columns).
* C91 the generic `Metric.compute_slices` and the cache it shares with helper metrics; the user's `compute()` and `compute_slices()` are
  arbitrary programs (trees of helper calls, returns and exceptions); spec: everything computed afresh [mutual induction on metrics and
  programs, invariant: every entry of the cache is the value of what its key is about]; violated (running split, -1 and -2, no rows,
  concat of several columns, NotImplementedError of a child).
* C92 user-defined metrics as objects with addresses: histories of creating, changing, dropping and computing them with one cache; spec:
  each computation gives the value of its own metric [induction on the history, invariant: every entry stems from an object with that
  fingerprint]; violated (address reused after a drop, state outside the fingerprint, `cache_across_instances`).
* C93 CUPED and PrePostChange with any number of metrics: the loop over the columns, the two queries, and `compute_children_sql`, which takes
  the first column for the metric [induction over the columns; orthogonal projection for the solver]; violated (several metrics, mixed mode).
  C36 and C66 again with missing values, `metrics.Cov` as the formula of the code; violated (a stratum with only one of the two).
* C94 (models and missing values): `Model/SuffMissing`, the statistics where each `AVG` skips its own NULLs; equal to the model without missing
  values on complete rows (C48 then applies); a proviso under which it is the fit of the complete rows; violated: rows exactly on a line.
  Logistic regression (`Model/LogitMissing`): the gradient skips incomplete rows but the penalty is divided by all of them; at rest = minimiser for a
  scaled `C`, exact without penalty, violated with `l2` unless all coefficients are 0.
* C95 (names of coefficients): `Model/MultiClass`, the row of `LogisticRegression.compute` from what sklearn fitted; each coefficient under its
  feature and class [induction on classes]; no label twice for features with distinct names; violated (a feature called `intercept`).
* C96 (options of regressions): `Model/ModelOptions`, the checks of `LogisticRegression` and of its magic mode, with class weights; spec: sklearn's
  weighted objective by the documentation [case split, C61]; `positive` of ElasticNet and Lasso violated over SQL.
* C97 (Jackknife and the cache): `Model/JackCache`, the fast path of the Jackknife on the cache of `Model/Cache`, histories of calls; spec: the child
  from leaves with a unit left out, tied to the child on the rows of the other units [invariant over the history: entries are right, and the leaves
  of cached metrics are cached]; violated for one unit on two data, for filters of the Jackknife and for means (four witnesses).
* C98 (point estimates): the same model on a fresh cache; the result is that of the rows with a unit [leaves are served by the cache]; violated for rows
  without one.
* C99 (a PCollection through files): `Model/CsvFile`, pandas' CSV writer and reader (quoting, missing values, kinds of columns found file by file), `glob`
  patterns, the directory and its clean-up; any shards, any order of listing [the reader is at the right place behind every field, induction on fields
  and rows; the pattern of a path without wildcards matches the shards of this path only; permutations]; violated for the texts that pandas takes for
  missing values, texts of digits, shards whose columns differ in kind, directories with brackets, two runs at one instant. Trusted: the documented
  behaviour of pandas and `glob` as modelled; carriage returns and the text of floating point numbers are not modelled.
* C100 (a weight counts rows): the models of C77 (`Model/Expand`, `Model/SqlMoments`: `compute_on` and the query of the statistics) and of C15
  (`Model/Quantile`), with `repeated n rs` as the specification [`compute_on` on complete data computes the textbook statistics (C77_textbook);
  sums over repeated rows are weighted sums; the quantile's groups have the same summed weights]; violated for missing values (the weight of a
  missing value counts), for unweighted quantiles (other interpolation) and for values with weight 0 in quantiles.
* C101 (order of the rows): all evaluators of `compute_on` in the model (`Model/Metric` trees, `Model/SqlMoments` statistics and query columns,
  `Model/Quantile`, `Model/Nth`, `Model/Distribution`) on permuted tables [every aggregation is invariant under `List.Perm`; results of trees are
  the same up to the order of rows by induction, errors included]; violated by Nth for equal keys.
* C102 (drawing the tree): `Model/Dot` models `to_dot` on trees of objects with addresses (a breadth-first walk for the nodes, a recursion for
  the edges, strict graphs keep one edge for each pair); nodes, labels, edges and connectedness by induction on the walk; the tree is read back
  from the edges since an address does not occur below itself; violated by strict drawings and by labels with ` where `.
* C103 (enough iterations): `Lemmas/FistaRate` proves the potential argument for an iteration with momentum `(i - 1) / (i + 2)`, the
  curvature bound of the logistic loss and the inequality of one proximal step; `Props/LogisticRate` and `Props/ElasticRate` apply them
  to the code's step sizes, `3.999999 / maxEig` and `(1 - 1e-6) / maxEig`, with the largest eigenvalue given as a bound of the form.
* C104 (arithmetic of numbers): `Spec/Arith` says with Mathlib's extended real numbers what `+ - * /` give on infinities and when they are
  undefined; `Props/Arith` proves by cases on the signs that the model's numbers do so, then that every row of a composite metric is the result
  of its two rows (one column against one or all), a number on either side included, and the opposite. Power is a parameter and left out.
* C105 (bootstrapping sums): expected values over all draws with replacement are averages over a finite type (`Spec/Draws`), over Poisson
  weights integrals over Mathlib's product of Poisson measures; `Lemmas/Draws` proves mean and variance of sums of independent draws and of
  the sample variance by induction on the number of draws, `Lemmas/PoissonMoments` those of the weights, `Props/Bootstrap` applies them to
  `Model/Resample` and `Model/StdErr`. Random numbers are idealised: pandas and numpy are taken to draw independently and exactly.
* C106 (units): `Spec/Units` states the rules of dimensional analysis (sums of one unit, products and quotients of any, shares and
  relative changes without) for columns multiplied by positive factors; `Props/Units` proves by induction over metrics that results are
  multiplied by the factor so found, and standard errors and intervals too; `Props/UnitsStats` adds zero points (degrees Celsius to
  Fahrenheit) for means, variances, standard deviations, correlations and coefficients of variation, `Props/UnitsQuantile` for quantiles.
* C107 (copies of the data): `Spec/Copies` says which formulas grow with `n` copies of the rows and by which factor; `Props/Copies` proves
  it by induction over metrics, with the lemmas on tables of C106, and for the statistics from sums of repeated lists (`Props/CopiesQuantile`: quantiles).
* C108 (other columns): `Spec/OtherColumns` says which columns a metric names and when two tables are the same in them;
  `Props/OtherColumns` proves by induction over metrics that the results are the same, `Props/OtherColumnsSql` for statistics and queries.
* C109 (totals add up): `Props/AddUp` writes Sum, Count and Dot as sums over rows (Max, Min by their bounds) and the rows of a slice as the disjoint union of those of
  its parts; with rows that lack a value of the column it is false (witness).
