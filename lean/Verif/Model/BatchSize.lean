import Verif.Model.Resample

/-!
# How the batch size travels through a tree of metrics

/repo/metrics.py:589-641, 748-765, 857-879, 1218-1264, /repo/operations.py:156-166, 1905-1955, 2029-2044, 2456-2515, 2693-2736.
Python's rules for binding arguments are modelled; of the arguments only `mode`, `batch_size` and `return_dataframe` have a value
that matters. The caching of equal calls and the computation of the base of a change are not in this model.
-/

namespace Verif

/-- A Python value passed as an argument. -/
inductive PyArg where
  | none
  | bool (b : Bool)
  | int (n : ℕ)
  | text (s : String)
deriving DecidableEq

/-- `bool(x)`. -/
def PyArg.truthy : PyArg → Bool
  | .none => false
  | .bool b => b
  | .int n => n != 0
  | .text s => s != ""

/-- `x or y`. -/
def PyArg.or (x y : PyArg) : PyArg := if x.truthy then x else y

/-- The value in arithmetic: `True` is 1, `False` is 0. -/
def PyArg.num : PyArg → ℕ
  | .bool true => 1
  | .int n => n
  | _ => 0

/-- `'%s' % x`. -/
def PyArg.str : PyArg → String
  | .none => "None"
  | .bool true => "True"
  | .bool false => "False"
  | .int n => toString n
  | .text s => s

/-- The parameters of `Metric.compute_on_sql` and of `MetricList.compute_on_sql` (/repo/metrics.py:589-600, 1218-1228), with their
defaults. -/
def sigMetricSql : List (String × Option PyArg) :=
  [("table", none), ("split_by", some .none), ("execute", some .none), ("melted", some (.bool false)), ("mode", some .none),
   ("cache_key", some .none), ("cache", some .none), ("return_dataframe", some (.bool true))]

/-- The parameters of `MetricWithCI.compute_on_sql` (/repo/operations.py:1905-1916). -/
def sigCISql : List (String × Option PyArg) :=
  [("table", none), ("split_by", some .none), ("execute", some .none), ("melted", some (.bool false)), ("mode", some .none),
   ("cache_key", some .none), ("cache", some .none), ("batch_size", some .none), ("return_dataframe", some (.bool true))]

/-- Python's binding of the arguments of a call: positional arguments in order, then keywords, then defaults. `none` is a
`TypeError`. -/
def bindArgs : List (String × Option PyArg) → List PyArg → List (String × PyArg) → Option (List (String × PyArg))
  | [], [], [] => some []
  | [], _, _ => none
  | (p, d) :: ps, a :: as, kw => do
    let rest ← bindArgs ps as kw
    if kw.any (·.1 = p) then none else some ((p, a) :: rest)
  | (p, d) :: ps, [], kw => do
    let rest ← bindArgs ps [] (kw.filter (·.1 ≠ p))
    match (kw.find? (·.1 = p)).map (·.2) <|> d with
    | some v => some ((p, v) :: rest)
    | none => none

/-- The value of a parameter. -/
def argOf (b : List (String × PyArg)) (p : String) : PyArg := ((b.find? (·.1 = p)).map (·.2)).getD .none

/-- What matters of a metric: a metric without children; a Jackknife (`jack`) over data with `count` units or a Bootstrap with
`count` replicates, with its attribute `sql_batch_size`; any other metric with children, which passes `retDf` as
`return_dataframe` when it computes them (`children_return_dataframe` for a MetricList, /repo/metrics.py:1262, `True` for the others,
/repo/metrics.py:866). -/
inductive BTree where
  | leaf
  | ci (jack : Bool) (count : ℕ) (own : PyArg) (child : BTree)
  | inner (retDf : PyArg) (children : List BTree)

/-- One run of `compute_children_sql` of a Jackknife or a Bootstrap: the batch size after the default has been filled in. -/
structure BatchRun where
  jack : Bool
  count : ℕ
  own : PyArg
  size : PyArg

/-- The number of resamples in each query of a run (/repo/operations.py:2473-2494, 2716-2722). -/
def BatchRun.queries (r : BatchRun) : List ℕ :=
  if r.jack then (jkBatches (List.range r.count) r.size.num).map (·.length) else bsBatches r.count r.size.num

/-- The table of replicate numbers in the query of a full batch of a Bootstrap (/repo/operations.py:2697-2700, 3014-3017, 3617-3620). -/
def BatchRun.arrayText (r : BatchRun) : String := "UNNEST(GENERATE_ARRAY(1, " ++ r.size.str ++ "))"

/-- The positional arguments of the call in `compute_util_metric_on_sql` (/repo/metrics.py:868-879). -/
def utilArgs (mode retDf : PyArg) : List PyArg :=
  [.text "table", .text "split_by", .text "execute", .bool false, mode, .text "cache_key", .text "cache", retDf]

/-- The positional arguments with which a Bootstrap computes its child on a resample (/repo/operations.py:2717-2719, 2732-2734). -/
def resampleArgs (mode : PyArg) : List PyArg := [.text "table", .text "split_by", .text "execute", .bool true, mode]

mutual

/-- `compute_on_sql` called with positional and keyword arguments: the runs in batches it leads to, `none` if it raises a
`TypeError`. `sqlOk` tells which metrics have a query of their own (the others raise `NotImplementedError`,
/repo/metrics.py:643-660). -/
def BTree.call (sqlOk : BTree → Bool) : BTree → List PyArg → List (String × PyArg) → Option (List BatchRun)
  | .leaf, pos, kw => (bindArgs sigMetricSql pos kw).map fun _ => []
  | .inner r cs, pos, kw => do
    let b ← bindArgs sigMetricSql pos kw
    if !(argOf b "mode").truthy && sqlOk (.inner r cs) then some []
    else BTree.callAll sqlOk cs (utilArgs (argOf b "mode") r)
  | .ci jack count own c, pos, kw => do
    let b ← bindArgs sigCISql pos kw
    let mode := argOf b "mode"
    if !mode.truthy && sqlOk (.ci jack count own c) then some []
    else
      let size := ((argOf b "batch_size").or own).or (.int (if jack then 1 else 1000))
      let run : BatchRun := ⟨jack, count, own, size⟩
      let sub ← c.call sqlOk (if jack then utilArgs mode (.bool true) else resampleArgs mode) []
      let point ← c.call sqlOk (utilArgs mode (.bool true)) []
      some (run :: ((run.queries.flatMap fun _ => sub) ++ point))

/-- The calls for the children, one after the other (/repo/metrics.py:754-765, 1246-1264). -/
def BTree.callAll (sqlOk : BTree → Bool) : List BTree → List PyArg → Option (List BatchRun)
  | [], _ => some []
  | t :: ts, args => do
    let a ← t.call sqlOk args []
    let b ← BTree.callAll sqlOk ts args
    some (a ++ b)

end

/-- The keyword arguments of the call a user makes. -/
def userKw (mode : PyArg) : Option PyArg → List (String × PyArg)
  | some b => [("mode", mode), ("batch_size", b)]
  | none => [("mode", mode)]

/-- The call a user makes: `metric.compute_on_sql(table, split_by, execute, mode=mode)`, with `batch_size=b` if given. -/
def userCall (sqlOk : BTree → Bool) (t : BTree) (mode : PyArg) (batch : Option PyArg) : Option (List BatchRun) :=
  t.call sqlOk [.text "table", .text "split_by", .text "execute"] (userKw mode batch)

/-- The replicates of an estimate under a Poisson bootstrap by unit run in batches of `bs`, for data without splits: `est` maps the
weights of the units to the estimate, `hash` is FARM_FINGERPRINT (/repo/operations.py:2697-2736, 3002-3070). -/
def poissonReplicates (hash : List Char → ℤ) (est : (ℕ → ℕ) → Option ℝ) (n bs : ℕ) : List (Option ℝ) :=
  (bsBatches n bs).flatMap fun b => (replicateIdx b).map fun i =>
    est fun unit => sqlPoissonWeight (hashUniform (hash (hashText [] unit i)))

end Verif
