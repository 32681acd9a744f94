import Verif.Model.Expand

/-!
# The SQL of the statistics, and their computation on a DataFrame

`get_sql_columns` of every leaf metric spelt out in `Verif.Model.Expand`, arithmetic of them, the
hoisted filter, and `compute_slices` on the other side. One slice (one group).

Simplifications: a query is its value column, all of them over one table with one WHERE (the queries of
these metrics are always merged, /repo/metrics.py:1586-1601, C72); NULL, NaN and infinity are one undefined
value `none`; a condition means the same in SQL and in pandas.
-/

namespace Verif

/-- SQL's aggregate functions of one column that meterstick writes. -/
inductive Agg1 where
  | sum | count | countDistinct | max | min | avg | varSamp | varPop | stddevSamp | stddevPop
  deriving DecidableEq

/-- SQL's aggregate functions of two columns that meterstick writes. -/
inductive Agg2 where
  | corr | covarSamp | covarPop
  deriving DecidableEq

/-- A column of a query: an aggregate whose every argument is wrapped as `IF(filter, column, NULL)`
(/repo/sql.py:300-303), or arithmetic on columns (/repo/sql.py:313-386). -/
inductive SqlCol where
  | const (q : ℚ)
  | agg1 (f : Agg1) (v : ECol) (flt : List Nat)
  | agg2 (f : Agg2) (v w : ECol) (flt : List Nat)
  | arith (op : EOp) (a b : SqlCol)

/-- `get_sql_columns` (/repo/metrics.py:1761-1762 Sum, :1734-1738 Count, :1807-1809 Dot, :1846-1853 Mean,
:1882-1883 Max, :1906-1907 Min, :2364-2370 Variance, :2408-2414 StandardDeviation, :2446-2455 CV,
:2520-2526 Correlation, :2629-2644 Cov). `none` if it returns nothing (a weight, or another `ddof`). In
`AVG({} * {})` each factor is wrapped by the filter, which is the same as wrapping the product. -/
def SLeaf.sqlColumns (flt : List Nat) : SLeaf → Option SqlCol
  | .sum v => some (.agg1 .sum v flt)
  | .count v false => some (.agg1 .count v flt)
  | .count v true => some (.agg1 .countDistinct v flt)
  | .max v => some (.agg1 .max v flt)
  | .min v => some (.agg1 .min v flt)
  | .other _ => none
  | .dot v w true => some (.agg1 .avg (.mul v w) flt)
  | .dot v w false => some (.agg1 .sum (.mul v w) flt)
  | .mean v none => some (.agg1 .avg v flt)
  | .mean v (some w) => some (.arith .div (.agg1 .sum (.mul w v) flt) (.agg1 .sum w flt))
  | .variance v true none => some (.agg1 .varSamp v flt)
  | .variance v false none => some (.agg1 .varPop v flt)
  | .variance _ _ (some _) => none
  | .sd v true none => some (.agg1 .stddevSamp v flt)
  | .sd v false none => some (.agg1 .stddevPop v flt)
  | .sd _ _ (some _) => none
  | .cv v true => some (.arith .div (.agg1 .stddevSamp v flt) (.agg1 .avg v flt))
  | .cv v false => some (.arith .div (.agg1 .stddevPop v flt) (.agg1 .avg v flt))
  | .corr v w none => some (.agg2 .corr v w flt)
  | .corr _ _ (some _) => none
  | .cov v w bias ddof none none =>
      if covDdof bias ddof = 1 then some (.agg2 .covarSamp v w flt)
      else if covDdof bias ddof = 0 then some (.agg2 .covarPop v w flt)
      else none
  | .cov _ _ _ _ _ _ => none

/-- `sql.Filters(self.where_).add(local_filter).remove(global_filter)`
(/repo/metrics.py:1694-1696, and :1538-1540 for arithmetic). -/
def sqlLocal (wh loc glob : List Nat) : List Nat := (wh ++ loc).filter fun i => i ∉ glob

/-- `get_sql_and_with_clause` of the leaves (/repo/metrics.py:1692-1702) and of arithmetic
(/repo/metrics.py:1538-1601): `SqlOf glob t loc c` says that with the hoisted filter `glob` and the filter
`loc` from above, the value column of the query is `c`. -/
inductive SqlOf (glob : List Nat) : ET → List Nat → SqlCol → Prop
  | const (q : ℚ) (loc : List Nat) : SqlOf glob (.const q) loc (.const q)
  | columns (k : SLeaf) (n : Option String) (wh loc : List Nat) (c : SqlCol) :
      k.sqlColumns (sqlLocal wh loc glob) = some c → SqlOf glob (.leaf k n wh) loc c
  | expanded (k : SLeaf) (n : Option String) (wh loc : List Nat) (m : Nat) (res : ET) (c : SqlCol) :
      k.sqlColumns (sqlLocal wh loc glob) = none → Expands (.leaf k n wh) m res →
      SqlOf glob res (sqlLocal wh loc glob) c → SqlOf glob (.leaf k n wh) loc c
  | comp (op : EOp) (l r : ET) (n : Option String) (wh loc : List Nat) (a b : SqlCol) :
      SqlOf glob l (sqlLocal wh loc glob) a → SqlOf glob r (sqlLocal wh loc glob) b →
      SqlOf glob (.comp op l r n wh) loc (.arith op a b)

/-- Is this child a metric, not a number (/repo/utils.py:222 `is_metric`). -/
def ET.isMetric : ET → Bool
  | .const _ => false
  | _ => true

/-- `get_global_filter` (/repo/utils.py:213-227) of leaves and arithmetic: the filter of the node and what
all children that are metrics share. For other nodes only the node's own filter is kept. -/
def ET.globalFilter : ET → List Nat
  | .const _ => []
  | .leaf _ _ wh => wh
  | .node _ _ _ wh => wh
  | .comp _ l r _ wh =>
      wh ++ (if l.isMetric then
        if r.isMetric then l.globalFilter.filter fun i => i ∈ r.globalFilter else l.globalFilter
      else if r.isMetric then r.globalFilter else [])

/-! ## What the database computes -/

/-- The non-NULL values an aggregate of one column sees. -/
noncomputable def momVals (sem : ESem) (flt : List Nat) (v : ECol) (rs : List RRow) : List ℝ :=
  rs.filterMap fun r => if flt.all fun i => sem.cond i r then v.eval r else none

/-- The pairs of non-NULL values an aggregate of two columns sees. -/
noncomputable def momPairs (sem : ESem) (flt : List Nat) (v w : ECol) (rs : List RRow) : List (ℝ × ℝ) :=
  rs.filterMap fun r => if flt.all fun i => sem.cond i r then
    (v.eval r).bind fun x => (w.eval r).map fun y => (x, y) else none

open Classical in
/-- The aggregates by their definition in the SQL standard (ISO 9075-2, 10.9): with `N`, `S1`, `S2` the
number, the sum and the sum of the squares of the values, `VAR_POP = (S2 - S1 * S1 / N) / N` and
`VAR_SAMP` the same over `N - 1`; NULL if that would divide by zero. -/
noncomputable def Agg1.eval (f : Agg1) (xs : List ℝ) : Option ℝ :=
  let N : ℝ := xs.length
  let S1 := xs.sum
  let S2 := (xs.map fun x => x * x).sum
  match f with
  | .sum => if xs = [] then none else some S1
  | .count => some N
  | .countDistinct => some (xs.dedup.length : ℝ)
  | .max => xs.max?
  | .min => xs.min?
  | .avg => if xs = [] then none else some (S1 / N)
  | .varPop => if xs = [] then none else some ((S2 - S1 * S1 / N) / N)
  | .varSamp => if xs.length ≤ 1 then none else some ((S2 - S1 * S1 / N) / (N - 1))
  | .stddevPop => if xs = [] then none else some (Real.sqrt ((S2 - S1 * S1 / N) / N))
  | .stddevSamp => if xs.length ≤ 1 then none else some (Real.sqrt ((S2 - S1 * S1 / N) / (N - 1)))

open Classical in
/-- The aggregates of pairs, by the same part of the standard. CORR is NULL where a column is constant. -/
noncomputable def Agg2.eval (f : Agg2) (ps : List (ℝ × ℝ)) : Option ℝ :=
  let N : ℝ := ps.length
  let Sx := (ps.map fun p => p.1).sum
  let Sy := (ps.map fun p => p.2).sum
  let Sxy := (ps.map fun p => p.1 * p.2).sum
  let Sxx := (ps.map fun p => p.1 * p.1).sum
  let Syy := (ps.map fun p => p.2 * p.2).sum
  match f with
  | .covarPop => if ps = [] then none else some ((Sxy - Sx * Sy / N) / N)
  | .covarSamp => if ps.length ≤ 1 then none else some ((Sxy - Sx * Sy / N) / (N - 1))
  | .corr => if N * Sxx - Sx * Sx = 0 ∨ N * Syy - Sy * Sy = 0 then none
      else some ((N * Sxy - Sx * Sy) / Real.sqrt ((N * Sxx - Sx * Sx) * (N * Syy - Sy * Sy)))

/-- The value of a column over the rows that pass WHERE. Division is `IF(d = 0, NULL, n / d)`, powers are
`SAFE.SQRT` and `SAFE.POWER` (/repo/sql.py:27, 347-386): undefined where `EOp.app` is. -/
noncomputable def SqlCol.eval (sem : ESem) (rs : List RRow) : SqlCol → Option ℝ
  | .const q => some (q : ℝ)
  | .agg1 f v flt => f.eval (momVals sem flt v rs)
  | .agg2 f v w flt => f.eval (momPairs sem flt v w rs)
  | .arith op a b => op.app (a.eval sem rs) (b.eval sem rs)

/-! ## What `compute_on` computes -/

/-- Mean of a Series without its missing values (pandas). -/
noncomputable def pdMean (xs : List ℝ) : Option ℝ :=
  if xs.length = 0 then none else some (xs.sum / xs.length)

/-- `Series.var(ddof)` (pandas `nanvar`): two passes, over the deviations from the mean. -/
noncomputable def pdVar (ddof : ℕ) (xs : List ℝ) : Option ℝ :=
  if xs.length ≤ ddof then none
  else some ((xs.map fun x => (x - xs.sum / xs.length) ^ 2).sum / (xs.length - ddof : ℝ))

open Classical in
/-- `Series.corr` (pandas `nancorr`) on the pairs where both are present; NaN for a zero divisor. -/
noncomputable def pdCorr (ps : List (ℝ × ℝ)) : Option ℝ :=
  let mx := (ps.map fun p => p.1).sum / ps.length
  let my := (ps.map fun p => p.2).sum / ps.length
  let sx := (ps.map fun p => (p.1 - mx) * (p.1 - mx)).sum
  let sy := (ps.map fun p => (p.2 - my) * (p.2 - my)).sum
  let sxy := (ps.map fun p => (p.1 - mx) * (p.2 - my)).sum
  if Real.sqrt (sx * sy) = 0 then none else some (sxy / Real.sqrt (sx * sy))

/-- Rows in which both are present. -/
noncomputable def pairsOf (v w : ECol) (rs : List RRow) : List (ℝ × ℝ) :=
  rs.filterMap fun r => (v.eval r).bind fun x => (w.eval r).map fun y => (x, y)

/-- The degrees of freedom of `unbiased` (/repo/metrics.py:2338, 2392, 2435). -/
def ddofOf (unbiased : Bool) : ℕ := if unbiased then 1 else 0

/-- `compute_slices` of the leaves that pandas computes (/repo/metrics.py:1758-1759 Sum, :1730-1732 Count, :1789-1797
Dot, :1844 Mean, :1879-1880, :1903-1904 Max, Min, :2348 Variance, :2402 StandardDeviation, :2438-2440 CV,
:2505-2509 Correlation); `none` for those that call `compute_equivalent` (:1842-1843, :2346-2347,
:2400-2401, :2494-2495, :2581-2582). -/
noncomputable def SLeaf.pandas : SLeaf → Option (List RRow → Option ℝ)
  | .sum v => some fun rs => some (sumOf v rs)
  | .count v d => some fun rs => some (countOf v d rs)
  | .max v => some (maxOf v)
  | .min v => some (minOf v)
  | .dot v w true => some fun rs => pdMean (present (.mul v w) rs)
  | .dot v w false => some fun rs => some (sumOf (.mul v w) rs)
  | .mean v none => some fun rs => pdMean (present v rs)
  | .variance v unb none => some fun rs => pdVar (ddofOf unb) (present v rs)
  | .sd v unb none => some fun rs => (pdVar (ddofOf unb) (present v rs)).map Real.sqrt
  | .cv v unb => some fun rs =>
      EOp.app .div ((pdVar (ddofOf unb) (present v rs)).map Real.sqrt) (pdMean (present v rs))
  | .corr v w none => some fun rs => pdCorr (pairsOf v w rs)
  | _ => none

/-- `compute_on` of leaves and arithmetic (/repo/metrics.py:300-345 filter and compute, :836-840
`compute_equivalent`): `DfVal sem t rs o` says that on the rows `rs` the result is `o`. -/
inductive DfVal (sem : ESem) : ET → List RRow → Option ℝ → Prop
  | const (q : ℚ) (rs : List RRow) : DfVal sem (.const q) rs (some (q : ℝ))
  | native (k : SLeaf) (n : Option String) (wh : List Nat) (rs : List RRow)
      (f : List RRow → Option ℝ) : k.pandas = some f →
      DfVal sem (.leaf k n wh) rs (f (keepRows sem wh rs))
  | equivalent (k : SLeaf) (n : Option String) (wh : List Nat) (rs : List RRow) (m : Nat) (res : ET)
      (o : Option ℝ) : k.pandas = none → Expands (.leaf k n wh) m res →
      DfVal sem res (keepRows sem wh rs) o → DfVal sem (.leaf k n wh) rs o
  | comp (op : EOp) (l r : ET) (n : Option String) (wh : List Nat) (rs : List RRow)
      (a b : Option ℝ) : DfVal sem l (keepRows sem wh rs) a → DfVal sem r (keepRows sem wh rs) b →
      DfVal sem (.comp op l r n wh) rs (op.app a b)

end Verif
