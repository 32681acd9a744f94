import Verif.Model.Preagg
import Verif.Model.SqlQuery
import Verif.Model.MixedMode

/-!
# The preaggregated table in SQL

`MetricWithCI.to_sql` (/repo/operations.py:2055-2100) puts a query that aggregates by `split_by`, the columns of the operations and the unit
in place of the table, and replaces the leaves of the metric. `Bootstrap` then draws units from it, `PoissonBootstrap` multiplies its sums
and counts by weights (/repo/operations.py:3076-3092).

Simplifications: the filter of the bootstrap itself, which is the WHERE of the query, is taken to have been applied to the table; names
of columns that SQL has to quote are left out.
-/

namespace Verif

/-- The rows of one group of a GROUP BY, in which NULL is a value like any other. -/
def sqlRowsAt (sb : List String) (v : List Cell) (rs : List Row) : List Row := rs.filter (fun r => sqlKey sb r = v)

/-- One row of the aggregating query: the columns of the GROUP BY, then `l.get_sql_columns(l.where_)` under the new names
(/repo/operations.py:2081-2086). -/
def preSqlRow (env : Env) (ν : PreNaming) (all : List String) (leaves : List (Leaf × List String)) (rs : List Row) (key : List Cell) : Row :=
  fun c => match (all.zip key).lookup c with
    | some x => x
    | none => match leaves.find? (fun l => ν l.1 l.2 = c) with
      | some l => l.1.sqlAgg env l.2 (sqlRowsAt all key rs)
      | none => none

/-- `sql.Sql(cols, table, where, all_split_by)` (/repo/operations.py:2086). -/
def preSqlRows (env : Env) (ν : PreNaming) (all : List String) (leaves : List (Leaf × List String)) (rs : List Row) : List Row :=
  (sqlGroups all rs).map (preSqlRow env ν all leaves rs)

/-- The column expression of the metric on the preaggregated table: each aggregate reads its new column, without the filter
(`get_preaggregated_metric_tree`, /repo/operations.py:3166-3185). -/
def SqlE.pre (ν : PreNaming) : SqlE → SqlE
  | .agg k flt => .agg (k.pre (ν k flt)) []
  | .lit q => .lit q
  | .bin op a b => .bin op (a.pre ν) (b.pre ν)

/-- The aggregates in an expression with their filters. -/
def SqlE.aggs : SqlE → List (Leaf × List String)
  | .agg k flt => [(k, flt)]
  | .lit _ => []
  | .bin _ a b => a.aggs ++ b.aggs

/-- The rows of the units drawn, each as often as it is drawn. -/
def sqlDrawn (grp : List String) (draws : List (List Cell)) (rs : List Row) : List Row := draws.flatMap (fun u => sqlRowsAt grp u rs)

/-- `PoissonBootstrapResampledData` without preaggregation (/repo/operations.py:3094-3107): the rows are repeated by joining the numbers
from 1 to the weight of their unit. -/
def sqlRepeated (grp : List String) (draws : List (List Cell × ℕ)) (rs : List Row) : List Row :=
  draws.flatMap (fun u => (List.replicate u.2 (sqlRowsAt grp u.1 rs)).flatten)

/-- `PoissonBootstrapResampledData` with preaggregation (/repo/operations.py:3078-3092): the columns that are not in `split_by` and
whose name starts with `sum_` or `count_` are multiplied by the weight of the unit; units with weight 0 have been dropped by a WHERE
(/repo/operations.py:3066-3070). -/
def sqlScaled (splitBy grp : List String) (draws : List (List Cell × ℕ)) (rs : List Row) : List Row :=
  (draws.filter (fun u => 0 < u.2)).flatMap (fun u => (sqlRowsAt grp u.1 rs).map (fun r c =>
    if !(splitBy.contains c) && isSumOrCount c then (r c).map (fun x => x * (u.2 : Rat)) else r c))

end Verif
