import Verif.Model.SqlQuery

/-!
# compute_on_sql: which part of a tree the database computes

`Metric.compute_through_sql` and the functions it calls. Operations as in `Model/Metric.lean`; models, Jackknife and Bootstrap have
their own modes (see `Model/Suff.lean`, `Model/Jackknife.lean`, `Model/Resample.lean`). Names of columns are left out (see
`Model/Names.lean`), and so is the cache.
-/

namespace Verif

/-- `compute_on_sql_sql_mode` (/repo/metrics.py:676-690) of a subtree on a table with a split: `none` if the SQL generator of a class
in it is not implemented, `some (.error _)` if the database refuses the query. -/
abbrev SqlMode := M → Frame → List String → Option (Except Err Res)

mutual
/-- `compute_through_sql` (/repo/metrics.py:643-659), `mixed` for `mode='mixed'`: metrics without children are computed by a query; in
the default mode so are all others for which there is one (`NotImplementedError` is caught); the rest filters the table by `where`,
computes its children on it (`compute_children_sql`, /repo/metrics.py:753-765, 1247-1266) and combines them like `compute_on`
(`compute_on_sql_mixed_mode`, /repo/metrics.py:748-751, /repo/operations.py:168-171). An exception of a child is not caught, also
in a MetricList. -/
def M.onSql (env : Env) (sql : SqlMode) (mixed : Bool) : M → Frame → List String → Except Err Res
  | .const q, _, _ => .ok (.num q)
  | .leaf k wh, f, sb =>
    match sql (.leaf k wh) f sb with
    | some r => r
    | none => .error .unsupported
  | .comp op l r wh, f, sb =>
    match (if mixed then none else sql (.comp op l r wh) f sb) with
    | some res => res
    | none =>
      match l.onSql env sql mixed (f.query env wh) sb with
      | .error e => .error e
      | .ok a =>
        match r.onSql env sql mixed (f.query env wh) sb with
        | .error e => .error e
        | .ok b => combine (op.py env) a b
  | .list ms wh, f, sb =>
    match (if mixed then none else sql (.list ms wh) f sb) with
    | some res => res
    | none =>
      match onSqlAll env sql mixed ms (f.query env wh) sb with
      | .error e => .error e
      | .ok rs => joinRes rs
  | .oper o child wh, f, sb =>
    match (if mixed then none else sql (.oper o child wh) f sb) with
    | some res => res
    | none =>
      match child.onSql env sql mixed (f.query env wh) (sb ++ o.splitBy) with
      | .error e => .error e
      | .ok r => o.onRes sb.length r
/-- `MetricList.compute_children_sql` (/repo/metrics.py:1247-1266). -/
def onSqlAll (env : Env) (sql : SqlMode) (mixed : Bool) : List M → Frame → List String → Except Err (List Res)
  | [], _, _ => .ok []
  | m :: ms, f, sb =>
    match m.onSql env sql mixed f sb with
    | .error e => .error e
    | .ok r =>
      match onSqlAll env sql mixed ms f sb with
      | .error e => .error e
      | .ok rs => .ok (r :: rs)
end

/-- The key of a row for SQL's GROUP BY: NULL is a value like any other. -/
def sqlKey (sb : List String) (r : Row) : List Cell := sb.map r

/-- The groups of `SELECT ... FROM f GROUP BY sb`; without GROUP BY there is one, also for an empty table. -/
def sqlGroups (sb : List String) (rs : List Row) : List (List Cell) :=
  if sb = [] then [[]] else (rs.map (sqlKey sb)).dedup

/-- The rows of the result of the query of a metric without children on one column (/repo/metrics.py:1692-1702 with its own `where`
as the global filter, so in the WHERE clause): one row for every group, in the order `perm` of the database. -/
def leafRows (env : Env) (perm : List (List Cell) → List (List Cell)) (k : Leaf) (wh : List String) (f : Frame)
    (sb : List String) : List (List Cell × Cell) :=
  let rs := (f.query env wh).rows
  (perm (sqlGroups sb rs)).map fun key => (key, k.sqlAgg env [] (rs.filter fun r => sqlKey sb r = key))

/-- The same as a table of Python (`compute_on_sql_sql_mode`, /repo/metrics.py:676-690). Rows with a missing key cannot be expressed
in a `Tbl` and are left out; theorems about it exclude them by a hypothesis (what the code does with them is in
`C76_null_group_violation`). -/
def leafSql (env : Env) (perm : List (List Cell) → List (List Cell)) (k : Leaf) (wh : List String) (f : Frame)
    (sb : List String) : Except Err Res :=
  if (k.vars ++ sb).all (fun c => f.cols.contains c) then
    .ok (.tbl [] [(leafRows env perm k wh f sb).filterMap fun p => (p.1.mapM id).map fun key => (key, PyVal.ofCell p.2)])
  else .error .keyError

/-- The database for trees of which only the leaves are computed there. -/
def leafMode (env : Env) (perm : List (List Cell) → List (List Cell)) : SqlMode
  | .leaf k wh, f, sb => some (leafSql env perm k wh f sb)
  | _, _, _ => none

end Verif
