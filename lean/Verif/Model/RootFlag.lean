import Mathlib.Data.List.Basic

/-!
# What generating SQL leaves behind in a metric

/repo/operations.py:1957-1973, 2018-2044, 2055-2100, 2102-2217, /repo/metrics.py:643-660, 748-765, 1247-1266, 1268-1340. A Jackknife
or Bootstrap with a confidence level can be computed in SQL only as the root of the query; `_is_root_node` is how its
`get_sql_and_with_clause` is told that it is. This is a model of that attribute and of what it decides: whether the query is generated
or NotImplementedError is raised, and which columns the result has. The values in the columns, caches (C01-C05) and the base values
of a change are not in this model.
-/

namespace Verif

/-- The attribute `_is_root_node` of every object (/repo/operations.py:1684): `None` is `false`. -/
abbrev RootFlags := ℕ → Bool

/-- All objects are new. -/
def RootFlags.fresh : RootFlags := fun _ => false

/-- `self._is_root_node = b`. -/
def RootFlags.put (σ : RootFlags) (i : ℕ) (b : Bool) : RootFlags := fun j => if j = i then b else σ j

/-- What matters of a Jackknife or Bootstrap: has it a confidence level, has it a filter, is `can_precompute()` true. -/
structure CiAttr where
  /-- `confidence` is given. -/
  conf : Bool
  /-- `where` is given. -/
  filt : Bool
  /-- `can_precompute()`. -/
  pre : Bool
deriving DecidableEq

/-- A tree of metrics. A leaf has a name; `sup` says whether the class can generate SQL. An inner node is a MetricList or another
metric that keeps the columns of its children apart. `ci i c` is the Jackknife or Bootstrap object `i` on `c`; the same object can be
at several places. -/
inductive STree where
  | leaf (name : ℕ) (sup : Bool)
  | op (sup : Bool) (children : List STree)
  | ci (i : ℕ) (child : STree)

/-- What is appended to the name of a column. -/
inductive ColTag where
  | se
  | dof
  | lower
  | upper
deriving DecidableEq

/-- A column of a result: the leaf it comes from and what it is of it. The point estimate has no tag. -/
structure ColHead where
  /-- The leaf. -/
  name : ℕ
  /-- The tags, in the order in which they were appended. -/
  tags : List ColTag
deriving DecidableEq

/-- The column with one more tag. -/
def ColHead.tag (h : ColHead) (t : ColTag) : ColHead := ⟨h.name, h.tags ++ [t]⟩

/-- The columns of the query of a Jackknife or Bootstrap: per column of the child the estimate and the standard error, and the degrees
of freedom when there is a confidence level (/repo/operations.py:2166-2188, 3223-3242). -/
def ciSqlCols (conf : Bool) (hs : List ColHead) : List ColHead :=
  hs.flatMap fun h => if conf then [h, h.tag .se, h.tag .dof] else [h, h.tag .se]

/-- `compute_on_sql_sql_mode` of a Jackknife or Bootstrap with a confidence level turns every three columns into the estimate and the
bounds (/repo/operations.py:1996-2014). -/
def boundCols : List ColHead → List ColHead
  | v :: _ :: _ :: rest => v :: v.tag .lower :: v.tag .upper :: boundCols rest
  | _ => []

/-- The columns computed in Python: `get_stderrs_or_ci_half_width` joined to the estimates (/repo/operations.py:1813-1823, 2029-2044). -/
def ciPyCols (conf : Bool) (hs : List ColHead) : List ColHead :=
  hs.flatMap fun h => if conf then [h, h.tag .lower, h.tag .upper] else [h, h.tag .se]

mutual

/-- `get_sql_and_with_clause` (/repo/operations.py:2102-2217, /repo/metrics.py:1268-1340): the columns of the query, or
NotImplementedError (`none`), and the flags after it. The resampled data are queried from a deep copy (`self_copy`, line 2229), whose
flags are thrown away; the point estimate from the child itself. Simplified: a metric that is not a Jackknife or Bootstrap asks each
child once. -/
def genSql (attr : ℕ → CiAttr) : STree → RootFlags → Option (List ColHead) × RootFlags
  | .leaf n sup, σ => (if sup then some [⟨n, []⟩] else none, σ)
  | .op sup cs, σ => if sup then genSqlList attr cs σ else (none, σ)
  | .ci i c, σ =>
    if (attr i).conf && !σ i then (none, σ.put i false)
    else
      match (genSql attr c (σ.put i false)).1, genSql attr c (σ.put i false) with
      | none, _ => (none, σ.put i false)
      | some _, (none, σ') => (none, σ')
      | some _, (some hs, σ') => (some (ciSqlCols (attr i).conf hs), σ')

/-- The queries of all children (/repo/metrics.py:1298-1302). -/
def genSqlList (attr : ℕ → CiAttr) : List STree → RootFlags → Option (List ColHead) × RootFlags
  | [], σ => (some [], σ)
  | t :: ts, σ =>
    match genSql attr t σ with
    | (none, σ') => (none, σ')
    | (some h, σ') =>
      match genSqlList attr ts σ' with
      | (none, σ'') => (none, σ'')
      | (some hs, σ'') => (some (h ++ hs), σ'')

end

/-- `to_sql` (/repo/operations.py:2055-2100, /repo/metrics.py:691-708). A Jackknife or Bootstrap marks itself as the root; with a filter, or when
it can be precomputed, the query is generated from a copy, and the mark stays on the metric itself. -/
def toSqlFlags (attr : ℕ → CiAttr) : STree → RootFlags → Option (List ColHead) × RootFlags
  | .ci i c, σ =>
    if (attr i).filt || (attr i).pre then ((genSql attr (.ci i c) (σ.put i true)).1, σ.put i true)
    else genSql attr (.ci i c) (σ.put i true)
  | t, σ => genSql attr t σ

/-- Do something `n` times, until it fails. -/
def repeatRun {α : Type} (f : RootFlags → Option α × RootFlags) : ℕ → RootFlags → Option Unit × RootFlags
  | 0, σ => (some (), σ)
  | n + 1, σ =>
    match f σ with
    | (none, σ') => (none, σ')
    | (some _, σ') => repeatRun f n σ'

mutual

/-- `compute_on_sql` with `mode=None` or `mode='mixed'` (/repo/metrics.py:643-660, 748-765, /repo/operations.py:1957-1973, 2029-2044). `n` is the
number of queries for the resamples. `none` is NotImplementedError. -/
def computeSql (attr : ℕ → CiAttr) (n : ℕ) (mixed : Bool) : STree → RootFlags → Option (List ColHead) × RootFlags
  | .leaf m sup, σ => genSql attr (.leaf m sup) σ
  | .op sup cs, σ =>
    if mixed then computeSqlList attr n mixed cs σ
    else
      match toSqlFlags attr (.op sup cs) σ with
      | (some h, σ') => (some h, σ')
      | (none, σ') => computeSqlList attr n mixed cs σ'
  | .ci i c, σ =>
    match (if mixed then (none, σ) else toSqlFlags attr (.ci i c) σ) with
    | (some h, σ') => (some (if (attr i).conf then boundCols h else h), σ')
    | (none, σ') =>
      match repeatRun (fun s => computeSql attr n mixed c s) n σ' with
      | (none, σ'') => (none, σ'')
      | (some _, σ'') =>
        match computeSql attr n mixed c σ'' with
        | (none, σ₃) => (none, σ₃)
        | (some h, σ₃) => (some (ciPyCols (attr i).conf h), σ₃)

/-- `compute_children_sql` of a MetricList (/repo/metrics.py:1247-1266): every child as a root. -/
def computeSqlList (attr : ℕ → CiAttr) (n : ℕ) (mixed : Bool) : List STree → RootFlags → Option (List ColHead) × RootFlags
  | [], σ => (some [], σ)
  | t :: ts, σ =>
    match computeSql attr n mixed t σ with
    | (none, σ') => (none, σ')
    | (some h, σ') =>
      match computeSqlList attr n mixed ts σ' with
      | (none, σ'') => (none, σ'')
      | (some hs, σ'') => (some (h ++ hs), σ'')

end

/-- A call of the user. -/
inductive SqlCall where
  /-- `t.to_sql(table)` -/
  | toSql (t : STree)
  /-- `t.compute_on_sql(table, execute=..., mode=...)`, with `n` queries for the resamples of a Jackknife or Bootstrap. -/
  | compute (n : ℕ) (mixed : Bool) (t : STree)

/-- A call and what it leaves. -/
def SqlCall.run (attr : ℕ → CiAttr) : SqlCall → RootFlags → Option (List ColHead) × RootFlags
  | .toSql t, σ => toSqlFlags attr t σ
  | .compute n mixed t, σ => computeSql attr n mixed t σ

/-- The flags after a history of calls on new objects. -/
def flagsAfter (attr : ℕ → CiAttr) (calls : List SqlCall) : RootFlags :=
  calls.foldl (fun σ c => (c.run attr σ).2) RootFlags.fresh

end Verif
