import Verif.Model.Frame

/-!
# The Nth metric

/repo/metrics.py:1910-2056.
-/

namespace Verif

/-- What the caller passes: `Nth(var, n, sort_by, ascending, dropna)`. -/
structure NthArgs where
  var : String
  n : Int
  sortBy : String
  ascending : Bool
  dropna : Bool

/-- The attributes after the constructor: a negative `n` turns into `-n - 1` in the opposite
order (/repo/metrics.py:1936-1942). -/
structure Nth where
  var : String
  n : Nat
  sortBy : String
  ascending : Bool
  dropna : Bool
  deriving DecidableEq

/-- `Nth.__init__` (/repo/metrics.py:1925-1968, without the naming). -/
def NthArgs.init (a : NthArgs) : Nth :=
  if a.n < 0 then ⟨a.var, (-a.n - 1).toNat, a.sortBy, !a.ascending, a.dropna⟩
  else ⟨a.var, a.n.toNat, a.sortBy, a.ascending, a.dropna⟩

/-- `a` comes strictly before `b` when sorting, missing keys last in both orders
(pandas `sort_values`, `na_position='last'`). -/
def sortsBefore (asc : Bool) : Cell → Cell → Bool
  | some a, some b => if asc then decide (a < b) else decide (b < a)
  | some _, none => true
  | none, _ => false

/-- The contract of `df.sort_values(by, ascending=asc)`: some rearrangement of the rows in which
no row comes strictly before an earlier one. The default algorithm is not stable, so
nothing is promised about ties. -/
def SortedBy (asc : Bool) (by_ : String) (rows out : List Row) : Prop :=
  out.Perm rows ∧ out.Pairwise (fun a b => sortsBefore asc (b by_) (a by_) = false)

/-- `df.dropna(subset=[var])` (/repo/metrics.py:1971-1972). -/
def Nth.dropNa (p : Nth) (rows : List Row) : List Row :=
  if p.dropna then rows.filter (fun r => (r p.var).isSome) else rows

/-- `Nth.compute_slices` (/repo/metrics.py:1970-1979) after sorting: with `split_by`,
`groupby(split_by).nth(n)`, which has no row for a group that is too short; without, NaN
in that case. `sorted` are the rows left by `dropna`, sorted. -/
def Nth.onSorted (p : Nth) (sorted : List Row) (sb : List String) : Tbl :=
  if sb = [] then
    [([], match sorted[p.n]? with | some r => .ofCell (r p.var) | none => .nan)]
  else
    (groupKeys sb sorted).filterMap (fun k =>
      (rowsAt sb k sorted)[p.n]?.map (fun r => (k, .ofCell (r p.var))))

/-- BigQuery's `ORDER BY key [DESC]`: NULL is the smallest value, first in ascending order
and last in descending order. -/
def sqlSortsBefore (asc : Bool) : Cell → Cell → Bool
  | some a, some b => if asc then decide (a < b) else decide (b < a)
  | none, some _ => asc
  | some _, none => !asc
  | none, none => false

/-- The contract of `ORDER BY` inside `ARRAY_AGG`. -/
def SqlSortedBy (asc : Bool) (by_ : String) (rows out : List Row) : Prop :=
  out.Perm rows ∧ out.Pairwise (fun a b => sqlSortsBefore asc (b by_) (a by_) = false)

/-- `ARRAY_AGG(var [IGNORE NULLS] ORDER BY sort_by [DESC] LIMIT n+1)[SAFE_OFFSET(n)]`
(/repo/metrics.py:2037-2055) of one group, whose rows (without those with a NULL `var` under
IGNORE NULLS) are `sorted`. With a filter on the metric the group is taken from a
filtered subquery (:1981-2035), so the same expression on the filtered rows. -/
def Nth.sql (p : Nth) (sorted : List Row) : Cell :=
  ((sorted.map (fun r => r p.var)).take (p.n + 1))[p.n]?.getD none

end Verif
