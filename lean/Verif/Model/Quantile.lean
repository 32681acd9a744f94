import Verif.Model.Frame
import Mathlib.Data.List.Sort

/-!
# Weighted quantiles in Python and in SQL

/repo/metrics.py:2058-2317. Both are modelled for one slice of the data (Python applies
`interp` per group, :2133-2139; the query partitions by `split_by`).
-/

namespace Verif

/-- Weights of the rows whose value is `x`, missing weights skipped
(pandas `sum`, `skipna`). -/
def weightsOf (var weight : String) (x : Rat) (rs : List Row) : List Rat :=
  rs.filterMap (fun r => if r var = some x then r weight else none)

/-- `df.groupby(split_by + [var])[weight].sum()` of one slice (/repo/metrics.py:2127): the
values that occur in ascending order, each with its summed weight; a missing value forms no
group; a value all of whose weights are missing gets 0. -/
def aggPy (var weight : String) (rs : List Row) : List (Rat × Rat) :=
  (((rs.filterMap (fun r => r var)).dedup).insertionSort (· ≤ ·)).map
    (fun x => (x, (weightsOf var weight x rs).sum))

/-- Subquery `AggregatedQuantileWeights` (/repo/metrics.py:2222-2242): as above on the rows where
both value and weight are present. Ordered by value as in `QuantileWeights`. -/
def aggSql (var weight : String) (rs : List Row) : List (Rat × Rat) :=
  aggPy var weight (rs.filter (fun r => (r var).isSome && (r weight).isSome))

/-- `(cumsum - 0.5 * weight) / total` with the values (/repo/metrics.py:2129-2133;
`QuantileWeights`, :2248-2268). `c` is the weight accumulated before the list. -/
def positions (c total : Rat) : List (Rat × Rat) → List (Rat × Rat)
  | [] => []
  | (x, w) :: t => (((c + w) - 1 / 2 * w) / total, x) :: positions (c + w) total t

/-- Total weight. -/
def totalW (a : List (Rat × Rat)) : Rat := (a.map Prod.snd).sum

/-- `np.interp(q, xp, fp)` for increasing `xp`, given as pairs (position, value). -/
def interp (q : Rat) : List (Rat × Rat) → Option Rat
  | [] => none
  | [(_, v)] => some v
  | (x0, v0) :: (x1, v1) :: t =>
      if q ≤ x0 then some v0
      else if q < x1 then some ((v1 - v0) / (x1 - x0) * (q - x0) + v0)
      else interp q ((x1, v1) :: t)

/-- `Quantile(var, q, weight).compute_on` of one slice (/repo/metrics.py:2105-2140). -/
def pyQuantile (var weight : String) (q : Rat) (rs : List Row) : Cell :=
  let a := aggPy var weight rs
  interp q (positions 0 (totalW a) a)

/-- `Quantile(var, q).compute_on` of one slice without a weight (/repo/metrics.py:2142-2143): pandas'
`quantile(q, interpolation='linear')`, missing values dropped: with `h = q (n - 1)`, between the values number `⌊h⌋` and
`⌊h⌋ + 1` in ascending order. -/
def pdQuantile (var : String) (q : Rat) (rs : List Row) : Cell :=
  let s := (rs.filterMap (fun r => r var)).insertionSort (· ≤ ·)
  let h := q * ((s.length : Rat) - 1)
  let i := h.floor.toNat
  match s[i]?, s[i + 1]? with
  | some a, some b => some (a + (h - (i : Rat)) * (b - a))
  | some a, none => some a
  | none, _ => none

/-- A row of `PairedQuantileWeights` (/repo/metrics.py:2270-2298). -/
structure QRow where
  prevW : Cell
  w : Rat
  v : Rat
  nextW : Cell
  nextV : Cell

/-- `LAG`/`LEAD` over the rows ordered by value. -/
def pairUp (prev : Cell) : List (Rat × Rat) → List QRow
  | [] => []
  | [(x, v)] => [⟨prev, x, v, none, none⟩]
  | (x0, v0) :: (x1, v1) :: t => ⟨prev, x0, v0, some x1, some v1⟩ :: pairUp (some x0) ((x1, v1) :: t)

/-- The summand of the final query (/repo/metrics.py:2305-2314). `BETWEEN` with a NULL bound is
FALSE or NULL, and `IF` takes its third argument for both. -/
def QRow.term (q : Rat) (r : QRow) : Rat :=
  if (r.prevW = none ∧ q < r.w) ∨ (r.nextW = none ∧ r.w < q) then r.v
  else
    match r.nextW, r.nextV with
    | some nw, some nv =>
        if r.w ≤ q ∧ q ≤ nw then (nv * (q - r.w) + (nw - q) * r.v) / (nw - r.w) else 0
    | _, _ => 0

/-- The value of the generated query for one slice; `SUM` of no rows is NULL. -/
def sqlQuantile (var weight : String) (q : Rat) (rs : List Row) : Cell :=
  let a := aggSql var weight rs
  let p := pairUp none (positions 0 (totalW a) a)
  if p = [] then none else some ((p.map (QRow.term q)).sum)

instance : DecidableEq QRow := fun a b =>
  decidable_of_iff (a.prevW = b.prevW ∧ a.w = b.w ∧ a.v = b.v ∧ a.nextW = b.nextW ∧ a.nextV = b.nextV)
    ⟨fun ⟨h1, h2, h3, h4, h5⟩ => by cases a; cases b; simp_all, fun h => by subst h; simp⟩

end Verif
