import Verif.Model.Comparison

/-!
# The leave-one-out tables of Jackknife

/repo/operations.py:2267-2566, 3268-3547 and /repo/utils.py:432-511. A row of the data has a slice `s` (the values of
`split_by`), a unit `u`, the values `o` of the columns the operations under the Jackknife split by, numeric columns and
the outcome of each filter of the leaf metrics. The filter of the Jackknife itself has been applied. No column used for
slicing is missing. Numbers are exact.
-/

namespace Verif

/-- A row of the data. -/
structure JRow (S U O C F K : Type) where
  s : S
  u : U
  o : O
  col : C → Option K
  pass : F → Bool

/-- `Sum(col, where=flt)` or `Count(col, where=flt)`. -/
structure JLeaf (C F : Type) where
  isCount : Bool
  col : C
  flt : F

/-- `groupby(key)` followed by an aggregation. -/
def aggBy {ρ κ X : Type} [DecidableEq κ] (key : ρ → κ) (f : List ρ → X) (rows : List ρ) : List (κ × X) :=
  (rows.map key).dedup.map fun k => (k, f (rows.filter fun r => decide (key r = k)))

section
variable {S U O C F K : Type} [DecidableEq S] [DecidableEq U] [DecidableEq O] [Field K]

/-- pandas `sum` and `count` of a column (/repo/metrics.py:1730-1759): missing values are skipped. -/
def JLeaf.py (L : JLeaf C F) (rows : List (JRow S U O C F K)) : K :=
  if L.isCount then ((rows.filterMap fun r => r.col L.col).length : K) else (rows.filterMap fun r => r.col L.col).sum

/-- The rows the leaf's filter keeps. -/
def JLeaf.rows (L : JLeaf C F) (t : List (JRow S U O C F K)) : List (JRow S U O C F K) :=
  t.filter fun r => r.pass L.flt

/-! ## The general way -/

/-- One sample of `Jackknife.get_samples` with `split_by` (/repo/operations.py:2440-2449): the rows of the other units,
in the slices that have the unit. -/
def looSample (t : List (JRow S U O C F K)) (u : U) : List (JRow S U O C F K) :=
  t.filter fun r => decide (r.u ≠ u) && (t.any fun q => decide (q.u = u) && decide (q.s = r.s))

/-- A leaf on all the samples, by slice, unit left out and operation levels
(/repo/operations.py:1777-1809, 2440-2449). -/
def pyLooGeneral (L : JLeaf C F) (t : List (JRow S U O C F K)) : List ((S × U × O) × K) :=
  (t.map (·.u)).dedup.flatMap fun u =>
    (aggBy (fun r => (r.s, r.o)) L.py (L.rows (looSample t u))).map fun p => ((p.1.1, u, p.1.2), p.2)

/-- The samples if nothing splits the data, and a leaf on them (/repo/operations.py:2431-2438): fewer than two units
are refused; a leaf on no rows gives 0. -/
def pyLooScalar (L : JLeaf C F) (t : List (JRow S U O C F K)) : Option (List (U × K)) :=
  let levels := (t.map (·.u)).dedup
  if levels.length < 2 then none
  else some (levels.map fun u => (u, L.py (L.rows (t.filter fun r => decide (r.u ≠ u)))))

/-! ## The fast way -/

/-- The leaf by slice, unit and operation levels: what `compute_slices` precomputes (/repo/operations.py:2328). -/
def pyBucket (L : JLeaf C F) (t : List (JRow S U O C F K)) : List ((S × U × O) × K) :=
  aggBy (fun r => (r.s, r.u, r.o)) L.py (L.rows t)

/-- `each_bucket.groupby(level=split_by).sum()` (/repo/operations.py:2380). -/
def pyTotal (L : JLeaf C F) (t : List (JRow S U O C F K)) : List ((S × O) × K) :=
  aggBy (fun b => (b.1.1, b.1.2.2)) (fun bs => (bs.map (·.2)).sum) (pyBucket L t)

/-- `expected_slices` of `adjust_slices_for_loo` (/repo/utils.py:487-511): the units of a slice merged, outer, with the
buckets of the slice; pairs with the unit itself dropped. A slice without buckets is paired with missing levels. -/
def looSlices (L : JLeaf C F) (t : List (JRow S U O C F K)) : List (S × U × Option O) :=
  ((t.map fun r => (r.s, r.u)).dedup.flatMap fun e =>
    let m := (pyBucket L t).filter fun b => decide (b.1.1 = e.1)
    if m.isEmpty then [(e.1, e.2, none)]
    else (m.filter fun b => decide (e.2 ≠ b.1.2.1)).map fun b => (e.1, e.2, some b.1.2.2)).dedup

/-- The fast table below an operation that splits (/repo/operations.py:2377-2394, /repo/utils.py:493-511): total minus
bucket, 0 for a bucket that is not there, missing without a total. Simplification: the value-less row that the
alignment adds for a total without leave-one-out slices is not modelled. -/
def pyLooOp (L : JLeaf C F) (t : List (JRow S U O C F K)) : List ((S × U × Option O) × Option K) :=
  (looSlices L t).map fun k =>
    (k, k.2.2.bind fun o => ((pyTotal L t).lookup (k.1, o)).map fun tot =>
      tot - ((pyBucket L t).lookup (k.1, k.2.1, o)).getD 0)

/-- The same without an operation that splits (/repo/utils.py:487-491): the buckets by slice and unit, reindexed to
the slices and units of the data. -/
def pyLooSplit (L : JLeaf C F) (t : List (JRow S U O C F K)) : List ((S × U) × Option K) :=
  let bucket := aggBy (fun r => (r.s, r.u)) L.py (L.rows t)
  let total := aggBy (fun b => b.1.1) (fun bs => (bs.map (·.2)).sum) bucket
  (t.map fun r => (r.s, r.u)).dedup.map fun k =>
    (k, (total.lookup k.1).map fun tot => tot - (bucket.lookup k).getD 0)

/-- The same if nothing splits the data (/repo/operations.py:2381-2394): the total is one number. -/
def pyLooFastScalar (L : JLeaf C F) (t : List (JRow S U O C F K)) : List (U × K) :=
  let bucket := aggBy (fun r => r.u) L.py (L.rows t)
  let total := (bucket.map (·.2)).sum
  (t.map (·.u)).dedup.map fun u => (u, total - (bucket.lookup u).getD 0)

/-! ## The SQL way -/

/-- `SUM(IF(filter, x, NULL))` and `COUNT(IF(filter, x, NULL))` (/repo/operations.py:3526-3531). -/
def JLeaf.sql (L : JLeaf C F) (rows : List (JRow S U O C F K)) : Option K :=
  let vs := (L.rows rows).filterMap fun r => r.col L.col
  if L.isCount then some (vs.length : K) else if vs.isEmpty then none else some vs.sum

/-- `UnitSliceCount`: `COUNT(*)` and the leaf by slice, unit and operation levels (/repo/operations.py:3429-3433). -/
def sqlUnitSlice (L : JLeaf C F) (t : List (JRow S U O C F K)) : List ((S × U × O) × (Nat × Option K)) :=
  aggBy (fun r => (r.s, r.u, r.o)) (fun rs => (rs.length, L.sql rs)) t

/-- `SUM` of a column that may hold NULLs. -/
def sumNull (vs : List (Option K)) : Option K :=
  if (vs.filterMap id).isEmpty then none else some (vs.filterMap id).sum

/-- `TotalCount` (/repo/operations.py:3435-3441). -/
def sqlTotalCount (L : JLeaf C F) (t : List (JRow S U O C F K)) : List ((S × O) × (Nat × Option K)) :=
  aggBy (fun b => (b.1.1, b.1.2.2)) (fun bs => ((bs.map (·.2.1)).sum, sumNull (bs.map (·.2.2)))) (sqlUnitSlice L t)

/-- `LOO` (/repo/operations.py:3443-3468, 3522-3534): the totals joined with the slices and units, left joined with
`UnitSliceCount`, `WHERE total.ct - COALESCE(unit.ct, 0) > 0`; with adjustment a missing unit value counts as 0.
Without `split_by` the join is a cross join: the same as one slice. -/
def sqlLoo (adjust : Bool) (L : JLeaf C F) (t : List (JRow S U O C F K)) : List ((S × U × O) × Option K) :=
  let unit := sqlUnitSlice L t
  (unit.map fun b => (b.1.1, b.1.2.1)).dedup.flatMap fun e =>
    ((sqlTotalCount L t).filter fun p => decide (p.1.1 = e.1)).filterMap fun p =>
      let m := unit.lookup (e.1, e.2, p.1.2)
      if ((m.map (·.1)).getD 0) < p.2.1 then
        let unitVal := m.bind (·.2)
        let unitVal := if adjust then some (unitVal.getD 0) else unitVal
        some ((e.1, e.2, p.1.2), optSub p.2.2 unitVal)
      else none

/-- `JackknifeResampledData` and a leaf on it (/repo/operations.py:3316-3352): each row joined with the units of its
slice other than its own. -/
def sqlLooGeneral (L : JLeaf C F) (t : List (JRow S U O C F K)) : List ((S × U × O) × Option K) :=
  let buckets := (t.map fun r => (r.s, r.u)).dedup
  aggBy (fun x => (x.2.s, x.1, x.2.o)) (fun xs => L.sql (xs.map (·.2)))
    (t.flatMap fun r => (buckets.filter fun b => decide (b.1 = r.s) && decide (b.2 ≠ r.u)).map fun b => (b.2, r))

/-! ## Metrics made of leaves -/

/-- A metric built from sums and counts by arithmetic: the trees that `get_fully_expanded_equivalent_metric_tree` leaves
(/repo/utils.py:514-561) below the operations. `app` is arithmetic with a number. -/
inductive JTree (C F K : Type) where
  | leaf (L : JLeaf C F)
  | app (g : Option K → Option K) (a : JTree C F K)
  | bin (f : Option K → Option K → Option K) (a b : JTree C F K)

/-- The result of a tree, given the results of its leaves: arithmetic aligns on the union of the index values, a value
that is not there is missing (/repo/metrics.py:1447-1510). -/
def JTree.tab {κ : Type} [DecidableEq κ] (T : JLeaf C F → List (κ × Option K)) : JTree C F K → List (κ × Option K)
  | .leaf L => T L
  | .app g a => (a.tab T).map fun p => (p.1, g p.2)
  | .bin f a b =>
      ((a.tab T).map (·.1) ++ (b.tab T).map (·.1)).dedup.map fun k =>
        (k, f (((a.tab T).lookup k).getD none) (((b.tab T).lookup k).getD none))

/-- The leaves of a tree. -/
def JTree.leaves : JTree C F K → List (JLeaf C F)
  | .leaf L => [L]
  | .app _ a => a.leaves
  | .bin _ a b => a.leaves ++ b.leaves

end

end Verif
