import Mathlib.Algebra.Order.Field.Basic
import Mathlib.Algebra.Order.BigOperators.Group.List
import Mathlib.Data.List.Dedup
import Mathlib.Data.List.Sort
import Mathlib.Analysis.SpecialFunctions.Log.Basic

/-!
# Distribution, CumulativeDistribution and the diversity metrics

/repo/operations.py:199-412 and /repo/diversity.py. A column of the child metric's result is a table with one
row per slice and category; `S` is the type of slices (values of `split_by`), `C` that of categories (values of
`over`). The columns of a result are treated independently by the code. Numbers are exact.
-/

namespace Verif

/-- One column of the child's result: (slice, category) and value, `none` for missing. -/
abbrev DTab (S C K : Type) := List ((S × C) × Option K)

section
variable {S C K : Type} [DecidableEq S] [Field K] [LinearOrder K]

/-- pandas `sum`: missing values are skipped. -/
def nanSum (vs : List (Option K)) : K := (vs.filterMap id).sum

/-- SQL `SUM`: NULLs are skipped, NULL if nothing is left. -/
def sqlSumN (vs : List (Option K)) : Option K :=
  if (vs.filterMap id).isEmpty then none else some (vs.filterMap id).sum

/-- The slices that occur. -/
def sliceKeys (t : DTab S C K) : List S := (t.map (·.1.1)).dedup

/-- The values in a slice. -/
def sliceVals (t : DTab S C K) (s : S) : List (Option K) := (t.filter (fun r => decide (r.1.1 = s))).map (·.2)

/-- `groupby(level=split_by)` followed by an aggregation. -/
def groupAgg {X : Type} (f : List (Option K) → X) (t : DTab S C K) : List (S × X) :=
  (sliceKeys t).map fun s => (s, f (sliceVals t s))

/-- pandas `/`. Simplification: NaN and the infinities that a division by zero gives are both `none`. -/
def nanDiv : Option K → Option K → Option K
  | some a, some b => if b = 0 then none else some (a / b)
  | _, _ => none

/-- `Distribution.compute_on_children` (/repo/operations.py:215-225): totals per slice, then a division
aligned on the slice. -/
def pyDist (t : DTab S C K) : DTab S C K :=
  let total := groupAgg nanSum t
  t.map fun r => (r.1, nanDiv r.2 (total.lookup r.1.1))

/-- The query of `Distribution` (/repo/operations.py:227-269): for each row
`IF(SUM(v) OVER (PARTITION BY s) = 0, NULL, v / SUM(v) OVER (PARTITION BY s))`. Simplification: casting the
slice to a string keeps different slices different. -/
def sqlDist (t : DTab S C K) : DTab S C K :=
  t.map fun r => (r.1, nanDiv r.2 (sqlSumN (sliceVals t r.1.1)))

/-! ## CumulativeDistribution, on the shares of one slice -/

/-- pandas `cumsum`: a missing value stays missing and does not count. -/
def cumsumFrom (acc : K) : List (Option K) → List (Option K)
  | [] => []
  | none :: vs => none :: cumsumFrom acc vs
  | some v :: vs => some (acc + v) :: cumsumFrom (acc + v) vs

def cumsum (vs : List (Option K)) : List (Option K) := cumsumFrom 0 vs

/-- SQL `SUM(v) OVER (... ROWS BETWEEN UNBOUNDED PRECEDING AND CURRENT ROW)` for rows in the given order: for
each row the SUM of the rows up to it. -/
def sqlRunning (vs : List (Option K)) : List (Option K) :=
  (List.range vs.length).map fun i => sqlSumN (vs.take (i + 1))

/-- How the categories are ordered (/repo/operations.py:296-314). -/
inductive CumMode (C : Type) where
  /-- by the `over` column -/
  | over
  /-- by a custom order -/
  | custom (order : List C)
  /-- by the shares -/
  | byValue

variable [LinearOrder C]

/-- The rows of a slice in the order in which `compute_on_children` adds them up
(/repo/operations.py:324-343): `reindex(order).dropna()`, `sort_values(over)` or `sort_values` of the
shares. Sorting is modelled as stable and missing shares come last. -/
def pyArrange (mode : CumMode C) (asc : Bool) (l : List (C × Option K)) : List (C × Option K) :=
  match mode with
  | .over => l.insertionSort (fun a b => (if asc then decide (a.1 ≤ b.1) else decide (b.1 ≤ a.1)) = true)
  | .custom order =>
      ((if asc then order else order.reverse).map fun c => (c, (l.lookup c).bind id)).filter (fun r => r.2.isSome)
  | .byValue => l.insertionSort (fun a b =>
      (match a.2, b.2 with
      | some x, some y => if asc then decide (x ≤ y) else decide (y ≤ x)
      | some _, none => true
      | none, some _ => false
      | none, none => true) = true)

/-- `CumulativeDistribution.compute_on_children` (/repo/operations.py:320-343) on one slice of
`pyDist`. -/
def pyCumulative (mode : CumMode C) (asc : Bool) (l : List (C × Option K)) : List (C × Option K) :=
  let a := pyArrange mode asc l
  (a.map (·.1)).zip (cumsum (a.map (·.2)))

/-- The position of a category in `CASE over WHEN ... THEN i ... ELSE len END`
(/repo/operations.py:397-405). -/
def caseIndex (order : List C) (c : C) : Nat := order.idxOf c

/-- A row may come before another one under the query's ORDER BY (/repo/operations.py:375-405). -/
def sqlBefore (mode : CumMode C) (asc : Bool) (a b : C × Option K) : Prop :=
  match mode with
  | .over => if asc then a.1 ≤ b.1 else b.1 ≤ a.1
  | .custom order => if asc then caseIndex order a.1 ≤ caseIndex order b.1
      else caseIndex order b.1 ≤ caseIndex order a.1
  | .byValue => if asc then a.2.elim True (fun x => b.2.elim False (fun y => x ≤ y))
      else b.2.elim True (fun y => a.2.elim False (fun x => y ≤ x))

/-- What the query of `CumulativeDistribution` may return for a slice of `sqlDist`
(/repo/operations.py:345-405): the running sums over the rows in any order that the ORDER BY allows. -/
def SqlCumulative (mode : CumMode C) (asc : Bool) (l out : List (C × Option K)) : Prop :=
  ∃ a : List (C × Option K), a.Perm l ∧ a.Pairwise (sqlBefore mode asc) ∧
    out = (a.map (·.1)).zip (sqlRunning (a.map (·.2)))

end

/-! ## Diversity -/

section
variable {S C K : Type} [DecidableEq S] [Field K] [LinearOrder K]

/-- `HHI.compute_on_children` (/repo/diversity.py:65-68). -/
def pyHHI (t : DTab S C K) : List (S × K) :=
  groupAgg (fun vs => nanSum (vs.map fun v => v.map (· ^ 2))) (pyDist t)

/-- The query of `HHI` (/repo/diversity.py:70-97): `SUM(POWER(v, 2))` of the distribution. -/
def sqlHHI (t : DTab S C K) : List (S × Option K) :=
  groupAgg (fun vs => sqlSumN (vs.map fun v => v.map (· ^ 2))) (sqlDist t)

/-- Descending order. -/
def sortDesc (vs : List K) : List K := vs.insertionSort (fun a b => b ≤ a)

/-- `TopK.compute_on_children` (/repo/diversity.py:155-165): `nlargest(k)` per slice, then the sum. -/
def pyTopK (k : Nat) (t : DTab S C K) : List (S × K) :=
  groupAgg (fun vs => ((sortDesc (vs.filterMap id)).take k).sum) (pyDist t)

/-- The query of `TopK` (/repo/diversity.py:167-225): `ARRAY_AGG(v ORDER BY v DESC LIMIT k)`, then `SUM`.
Simplification: NULLs are left out of the array (BigQuery refuses them). -/
def sqlTopK (k : Nat) (t : DTab S C K) : List (S × Option K) :=
  groupAgg (fun vs => sqlSumN (((sortDesc (vs.filterMap id)).take k).map some)) (sqlDist t)

/-- `Nxx.nxx_for_one_col` (/repo/diversity.py:251-255): descending running sums, the number of those below
the share, plus one. -/
def pyNxx (share : K) (t : DTab S C K) : List (S × Nat) :=
  groupAgg (fun vs => ((cumsum ((sortDesc (vs.filterMap id)).map some)).filter
    (fun v => v.elim false (fun x => decide (x < share)))).length + 1) (pyDist t)

/-- The query of `Nxx` (/repo/diversity.py:257-319): `COUNTIF(cumulative < share) + 1`. -/
def sqlNxx (share : K) (t : DTab S C K) : List (S × Nat) :=
  groupAgg (fun vs => ((sqlRunning ((sortDesc (vs.filterMap id)).map some)).filter
    (fun v => v.elim false (fun x => decide (x < share)))).length + 1) (sqlDist t)

end

/-- `Entropy.compute_on_children` (/repo/diversity.py:106-109). A share of zero gives `0 * -inf`, NaN, which the
sum skips: the summand is missing unless the share is positive (the logarithm of a negative number is NaN). -/
noncomputable def pyEntropy {S C : Type} [DecidableEq S] (t : DTab S C ℝ) : List (S × ℝ) :=
  groupAgg (fun vs => nanSum (vs.map fun v => v.bind fun p => if 0 < p then some (-p * Real.log p) else none)) (pyDist t)

/-- The query of `Entropy` (/repo/diversity.py:111-138): `-SUM(v * LOG(v))`. `none` as a whole: `LOG` of a number
that is not positive is an error. -/
noncomputable def sqlEntropy {S C : Type} [DecidableEq S] (t : DTab S C ℝ) : Option (List (S × Option ℝ)) :=
  if ∀ r ∈ sqlDist t, ∀ p, r.2 = some p → 0 < p then
    some (groupAgg (fun vs => (sqlSumN (vs.map fun v => v.map fun p => p * Real.log p)).map (- ·)) (sqlDist t))
  else none

end Verif
