import Verif.Model.CiTable
import Verif.Spec.StdErr
import Verif.Spec.SqlAlias

/-!
# Specification for C80: what stands beside an estimate

The resampled estimates of a metric in a slice, their standard error and the interval, by the textbook formulas.
-/

namespace Verif

variable {κ : Type} [DecidableEq κ]

/-- The resampled estimates of metric number `j` in the slice `k`; missing ones are left out. -/
def estimatesOf (samples : RTab κ) (k : RKey κ) (j : ℕ) : List ℝ :=
  samples.filterMap fun r => if r.1 = k then colVal r.2 j else none

/-- The standard error, if there are at least two estimates. -/
noncomputable def specSE (jk : Bool) (xs : List ℝ) : Option ℝ :=
  if xs.length < 2 then none
  else some (if jk then jackknifeSE xs
    else Real.sqrt ((xs.map fun x => (x - xs.sum / xs.length) ^ 2).sum / ((xs.length : ℝ) - 1)))

/-- Estimate, lower and upper bound: estimate ± standard error · quantile with `n - 1` degrees of freedom. -/
noncomputable def specCi (jk : Bool) (ppf : ℝ → ℤ → ℝ) (c : ℝ) (pt : Option ℝ) (xs : List ℝ) :
    Option ℝ × Option ℝ × Option ℝ :=
  let bound (sign : ℝ) := match pt, specSE jk xs with
    | some p, some s => some (p + sign * (s * ppf ((1 + c) / 2) ((xs.length : ℤ) - 1)))
    | _, _ => none
  (pt, bound (-1), bound 1)

/-- Expressions of SQL over one column of a group: what is written in the query. -/
inductive AggExpr where
  | stddev
  | count
  | minusOne (e : AggExpr)
  | sqrt (e : AggExpr)
  | safeDiv (n d : AggExpr)
  | times (e f : AggExpr)

/-- The characters of a text. -/
@[irreducible] def chars (s : String) : Txt := s.toList

/-- How they are written, for the column `a`. -/
def AggExpr.text (a : Txt) : AggExpr → Txt
  | .stddev => chars "STDDEV_SAMP(" ++ a ++ chars ")"
  | .count => chars "COUNT(" ++ a ++ chars ")"
  | .minusOne e => e.text a ++ chars " - 1"
  | .sqrt e => chars "SQRT(" ++ e.text a ++ chars ")"
  | .safeDiv n d => chars "IF((" ++ d.text a ++ chars ") = 0, NULL, (" ++ n.text a ++ chars ") / (" ++ d.text a ++ chars "))"
  | .times e f => e.text a ++ chars " * (" ++ f.text a ++ chars ")"

/-- What they mean in SQL for the values of the column in the group (NULL is none): aggregates leave NULL out, arithmetic with NULL is
NULL, the standard deviation of fewer than two values is NULL. -/
noncomputable def AggExpr.value (vs : List (Option ℝ)) : AggExpr → Option ℝ
  | .stddev =>
    let xs := vs.filterMap id
    if xs.length < 2 then none
    else some (Real.sqrt ((xs.map fun x => (x - xs.sum / xs.length) ^ 2).sum / ((xs.length : ℝ) - 1)))
  | .count => some ((vs.filterMap id).length : ℝ)
  | .minusOne e => (e.value vs).map fun x => x - 1
  | .sqrt e => (e.value vs).map Real.sqrt
  | .safeDiv n d => match n.value vs, d.value vs with
    | some x, some y => if y = 0 then none else some (x / y)
    | _, _ => none
  | .times e f => match e.value vs, f.value vs with
    | some x, some y => some (x * y)
    | _, _ => none

/-- The value in a table. -/
def valueAt (t : RTab κ) (k : RKey κ) (j : ℕ) : Option ℝ :=
  match t.find? fun r => decide (r.1 = k) with
  | some r => colVal r.2 j
  | none => none

end Verif
