import Mathlib.Analysis.Real.Sqrt
import Mathlib.Algebra.BigOperators.Group.List.Basic

/-!
# Standard errors and confidence intervals

/repo/operations.py:1654-1722, 1811-1836, 2450-2454, 3205-3242. Replicates of one metric in one slice are a list, `none`
for missing. Real numbers; rounding is not modelled.
-/

namespace Verif

/-- `DataFrame.std(1)` and `STDDEV_SAMP`: missing values are skipped, nothing for fewer than two values. -/
noncomputable def stdSamp (xs : List ℝ) : Option ℝ :=
  if xs.length < 2 then none
  else
    let mean := xs.sum / xs.length
    some (Real.sqrt ((xs.map fun x => (x - mean) ^ 2).sum / ((xs.length : ℝ) - 1)))

/-- `MetricWithCI.get_stderrs` (/repo/operations.py:1827-1830), used as it is by Bootstrap: standard deviation and
degrees of freedom `count - 1`. -/
noncomputable def bsStderr (reps : List (Option ℝ)) : Option ℝ × ℤ :=
  let xs := reps.filterMap id
  (stdSamp xs, (xs.length : ℤ) - 1)

/-- `Jackknife.get_stderrs` (/repo/operations.py:2450-2454): `stderrs * dof / np.sqrt(dof + 1)`. -/
noncomputable def jkStderr (reps : List (Option ℝ)) : Option ℝ × ℤ :=
  let (se, dof) := bsStderr reps
  (se.map fun s => s * (dof : ℝ) / Real.sqrt ((dof : ℝ) + 1), dof)

/-- The column `STDDEV_SAMP(c) * SAFE_DIVIDE(COUNT(c) - 1, SQRT(COUNT(c)))` of `get_se_sql`
(/repo/operations.py:3230-3241); `SAFE_DIVIDE` is NULL for a zero denominator. -/
noncomputable def sqlJkStderr (reps : List (Option ℝ)) : Option ℝ :=
  let xs := reps.filterMap id
  let n : ℝ := xs.length
  let adjustment := if Real.sqrt n = 0 then none else some ((n - 1) / Real.sqrt n)
  (stdSamp xs).bind fun s => adjustment.map fun a => s * a

/-- The check in `MetricWithCI.__init__` (/repo/operations.py:1666-1667): `if confidence and not 0 < confidence < 1`.
`none` is Python's `None`; 0 is falsy. `false` means that `ValueError` is raised. -/
noncomputable def confidenceAccepted (c : Option ℝ) : Prop :=
  ∀ x, c = some x → x ≠ 0 → 0 < x ∧ x < 1

/-- Whether an interval is reported: `if self.confidence` (/repo/operations.py:1819). -/
def reportsInterval (c : Option ℝ) : Prop := ∃ x, c = some x ∧ x ≠ 0

/-- `get_ci_width` (/repo/operations.py:1832-1836): `ppf` is `scipy.stats.t.ppf`. -/
noncomputable def ciHalfWidth (ppf : ℝ → ℤ → ℝ) (conf : ℝ) (se : Option ℝ) (dof : ℤ) : Option ℝ :=
  se.map fun s => s * ppf ((1 + conf) / 2) dof

/-- `compute_ci` (/repo/operations.py:1701-1722) and the columns in SQL mode (/repo/operations.py:2001-2014). -/
noncomputable def ciBounds (ppf : ℝ → ℤ → ℝ) (conf : ℝ) (pt : ℝ) (se : Option ℝ) (dof : ℤ) : Option (ℝ × ℝ) :=
  (ciHalfWidth ppf conf se dof).map fun h => (pt - h, h + pt)

end Verif
