import Verif.Model.StdErr

/-!
# Textbook jackknife and confidence interval
-/

namespace Verif

/-- The jackknife standard error of leave-one-out estimates `xs`: `sqrt((n-1)/n * Σ (xᵢ - x̄)²)`. -/
noncomputable def jackknifeSE (xs : List ℝ) : ℝ :=
  Real.sqrt (((xs.length : ℝ) - 1) / xs.length * (xs.map fun x => (x - xs.sum / xs.length) ^ 2).sum)

/-- The standard error of a mean: `s / sqrt n` with `s² = Σ (yᵢ - ȳ)² / (n - 1)`. -/
noncomputable def meanSE (ys : List ℝ) : ℝ :=
  Real.sqrt ((ys.map fun y => (y - ys.sum / ys.length) ^ 2).sum / ((ys.length : ℝ) - 1)) / Real.sqrt ys.length

/-- What is used of Student's quantile function: it grows with the probability and is 0 at one half. -/
structure IsQuantile (ppf : ℝ → ℤ → ℝ) : Prop where
  mono : ∀ dof p q, 0 < p → p < q → q < 1 → ppf p dof ≤ ppf q dof
  half : ∀ dof, ppf (1 / 2) dof = 0

end Verif
