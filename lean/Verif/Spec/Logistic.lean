import Mathlib.Analysis.SpecialFunctions.Log.Basic
import Verif.Spec.Regress
import Verif.Model.Logistic

/-!
# What a logistic regression is

Independent of how the code computes it.
-/

namespace Verif

open Finset

/-- The logistic function. -/
noncomputable def logistic (z : ℝ) : ℝ := 1 / (1 + Real.exp (-z))

/-- The negative log likelihood of the label `y`, 0 or 1, when 1 has probability `logistic z`. -/
noncomputable def xent (y z : ℝ) : ℝ := -(y * Real.log (logistic z) + (1 - y) * Real.log (1 - logistic z))

/-- sklearn's objective divided by `C`: the negative log likelihood of the labels, `L1` times the sum of the sizes and half of
`L2` times the sum of the squares of the coefficients. In sklearn's terms the `l2` penalty is `L1 = 0`, `L2 = 1 / C`; `l1` is
`L1 = 1 / C`, `L2 = 0`; `elasticnet` is `L1 = l1_ratio / C`, `L2 = (1 - l1_ratio) / C`. The intercept is not penalised. -/
noncomputable def logitObjective (k : ℕ) (L1 L2 : ℝ) (rows : List RegRow) (b : ℝ) (w : ℕ → ℝ) : ℝ :=
  (rows.map fun r => xent r.y (predict k b w r)).sum + L1 * ∑ i ∈ range k, |w i| + L2 / 2 * ∑ i ∈ range k, w i ^ 2

/-- sklearn's objective for `penalty`, `C` and `l1_ratio` as its documentation states it: `C` times the negative log likelihood
plus the penalty; without a penalty `C` does not matter. -/
noncomputable def skLogit (k : ℕ) (penalty : LogitPenalty) (C : ℝ) (rows : List RegRow) (b : ℝ) (w : ℕ → ℝ) : ℝ :=
  let nll := (rows.map fun r => xent r.y (predict k b w r)).sum
  match penalty with
  | .none => nll
  | .l2 => 1 / 2 * ∑ i ∈ range k, w i ^ 2 + C * nll
  | .l1 => ∑ i ∈ range k, |w i| + C * nll
  | .elasticnet ratio => (1 - ratio) / 2 * ∑ i ∈ range k, w i ^ 2 + ratio * ∑ i ∈ range k, |w i| + C * nll

/-- The intercept in a row of coefficients in which it comes last. -/
def lastIntercept (k : ℕ) (fit : Bool) (c : ℕ → ℝ) : ℝ := if fit then c k else 0

end Verif
