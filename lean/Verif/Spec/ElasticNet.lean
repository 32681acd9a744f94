import Verif.Spec.Regress
import Verif.Model.ElasticNet

/-!
# What an elastic net is
-/

namespace Verif

open Finset

/-- sklearn's objective: half the mean squared residual, `l1` times the sum of the sizes of the coefficients, and half of `l2`
times the sum of their squares. The intercept is not penalised. -/
noncomputable def enetLoss (k : ℕ) (l1 l2 : ℝ) (rows : List RegRow) (b : ℝ) (w : ℕ → ℝ) : ℝ :=
  (rows.map fun r => (r.y - predict k b w r) ^ 2).sum / (2 * rows.length) + l1 * ∑ i ∈ range k, |w i|
    + l2 / 2 * ∑ i ∈ range k, w i ^ 2

/-- The objective in the parameters a user gives: `alpha` is the strength of the penalty and `ratio` the part of it that is put
on the sizes of the coefficients, the rest on their squares. `Lasso` is `ratio = 1`. -/
noncomputable def skEnet (k : ℕ) (alpha ratio : ℝ) (rows : List RegRow) (b : ℝ) (w : ℕ → ℝ) : ℝ :=
  1 / (2 * rows.length) * (rows.map fun r => (r.y - predict k b w r) ^ 2).sum
    + alpha * (ratio * ∑ i ∈ range k, |w i| + (1 - ratio) / 2 * ∑ i ∈ range k, w i ^ 2)

/-- The same objective from the matrices `A = X'X / n` and `b = X'y / n`, up to a constant; with an intercept the first entry
is not penalised. -/
def matrixLoss {K : Type} [Field K] [LinearOrder K] (n : ℕ) (A : ℕ → ℕ → K) (b : ℕ → K) (l1 l2 : K) (fit : Bool) (w : ℕ → K) : K :=
  (∑ i ∈ range n, ∑ j ∈ range n, A i j * w i * w j) / 2 - ∑ i ∈ range n, b i * w i
    + ∑ j ∈ range n, if fit ∧ j = 0 then 0 else l1 * |w j| + l2 / 2 * w j ^ 2

/-- The matrix is symmetric and positive semidefinite. -/
def PSD {K : Type} [Field K] [LinearOrder K] (n : ℕ) (A : ℕ → ℕ → K) : Prop :=
  (∀ i j, i < n → j < n → A i j = A j i) ∧ ∀ d : ℕ → K, 0 ≤ ∑ i ∈ range n, ∑ j ∈ range n, A i j * d i * d j

/-- `lam` bounds the quadratic form, as the largest eigenvalue of a symmetric matrix does. -/
def FormBound {K : Type} [Field K] [LinearOrder K] (n : ℕ) (A : ℕ → ℕ → K) (lam : K) : Prop :=
  ∀ d : ℕ → K, ∑ i ∈ range n, ∑ j ∈ range n, A i j * d i * d j ≤ lam * ∑ i ∈ range n, d i ^ 2

/-- The second moments the coefficients depend on: covariances with an intercept, raw moments without. -/
noncomputable def moment (fit : Bool) (rows : List RegRow) (i j : ℕ) : ℝ :=
  if fit then (rows.map fun r => (r.x i - (rows.map fun r => r.x i).sum / rows.length) *
      (r.x j - (rows.map fun r => r.x j).sum / rows.length)).sum / rows.length
  else (rows.map fun r => r.x i * r.x j).sum / rows.length

/-- What a user asks for: no intercept if `fit` is false, no negative coefficient if `positive`, and the least objective among such coefficients. -/
def EnetUser.Solves (u : EnetUser) (k : ℕ) (rows : List RegRow) (b : ℝ) (w : ℕ → ℝ) : Prop :=
  (u.fit = false → b = 0) ∧ (u.positive = true → ∀ i < k, 0 ≤ w i) ∧
    ∀ b' w', (u.fit = false → b' = 0) → (u.positive = true → ∀ i < k, 0 ≤ w' i) →
      skEnet k u.alpha u.l1Ratio rows b w ≤ skEnet k u.alpha u.l1Ratio rows b' w'

end Verif
