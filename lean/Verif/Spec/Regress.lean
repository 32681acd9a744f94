import Verif.Model.Suff

/-!
# What a penalised regression is

Independent of how the code computes it.
-/

namespace Verif

/-- The prediction for a row from an intercept and coefficients. -/
noncomputable def predict (k : ℕ) (b : ℝ) (w : ℕ → ℝ) (r : RegRow) : ℝ := b + ∑ i ∈ Finset.range k, w i * r.x i

/-- sklearn's ridge objective: the sum of squared residuals and `alpha` times the sum of squared coefficients; the intercept is
not penalised. -/
noncomputable def ridgeLoss (k : ℕ) (alpha : ℝ) (rows : List RegRow) (b : ℝ) (w : ℕ → ℝ) : ℝ :=
  (rows.map fun r => (r.y - predict k b w r) ^ 2).sum + alpha * ∑ i ∈ Finset.range k, w i ^ 2

/-- The row of the design matrix: a 1 first if there is an intercept. -/
def designRow (fit : Bool) (r : RegRow) (i : ℕ) : ℝ := if fit then (if i = 0 then 1 else r.x (i - 1)) else r.x i

end Verif

namespace Verif

/-- The entries of a square matrix on and above its diagonal, from left to right and from top to bottom. -/
def upperTriangle {K : Type} (n : ℕ) (f : ℕ → ℕ → K) : List K :=
  (List.range n).flatMap fun i => ((List.range n).filter fun j => i ≤ j).map (f i)

/-- The intercept in a row of results. -/
def interceptOf (fit : Bool) (c : ℕ → ℝ) : ℝ := if fit then c 0 else 0

/-- The coefficients in a row of results. -/
def slopesOf (fit : Bool) (c : ℕ → ℝ) (i : ℕ) : ℝ := if fit then c (i + 1) else c i

/-- What sklearn's ridge fit promises: no other coefficients have a smaller objective; without an intercept it is 0. -/
def RidgeFit (k : ℕ) (alpha : ℝ) (fit : Bool) (fitted : List RegRow → ℝ × (ℕ → ℝ)) : Prop :=
  ∀ rows, (fit = false → (fitted rows).1 = 0) ∧
    ∀ b w, (fit = false → b = 0) → ridgeLoss k alpha rows (fitted rows).1 (fitted rows).2 ≤ ridgeLoss k alpha rows b w

end Verif
