import Mathlib.Algebra.BigOperators.Fin
import Mathlib.Data.Fintype.Pi
import Mathlib.Data.Real.Basic

/-!
# Averages over all ways to draw

`n` units drawn with replacement, each with the same chance at every draw: all functions from the draws to the units have the
same weight, and an expected value is the average over them.
-/

namespace Verif

/-- The average of `f` over a finite type. -/
noncomputable def average {α : Type} [Fintype α] (f : α → ℝ) : ℝ := (∑ a, f a) / (Fintype.card α : ℝ)

/-- The draws of `d` out of the units. -/
def drawn {U : Type} (us : List U) (d : Fin us.length → Fin us.length) : List U := List.ofFn fun i => us.get (d i)

/-- The sum of squared deviations from the mean. -/
noncomputable def spread (xs : List ℝ) : ℝ := (xs.map fun x => (x - xs.sum / xs.length) ^ 2).sum

end Verif
