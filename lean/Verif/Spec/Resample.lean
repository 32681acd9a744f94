import Mathlib.Analysis.SpecialFunctions.Exp

/-!
# Poisson(1)
-/

namespace Verif

/-- The distribution function of Poisson(1). -/
noncomputable def poissonCdf (k : Nat) : ℝ := Real.exp (-1) * ((List.range (k + 1)).map fun i => 1 / (Nat.factorial i : ℝ)).sum

end Verif
