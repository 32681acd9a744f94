import Verif.Model.AdjustMissing
import Verif.Spec.Adjust

/-!
# Specification for C36 and C66 with missing values
-/

namespace Verif
variable {S D K : Type} [DecidableEq S] [DecidableEq D] [Field K] [LinearOrder K]

/-- A constant is added to the covariate where it is present, possibly a different one in each slice. -/
def shiftXO (δ : S → K) (t : OTab S D K) : OTab S D K := t.map fun r => (r.1, (r.2.1, r.2.2.map (· + δ r.1.1)))

/-- A constant is added to the metric where it is present. -/
def shiftYO (c : K) (t : OTab S D K) : OTab S D K := t.map fun r => (r.1, (r.2.1.map (· + c), r.2.2))

/-- Every stratum has both values or neither. -/
def BothOrNeither (t : OTab S D K) : Prop := ∀ r ∈ t, r.2.1.isSome = r.2.2.isSome

/-- A table in which nothing is missing. -/
def complete (t : ATab S D K) : OTab S D K := t.map fun r => (r.1, (some r.2.1, some r.2.2))

end Verif
