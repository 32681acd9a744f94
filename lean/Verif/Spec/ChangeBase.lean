import Verif.Model.ChangeBase

/-!
# Specification for C81: which table belongs to a result
-/

namespace Verif

variable {F R B : Type} [DecidableEq F]

/-- The outcome of a call that used key `K`: the result and the table of `K` together, or the failure of their computation. -/
def rightOut (val : BKey F → Option (R × B)) (K : BKey F) : BOut R B :=
  match val K with
  | some (r, b) => .ok r b
  | none => .failed

end Verif
