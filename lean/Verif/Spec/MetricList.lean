import Verif.Model.MetricList

/-! # Specification of C13: which children succeed -/

namespace Verif

/-- The child computes without raising on this data. -/
def Succeeds (env : Env) (f : Frame) (sb : List String) (m : M) : Bool :=
  match m.run env f sb with
  | .ok _ => true
  | .error _ => false

end Verif
