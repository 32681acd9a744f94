import Verif.Model.Cache

/-!
# Vocabulary for the cache properties (C01-C05)
-/

namespace Verif

mutual
/-- Arithmetic on `Sum(v)` and `Count(v)` occurs only as their unfiltered quotient. -/
def M.fpClean : M → Prop
  | .const _ => True
  | .leaf _ _ => True
  | .comp op l r wh =>
      (∀ v w1 w2, l = .leaf (.sum v) w1 → r = .leaf (.count v) w2 →
        op = .div ∧ w1 = [] ∧ w2 = [] ∧ wh = []) ∧ l.fpClean ∧ r.fpClean
  | .list ms _ => fpCleanAll ms
  | .oper _ c _ => c.fpClean
def fpCleanAll : List M → Prop
  | [] => True
  | m :: ms => m.fpClean ∧ fpCleanAll ms
end

end Verif
