import Verif.Model.Expand

/-!
# What can be computed from unit-level aggregates
-/

namespace Verif

/-- Leaves that can be computed from unit-level aggregates: sums and counts, and for Bootstrap maxima and minima. -/
def SLeaf.fromUnits (jk : Bool) : SLeaf → Prop
  | .sum _ => True
  | .count _ distinct => distinct = false
  | .max _ | .min _ => jk = false
  | _ => False

mutual
/-- The operations below a node are all allowed and have children. -/
def ET.opsOK (opOK : Nat → Bool) : ET → Prop
  | .const _ => True
  | .leaf _ _ _ => True
  | .comp _ l r _ _ => l.opsOK opOK ∧ r.opsOK opOK
  | .node t cs _ _ => opOK t = true ∧ cs ≠ [] ∧ ET.opsOKL opOK cs
/-- The same for several trees. -/
def ET.opsOKL (opOK : Nat → Bool) : List ET → Prop
  | [] => True
  | c :: cs => c.opsOK opOK ∧ ET.opsOKL opOK cs
end

end Verif
