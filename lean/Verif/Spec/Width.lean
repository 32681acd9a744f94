import Verif.Model.Width

/-!
# Trees whose width `count_features` gets right
-/

namespace Verif

mutual
/-- Arithmetic only between tables of the same width or with something of width 1, regressions with an intercept and a
single response, no empty list; numbers only in arithmetic. -/
def WT.regular (fmt : String → String → String) : WT → Prop
  | .leaf _ => True
  | .quantiles ns => ns ≠ []
  | .list cs => cs ≠ [] ∧ WT.regularL fmt cs
  | .comp (.num _) r => r.regular fmt
  | .comp l (.num _) => l.regular fmt
  | .comp l r => l.regular fmt ∧ r.regular fmt ∧
      ((l.cols fmt).length = (r.cols fmt).length ∨ (l.cols fmt).length = 1 ∨ (r.cols fmt).length = 1)
  | .num _ => False
  | .op c => c.regular fmt
  | .adjust m _ => m.regular fmt
  | .ci _ c => c.regular fmt
  | .model ic y x => ic = true ∧ y.regular fmt ∧ (y.cols fmt).length = 1 ∧ x.regular fmt
/-- The same for several. -/
def WT.regularL (fmt : String → String → String) : List WT → Prop
  | [] => True
  | c :: cs => c.regular fmt ∧ WT.regularL fmt cs
end

end Verif
