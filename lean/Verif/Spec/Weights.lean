import Verif.Spec.Expand

/-!
# Specification for C100: a weight counts rows

What it means to repeat every row as often as its weight says, and which metric reads the repeated rows where
another reads the weights.
-/

namespace Verif

/-- Every row `n` of the row times. -/
def repeated {α : Type} (n : α → ℕ) (rs : List α) : List α := rs.flatMap fun r => List.replicate (n r) r

/-- The metric without the weight `w`: the second one is what a user writes when the rows are there as often as the
weight says. -/
inductive WithoutWeight (w : ECol) : SLeaf → SLeaf → Prop
  | mean (v : ECol) : WithoutWeight w (.mean v (some w)) (.mean v none)
  | variance (v : ECol) (unbiased : Bool) : WithoutWeight w (.variance v unbiased (some w)) (.variance v unbiased none)
  | sd (v : ECol) (unbiased : Bool) : WithoutWeight w (.sd v unbiased (some w)) (.sd v unbiased none)
  | corr (v u : ECol) : WithoutWeight w (.corr v u (some w)) (.corr v u none)
  | cov (v u : ECol) (bias : Bool) (ddof : Option ℤ) (a : Option ECol) :
      WithoutWeight w (.cov v u bias ddof a (some w)) (.cov v u bias ddof a none)
  | dot (v : ECol) : WithoutWeight w (.dot v w false) (.sum v)
  | total : WithoutWeight w (.sum w) (.count w false)

/-- The same in every leaf of a tree of arithmetic; names may differ, filters may not. -/
inductive TreeWithoutWeight (w : ECol) : ET → ET → Prop
  | const (q : ℚ) : TreeWithoutWeight w (.const q) (.const q)
  | leaf {k k' : SLeaf} (n n' : Option String) (wh : List Nat) : WithoutWeight w k k' →
      TreeWithoutWeight w (.leaf k n wh) (.leaf k' n' wh)
  | comp {l l' r r' : ET} (op : EOp) (n n' : Option String) (wh : List Nat) : TreeWithoutWeight w l l' →
      TreeWithoutWeight w r r' → TreeWithoutWeight w (.comp op l r n wh) (.comp op l' r' n' wh)

end Verif
