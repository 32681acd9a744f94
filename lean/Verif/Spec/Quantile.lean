import Verif.Model.Frame

/-! # Specification for C15, C16 -/

namespace Verif

/-- Every row with a value has a weight, and it is positive. -/
def PositiveWeights (var weight : String) (rs : List Row) : Prop :=
  ∀ r ∈ rs, (r var).isSome → ∃ w, r weight = some w ∧ 0 < w

/-- The weight strictly below the value `x` plus half of the weight at `x`, as a share of
the total: the point of the quantile scale at which the quantile is `x`. -/
def quantilePoint (var weight : String) (rs : List Row) (x : Rat) : Rat :=
  ((rs.filterMap (fun r => match r var, r weight with
      | some y, some w => if y < x then some w else none | _, _ => none)).sum
    + (rs.filterMap (fun r => match r var, r weight with
      | some y, some w => if y = x then some w else none | _, _ => none)).sum / 2)
  / (rs.filterMap (fun r => match r var, r weight with
      | some _, some w => some w | _, _ => none)).sum

end Verif
