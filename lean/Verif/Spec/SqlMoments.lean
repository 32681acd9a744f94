import Verif.Model.SqlMoments
import Verif.Spec.Expand

/-!
# Specification for C77: on which data SQL and DataFrame computation are to agree
-/

namespace Verif

/-- Some row has all columns of the metric (its weights included). -/
def SLeaf.someComplete (k : SLeaf) (rs : List RRow) : Prop :=
  ∃ r ∈ rs, ∀ v ∈ k.cols, (v.eval r).isSome

/-- The data a leaf metric must see for the two computations to agree. No condition for Count, Max, Min,
Mean, normalized Dot, Variance, StandardDeviation, CV and Correlation. Sums and weighted statistics need
a row to sum (SQL's empty sum is NULL). For an unweighted covariance with a SQL function, both columns must
be missing in the same rows. -/
def SLeaf.fits (k : SLeaf) (rs : List RRow) : Prop :=
  match k with
  | .count _ _ | .max _ | .min _ | .dot _ _ true | .mean _ none | .variance _ _ none | .sd _ _ none
  | .cv _ _ | .corr _ _ none => True
  | .cov v w bias ddof none none =>
      if covDdof bias ddof = 1 ∨ covDdof bias ddof = 0 then
        ∀ r ∈ rs, (v.eval r).isSome = (w.eval r).isSome
      else k.someComplete rs
  | _ => k.someComplete rs

/-- `P` holds of every leaf and the rows that the filters on the way to it leave. -/
def ET.AtLeaves (sem : ESem) (P : SLeaf → List RRow → Prop) : ET → List RRow → Prop
  | .const _, _ => True
  | .leaf k _ wh, rs => P k (keepRows sem wh rs)
  | .comp _ l r _ wh, rs =>
      l.AtLeaves sem P (keepRows sem wh rs) ∧ r.AtLeaves sem P (keepRows sem wh rs)
  | .node _ _ _ _, _ => True

end Verif
