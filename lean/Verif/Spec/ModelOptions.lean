import Verif.Spec.Logistic
import Verif.Model.ModelOptions

/-!
# What the options of a logistic regression ask for

From sklearn's documentation.
-/

namespace Verif

open Finset

open Classical in
/-- The weight of a row: 1 without `class_weight`; the weight of its label, 1 if it has none; with `'balanced'` the number of rows over the number of
classes and the number of rows with the label. -/
noncomputable def rowWeight (rows : List RegRow) : ClassWeight → RegRow → ℝ
  | .none, _ => 1
  | .dict w, r => ((w.find? fun p => p.1 = r.y).map Prod.snd).getD 1
  | .balanced, r => rows.length / ((rows.map RegRow.y).toFinset.card * (rows.filter fun s => s.y = r.y).length)

/-- The objective: the weighted negative log likelihood, and the penalty by its name. `none`: sklearn has no such penalty. -/
noncomputable def LogitArgs.objective (a : LogitArgs) (rows : List RegRow) (b : ℝ) (w : ℕ → ℝ) : Option ℝ :=
  let nll := (rows.map fun r => rowWeight rows a.classWeight r * xent r.y (predict a.k b w r)).sum
  match a.penalty, a.l1Ratio with
  | none, none => some nll
  | some "l2", none => some (1 / 2 * ∑ i ∈ range a.k, w i ^ 2 + a.c * nll)
  | some "l1", none => some (∑ i ∈ range a.k, |w i| + a.c * nll)
  | some "elasticnet", some r => some ((1 - r) / 2 * ∑ i ∈ range a.k, w i ^ 2 + r * ∑ i ∈ range a.k, |w i| + a.c * nll)
  | _, _ => none

end Verif
