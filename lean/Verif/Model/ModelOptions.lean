import Verif.Model.Logistic

/-!
# The options of a logistic regression

/repo/models.py:924-1001, 1031-1061: the checks of the constructor and of the magic mode. Options that sklearn uses for the way it looks for the
minimum (`dual`, `solver`, `warm_start`, `n_jobs`, `verbose`, `random_state`) are not modelled.
-/

namespace Verif

/-- `class_weight`: None, `'balanced'`, or a dict from labels to weights. -/
inductive ClassWeight
  | none
  | balanced
  | dict (w : List (ℝ × ℝ))

/-- `if self.model.class_weight` (/repo/models.py:1046): None and an empty dict are false. -/
def ClassWeight.given : ClassWeight → Bool
  | .none => false
  | .balanced => true
  | .dict w => !w.isEmpty

/-- The arguments of `LogisticRegression` (/repo/models.py:924-945). -/
structure LogitArgs where
  k : ℕ
  fit : Bool
  penalty : Option String
  c : ℝ
  l1Ratio : Option ℝ
  interceptScaling : ℝ
  classWeight : ClassWeight
  tol : ℝ
  maxIter : ℕ

open Classical in
/-- The checks of the constructor (/repo/models.py:946-962); `none` is the ValueError. `not l1_ratio` is true for None and for 0. -/
noncomputable def LogitArgs.construct (a : LogitArgs) : Option LogitUser :=
  if a.penalty ∉ [none, some "l1", some "l2", some "elasticnet"] then none
  else if a.penalty = some "elasticnet" ∧ (a.l1Ratio.getD 0 = 0 ∨ ¬ (0 ≤ a.l1Ratio.getD 0 ∧ a.l1Ratio.getD 0 ≤ 1)) then none
  else if a.l1Ratio.isSome ∧ a.penalty ≠ some "elasticnet" then none
  else
    let p : LogitPenalty :=
      if a.penalty = none then .none else if a.penalty = some "l1" then .l1 else if a.penalty = some "l2" then .l2
      else .elasticnet (a.l1Ratio.getD 1)
    some ⟨a.k, a.fit, p, a.c, a.tol, a.maxIter⟩

open Classical in
/-- `intercept_scaling or 1` (/repo/models.py:1000). -/
noncomputable def LogitArgs.scaling (a : LogitArgs) : ℝ := if a.interceptScaling = 0 then 1 else a.interceptScaling

open Classical in
/-- `COUNT(DISTINCT y)` (/repo/models.py:1051-1055). -/
noncomputable def classCount (rows : List RegRow) : ℕ := (rows.map RegRow.y).toFinset.card

open Classical in
/-- The call of the magic mode without a split, with the checks before it (/repo/models.py:1046-1061); `none` is a ValueError. -/
noncomputable def LogitArgs.sql (a : LogitArgs) (maxEig : ℕ → (ℕ → ℕ → ℝ) → ℝ) (rows : List RegRow) (init : ℕ → ℝ) : Option (ℕ → ℝ) :=
  match a.construct with
  | none => none
  | some u =>
    if a.classWeight.given then none
    else if a.scaling ≠ 1 then none
    else if classCount rows ≠ 2 then none
    else u.sql maxEig rows init

end Verif
