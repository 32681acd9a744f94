import Mathlib.Data.List.Basic

/-!
# The row of coefficients of a logistic regression on a DataFrame

/repo/models.py:1005-1029. What sklearn fits is given: `classes_`, `coef_` (one row, or one row for each class) and `intercept_`.
-/

namespace Verif

/-- A fitted sklearn `LogisticRegression`: the labels of the classes as texts, the intercepts and the rows of `coef_`. -/
structure SkLogit (K : Type) where
  classes : List (List Char)
  intercept : List K
  coef : List (List K)

/-- `f'{n} for class {c}'` (/repo/models.py:1025). -/
def classLabel (n c : List Char) : List Char := n ++ " for class ".toList ++ c

/-- The name of the column with the intercept. -/
def interceptName : List Char := "intercept".toList

/-- `pd.DataFrame([values], columns=labels)`: refused when there are more of the one than of the other. -/
def frameRow {K : Type} (labels : List (List Char)) (values : List K) : Option (List (List Char × K)) :=
  if labels.length = values.length then some (labels.zip values) else none

/-- `itertools.product(classes, names)` with the label of each pair (/repo/models.py:1024-1027). -/
def classLabels (classes names : List (List Char)) : List (List Char) :=
  classes.flatMap fun c => names.map fun n => classLabel n c

/-- `LogisticRegression.compute` (/repo/models.py:1005-1029); `features` are `df.columns[1:]`. `np.hstack` of a different number of intercepts and
rows is refused. -/
def logitCompute {K : Type} (fit : Bool) (features : List (List Char)) (m : SkLogit K) : Option (List (List Char × K)) :=
  match m.coef with
  | [row] =>
    if fit then
      match m.intercept with
      | [] => none
      | b :: _ => frameRow (interceptName :: features) (b :: row)
    else frameRow features row
  | rows =>
    if fit then
      if m.intercept.length = rows.length then
        frameRow (classLabels m.classes (interceptName :: features)) ((List.zipWith (· :: ·) m.intercept rows).flatten)
      else none
    else frameRow (classLabels m.classes features) rows.flatten

end Verif
