import Verif.Model.Suff

/-!
# Models on groups where a value is missing

/repo/models.py:112-130, 257-342. As `Verif.Model.Suff`, but a child metric may have no value for a group, e.g. a ratio with a zero
denominator or a metric whose filter keeps no row of the group. The engine's `AVG` of a column or of a product skips the rows where it is NULL,
each on its own, and `COUNT(*)` counts all the rows.
-/

namespace Verif

/-- One row of the table `DataToFit` of one slice, as `RegRow`, with values that may be missing. /repo/models.py:376-383. -/
structure RegRowO where
  y : Option ℝ
  x : ℕ → Option ℝ

/-- `a * b` is NULL when one of the two is. -/
def nullMul : Option ℝ → Option ℝ → Option ℝ
  | some a, some b => some (a * b)
  | _, _ => none

/-- `AVG(e)` over the rows of a slice: of the values that are there, NULL if there are none. -/
noncomputable def avgNull (rows : List RegRowO) (f : RegRowO → Option ℝ) : Option ℝ :=
  let vs := rows.filterMap f
  if vs = [] then none else some (vs.sum / vs.length)

/-- The columns of `get_sufficient_stats_elements` with `normalize = False` for one slice (/repo/models.py:316-334). -/
noncomputable def suffStatsO (k : ℕ) (fit nobs : Bool) (rows : List RegRowO) : Series (Option ℝ) :=
  (if fit then (List.range k).map fun i => (nmX i, avgNull rows fun r => r.x i) else []) ++
  ((triu k).map fun p => (nmXX p.1 p.2, avgNull rows fun r => nullMul (r.x p.1) (r.x p.2))) ++
  (if fit then [(nmY, avgNull rows fun r => r.y)] else []) ++
  ((List.range k).map fun i => (nmXY i, avgNull rows fun r => nullMul (r.x i) r.y)) ++
  (if nobs then [(nmN, some (rows.length : ℝ))] else [])

/-- The row of statistics as numbers. Simplified: with a NULL among them, where numpy computes with NaN or refuses, there is no result. -/
def numbers (s : Series (Option ℝ)) : Option (Series ℝ) := s.mapM fun p => p.2.map fun v => (p.1, v)

/-- `Ridge.compute_on_sql_magic_mode` for one slice (/repo/models.py:257-265, 476-483), as `ridgeSql`; with `alpha = 0` it is
`LinearRegression` (/repo/models.py:199-209). -/
noncomputable def ridgeSqlO (pre : Series ℝ) (k : ℕ) (alpha : ℝ) (fit normalize : Bool) (rows : List RegRowO) : Option (ℕ → ℝ) :=
  (numbers (suffStatsO k fit true rows)).bind fun s => ridgeCoefs (pre ++ s) k alpha fit normalize

/-- A row without missing values among `y` and `x 0 ... x (k-1)`. -/
def RegRowO.full (k : ℕ) (r : RegRowO) : Option RegRow :=
  match r.y with
  | some y => if (List.range k).all fun i => (r.x i).isSome then some ⟨y, fun i => (r.x i).getD 0⟩ else none
  | none => none

/-- `Model.compute` (/repo/models.py:112-130), as `modelCompute`: sklearn's `fit` refuses a table with a NaN in it. -/
noncomputable def modelComputeO (fitted : List RegRow → ℝ × (ℕ → ℝ)) (k : ℕ) (fit normalize : Bool) (rows : List RegRowO) :
    Option (ℕ → ℝ) :=
  (rows.mapM (RegRowO.full k)).map (modelCompute fitted k fit normalize)

end Verif
