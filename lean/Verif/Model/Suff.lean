import Mathlib.LinearAlgebra.Matrix.NonsingularInverse
import Mathlib.Analysis.SpecialFunctions.Pow.Real

/-!
# Linear models from sufficient statistics

/repo/models.py:112-130, 257-342, 486-608. The engine's `AVG`, `COUNT(*)`, `SUM` and numpy's `linalg.solve` are modelled by
exact real arithmetic; NULL in the columns of the regression is in `Verif.Model.SuffMissing`, the warning about the condition number is not modelled.
-/

namespace Verif

/-- One row of the table `DataToFit` of one slice: the dependent variable and the features `x 0 ... x (k-1)` (entries from `k`
on mean nothing). /repo/models.py:376-383. -/
structure RegRow where
  y : ℝ
  x : ℕ → ℝ

/-- The column name `x{i}`. /repo/models.py:320. -/
def nmX (i : ℕ) : List Char := 'x' :: Nat.toDigits 10 i
/-- The column name `x{i}x{j}`. /repo/models.py:324. -/
def nmXX (i j : ℕ) : List Char := 'x' :: (Nat.toDigits 10 i ++ 'x' :: Nat.toDigits 10 j)
/-- The column name `y`. /repo/models.py:321. -/
def nmY : List Char := ['y']
/-- The column name `x{i}y`. /repo/models.py:326. -/
def nmXY (i : ℕ) : List Char := 'x' :: (Nat.toDigits 10 i ++ ['y'])
/-- The column name `n_obs`. /repo/models.py:330. -/
def nmN : List Char := ['n', '_', 'o', 'b', 's']

/-- One row of a result as a pandas Series: labels and values, labels may repeat. -/
abbrev Series (K : Type) := List (List Char × K)

/-- `AVG(e)` over the rows of a slice. -/
noncomputable def avg (rows : List RegRow) (f : RegRow → ℝ) : ℝ := (rows.map f).sum / rows.length

/-- The pairs `(i, i + j)` in the order of the double loop of /repo/models.py:322-324 and of `np.triu_indices(n)`. -/
def triu (n : ℕ) : List (ℕ × ℕ) := (List.range n).flatMap fun i => (List.range (n - i)).map fun j => (i, i + j)

/-- The columns of `get_sufficient_stats_elements` with `normalize = False` for one slice (/repo/models.py:316-334); the split
columns come before them. -/
noncomputable def suffStats (k : ℕ) (fit nobs : Bool) (rows : List RegRow) : Series ℝ :=
  (if fit then (List.range k).map fun i => (nmX i, avg rows fun r => r.x i) else []) ++
  ((triu k).map fun p => (nmXX p.1 p.2, avg rows fun r => r.x p.1 * r.x p.2)) ++
  (if fit then [(nmY, avg rows fun r => r.y)] else []) ++
  ((List.range k).map fun i => (nmXY i, avg rows fun r => r.x i * r.y)) ++
  (if nobs then [(nmN, (rows.length : ℝ))] else [])

section
variable {K : Type}

/-- `series[[c1, c2, ...]]`: every value under each label, in order; a missing label raises (pandas). -/
def Series.loc (s : Series K) (names : List (List Char)) : Option (List K) :=
  if names.all fun c => s.any fun p => p.1 == c then
    some (names.flatMap fun c => (s.filter fun p => p.1 == c).map (·.2))
  else none

/-- `int(text)` for a text of digits. -/
def parseInt (t : List Char) : Option ℕ := if t ≠ [] ∧ t.all Char.isDigit then some (Nat.ofDigitChars 10 t 0) else none

variable [Ring K]

/-- `sym[indices] = elements`, one entry after the other. /repo/models.py:565. -/
def assignAll (M : ℕ → ℕ → K) : List ((ℕ × ℕ) × K) → ℕ → ℕ → K
  | [] => M
  | (p, v) :: rest => assignAll (fun i j => if (i, j) = p then v else M i j) rest

/-- `symmetrize_triangular` (/repo/models.py:550-566): the size and the matrix, or a refusal. The floor of the square root is
the exact one. -/
def symmetrize (l : List K) : Option (ℕ × (ℕ → ℕ → K)) :=
  let n := Nat.sqrt (2 * l.length)
  if n * (n + 1) ≠ 2 * l.length then none
  else
    let s := assignAll (fun _ _ => 0) ((triu n).zip l)
    some (n, fun i j => s i j + s j i - if i = j then s i i else 0)

/-- `construct_matrix_from_elements` on one row of statistics (/repo/models.py:569-608): the size and matrix of `x_t_x`, and
`x_t_y`. -/
def constructMatrix (s : Series K) (fit : Bool) : Option ((ℕ × (ℕ → ℕ → K)) × List K) :=
  let labels := s.map (·.1)
  let xny := if labels.getLast? = some nmN then labels.dropLast.getLast? else labels.getLast?
  match xny with
  | none => none
  | some t =>
    match parseInt t.tail.dropLast with
    | none => none
    | some n' =>
      let n := n' + 1
      let xtxCols := (if fit then (List.range n).map nmX else []) ++ (triu n).map fun p => nmXX p.1 p.2
      let xtyCols := (if fit then [nmY] else []) ++ (List.range n).map nmXY
      match s.loc xtxCols, s.loc xtyCols with
      | some e, some xty => (symmetrize (if fit then 1 :: e else e)).map fun m => (m, xty)
      | _, _ => none

end

/-- `np.linalg.solve`: the solution when the matrix is nonsingular and the shapes fit, a refusal otherwise. Entries from `n` on
are 0 and mean nothing. -/
noncomputable def npSolve (n : ℕ) (A : ℕ → ℕ → ℝ) (b : List ℝ) : Option (ℕ → ℝ) :=
  open Classical in
  let M : Matrix (Fin n) (Fin n) ℝ := Matrix.of fun i j => A i j
  if b.length ≠ n ∨ M.det = 0 then none
  else some fun j => if h : j < n then (M⁻¹.mulVec fun i => b.getD i 0) ⟨j, h⟩ else 0

/-- `compute_ridge_coefs` without normalisation (/repo/models.py:493-511); `Ridge` always, as `LinearRegression` calls it with
`alpha = 0` (/repo/models.py:199-209). The result is the row `[intercept] + coefficients`, or just the coefficients. -/
noncomputable def ridgePlain (s : Series ℝ) (alpha : ℝ) (fit : Bool) : Option (ℕ → ℝ) :=
  match constructMatrix s fit, s.loc [nmN] with
  | some ((n, xtx), xty), some [nObs] =>
    npSolve n (fun i j => xtx i j + alpha / nObs * (if i = j then (if fit ∧ i = 0 then 0 else 1) else 0)) xty
  | _, _ => none

/-- A single statistic, `sufficient_stats['...']`: repeated labels give a Series instead of a number, on which the algorithm
fails later; that is a refusal here. -/
noncomputable def Series.at1 (s : Series ℝ) (c : List Char) : Option ℝ :=
  match s.loc [c] with
  | some [v] => some v
  | _ => none

/-- `compute_coef_for_normalize_ridge` (/repo/models.py:514-547); `k` is `len(xs)`. -/
noncomputable def ridgeNormalized (s : Series ℝ) (k : ℕ) (alpha : ℝ) : Option (ℕ → ℝ) := do
  let xty ← (List.range k).mapM fun i => do
    return (← s.at1 (nmXY i)) - (← s.at1 (nmX i)) * (← s.at1 nmY)
  let el ← (triu k).mapM fun p => do
    return (← s.at1 (nmXX p.1 p.2)) - (← s.at1 (nmX p.1)) * (← s.at1 (nmX p.2))
  let (n, xtx) ← symmetrize el
  let coef ← npSolve n (fun i j => xtx i j + alpha * (if i = j then xtx i i else 0)) xty
  let avgX ← (List.range k).mapM fun i => s.at1 (nmX i)
  let avgY ← s.at1 nmY
  return fun j => if j = 0 then avgY - ((List.range k).map fun i => coef i * avgX.getD i 0).sum else coef (j - 1)

/-- `compute_ridge_coefs` (/repo/models.py:486-511). -/
noncomputable def ridgeCoefs (s : Series ℝ) (k : ℕ) (alpha : ℝ) (fit normalize : Bool) : Option (ℕ → ℝ) :=
  if fit && normalize then ridgeNormalized s k alpha else ridgePlain s alpha fit

/-- `Ridge.compute_on_sql_magic_mode` for one slice (/repo/models.py:257-265, 476-483): the statistics of the slice, with its
split columns before them, and the algorithm on that row. -/
noncomputable def ridgeSql (pre : Series ℝ) (k : ℕ) (alpha : ℝ) (fit normalize : Bool) (rows : List RegRow) : Option (ℕ → ℝ) :=
  ridgeCoefs (pre ++ suffStats k fit true rows) k alpha fit normalize

/-- The mean of a column in pandas. -/
noncomputable def colMean (rows : List RegRow) (i : ℕ) : ℝ := avg rows fun r => r.x i

/-- `np.sqrt((x_scaled**2).sum())` (/repo/models.py:116). -/
noncomputable def colNorm (rows : List RegRow) (i : ℕ) : ℝ :=
  Real.sqrt ((rows.map fun r => (r.x i - colMean rows i) ^ 2).sum)

/-- The rows `Model.compute` gives to the fit when it normalises (/repo/models.py:114-117). -/
noncomputable def normRows (rows : List RegRow) : List RegRow :=
  rows.map fun r => ⟨r.y, fun i => (r.x i - colMean rows i) / colNorm rows i⟩

/-- `Model.compute` (/repo/models.py:112-130) with sklearn's fit given: `fitted rows` is the pair of its intercept and its
coefficients. The result is the row `[intercept] + coefficients`, or just the coefficients. -/
noncomputable def modelCompute (fitted : List RegRow → ℝ × (ℕ → ℝ)) (k : ℕ) (fit normalize : Bool) (rows : List RegRow) : ℕ → ℝ :=
  if fit && normalize then
    let coef := fun i => (fitted (normRows rows)).2 i / colNorm rows i
    fun j => if j = 0 then avg rows (fun r => r.y) - ((List.range k).map fun i => colMean rows i * coef i).sum else coef (j - 1)
  else if fit then fun j => if j = 0 then (fitted rows).1 else (fitted rows).2 (j - 1)
  else (fitted rows).2

end Verif
