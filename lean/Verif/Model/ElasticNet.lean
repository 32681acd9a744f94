import Verif.Model.Suff

/-!
# Lasso and elastic net on SQL

/repo/models.py:335-341, 376-456, 664-918. Exact arithmetic; the random initial guess and the largest eigenvalue of the matrix
(numpy) are given.
-/

namespace Verif

section
variable {K : Type} [Field K] [LinearOrder K]

/-- `soft_thresholding` (/repo/models.py:886-887). -/
def softT (x thresh : K) : K := max (x - thresh) 0 + min (x + thresh) 0

/-- What `fista_for_elastic_net` is called with (/repo/models.py:827-829), and the step size it takes. -/
structure FistaArgs (K : Type) where
  n : ℕ
  l1 : K
  l2 : K
  xtx : ℕ → ℕ → K
  xty : ℕ → K
  tol : K
  fit : Bool
  step : K

/-- `step_size = (1 - 1e-6) / eigvals.max()` (/repo/models.py:867). -/
def stepSize (maxEig : K) : K := (1 - 1 / 1000000) / maxEig

/-- `k = l2 * step_size + 1` (/repo/models.py:868). -/
def FistaArgs.k (a : FistaArgs K) : K := a.l2 * a.step + 1

/-- `threshold = l1 * step_size / k` (/repo/models.py:869). -/
def FistaArgs.threshold (a : FistaArgs K) : K := a.l1 * a.step / a.k

/-- `v = coef + (i - 1) / (i + 2) * delta` (/repo/models.py:872). -/
def fistaPoint (i : ℕ) (coef delta : ℕ → K) (j : ℕ) : K := coef j + ((i : K) - 1) / ((i : K) + 2) * delta j

/-- The new `coef` from `v` (/repo/models.py:874-878). -/
def FistaArgs.prox (a : FistaArgs K) (v : ℕ → K) (j : ℕ) : K :=
  let g := v j - a.step * (((List.range a.n).map fun t => a.xtx j t * v t).sum - a.xty j)
  if a.fit ∧ j = 0 then g else softT (g / a.k) a.threshold

/-- The loop (/repo/models.py:871-883): the iterations left, the iteration, `coef` and `delta`; the result and whether it
stopped because the change was below the tolerance. -/
def FistaArgs.run (a : FistaArgs K) : ℕ → ℕ → (ℕ → K) → (ℕ → K) → (ℕ → K) × Bool
  | 0, _, coef, _ => (coef, false)
  | fuel + 1, i, coef, delta =>
    let coef' := a.prox (fistaPoint i coef delta)
    let delta' := fun j => coef' j - coef j
    if ((List.range a.n).map fun j => |delta' j|).sum < a.tol then (coef', true)
    else a.run fuel (i + 1) coef' delta'

/-- `fista_for_elastic_net` (/repo/models.py:827-883). -/
def FistaArgs.fista (a : FistaArgs K) (maxIter : ℕ) (init : ℕ → K) : (ℕ → K) × Bool := a.run maxIter 0 init fun _ => 0

end

/-- `series[c] = f(series[c])` for every entry with that label. -/
def Series.update {K : Type} (s : Series K) (c : List Char) (f : K → K) : Series K :=
  s.map fun p => if p.1 = c then (p.1, f p.2) else p

/-- The double loop of `center_x` (/repo/models.py:817-822) with the averages taken before. -/
noncomputable def centerLoop (k : ℕ) (avgX : ℕ → ℝ) (avgY : ℝ) (s : Series ℝ) : Series ℝ :=
  (List.range k).foldl (fun s i =>
    ((List.range (k - i)).map (i + ·)).foldl (fun s j => s.update (nmXX i j) fun v => v - avgX i * avgX j)
      (s.update (nmXY i) fun v => v - avgX i * avgY)) s

/-- `center_x` (/repo/models.py:791-824): the statistics of centred features, the averages of the features, that of `y`. -/
noncomputable def enetCenter (k : ℕ) (s : Series ℝ) : Option (Series ℝ × List ℝ × ℝ) := do
  let avgX ← (List.range k).mapM fun i => s.at1 (nmX i)
  let avgY ← s.at1 nmY
  let s' := centerLoop k (fun i => avgX.getD i 0) avgY s
  return ((List.range k).foldl (fun s i => s.update (nmX i) fun _ => 0) s', avgX, avgY)

/-- `compute_coef_for_elastic_net` (/repo/models.py:768-788) with the initial guess and the function that gives the largest
eigenvalue; the boolean says whether the iteration stopped by itself. -/
noncomputable def enetCoefs (maxEig : ℕ → (ℕ → ℕ → ℝ) → ℝ) (s : Series ℝ) (k : ℕ) (l1 l2 : ℝ) (fit : Bool) (tol : ℝ) (maxIter : ℕ)
    (init : ℕ → ℝ) : Option ((ℕ → ℝ) × Bool) := do
  let (s', avgX, avgY) ← if fit then enetCenter k s else some (s, [], 0)
  let ((n, xtx), xty) ← constructMatrix s' fit
  let a : FistaArgs ℝ := ⟨n, l1, l2, xtx, fun i => xty.getD i 0, tol, fit, stepSize (maxEig n xtx)⟩
  let (coef, conv) := a.fista maxIter init
  return (fun j => if fit ∧ j = 0 then avgY - ((List.range k).map fun i => avgX.getD i 0 * coef (i + 1)).sum else coef j, conv)

/-- The rows of the table `DataNormalized` (/repo/models.py:385-454): the features minus their averages in the slice, over the
square root of the sum of squares of these (a power of 0.5 is `SAFE.SQRT`, /repo/sql.py:371-375). Where the engine's safe
division gives NULL, for a constant feature, the model has 0. -/
noncomputable def sqlNormRows (rows : List RegRow) : List RegRow :=
  rows.map fun r => ⟨r.y, fun i =>
    (r.x i - avg rows fun r => r.x i) / Real.sqrt ((rows.map fun r => (r.x i - avg rows fun r => r.x i) ^ 2).sum)⟩

/-- The statistics of `get_sufficient_stats_elements` with `normalize = True` (/repo/models.py:316-342): those of the
normalised table without the averages of the features, for which zeros are put in front. -/
noncomputable def suffStatsNorm (k : ℕ) (rows : List RegRow) : Series ℝ :=
  let nr := sqlNormRows rows
  ((List.range k).map fun i => (nmX i, (0 : ℝ))) ++
  ((triu k).map fun p => (nmXX p.1 p.2, avg nr fun r => r.x p.1 * r.x p.2)) ++ [(nmY, avg nr fun r => r.y)] ++
  ((List.range k).map fun i => (nmXY i, avg nr fun r => r.x i * r.y))

/-- `compute_normalized_coef` on the row of one slice (/repo/models.py:890-918). -/
noncomputable def normalizedCoef (k : ℕ) (coef norms avgX : ℕ → ℝ) (avgY : ℝ) (j : ℕ) : ℝ :=
  if j = 0 then avgY - ((List.range k).map fun i => avgX i * (coef (i + 1) / norms i)).sum else coef j / norms (j - 1)

/-- `SQRT(SUM(POWER(x, 2)))` of the centred table (/repo/models.py:418). -/
noncomputable def sqlNorms (rows : List RegRow) (i : ℕ) : ℝ :=
  Real.sqrt ((rows.map fun r => (r.x i - avg rows fun r => r.x i) ^ 2).sum)

/-- `ElasticNet.compute_on_sql_magic_mode` for one slice (/repo/models.py:736-765); `Lasso` is `l1Ratio = 1`
(/repo/models.py:664-677). `pre` are the split columns. -/
noncomputable def enetSql (maxEig : ℕ → (ℕ → ℕ → ℝ) → ℝ) (pre : Series ℝ) (k : ℕ) (alpha l1Ratio : ℝ) (fit normalize : Bool)
    (tol : ℝ) (maxIter : ℕ) (init : ℕ → ℝ) (rows : List RegRow) : Option ((ℕ → ℝ) × Bool) :=
  open Classical in
  if l1Ratio = 0 ∨ ¬ (0 ≤ l1Ratio ∧ l1Ratio ≤ 1) then none
  else
    let l1 := l1Ratio * alpha
    let l2 := (1 - l1Ratio) * alpha
    if fit && normalize then
      (enetCoefs maxEig (pre ++ suffStatsNorm k rows) k l1 l2 fit tol maxIter init).map fun p =>
        (normalizedCoef k p.1 (sqlNorms rows) (fun i => avg rows fun r => r.x i) (avg rows fun r => r.y), p.2)
    else enetCoefs maxEig (pre ++ suffStats k fit false rows) k l1 l2 fit tol maxIter init

/-- What a user gives to `ElasticNet` and `Lasso` (/repo/models.py:614-662, 683-734), as far as it has an effect on a DataFrame. -/
structure EnetUser where
  alpha : ℝ
  l1Ratio : ℝ
  fit : Bool
  normalize : Bool
  positive : Bool
  tol : ℝ
  maxIter : ℕ

/-- The call over SQL (/repo/models.py:664-677, 736-765): `positive` is not used. -/
noncomputable def EnetUser.sql (u : EnetUser) (maxEig : ℕ → (ℕ → ℕ → ℝ) → ℝ) (pre : Series ℝ) (k : ℕ) (init : ℕ → ℝ) (rows : List RegRow) :
    Option ((ℕ → ℝ) × Bool) :=
  enetSql maxEig pre k u.alpha u.l1Ratio u.fit u.normalize u.tol u.maxIter init rows

end Verif
