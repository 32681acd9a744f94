import Verif.Model.Comparison

/-!
# CUPED and PrePostChange

/repo/operations.py:659-1145. The child of both is a `MetricList` of the metric `y` and the covariate `x`, computed by
slice, stratum and condition. All values are present; the key of the stratum plays no role after that. Numbers are
exact.
-/

namespace Verif

section
variable {S D K : Type} [DecidableEq S] [DecidableEq D] [Field K] [LinearOrder K]

/-- The aligned table: one row per slice, condition and stratum with `y` and `x`
(/repo/operations.py:764-765, 995-996). -/
abbrev ATab (S D K : Type) := List ((S × D) × (K × K))

/-- Average. -/
def avgL (l : List K) : K := l.sum / l.length

/-- Sample covariance, missing for fewer than two rows: `metrics.Cov` and `COVAR_SAMP`. -/
def covSamp (l : List (K × K)) : Option K :=
  if l.length ≤ 1 then none
  else some ((l.map fun p => (p.1 - avgL (l.map (·.1))) * (p.2 - avgL (l.map (·.2)))).sum / ((l.length : K) - 1))

/-- Sample variance of the covariate: `metrics.Variance` and `VAR_SAMP`. -/
def varSampX (l : List (K × K)) : Option K := covSamp (l.map fun p => (p.2, p.2))

/-- `metrics.Cov(c, covariate) / metrics.Variance(covariate)` (/repo/operations.py:792-794, 1022-1024). -/
def thetaOf (l : List (K × K)) : Option K := nanDiv (covSamp l) (varSampX l)

/-- The rows of a slice, and of a slice and condition. -/
def sliceXY (t : ATab S D K) (s : S) : List (K × K) := (t.filter fun r => decide (r.1.1 = s)).map (·.2)
def cellXY (t : ATab S D K) (k : S × D) : List (K × K) := (t.filter fun r => decide (r.1 = k)).map (·.2)

/-- `covariates - covariates.groupby(split_by).mean()` (/repo/operations.py:757-762, 988-993) and
`covariate - AVG(covariate) OVER (PARTITION BY split_by)` (/repo/operations.py:877-887). -/
def centerX (t : ATab S D K) : ATab S D K :=
  t.map fun r => (r.1, (r.2.1, r.2.2 - avgL ((sliceXY t r.1.1).map (·.2))))

/-- The slices and conditions that occur. -/
def cellKeys (t : ATab S D K) : List (S × D) := (t.map (·.1)).dedup

/-- `CUPED.adjust_value` with one covariate (/repo/operations.py:973-1037): `theta` per slice, averages per slice and
condition. -/
def pyCupedAdj (t : ATab S D K) : DTab S D K :=
  let c := centerX t
  (cellKeys c).map fun k =>
    (k, (thetaOf (sliceXY c k.1)).map fun th =>
      avgL ((cellXY c k).map (·.1)) - avgL ((cellXY c k).map (·.2)) * th)

/-- The query `ChangeRaw` of `CUPED` (/repo/operations.py:1046-1144): the covariate is not centred, `CUPEDTheta` is
joined on the slice, then `AVG(y) - AVG(theta * x)`. -/
def sqlCupedAdj (t : ATab S D K) : DTab S D K :=
  let theta := ((t.map (·.1.1)).dedup).map fun s => (s, thetaOf (sliceXY t s))
  (cellKeys t).map fun k =>
    (k, ((theta.lookup k.1).bind id).map fun th =>
      avgL ((cellXY t k).map (·.1)) - avgL ((cellXY t k).map fun p => th * p.2))

/-- `PrePostChange.adjust_value` with one covariate (/repo/operations.py:730-806): `theta` per slice and condition. -/
def pyPrePostAdj (t : ATab S D K) : DTab S D K :=
  let c := centerX t
  (cellKeys c).map fun k =>
    (k, (thetaOf (cellXY c k)).map fun th =>
      avgL ((cellXY c k).map (·.1)) - avgL ((cellXY c k).map (·.2)) * th)

/-- The query `ChangeRaw` of `PrePostChange` (/repo/operations.py:815-904):
`AVG(y) - SAFE_DIVIDE(AVG(x) * COVAR_SAMP(y, x), VAR_SAMP(x))` of the centred table. -/
def sqlPrePostAdj (t : ATab S D K) : DTab S D K :=
  let c := centerX t
  (cellKeys c).map fun k =>
    (k, optSub (some (avgL ((cellXY c k).map (·.1))))
      (nanDiv (optMul (some (avgL ((cellXY c k).map (·.2)))) (covSamp (cellXY c k))) (varSampX (cellXY c k))))

/-- `CUPED` and `PrePostChange` are the absolute and the percent change of the adjusted values. -/
def pyCuped (b : D) (incl : Bool) (t : ATab S D K) : Option (DTab S D K) := pyChange optSub b incl (pyCupedAdj t)
def sqlCuped (b : D) (incl : Bool) (t : ATab S D K) : DTab S D K := sqlChange optSub b incl (sqlCupedAdj t)
def pyPrePost (b : D) (incl : Bool) (t : ATab S D K) : Option (DTab S D K) := pyChange pyPct b incl (pyPrePostAdj t)
def sqlPrePost (b : D) (incl : Bool) (t : ATab S D K) : DTab S D K := sqlChange sqlPct b incl (sqlPrePostAdj t)

/-! ## Several covariates: `sklearn.linear_model.LinearRegression` -/

/-- The aligned table with `p` covariates. -/
abbrev MTab (S D K : Type) (p : Nat) := List ((S × D) × (K × (Fin p → K)))

/-- The averages of the covariates. -/
def avgX {p : Nat} (l : List (K × (Fin p → K))) : Fin p → K := fun j => avgL (l.map fun r => r.2 j)

def sliceM {p : Nat} (t : MTab S D K p) (s : S) : List (K × (Fin p → K)) := (t.filter fun r => decide (r.1.1 = s)).map (·.2)
def cellM {p : Nat} (t : MTab S D K p) (k : S × D) : List (K × (Fin p → K)) := (t.filter fun r => decide (r.1 = k)).map (·.2)

/-- As `centerX`. -/
def centerM {p : Nat} (t : MTab S D K p) : MTab S D K p :=
  t.map fun r => (r.1, (r.2.1, fun j => r.2.2 j - avgX (sliceM t r.1.1) j))

/-- A fit: the coefficients and the intercept that `lm.fit(covariate, child)` finds for some rows. -/
abbrev Fit (K : Type) (p : Nat) := List (K × (Fin p → K)) → (Fin p → K) × K

def dotP {p : Nat} (a b : Fin p → K) : K := ∑ j, a j * b j

/-- `CUPED`'s `Adjust.compute` (/repo/operations.py:1028-1035): one fit per slice. -/
def pyCupedAdjM {p : Nat} (fit : Fit K p) (t : MTab S D K p) : DTab S D K :=
  let c := centerM t
  ((c.map (·.1)).dedup).map fun k =>
    (k, some (avgL ((cellM c k).map (·.1)) - dotP (avgX (cellM c k)) (fit (sliceM c k.1)).1))

/-- `PrePostChange`'s `Adjust.compute` (/repo/operations.py:798-804): the intercept of one fit per slice and
condition. -/
def pyPrePostAdjM {p : Nat} (fit : Fit K p) (t : MTab S D K p) : DTab S D K :=
  let c := centerM t
  ((c.map (·.1)).dedup).map fun k => (k, some (fit (cellM c k)).2)

end

end Verif
