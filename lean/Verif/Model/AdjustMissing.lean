import Verif.Model.Adjust

/-!
# CUPED and PrePostChange where values are missing

/repo/operations.py:659-1145, /repo/metrics.py:2584-2617. As `Verif.Model.Adjust`, but a stratum may lack the metric or the covariate, as
when the two have filters for different periods: `pd.concat` of the two tables (/repo/operations.py:765, 996) and the aggregations with
`IF` of the one query leave a missing value there. Here `metrics.Cov` is the formula that the code uses, not the textbook's.
-/

namespace Verif

section
variable {S D K : Type} [DecidableEq S] [DecidableEq D] [Field K] [LinearOrder K]

/-- One row per slice, condition and stratum with `y` and `x`, each maybe missing. -/
abbrev OTab (S D K : Type) := List ((S × D) × (Option K × Option K))

/-- The values that are present. -/
def presentO (l : List (Option K)) : List K := l.filterMap id

/-- `Series.mean()`, which skips missing values, and `AVG`. -/
def meanO (l : List (Option K)) : Option K := if presentO l = [] then none else some (avgL (presentO l))

/-- The rows with both values. -/
def pairsO (l : List (Option K × Option K)) : List (K × K) :=
  l.filterMap fun p => match p.1, p.2 with
    | some y, some x => some (y, x)
    | _, _ => none

/-- `Cov.get_equivalent_without_filter` without weights, `ddof=1` (/repo/metrics.py:2587-2616):
`(Dot(y, x, normalize=True) - Mean(y) * Mean(x)) / ((1 - 1 / Count(y)) ** 0.5) ** 2`. Simplified: missing for one `y`, where the code divides
by zero and gets NaN, or inf. -/
def pyCovO (l : List (Option K × Option K)) : Option K :=
  let n := (presentO (l.map (·.1))).length
  if n ≤ 1 then none
  else (optSub (meanO (l.map fun p => optMul p.1 p.2)) (optMul (meanO (l.map (·.1))) (meanO (l.map (·.2))))).map
    (· / (1 - 1 / (n : K)))

/-- `COVAR_SAMP` skips the rows where one of the two is NULL. -/
def sqlCovO (l : List (Option K × Option K)) : Option K := covSamp (pairsO l)

/-- `metrics.Variance(covariate)` and `VAR_SAMP`: of the values that are present. -/
def varO (l : List (Option K × Option K)) : Option K := covSamp ((presentO (l.map (·.2))).map fun x => (x, x))

/-- `metrics.Cov(c, covariate) / metrics.Variance(covariate)` on a DataFrame (/repo/operations.py:792-794, 1022-1024) and in SQL
(/repo/operations.py:1107-1115). -/
def pyThetaO (l : List (Option K × Option K)) : Option K := nanDiv (pyCovO l) (varO l)
def sqlThetaO (l : List (Option K × Option K)) : Option K := nanDiv (sqlCovO l) (varO l)

/-- The rows of a slice, and of a slice and condition. -/
def sliceO (t : OTab S D K) (s : S) : List (Option K × Option K) := (t.filter fun r => decide (r.1.1 = s)).map (·.2)
def cellO (t : OTab S D K) (k : S × D) : List (Option K × Option K) := (t.filter fun r => decide (r.1 = k)).map (·.2)

/-- `covariates - covariates.groupby(split_by).mean()` (/repo/operations.py:757-762, 988-993) and
`covariate - AVG(covariate) OVER (PARTITION BY split_by)` (/repo/operations.py:877-887). -/
def centerO (t : OTab S D K) : OTab S D K :=
  t.map fun r => (r.1, (r.2.1, optSub r.2.2 (meanO ((sliceO t r.1.1).map (·.2)))))

/-- The slices and conditions that occur. -/
def cellKeysO (t : OTab S D K) : List (S × D) := (t.map (·.1)).dedup

/-- `CUPED.adjust_value` with one covariate (/repo/operations.py:973-1037). -/
def pyCupedAdjO (t : OTab S D K) : DTab S D K :=
  let c := centerO t
  (cellKeysO c).map fun k =>
    (k, optSub (meanO ((cellO c k).map (·.1))) (optMul (meanO ((cellO c k).map (·.2))) (pyThetaO (sliceO c k.1))))

/-- The query `ChangeRaw` of `CUPED` (/repo/operations.py:1046-1144): `AVG(y) - AVG(theta * x)`. -/
def sqlCupedAdjO (t : OTab S D K) : DTab S D K :=
  let theta := ((t.map (·.1.1)).dedup).map fun s => (s, sqlThetaO (sliceO t s))
  (cellKeysO t).map fun k =>
    (k, optSub (meanO ((cellO t k).map (·.1))) (meanO ((cellO t k).map fun p => optMul ((theta.lookup k.1).bind id) p.2)))

/-- `PrePostChange.adjust_value` with one covariate (/repo/operations.py:730-806). -/
def pyPrePostAdjO (t : OTab S D K) : DTab S D K :=
  let c := centerO t
  (cellKeysO c).map fun k =>
    (k, optSub (meanO ((cellO c k).map (·.1))) (optMul (meanO ((cellO c k).map (·.2))) (pyThetaO (cellO c k))))

/-- The query `ChangeRaw` of `PrePostChange` (/repo/operations.py:815-904):
`AVG(y) - SAFE_DIVIDE(AVG(x) * COVAR_SAMP(y, x), VAR_SAMP(x))` of the centred table. -/
def sqlPrePostAdjO (t : OTab S D K) : DTab S D K :=
  let c := centerO t
  (cellKeysO c).map fun k =>
    (k, optSub (meanO ((cellO c k).map (·.1)))
      (nanDiv (optMul (meanO ((cellO c k).map (·.2))) (sqlCovO (cellO c k))) (varO (cellO c k))))

/-- The changes of the adjusted values. -/
def pyCupedO (b : D) (incl : Bool) (t : OTab S D K) : Option (DTab S D K) := pyChange optSub b incl (pyCupedAdjO t)
def sqlCupedO (b : D) (incl : Bool) (t : OTab S D K) : DTab S D K := sqlChange optSub b incl (sqlCupedAdjO t)
def pyPrePostO (b : D) (incl : Bool) (t : OTab S D K) : Option (DTab S D K) := pyChange pyPct b incl (pyPrePostAdjO t)
def sqlPrePostO (b : D) (incl : Bool) (t : OTab S D K) : DTab S D K := sqlChange sqlPct b incl (sqlPrePostAdjO t)

end

end Verif
