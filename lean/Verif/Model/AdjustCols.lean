import Verif.Model.Adjust

/-!
# CUPED and PrePostChange of several metrics

/repo/operations.py:659-1145. As `Verif.Model.Adjust`, with any number of metrics: the loops over the columns of the child, and how the columns of
the child's result are told from the covariates. Column names are distinct here; `Fin` stands for them.
-/

namespace Verif

section
variable {S D K : Type} [DecidableEq S] [DecidableEq D] [Field K] [LinearOrder K]

/-- The aligned table: `m` metrics and `p` covariates (/repo/operations.py:764-766, 995-997). -/
abbrev WTab (S D K : Type) (m p : ℕ) := List ((S × D) × ((Fin m → K) × (Fin p → K)))

/-- One metric with all covariates. -/
def wCol {m p : ℕ} (t : WTab S D K m p) (c : Fin m) : MTab S D K p := t.map fun r => (r.1, (r.2.1 c, r.2.2))

/-- The first covariate; there always is one. -/
def firstCov {p : ℕ} (x : Fin p → K) : K := if h : 0 < p then x ⟨0, h⟩ else 0

/-- One metric with the first covariate. -/
def wCol1 {m p : ℕ} (t : WTab S D K m p) (c : Fin m) : ATab S D K := t.map fun r => (r.1, (r.2.1 c, firstCov r.2.2))

/-- As `centerX`. -/
def centerW {m p : ℕ} (t : WTab S D K m p) : WTab S D K m p :=
  t.map fun r => (r.1, (r.2.1, fun j => r.2.2 j - avgL (((t.filter fun r' => decide (r'.1.1 = r.1.1)).map (·.2.2 j)))))

/-- The rows of a slice and condition. -/
def cellW {m p : ℕ} (t : WTab S D K m p) (k : S × D) : List ((Fin m → K) × (Fin p → K)) := (t.filter fun r => decide (r.1 = k)).map (·.2)

/-- `for c in child: adjusted[c] = f(c, adjusted[c])` on one row of `adjusted`. -/
def colLoop {m : ℕ} (f : Fin m → Option K → Option K) (row : Fin m → Option K) : Fin m → Option K :=
  (List.finRange m).foldl (fun row c => Function.update row c (f c (row c))) row

/-- `df.groupby(...).mean()` of the columns of the metrics. -/
def meansW {m p : ℕ} (t : WTab S D K m p) (k : S × D) : Fin m → Option K := fun c => some (avgL ((cellW t k).map (·.1 c)))

/-- `adjusted[c] - covariate_adjusted * theta` (/repo/operations.py:795, 1025), NaN if `theta` is. -/
def lessTheta (x : K) (th : Option K) (a : Option K) : Option K := optSub a (th.map (x * ·))

/-- `CUPED.adjust_value` (/repo/operations.py:973-1037) for any number of metrics and at least one covariate: `theta` by the formula for one
covariate, by a regression for several. -/
def pyCupedW {m p : ℕ} (fit : Fit K p) (t : WTab S D K m p) : List ((S × D) × (Fin m → Option K)) :=
  let c := centerW t
  ((c.map (·.1)).dedup).map fun k =>
    (k, if p ≤ 1 then
        colLoop (fun j a => lessTheta (avgL ((cellW c k).map fun p => firstCov p.2)) (thetaOf (sliceXY (wCol1 c j) k.1)) a) (meansW c k)
      else
        colLoop (fun j a => optSub a (some (dotP (avgX (cellM (wCol c j) k)) (fit (sliceM (wCol c j) k.1)).1))) (meansW c k))

/-- `PrePostChange.adjust_value` (/repo/operations.py:730-806), likewise. -/
def pyPrePostW {m p : ℕ} (fit : Fit K p) (t : WTab S D K m p) : List ((S × D) × (Fin m → Option K)) :=
  let c := centerW t
  ((c.map (·.1)).dedup).map fun k =>
    (k, if p ≤ 1 then
        colLoop (fun j a => lessTheta (avgL ((cellW c k).map fun p => firstCov p.2)) (thetaOf (cellXY (wCol1 c j) k)) a) (meansW c k)
      else fun j => some (fit (cellM (wCol c j) k)).2)

/-- `compute_children_sql` (/repo/operations.py:808-813, 1039-1044), where the children are computed by queries and adjusted in Python: the first
column of the child's result is the metric and all others are covariates. `z` are the columns, those of the metrics first. -/
def mixedTab {n : ℕ} (t : List ((S × D) × (Fin (n + 1) → K))) : WTab S D K 1 n :=
  t.map fun r => (r.1, (fun _ => r.2 0, fun j => r.2 j.succ))

/-- The columns of the child's result: of the metrics, then of the covariates (/repo/operations.py:702-704, 947-949). -/
def joinCols {m p : ℕ} (t : WTab S D K m p) : List ((S × D) × (Fin (m + p) → K)) := t.map fun r => (r.1, Fin.append r.2.1 r.2.2)

/-- One column of the adjusted values. -/
def resCol {m : ℕ} (a : List ((S × D) × (Fin m → Option K))) (c : Fin m) : DTab S D K := a.map fun r => (r.1, r.2 c)

/-- The query of `CUPED` for several metrics and one covariate (/repo/operations.py:1100-1140): one column of `CUPEDTheta` and one of `ChangeRaw` for
each. -/
def sqlCupedW {m : ℕ} (t : WTab S D K m 1) : List ((S × D) × (Fin m → Option K)) :=
  let theta := ((t.map (·.1.1)).dedup).map fun s => (s, fun c : Fin m => thetaOf (sliceXY (wCol1 t c) s))
  ((t.map (·.1)).dedup).map fun k =>
    (k, fun c => ((theta.lookup k.1).bind (· c)).map fun th =>
      avgL ((cellW t k).map (·.1 c)) - avgL ((cellW t k).map fun p => th * firstCov p.2))

/-- The query of `PrePostChange` for several metrics and one covariate (/repo/operations.py:859-904). -/
def sqlPrePostW {m : ℕ} (t : WTab S D K m 1) : List ((S × D) × (Fin m → Option K)) :=
  let c := centerW t
  ((c.map (·.1)).dedup).map fun k =>
    (k, fun j => optSub (some (avgL ((cellW c k).map (·.1 j))))
      (nanDiv (optMul (some (avgL ((cellW c k).map fun p => firstCov p.2))) (covSamp (cellXY (wCol1 c j) k))) (varSampX (cellXY (wCol1 c j) k))))

end

end Verif
