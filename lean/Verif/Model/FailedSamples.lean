import Verif.Model.CiTable

/-!
# Resamples on which a metric fails

/repo/operations.py:1686-1697, 1764-1814, /repo/metrics.py:494-519, 1125-1200. A resample is given by what every metric of the list gives
on each of its slices, a value or an exception. Exceptions are arbitrary values; those that are not an `Exception` (KeyboardInterrupt)
are not modelled. Every metric has one column.
-/

namespace Verif

variable {κ ε : Type} [DecidableEq κ]

/-- The slices of a resample, in order, and what `compute` of a metric does on them. -/
abbrev SliceRuns (κ ε : Type) := List (RKey κ × Except ε (Option ℝ))

/-- What the metrics of the list do on a resample. -/
abbrev ResampleRun (κ ε : Type) := List (Txt × SliceRuns κ ε)

/-- The loop over the slices (/repo/metrics.py:511-519): the first exception leaves it. -/
def metricOnSample (m : Txt) : SliceRuns κ ε → Except ε (LongTab κ)
  | [] => .ok []
  | (k, r) :: rest =>
    match r with
    | .error e => .error e
    | .ok v =>
      match metricOnSample m rest with
      | .error e => .error e
      | .ok t => .ok (((m, k), v) :: t)

/-- `MetricList.compute_slices` (/repo/metrics.py:1137-1152): the columns of the metrics that do not fail. -/
def listColumns : ResampleRun κ ε → List (LongTab κ)
  | [] => []
  | (m, s) :: rest =>
    match metricOnSample m s with
    | .error _ => listColumns rest
    | .ok t => t :: listColumns rest

/-- `utils.melt` of the list's result (/repo/metrics.py:1170-1200): an empty list of columns and a wrong number of names are a ValueError. `columns` is
`rename_columns`, empty if not given. -/
def listOnSample (valueError : ε) (columns : List Txt) (run : ResampleRun κ ε) : Except ε (LongTab κ) :=
  let cols := listColumns run
  if cols = [] then .error valueError
  else if columns = [] then .ok cols.flatten
  else if cols.length ≠ columns.length then .error valueError
  else .ok (List.zipWith (fun n (t : LongTab κ) => t.map fun r => ((n, r.1.2), r.2)) columns cols).flatten

/-- The iterator `get_samples` (/repo/operations.py:1776-1777): it may itself raise. -/
inductive SampleGen (ε α : Type) where
  | done
  | yield (s : α) (rest : SampleGen ε α)
  | raise (e : ε)

/-- `compute_on_samples` (/repo/operations.py:1791-1809): the estimates and the exceptions that are printed. -/
def onSamples {α β : Type} (f : α → Except ε β) : SampleGen ε α → Except ε (List β × List ε)
  | .done => .ok ([], [])
  | .raise e => .error e
  | .yield s rest =>
    match onSamples f rest with
    | .error e => .error e
    | .ok (bs, es) =>
      match f s with
      | .ok b => .ok (b :: bs, es)
      | .error e => .ok (bs, e :: es)

/-- `compute_slices` without a confidence level (/repo/operations.py:1686-1693, 1811-1814): standard errors first, `pd.concat` of nothing is a
ValueError; then the estimates on the data. The result and the printed exceptions. -/
noncomputable def seOnSamples (jk : Bool) (valueError : ε) (columns : List Txt) (gen : SampleGen ε (ResampleRun κ ε)) (data : ResampleRun κ ε) :
    Except ε (List ((Txt × RKey κ) × Option ℝ × Option ℝ) × List ε) :=
  match onSamples (listOnSample valueError columns) gen with
  | .error e => .error e
  | .ok ([], _) => .error valueError
  | .ok (t :: ts, es) =>
    match listOnSample valueError columns data with
    | .error e => .error e
    | .ok pt => .ok (dfSe jk pt (t :: ts), es)

/-- The same with a confidence level (/repo/operations.py:1690-1697). -/
noncomputable def ciOnSamples (jk : Bool) (ppf : ℝ → ℤ → ℝ) (c : ℝ) (valueError : ε) (columns : List Txt)
    (gen : SampleGen ε (ResampleRun κ ε)) (data : ResampleRun κ ε) :
    Except ε (List ((Txt × RKey κ) × Option ℝ × Option ℝ × Option ℝ) × List ε) :=
  match onSamples (listOnSample valueError columns) gen with
  | .error e => .error e
  | .ok ([], _) => .error valueError
  | .ok (t :: ts, es) =>
    match listOnSample valueError columns data with
    | .error e => .error e
    | .ok pt => .ok (dfCi jk ppf c pt (t :: ts), es)

end Verif
