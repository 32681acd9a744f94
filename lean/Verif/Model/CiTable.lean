import Verif.Model.StdErr
import Verif.Model.SqlAlias
import Mathlib.Data.List.Dedup

/-!
# Tables of estimates with standard errors or intervals

How Jackknife and Bootstrap put estimates, standard errors, degrees of freedom and the values that a change compares into one
table, in SQL (/repo/operations.py:1975-2027, 2130-2220, 3205-3242) and on a DataFrame (/repo/operations.py:1683-1722,
1811-1836). Rows have a key, the values of the index columns, NULL is `none`; and the values of their columns. The
resamples themselves are given (C37-C41, C55-C58).
-/

namespace Verif

/-- The key of a row. -/
abbrev RKey (κ : Type) := List (Option κ)

/-- Rows of a table: key and values. -/
abbrev RTab (κ : Type) := List (RKey κ × List (Option ℝ))

variable {κ : Type} [DecidableEq κ]

/-- A value in column `j`. -/
def colVal (vs : List (Option ℝ)) (j : ℕ) : Option ℝ := (vs[j]?).join

/-- The values of column `j` in the rows with the key. -/
def repsOf (t : RTab κ) (k : RKey κ) (j : ℕ) : List (Option ℝ) :=
  (t.filter fun r => decide (r.1 = k)).map fun r => colVal r.2 j

/-- The standard error in SQL: of Jackknife or of Bootstrap (/repo/operations.py:3229-3238). -/
noncomputable def seSql (jk : Bool) (reps : List (Option ℝ)) : Option ℝ :=
  if jk then sqlJkStderr reps else stdSamp (reps.filterMap id)

/-- The columns of one metric (/repo/operations.py:3239-3241). -/
noncomputable def seCells (jk conf : Bool) (reps : List (Option ℝ)) : List (Option ℝ) :=
  seSql jk reps :: if conf then [some (((reps.filterMap id).length : ℝ) - 1)] else []

/-- `get_se_sql` (/repo/operations.py:3205-3242): the resampled results grouped by the index columns, or all of them if there
are no index columns. `n` is the number of metrics. -/
noncomputable def seTab (jk conf indexed : Bool) (n : ℕ) (samples : RTab κ) : RTab κ :=
  let keys := if indexed then (samples.map Prod.fst).dedup else [[]]
  keys.map fun k => (k, (List.range n).flatMap fun j => seCells jk conf (repsOf samples k j))

/-- `USING`: keys are equal and have no NULL. -/
def keyMatch (a b : RKey κ) : Bool := decide (a = b) && decide (none ∉ a)

/-- `LEFT JOIN ... USING (...)`, or `CROSS JOIN` if there are no index columns (/repo/operations.py:2216-2219); `w` columns on the right. -/
def joinRows {β : Type} (indexed : Bool) (w : ℕ) (l : List (RKey κ × β)) (r : RTab κ) :
    List (RKey κ × β × List (Option ℝ)) :=
  if indexed then
    l.flatMap fun a =>
      match r.filter fun b => keyMatch a.1 b.1 with
      | [] => [(a.1, a.2, List.replicate w none)]
      | ms => ms.map fun b => (a.1, a.2, b.2)
  else l.flatMap fun a => r.map fun b => (a.1, a.2, b.2)

/-- `l[::2]`. -/
def evens {α : Type} : List α → List α
  | [] => []
  | [a] => [a]
  | a :: _ :: l => a :: evens l

/-- `l[1::2]`. -/
def odds {α : Type} : List α → List α
  | [] => []
  | [_] => []
  | _ :: b :: l => b :: odds l

/-- The order of the columns (/repo/operations.py:2175-2181). -/
def ciSelect {α : Type} (conf : Bool) (p s : List α) : List α :=
  if conf then (p.zip ((evens s).zip (odds s))).flatMap fun x => [x.1, x.2.1, x.2.2]
  else (p.zip s).flatMap fun x => [x.1, x.2]

/-- The rows of the query of a Jackknife or Bootstrap (/repo/operations.py:2136-2220); `base` if the child is a change and
there is a confidence level. `wb` is the number of columns of `base`. -/
noncomputable def ciRows (jk conf indexed : Bool) (n : ℕ) (pt samples : RTab κ) (base : Option (ℕ × RTab κ)) : RTab κ :=
  let j := joinRows indexed (if conf then 2 * n else n) pt (seTab jk conf indexed n samples)
  match base with
  | none => j.map fun r => (r.1, ciSelect conf r.2.1 r.2.2)
  | some (wb, b) => (joinRows indexed wb j b).map fun r => (r.1, ciSelect conf r.2.1.1 r.2.1.2 ++ r.2.2)

/-! ## The columns of the query -/

/-- `STDDEV_SAMP(a)`, for Jackknife with its factor (/repo/operations.py:3230-3238, /repo/sql.py:27, 329-332, 388-396). -/
def seExpr (jk : Bool) (a : Txt) : Txt :=
  "STDDEV_SAMP(".toList ++ a ++ ')' :: if jk then
    " * (IF((SQRT(COUNT(".toList ++ a ++ "))) = 0, NULL, (COUNT(".toList ++ a ++ ") - 1) / (SQRT(COUNT(".toList ++ a ++ ")))))".toList
  else []

/-- `COUNT(a) - 1` (/repo/operations.py:3241). -/
def dofExpr (a : Txt) : Txt := "COUNT(".toList ++ a ++ ") - 1".toList

/-- The columns for the metrics with these aliases and names (/repo/operations.py:3223-3241). -/
def seColumns (jk conf : Bool) : List (Txt × Txt) → List SCol
  | [] => []
  | (a, raw) :: l =>
    ⟨seExpr jk a, some (raw ++ (if jk then " Jackknife SE".toList else " Bootstrap SE".toList)), 0⟩ ::
      ((if conf then [⟨dofExpr a, some (raw ++ " dof".toList), 0⟩] else []) ++ seColumns jk conf l)

/-- A column of a source: `sql.Column(f'{src}.{c.alias}', alias=c.alias_raw)` (/repo/operations.py:2164-2173, 2209-2212). -/
def fromSource (src : Txt) (c : Txt × Txt) : SCol := ⟨src ++ '.' :: c.1, some c.2, 0⟩

/-- The columns of the query after the index columns `using_` (/repo/operations.py:2157-2220). Columns are given by alias and name. -/
def ciColumns (conf : Bool) (ptA seA baseA : Txt) (using_ : List SCol) (pt se base : List (Txt × Txt)) :
    Option (List SCol) := do
  let (c1, _) ← addColumns [] (ciSelect conf (pt.map (fromSource ptA)) (se.map (fromSource seA)))
  let (c2, _) ← addColumns c1 (base.map (fromSource baseA))
  let (c3, _) ← addColumns using_ c2
  pure c3

/-! ## Reading the result -/

/-- `dof.fillna(0).astype(int)` (/repo/operations.py:1834). -/
noncomputable def dofInt (d : Option ℝ) : ℤ := ⌊d.getD 0⌋

/-- Value, lower and upper bound (/repo/operations.py:2004-2013). -/
noncomputable def ciCellOf (ppf : ℝ → ℤ → ℝ) (c : ℝ) (pt se dof : Option ℝ) : Option ℝ × Option ℝ × Option ℝ :=
  let h := ciHalfWidth ppf c se (dofInt dof)
  (pt, pt.bind fun p => h.map fun x => p - x, pt.bind fun p => h.map fun x => p + x)

/-- The part of the result for one metric. -/
structure CiPart (κ β : Type) where
  metric : Txt
  rows : List (RKey κ × β)

/-- `compute_on_sql_sql_mode` with a confidence level (/repo/operations.py:1981-2015). Result: the metrics, and the values that the
change compares, metric by metric. None where the shape is wrong. -/
noncomputable def decodeCi (ppf : ℝ → ℤ → ℝ) (c : ℝ) (change : Bool) (tmpl : Txt → Txt) (names : List Txt) (rows : RTab κ) :
    Option (List (CiPart κ (Option ℝ × Option ℝ × Option ℝ)) × Option (List (CiPart κ (Option ℝ)))) :=
  let m := names.length
  if change && m % 4 != 0 then none else
  let n := if change then m / 4 else 0
  let w := m - n
  let base := if change then
      some ((List.range n).map fun j => ⟨tmpl (names.getD (w + j) []), rows.map fun r => (r.1, colVal r.2 (w + j))⟩)
    else none
  if w % 3 != 0 then none else
  some ((List.range (w / 3)).map fun i => ⟨names.getD (3 * i) [],
    rows.map fun r => (r.1, ciCellOf ppf c (colVal r.2 (3 * i)) (colVal r.2 (3 * i + 1)) (colVal r.2 (3 * i + 2)))⟩, base)

/-- Without a confidence level (/repo/operations.py:2016-2025). -/
noncomputable def decodeSe (names : List Txt) (rows : RTab κ) : Option (List (CiPart κ (Option ℝ × Option ℝ))) :=
  if names.length % 2 != 0 then none else
  some ((List.range (names.length / 2)).map fun i => ⟨names.getD (2 * i) [],
    rows.map fun r => (r.1, colVal r.2 (2 * i), colVal r.2 (2 * i + 1))⟩)

/-! ## On a DataFrame -/

/-- Long format. -/
abbrev LongTab (κ : Type) := List ((Txt × RKey κ) × Option ℝ)

/-- `utils.melt` (/repo/utils.py:59-69), metric by metric. -/
def meltTab (names : List Txt) (t : RTab κ) : LongTab κ :=
  (names.zip (List.range names.length)).flatMap fun p => t.map fun r => ((p.1, r.1), colVal r.2 p.2)

/-- `pd.concat(children, axis=1)`, the row of one metric and key (/repo/operations.py:1811-1814). -/
def concatRow (reps : List (LongTab κ)) (i : Txt × RKey κ) : List (Option ℝ) :=
  reps.map fun t => (t.lookup i).join

/-- `get_stderrs` of the class. -/
noncomputable def getStderrs (jk : Bool) (reps : List (Option ℝ)) : Option ℝ × ℤ := if jk then jkStderr reps else bsStderr reps

/-- The index of `pd.concat`. -/
def concatIndex (reps : List (LongTab κ)) : List (Txt × RKey κ) := (reps.flatMap fun t => t.map Prod.fst).dedup

/-- `compute_on_children` without a confidence level: metric, key and standard error (/repo/operations.py:1811-1825). -/
noncomputable def stdTab (jk : Bool) (reps : List (LongTab κ)) : List ((Txt × RKey κ) × (Option ℝ × ℤ)) :=
  (concatIndex reps).map fun i => (i, getStderrs jk (concatRow reps i))

/-- `MetricWithCI.compute_slices` and `compute_on_sql_mixed_mode` (/repo/operations.py:1683-1722, 2029-2044) without a confidence level,
in long format: the join keeps the rows of the estimates. -/
noncomputable def dfSe (jk : Bool) (pt : LongTab κ) (reps : List (LongTab κ)) : List ((Txt × RKey κ) × Option ℝ × Option ℝ) :=
  pt.map fun r => (r.1, r.2, ((stdTab jk reps).lookup r.1).bind Prod.fst)

/-- The same with a confidence level: half widths are joined to the estimates, then subtracted and added. -/
noncomputable def dfCi (jk : Bool) (ppf : ℝ → ℤ → ℝ) (c : ℝ) (pt : LongTab κ) (reps : List (LongTab κ)) :
    List ((Txt × RKey κ) × Option ℝ × Option ℝ × Option ℝ) :=
  pt.map fun r =>
    let h := ((stdTab jk reps).lookup r.1).bind fun s => ciHalfWidth ppf c s.1 s.2
    (r.1, r.2, r.2.bind fun p => h.map fun x => p - x, h.bind fun x => r.2.map fun p => x + p)

end Verif
