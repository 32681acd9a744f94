import Mathlib.Data.List.Basic

/-!
# Melting and unmelting

/repo/utils.py:38-124. A value `V` is a cell: one number, or the numbers of all inner columns (Value, CI-lower, ...) of a
metric; all metrics have the same inner columns. A missing value is `none`.
-/

namespace Verif

/-- Index values; `falsy` is 0, an empty string or False. -/
inductive IVal where
  | falsy
  | val (s : String)
  deriving DecidableEq

/-- A wide table: names of the index levels, index tuples, metric names and columns. -/
structure Wide (V : Type) where
  levels : List (Option String)
  idx : List (List IVal)
  names : List String
  cols : List (List (Option V))
  deriving DecidableEq

/-- A long table: the outermost index level is the metric; `levels` names the others. -/
structure Long (V : Type) where
  levels : List (Option String)
  rows : List (String × List IVal × Option V)
  deriving DecidableEq

/-- Distinct values in order of first occurrence: `Index.unique()`. -/
def uniq {α : Type} [DecidableEq α] : List α → List α
  | [] => []
  | a :: l => a :: (uniq l).filter fun b => decide (b ≠ a)

/-- Is level number `i` dropped by `remove_empty_level` (/repo/utils.py:114-124)? It has no name, and one value, which
is false. -/
def emptyLevel {V : Type} (m : Long V) (i : Nat) : Bool :=
  (match m.levels[i]? with | some none => true | some (some s) => s == "" | none => false) &&
  !m.rows.isEmpty && m.rows.all fun r => r.2.1[i]? == some IVal.falsy

/-- Keeps the positions `i` with `keep i`, counting from `k`. -/
def keepAt {α : Type} (keep : Nat → Bool) : Nat → List α → List α
  | _, [] => []
  | k, a :: l => if keep k then a :: keepAt keep (k + 1) l else keepAt keep (k + 1) l

/-- `remove_empty_level` (/repo/utils.py:114-124). -/
def removeEmptyLevel {V : Type} (m : Long V) : Long V :=
  let keep := fun i => !emptyLevel m i
  ⟨keepAt keep 0 m.levels, m.rows.map fun r => (r.1, keepAt keep 0 r.2.1, r.2.2)⟩

/-- `melt` before empty levels are removed (/repo/utils.py:59-69): `pd.concat([df[n] for n in names], keys=names)`. Metric
names are distinct (`df[n]` would otherwise be several columns). -/
def meltRaw {V : Type} (w : Wide V) : Long V :=
  ⟨w.levels, (w.names.zip w.cols).flatMap fun p => (w.idx.zip p.2).map fun q => (p.1, q.1, q.2)⟩

/-- `melt` (/repo/utils.py:38-69). -/
def melt {V : Type} (w : Wide V) : Long V := removeEmptyLevel (meltRaw w)

/-- `df.loc[n]`. -/
def locMetric {V : Type} (m : Long V) (n : String) : List (List IVal × Option V) :=
  m.rows.filterMap fun r => if r.1 = n then some r.2 else none

/-- `pd.concat(series, axis=1)`: equal indexes are kept; different ones are united in order of appearance and missing cells
are filled with missing values, an error if an index repeats itself. Nothing to concatenate is an error. -/
def concatWide {V : Type} (ss : List (List (List IVal × Option V))) : Option (List (List IVal) × List (List (Option V))) :=
  match ss with
  | [] => none
  | s :: _ =>
    if ∀ t ∈ ss, t.map (·.1) = s.map (·.1) then some (s.map (·.1), ss.map fun t => t.map (·.2))
    else if ∀ t ∈ ss, (t.map (·.1)).Nodup then
      let idx := uniq (ss.flatMap fun t => t.map (·.1))
      some (idx, ss.map fun t => idx.map fun i => (t.lookup i).join)
    else none

/-- `unmelt` (/repo/utils.py:72-111). If the metric is the only level, the result is one row with the default index. -/
def unmelt {V : Type} (m : Long V) : Option (Wide V) :=
  if m.levels = [] then
    some ⟨[none], [[IVal.falsy]], m.rows.map (·.1), m.rows.map fun r => [r.2.2]⟩
  else
    let names := uniq (m.rows.map (·.1))
    (concatWide (names.map (locMetric m))).map fun p => ⟨m.levels, p.1, names, p.2⟩

end Verif
