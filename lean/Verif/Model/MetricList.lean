import Verif.Model.Metric

/-!
# MetricList with column names, renaming and the printed warnings

/repo/metrics.py:1086-1217.
-/

namespace Verif

/-- A named result column. -/
abbrev NCol := String × Tbl

/-- A result DataFrame: extra index levels and named columns. -/
structure NRes where
  extra : List String
  cols : List NCol
  deriving DecidableEq, Repr

/-- What a `MetricList` is built from (/repo/metrics.py:1106-1123). `tmpl` is `name_tmpl`
(`none` if not given), `columns` is `rename_columns`, where the empty list and `None` both mean
"do not rename" (`if self.columns`, :1159,:1181). -/
structure MList where
  children : List M
  tmpl : Option (String → String)
  columns : List String
  wh : List String

/-- The names meterstick gives on its own: `label m` is `m.name`, `col m i` the name of the
`i`-th column of `m`'s result. Name generation is a parameter. -/
structure Naming where
  label : M → String
  col : M → Nat → String

/-- A child's `compute_on(..., return_dataframe=True)`: a number becomes a one-cell DataFrame
(`to_dataframe`, /repo/metrics.py:409-414). -/
def namedRun (env : Env) (nm : Naming) (m : M) (f : Frame) (sb : List String) : Except Err NRes :=
  match m.run env f sb with
  | .error e => .error e
  | .ok (.num q) => .ok ⟨[], [(nm.col m 0, [([], .fin q)])]⟩
  | .ok (.tbl ex cs) => .ok ⟨ex, cs.mapIdx (fun i t => (nm.col m i, t))⟩

/-- `child.columns = [self.name_tmpl.format(c) for c in child.columns]`
(/repo/metrics.py:1144-1146). -/
def NRes.applyTmpl (tmpl : Option (String → String)) (r : NRes) : NRes :=
  match tmpl with
  | none => r
  | some t => { r with cols := r.cols.map (fun c => (t c.1, c.2)) }

/-- `MetricList.compute_slices` (/repo/metrics.py:1125-1152): the results of the children that
do not raise and the names printed in warnings for those that do. -/
def MList.slices (env : Env) (nm : Naming) (tmpl : Option (String → String)) :
    List M → Frame → List String → List NRes × List String
  | [], _, _ => ([], [])
  | m :: ms, f, sb =>
      let rest := MList.slices env nm tmpl ms f sb
      match namedRun env nm m f sb with
      | .ok r => (r.applyTmpl tmpl :: rest.1, rest.2)
      | .error _ => (rest.1, nm.label m :: rest.2)

/-- `to_dataframe` of a list of results (/repo/metrics.py:1194-1200): `pd.concat(axis=1)`;
an empty list is pandas' `ValueError`. Simplifications: rows that one column lacks stay absent
from that column instead of being filled with NaN; results with different extra index levels
are outside the model. -/
def concatCols : List NRes → Except Err NRes
  | [] => .error .valueError
  | [r] => .ok r
  | r :: r' :: rs =>
      match concatCols (r' :: rs) with
      | .error e => .error e
      | .ok s => if r.extra = s.extra then .ok ⟨r.extra, r.cols ++ s.cols⟩ else .error .unsupported

/-- The renaming step of `manipulate` (/repo/metrics.py:1179-1192). -/
def renameCols (columns : List String) (r : NRes) : Except Err NRes :=
  if columns = [] then .ok r
  else if r.cols.length ≠ columns.length then .error .valueError
  else .ok { r with cols := List.zipWith (fun n c => (n, c.2)) columns r.cols }

/-- `MetricList.compute_on` (with `where`, /repo/metrics.py:478-483): the result and the warnings
printed. -/
def MList.computeOn (env : Env) (nm : Naming) (l : MList) (f : Frame) (sb : List String) :
    Except Err NRes × List String :=
  let s := MList.slices env nm l.tmpl l.children (f.query env l.wh) sb
  (match concatCols s.1 with
   | .error e => .error e
   | .ok r => renameCols l.columns r, s.2)

end Verif
