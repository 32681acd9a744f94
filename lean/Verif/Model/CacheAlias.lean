import Mathlib.Algebra.Order.Field.Rat

/-!
# Cached tables are shared, not copied, on reading

`save_to_cache` stores a copy (/repo/metrics.py:350-354), but `get_cached` returns the
stored object itself (:356-358). What the reader then does in place happens to the
cached table.

Not modelled: results with a row MultiIndex, for which `remove_empty_level`
(/repo/utils.py:114-124) makes a new frame object.
-/

namespace Verif

/-- A cached DataFrame: column names and column values. -/
structure CTable where
  names : List String
  cols : List (List Rat)
  deriving DecidableEq, Repr

/-- Who reads the cached result of a metric. -/
inductive Reader where
  /-- A metric without name template (sums, lists, ...). -/
  | plain
  /-- An Operation: after a hit its name template is applied to the columns
  (`Operation.manipulate`, /repo/operations.py:180-190, `apply_name_tmpl`,
  /repo/utils.py:147: `res.columns = map(name_tmpl.format, res.columns)`). -/
  | operation (tmpl : String → String)
  /-- Arithmetic with a number or a single column on an Operation's result of several
  columns: the read of the operation, then `a.iloc[:, i] = op(a.iloc[:, i], b)`
  (/repo/metrics.py:1485-1487) on a frame that shares the data of the cached one
  (`to_series_or_number`: `df.squeeze(axis=1)`, /repo/metrics.py:664-674, returns a view;
  with pandas' copy-on-write mode the write copies). -/
  | arith (tmpl : String → String) (op : Rat → Rat) (rename : String → String)

/-- One read of the cached table: what the reader gets, and the cached table
afterwards. `cow` says whether pandas runs in copy-on-write mode. -/
def readCached (cow : Bool) (t : CTable) : Reader → CTable × CTable
  | .plain => (t, t)
  | .operation tmpl =>
      let t' := { t with names := t.names.map tmpl }
      (t', t')
  | .arith tmpl op rename =>
      let t' := { t with names := t.names.map tmpl }
      let cols := if t.cols.length > 1 then t.cols.map (·.map op) else t.cols
      let out := { names := t'.names.map rename, cols := t.cols.map (·.map op) }
      (out, if cow then t' else { t' with cols := cols })

/-- A sequence of reads; returns what each reader got and the final cached table. -/
def readMany (cow : Bool) : List Reader → CTable → List CTable × CTable
  | [], t => ([], t)
  | r :: rs, t =>
      let (out, t) := readCached cow t r
      let (outs, t) := readMany cow rs t
      (out :: outs, t)

end Verif
