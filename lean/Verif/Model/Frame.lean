import Verif.Model.Value
import Mathlib.Data.List.Dedup

/-!
# DataFrames, group-by and indexed results
-/

namespace Verif

/-- One row: a cell for every column name. -/
abbrev Row := String → Cell

/-- A `pandas.DataFrame`: its column names and its rows. The row index is not
modelled ("Your Metric shouldn't rely on the index of the input DataFrame",
/repo/metrics.py:202). -/
structure Frame where
  cols : List String
  rows : List Row

/-- What the model takes from outside: the meaning of filter strings (the parser
behind `df.query`, /repo/metrics.py:480) and of `**`. -/
structure Env where
  query : String → Row → Bool
  pow : PyVal → PyVal → PyVal

/-- Index values of one result row. -/
abbrev Key := List Rat

/-- Values of the grouping columns of a row; `none` if one is missing. -/
def keyOf (sb : List String) (r : Row) : Option Key := sb.mapM r

/-- The rows of one group, `df.groupby(split_by).get_group(key)`. -/
def rowsAt (sb : List String) (k : Key) (rs : List Row) : List Row :=
  rs.filter (fun r => keyOf sb r = some k)

/-- The groups pandas forms: the key values that occur, each once; rows with a
missing key are dropped (`dropna=True`), only observed ones (`observed=True`,
/repo/metrics.py:576,903). Without `split_by` there is one group, everything
(/repo/metrics.py:573,541). The order of the groups is not modelled. -/
def groupKeys (sb : List String) (rs : List Row) : List Key :=
  if sb = [] then [[]] else (rs.filterMap (keyOf sb)).dedup

/-- The slice of a DataFrame (/repo/metrics.py:571-578 `split_data`). -/
def Frame.slice (f : Frame) (sb : List String) (k : Key) : Frame :=
  { f with rows := rowsAt sb k f.rows }

/-- `df.query(where)` for a list of conditions, all of which must hold
(/repo/metrics.py:480 with the `where` property, :255-262, whose text form is
treated in `Verif.Model.Where`). -/
def Frame.query (env : Env) (f : Frame) (wh : List String) : Frame :=
  { f with rows := f.rows.filter (fun r => wh.all (fun w => env.query w r)) }

/-- One result column: index values and number. -/
abbrev Tbl := List (Key × PyVal)

/-- The value at an index. -/
def Tbl.get (t : Tbl) (k : Key) : Option PyVal :=
  (t.find? (fun p => p.1 = k)).map Prod.snd

/-- The part of a column that belongs to the slice `v` of the first index
levels, with these levels dropped (`df.xs(v)`). -/
def Tbl.at (t : Tbl) (v : Key) : Tbl :=
  t.filterMap (fun p => if p.1.take v.length = v then some (p.1.drop v.length, p.2) else none)

/-- Errors that computations raise. -/
inductive Err where
  | keyError        -- a column or baseline that does not exist
  | valueError      -- ValueError of meterstick or pandas
  | unsupported     -- outside the model (result tables with different indexes)
  deriving DecidableEq, Repr

/-- What a computation returns: a plain number (for the constants of
arithmetic), or result columns together with the index levels beyond
`split_by`. -/
inductive Res where
  | num (q : Rat)
  | tbl (extra : List String) (cols : List Tbl)
  deriving DecidableEq, Repr

def Res.at (r : Res) (v : Key) : Res :=
  match r with
  | .num q => .num q
  | .tbl ex cs => .tbl ex (cs.map (Tbl.at · v))

end Verif
