import Verif.Model.Filters

/-!
# The aggregate query generated for a metric tree, and its meaning

Trees of aggregations, arithmetic and lists (operations need several queries and
are treated separately). All the children's queries read the same table with the
same WHERE and GROUP BY, so they are compatible (/repo/sql.py:30-55) and merged
into one SELECT: the compile function returns its value columns.

Not modelled here: column aliases (see `Verif.Model.SqlAlias`), NULL as a
group of its own (SQL keeps the group of rows with a NULL key, pandas drops it).
-/

namespace Verif

/-- The expression of one selected value column. -/
inductive SqlE where
  | agg (k : Leaf) (flt : List String)   -- e.g. SUM(IF(flt, v, NULL))
  | lit (q : Rat)
  | bin (op : BinOp) (a b : SqlE)
  deriving DecidableEq, Repr

/-- `Columns.add` as far as expressions are concerned: an expression that is
already selected is not added again (/repo/sql.py:432-468). -/
def addCols (acc new : List SqlE) : List SqlE :=
  new.foldl (fun acc e => if e ∈ acc then acc else acc ++ [e]) acc

/-- Pairing of the columns of two compatible queries
(/repo/metrics.py:1561-1567, 1588-1601): the shorter one must have one column,
which is repeated (`itertools.cycle`). -/
def zipSql (op : BinOp) (as bs : List SqlE) : Except Err (List SqlE) :=
  match as, bs with
  | [a], bs => .ok (addCols [] (bs.map (SqlE.bin op a)))
  | as, [b] => .ok (addCols [] (as.map (fun a => SqlE.bin op a b)))
  | as, bs => if as.length = bs.length then .ok (addCols [] (List.zipWith (SqlE.bin op) as bs))
      else .error .valueError       -- 'Children Metrics have different shapes!'

/-- A child that is a number rather than a metric. -/
def M.asConst : M → Option Rat
  | .const q => some q
  | _ => none

mutual
/-- `get_sql_and_with_clause`: SimpleMetric /repo/metrics.py:1692-1702 (columns:
Count :1734-1738, Sum :1761, Dot :1807-1809, Mean :1846-1853, Max :1882, Min
:1906), CompositeMetric :1511-1637, MetricList :1268-1319. -/
def M.compile (glob : List String) : M → List String → Except Err (List SqlE)
  | .const _, _ => .error .valueError
  | .leaf k wh, loc => .ok [.agg k (localFilter wh loc glob)]
  | .comp op l r wh, loc =>
      match l.asConst, r.asConst with
      | some q, _ =>
        match r.compile glob (localFilter wh loc glob) with
        | .error e => .error e
        | .ok es => .ok (addCols [] (es.map (SqlE.bin op (.lit q))))
      | none, some q =>
        match l.compile glob (localFilter wh loc glob) with
        | .error e => .error e
        | .ok es => .ok (addCols [] (es.map (fun e => SqlE.bin op e (.lit q))))
      | none, none =>
        match l.compile glob (localFilter wh loc glob) with
        | .error e => .error e
        | .ok as =>
          match r.compile glob (localFilter wh loc glob) with
          | .error e => .error e
          | .ok bs => zipSql op as bs
  | .list ms wh, loc => compileAll glob ms (localFilter wh loc glob) []
  | .oper _ _ _, _ => .error .unsupported
/-- Merging the children's queries one by one
(`incompatible_sqls.merge`, /repo/metrics.py:1308-1319; `Sql.merge`,
/repo/sql.py:747-766). -/
def compileAll (glob : List String) : List M → List String → List SqlE → Except Err (List SqlE)
  | [], _, acc => .ok acc
  | m :: ms, loc, acc =>
      match m.compile glob loc with
      | .error e => .error e
      | .ok es => compileAll glob ms loc (addCols acc es)
end

/-- The values an aggregate sees: `IF(flt, v, NULL)`, NULLs skipped
(/repo/sql.py:300-302). -/
def sqlVals (env : Env) (flt : List String) (g : Row → Cell) (rs : List Row) : List Rat :=
  rs.filterMap (fun r => if flt.all (fun w => env.query w r) then g r else none)

/-- SQL `SUM`: NULL for nothing. -/
def sqlSum (xs : List Rat) : Cell := if xs = [] then none else some xs.sum

/-- SQL `AVG`. -/
def sqlAvg (xs : List Rat) : Cell := if xs = [] then none else some (xs.sum / xs.length)

/-- SQL `MAX`. -/
def sqlMax : List Rat → Cell
  | [] => none
  | x :: xs => some (xs.foldl Max.max x)

/-- SQL `MIN`. -/
def sqlMin : List Rat → Cell
  | [] => none
  | x :: xs => some (xs.foldl Min.min x)

/-- SQL meaning of an aggregate column on the rows of one group. -/
def Leaf.sqlAgg (env : Env) (k : Leaf) (flt : List String) (rs : List Row) : Cell :=
  let mul := fun (v w : String) (r : Row) => Cell.map₂ (· * ·) (r v) (r w)
  match k with
  | .sum v => sqlSum (sqlVals env flt (· v) rs)
  | .count v => some (sqlVals env flt (· v) rs).length
  | .countDistinct v => some (sqlVals env flt (· v) rs).dedup.length
  | .mean v => sqlAvg (sqlVals env flt (· v) rs)
  | .max v => sqlMax (sqlVals env flt (· v) rs)
  | .min v => sqlMin (sqlVals env flt (· v) rs)
  | .dot v w normalize =>
      if normalize then sqlAvg (sqlVals env flt (mul v w) rs)
      else sqlSum (sqlVals env flt (mul v w) rs)
  | .wmean v w =>
      Cell.safeDiv (sqlSum (sqlVals env flt (mul w v) rs)) (sqlSum (sqlVals env flt (· w) rs))

/-- SQL meaning of a column expression on the rows of one group. `spow` is the
meaning of `SAFE.POWER`/`SAFE.SQRT`. -/
def SqlE.eval (env : Env) (spow : Cell → Cell → Cell) (rs : List Row) : SqlE → Cell
  | .agg k flt => k.sqlAgg env flt rs
  | .lit q => some q
  | .bin op a b =>
      let x := a.eval env spow rs
      let y := b.eval env spow rs
      match op with
      | .add => Cell.map₂ (· + ·) x y
      | .sub => Cell.map₂ (· - ·) x y
      | .mul => Cell.map₂ (· * ·) x y
      | .div => Cell.safeDiv x y
      | .pow => spow x y
      | .neg => x.map (fun q => -q)

/-- The rows `SELECT ... FROM df WHERE glob GROUP BY sb` aggregates for the group
`v`. -/
def groupRows (env : Env) (f : Frame) (glob sb : List String) (v : Key) : List Row :=
  rowsAt sb v (f.query env glob).rows

end Verif
