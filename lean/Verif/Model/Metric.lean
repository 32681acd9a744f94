import Verif.Model.Frame

/-!
# Metric trees and their evaluation on a DataFrame

Mirrors `Metric.compute_on` → `compute_through` → `compute_slices`
(/repo/metrics.py:436-548) without the cache (see `Verif.Model.Cache`).
Column names of results and their order are not modelled here.
-/

namespace Verif

/-- The built-in aggregations (/repo/metrics.py:1708-1908). -/
inductive Leaf where
  | sum (v : String)
  | count (v : String)
  | countDistinct (v : String)
  | mean (v : String)
  | max (v : String)
  | min (v : String)
  | dot (v w : String) (normalize : Bool)
  | wmean (v w : String)          -- Mean(v, weight=w)
  deriving DecidableEq, Repr

/-- The operators of metric arithmetic (/repo/metrics.py:958-997). -/
inductive BinOp where
  | add | sub | mul | div | pow | neg
  deriving DecidableEq, Repr

/-- The operations modelled in this evaluator
(/repo/operations.py:199-656, /repo/diversity.py). -/
inductive Oper where
  | dist (over : List String)
  | pctChange (cond : List String) (base : Key) (includeBase : Bool)
  | absChange (cond : List String) (base : Key) (includeBase : Bool)
  | hhi (over : List String)
  deriving DecidableEq, Repr

/-- A metric tree. `wh` is the `where_` attribute. Numbers are children of
arithmetic only. -/
inductive M where
  | const (q : Rat)
  | leaf (k : Leaf) (wh : List String)
  | comp (op : BinOp) (l r : M) (wh : List String)
  | list (ms : List M) (wh : List String)
  | oper (o : Oper) (child : M) (wh : List String)
  deriving Repr

/-- Columns a leaf reads. -/
def Leaf.vars : Leaf → List String
  | .sum v | .count v | .countDistinct v | .mean v | .max v | .min v => [v]
  | .dot v w _ => [v, w]
  | .wmean v w => [v, w]

/-- The non-missing values of a column (pandas aggregations skip NaN). -/
def vals (v : String) (rs : List Row) : List Rat := rs.filterMap (fun r => r v)

/-- The non-missing products of two columns, `df[v] * df[w]`
(/repo/metrics.py:1791). -/
def prods (v w : String) (rs : List Row) : List Rat :=
  rs.filterMap (fun r => match r v, r w with
    | some a, some b => some (a * b)
    | _, _ => none)

/-- pandas `mean`: NaN for nothing. -/
def pyMean (xs : List Rat) : PyVal :=
  if xs = [] then .nan else .fin (xs.sum / xs.length)

/-- pandas `max`: NaN for nothing. -/
def pyMax : List Rat → PyVal
  | [] => .nan
  | x :: xs => .fin (xs.foldl Max.max x)

/-- pandas `min`: NaN for nothing. -/
def pyMin : List Rat → PyVal
  | [] => .nan
  | x :: xs => .fin (xs.foldl Min.min x)

/-- The number an aggregation gives on the rows of one slice.
Count /repo/metrics.py:1730-1732, Sum :1758-1759 (pandas sums nothing to 0),
Dot :1789-1797, Mean :1841-1844 (weighted: the equivalent Dot/Sum, :1855-1859),
Max :1879-1880, Min :1903-1904. -/
def Leaf.agg : Leaf → List Row → PyVal
  | .sum v, rs => .fin (vals v rs).sum
  | .count v, rs => .fin (vals v rs).length
  | .countDistinct v, rs => .fin (vals v rs).dedup.length
  | .mean v, rs => pyMean (vals v rs)
  | .max v, rs => pyMax (vals v rs)
  | .min v, rs => pyMin (vals v rs)
  | .dot v w normalize, rs =>
      if normalize then pyMean (prods v w rs) else .fin (prods v w rs).sum
  | .wmean v w, rs => PyVal.div (.fin (prods v w rs).sum) (.fin (vals w rs).sum)

/-- `SimpleMetric.compute_slices` (e.g. /repo/metrics.py:1758): group, then
aggregate; a missing column is a `KeyError`. -/
def Leaf.run (k : Leaf) (f : Frame) (sb : List String) : Except Err Res :=
  if (k.vars ++ sb).all (fun c => f.cols.contains c) then
    .ok (.tbl [] [(groupKeys sb f.rows).map (fun key => (key, k.agg (rowsAt sb key f.rows)))])
  else .error .keyError

/-- The Python operators (/repo/metrics.py:958-997). `-m` is built as
`CompositeMetric(lambda x, _: -x, '-{}', (m, -1))`. -/
def BinOp.py (env : Env) : BinOp → PyVal → PyVal → PyVal
  | .add, a, b => a.add b
  | .sub, a, b => a.sub b
  | .mul, a, b => a.mul b
  | .div, a, b => a.div b
  | .pow, a, b => env.pow a b
  | .neg, a, _ => a.neg

/-- Arithmetic of two indexed columns: pandas aligns on the union of the index
values, a missing partner counts as NaN. -/
def Tbl.align (op : PyVal → PyVal → PyVal) (a b : Tbl) : Tbl :=
  ((a.map Prod.fst ++ b.map Prod.fst).dedup).map
    (fun k => (k, op ((a.get k).getD .nan) ((b.get k).getD .nan)))

/-- Column-wise arithmetic: one column is broadcast against many, equal numbers
of columns are matched up, anything else fails
(`CompositeMetric.compute_on_children`, /repo/metrics.py:1469-1509; for differing
column counts pandas would align by column name, which is not modelled). -/
def zipCols (op : Tbl → Tbl → Tbl) (as bs : List Tbl) : Except Err (List Tbl) :=
  match as, bs with
  | [a], bs => .ok (bs.map (op a))
  | as, [b] => .ok (as.map (fun a => op a b))
  | as, bs => if as.length = bs.length then .ok (List.zipWith op as bs) else .error .unsupported

/-- `CompositeMetric.compute_on_children` (/repo/metrics.py:1447-1509). -/
def combine (op : PyVal → PyVal → PyVal) : Res → Res → Except Err Res
  | .num _, .num _ => .error .valueError       -- 'Must have at least one Metric.'
  | .num a, .tbl ex bs =>
      .ok (.tbl ex (bs.map (fun t => t.map (fun p => (p.1, op (.fin a) p.2)))))
  | .tbl ex as, .num b =>
      .ok (.tbl ex (as.map (fun t => t.map (fun p => (p.1, op p.2 (.fin b))))))
  | .tbl ex as, .tbl ex' bs =>
      if ex = ex' then
        match zipCols (Tbl.align op) as bs with
        | .ok cs => .ok (.tbl ex cs)
        | .error e => .error e
      else .error .unsupported

/-- `extra_split_by` of an operation. -/
def Oper.splitBy : Oper → List String
  | .dist over => over
  | .pctChange cond _ _ => cond
  | .absChange cond _ _ => cond
  | .hhi over => over

/-- Sum of the values of a column, NaN skipped (pandas `sum`). -/
def pySum (xs : List PyVal) : PyVal :=
  (xs.filter (· ≠ .nan)).foldl PyVal.add (.fin 0)

/-- `Distribution.compute_on_children` (/repo/operations.py:215-225): each value
divided by the total of its `split_by` group; `n` is the number of `split_by`
levels. -/
def distTbl (n : Nat) (t : Tbl) : Tbl :=
  t.map (fun p =>
    (p.1, p.2.div (pySum ((t.filter (fun p' => p'.1.take n = p.1.take n)).map Prod.snd))))

/-- `HHI.compute_on_children` (/repo/diversity.py:65-68): sum of squared shares
per `split_by` group. -/
def hhiTbl (n : Nat) (t : Tbl) : Tbl :=
  let d := distTbl n t
  let keys := if n = 0 then [[]] else (d.map (fun p => p.1.take n)).dedup
  keys.map (fun k =>
    (k, pySum ((d.filter (fun p => p.1.take n = k)).map (fun p => p.2.mul p.2))))

/-- The condition part of an index value. -/
def condOf (n c : Nat) (k : Key) : Key := (k.drop n).take c

/-- The index value of the baseline row that `k` is compared to: the condition
levels replaced by the baseline (`children.xs(self.baseline_key, level=level)`
and the alignment in /repo/operations.py:594,646). -/
def baseKey (n c : Nat) (base : Key) (k : Key) : Key :=
  k.take n ++ base ++ k.drop (n + c)

/-- `PercentChange/AbsoluteChange.compute_on_children`
(/repo/operations.py:587-601, 638-653). `xs` raises `KeyError` if the baseline
occurs nowhere; in a slice without baseline the result is NaN. -/
def changeTbl (f : PyVal → PyVal → PyVal) (n c : Nat) (base : Key) (incl : Bool) (t : Tbl) :
    Except Err Tbl :=
  if t.any (fun p => condOf n c p.1 = base) then
    let res := t.map (fun p => (p.1, f p.2 ((t.get (baseKey n c base p.1)).getD .nan)))
    .ok (if incl then res else res.filter (fun p => condOf n c p.1 ≠ base))
  else .error .keyError

/-- `(x / base - 1) * 100` (/repo/operations.py:594). -/
def pctOf (x b : PyVal) : PyVal := ((x.div b).sub (.fin 1)).mul (.fin 100)

/-- One column through an operation's `compute_on_children`. -/
def Oper.onTbl (o : Oper) (n : Nat) (t : Tbl) : Except Err Tbl :=
  match o with
  | .dist _ => .ok (distTbl n t)
  | .hhi _ => .ok (hhiTbl n t)
  | .pctChange cond base incl => changeTbl pctOf n cond.length base incl t
  | .absChange cond base incl => changeTbl PyVal.sub n cond.length base incl t

/-- `extra_index` of the operation's result, given the child's. -/
def Oper.extraIndex (o : Oper) (childExtra : List String) : List String :=
  match o with
  | .hhi _ => []                       -- /repo/diversity.py:36
  | o => o.splitBy ++ childExtra

/-- `compute_on_children` on all columns; a number cannot be a child. -/
def Oper.onRes (o : Oper) (n : Nat) : Res → Except Err Res
  | .num _ => .error .valueError
  | .tbl ex cs =>
      match cs.mapM (o.onTbl n) with
      | .ok cs' => .ok (.tbl (o.extraIndex ex) cs')
      | .error e => .error e

/-- `MetricList` joins the columns of the results (/repo/metrics.py:1194-1200);
results must have the same extra index (checked for SQL at :1296; pandas would
otherwise align on level names, not modelled). Nothing to join is pandas'
`ValueError: No objects to concatenate`. -/
def joinRes : List Res → Except Err Res
  | [] => .error .valueError
  | [r] => match r with
      | .num _ => .error .valueError
      | .tbl ex cs => .ok (.tbl ex cs)
  | r :: rs =>
      match r, joinRes rs with
      | .tbl ex cs, .ok (.tbl ex' cs') =>
          if ex = ex' then .ok (.tbl ex (cs ++ cs')) else .error .unsupported
      | _, .error e => .error e
      | _, _ => .error .valueError

mutual
/-- `compute_on` without caching: filter by `where` (`compute_through`,
/repo/metrics.py:478-483), then by kind:
aggregation; arithmetic (`CompositeMetric.compute_children`, :1427-1445); list
(`MetricList.compute_slices`, :1125-1152: a child that raises is skipped with a
printed warning); operation (`Operation.compute_slices`,
/repo/operations.py:128-154: the child is computed with
`split_by + extra_split_by`). -/
def M.run (env : Env) : M → Frame → List String → Except Err Res
  | .const q, _, _ => .ok (.num q)
  | .leaf k wh, f, sb => k.run (f.query env wh) sb
  | .comp op l r wh, f, sb =>
      match l.run env (f.query env wh) sb with
      | .error e => .error e
      | .ok a =>
        match r.run env (f.query env wh) sb with
        | .error e => .error e
        | .ok b => combine (op.py env) a b
  | .list ms wh, f, sb => joinRes (runAll env ms (f.query env wh) sb)
  | .oper o child wh, f, sb =>
      match child.run env (f.query env wh) (sb ++ o.splitBy) with
      | .error e => .error e
      | .ok r => o.onRes sb.length r
/-- The results of the children that do not raise. -/
def runAll (env : Env) : List M → Frame → List String → List Res
  | [], _, _ => []
  | m :: ms, f, sb =>
      match m.run env f sb with
      | .ok r => r :: runAll env ms f sb
      | .error _ => runAll env ms f sb
end

end Verif
