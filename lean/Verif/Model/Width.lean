import Mathlib.Data.List.Dedup

/-!
# Columns of a result and `count_features`

/repo/operations.py:33-55, /repo/metrics.py:661-674, 1130-1200, 1447-1509, 2129-2141, /repo/models.py:113-134.
-/

namespace Verif

/-- Metric trees, as far as they matter for the number of columns. -/
inductive WT where
  /-- A leaf with one value, including a quantile at one level. -/
  | leaf (name : String)
  /-- `Quantile(var, [q1, q2, ...])` with distinct levels, at least two: one column for each. -/
  | quantiles (names : List String)
  /-- `MetricList`. -/
  | list (cs : List WT)
  /-- Arithmetic. -/
  | comp (l r : WT)
  /-- A number in arithmetic; `zero` says whether it is 0, which Python takes for false. -/
  | num (zero : Bool)
  /-- An operation that gives one column per column of its child: Distribution, PercentChange, HHI, TopK, ... -/
  | op (child : WT)
  /-- CUPED and PrePostChange over a list of the metric and its covariates. -/
  | adjust (main : WT) (covariates : List WT)
  /-- Jackknife and Bootstrap. -/
  | ci (confidence : Bool) (child : WT)
  /-- A regression of `y` on `xs`. -/
  | model (intercept : Bool) (y : WT) (xs : WT)

mutual
/-- `count_features` (/repo/operations.py:33-55). A regression falls under `Operation`; its child is `MetricList((y, x))`
(/repo/models.py:85). -/
def WT.countF : WT → Nat
  | .leaf _ => 1
  | .quantiles ns => ns.length
  | .list cs => WT.countFL cs
  | .comp l r => Nat.max l.countF r.countF
  | .num zero => if zero then 0 else 1
  | .op c => c.countF
  | .adjust m _ => m.countF
  | .ci conf c => if conf then c.countF * 3 else c.countF * 2
  | .model _ y x => y.countF + x.countF
/-- `sum([count_features(i) for i in m])`. -/
def WT.countFL : List WT → Nat
  | [] => 0
  | c :: cs => c.countF + WT.countFL cs
end

/-- The columns of arithmetic on two results (/repo/metrics.py:1469-1509): results with one column count as a series or
number and are combined with every column of the other; tables of equal width are combined column by column; otherwise
pandas aligns the columns by name and the result has all of them. -/
def combineCols (fmt : String → String → String) (a b : List String) : List String :=
  match a, b with
  | [x], [y] => [fmt x y]
  | [x], b => b.map fun y => fmt x y
  | a, [y] => a.map fun x => fmt x y
  | a, b => if a.length = b.length then List.zipWith fmt a b else (a ++ b).dedup

mutual
/-- The columns of `compute_on(df)` (wide format). `fmt` stands for the names of combined columns. A number has one
nameless value. -/
def WT.cols (fmt : String → String → String) : WT → List String
  | .leaf n => [n]
  | .quantiles ns => ns
  | .list cs => WT.colsL fmt cs
  | .comp l r => combineCols fmt (l.cols fmt) (r.cols fmt)
  | .num _ => [""]
  | .op c => c.cols fmt
  | .adjust m _ => m.cols fmt
  | .ci conf c =>
    (c.cols fmt).flatMap fun x => if conf then [x, x ++ " CI-lower", x ++ " CI-upper"] else [x, x ++ " SE"]
  | .model ic _ x => if ic then "intercept" :: x.cols fmt else x.cols fmt
/-- `pd.concat(res, axis=1)` (/repo/metrics.py:1194-1200). -/
def WT.colsL (fmt : String → String → String) : List WT → List String
  | [] => []
  | c :: cs => c.cols fmt ++ WT.colsL fmt cs
end

end Verif
