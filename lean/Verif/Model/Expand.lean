import Mathlib.Analysis.SpecialFunctions.Pow.Real

/-!
# Expansion into elementary metrics

/repo/utils.py:514-570 and the `get_equivalent*`/`get_auxiliary_cols` methods of
/repo/metrics.py. Values are real numbers; an undefined value (NaN or infinity) is `none`.

Simplification: an auxiliary column is represented by the request for it (`ECol.mul x y` for the
column `('x', '*', 'y')`) instead of by its name in a DataFrame. `Verif.Props.AuxCols` (C20) relates
the two. Names of metrics created on the way are left default (`none`); a `where` is a
list of conditions, `cond i` being the meaning of the condition number `i`.
-/

namespace Verif

/-- A row: column name to value, `none` if missing. -/
abbrev RRow := String → Option ℝ

/-- A column of the user's DataFrame or an auxiliary column (/repo/utils.py:624-671; meterstick
only asks for products, /repo/metrics.py:1804, 2619, and for squares, :2359). -/
inductive ECol where
  | base (c : String)
  | mul (a b : ECol)
  | sq (a : ECol)
  deriving DecidableEq

/-- Elementwise computation of auxiliary columns; missing propagates. -/
noncomputable def ECol.eval (r : RRow) : ECol → Option ℝ
  | .base c => r c
  | .mul a b => (a.eval r).bind fun x => (b.eval r).map fun y => x * y
  | .sq a => (a.eval r).map fun x => x ^ 2

/-- The leaf metrics (/repo/metrics.py:1708-2652). `other` stands for any leaf without an
equivalent whose computation is not spelt out here: Nth, Quantile, Correlation with a method that is not
pearson, custom metrics. `Dot` also has `weight`-free form only. -/
inductive SLeaf where
  | sum (v : ECol)
  | count (v : ECol) (distinct : Bool)
  | max (v : ECol)
  | min (v : ECol)
  | other (id : Nat)
  | dot (v w : ECol) (normalize : Bool)
  | mean (v : ECol) (weight : Option ECol)
  | variance (v : ECol) (unbiased : Bool) (weight : Option ECol)
  | sd (v : ECol) (unbiased : Bool) (weight : Option ECol)
  | cv (v : ECol) (unbiased : Bool)
  | corr (v w : ECol) (weight : Option ECol)
  | cov (v w : ECol) (bias : Bool) (ddof : Option ℤ) (weight fweight : Option ECol)
  deriving DecidableEq

/-- Operators of metric arithmetic (/repo/metrics.py:958-997). `neg` is `-m`, a composite
that ignores its second child `-1`. -/
inductive EOp where
  | add | sub | mul | div | pow | neg
  deriving DecidableEq

/-- Metric trees: numbers, leaves, arithmetic, and any other metric with children (MetricList
and all operations; `tag` says which and with what attributes). -/
inductive ET where
  | const (q : ℚ)
  | leaf (k : SLeaf) (name : Option String) (wh : List Nat)
  | comp (op : EOp) (l r : ET) (name : Option String) (wh : List Nat)
  | node (tag : Nat) (children : List ET) (name : Option String) (wh : List Nat)

/-- A fresh leaf, as written `Sum(x)` in the code. -/
abbrev lf (k : SLeaf) : ET := .leaf k none []
abbrev eadd (a b : ET) : ET := .comp .add a b none []
abbrev esub (a b : ET) : ET := .comp .sub a b none []
abbrev emul (a b : ET) : ET := .comp .mul a b none []
abbrev ediv (a b : ET) : ET := .comp .div a b none []
abbrev epow (a : ET) (q : ℚ) : ET := .comp .pow a (.const q) none []

/-- `Metric.get_equivalent`: the equivalent gets the name and the filter of the original
(/repo/metrics.py:881-887). -/
def ET.setTop (name : Option String) (wh : List Nat) : ET → ET
  | .const q => .const q
  | .leaf k _ _ => .leaf k name wh
  | .comp op l r _ _ => .comp op l r name wh
  | .node t cs _ _ => .node t cs name wh

/-- `((denom) ** 0.5) ** 2` (/repo/metrics.py:2357, 2614-2616). -/
def sqrtSq (d : ET) : ET := epow (epow d (1/2)) 2

/-- The `ddof` of `Cov`, by default `int(not bias)` (/repo/metrics.py:2587). -/
def covDdof (bias : Bool) (ddof : Option ℤ) : ℤ :=
  match ddof with
  | some d => d
  | none => if bias then 0 else 1

/-- `Cov.get_equivalent_without_filter` (/repo/metrics.py:2584-2617). The comparison `v1 != v2`
(:2613) is of metrics: equal exactly in the two cases where `v2 = v1` was assigned. -/
def covEquiv (v w : ECol) (bias : Bool) (ddof : Option ℤ) (weight fweight : Option ECol) : ET :=
  let d := covDdof bias ddof
  match weight, fweight with
  | none, none =>
      let v1 := lf (.count v false)
      let res := esub (lf (.dot v w true)) (emul (lf (.mean v none)) (lf (.mean w none)))
      if d = 0 then res else ediv res (sqrtSq (esub (.const 1) (ediv (.const d) v1)))
  | none, some f =>
      let v1 := lf (.sum f)
      let res := esub (lf (.mean (.mul v w) (some f)))
        (emul (lf (.mean v (some f))) (lf (.mean w (some f))))
      if d = 0 then res else ediv res (sqrtSq (esub (.const 1) (ediv (.const d) v1)))
  | some a, none =>
      let v1 := lf (.sum a)
      let v2 := lf (.dot a a false)
      let res := esub (lf (.mean (.mul v w) (some a)))
        (emul (lf (.mean v (some a))) (lf (.mean w (some a))))
      if d = 0 then res
      else ediv res (sqrtSq (esub (.const 1) (ediv (emul (.const d) v2) (epow v1 2))))
  | some a, some f =>
      let fa := ECol.mul f a
      let v1 := lf (.dot a f false)
      let v2 := lf (.dot fa a false)
      let res := esub (lf (.mean (.mul v w) (some fa)))
        (emul (lf (.mean v (some fa))) (lf (.mean w (some fa))))
      if d = 0 then res
      else ediv res (sqrtSq (esub (.const 1) (ediv (emul (.const d) v2) (epow v1 2))))

/-- `get_equivalent_without_filter` with the auxiliary columns filled in; `none` if there is no
equivalent (/repo/metrics.py:1799, 1855, 2350, 2404, 2442, 2511, 2584, and :889 for all others). -/
def SLeaf.equiv : SLeaf → Option ET
  | .sum _ | .count _ _ | .max _ | .min _ | .other _ => none
  | .dot v w true => some (ediv (lf (.sum (.mul v w))) (lf (.count (.mul v w) false)))
  | .dot v w false => some (lf (.sum (.mul v w)))
  | .mean v none => some (ediv (lf (.sum v)) (lf (.count v false)))
  | .mean v (some w) => some (ediv (lf (.dot v w false)) (lf (.sum w)))
  | .variance v unb none => some (lf (.cov v v false (some (if unb then 1 else 0)) none none))
  | .variance v unb (some w) =>
      let numer := esub (lf (.dot (.sq v) w false)) (ediv (epow (lf (.dot v w false)) 2) (lf (.sum w)))
      let denom := if unb then esub (lf (.sum w)) (.const 1) else lf (.sum w)
      some (ediv numer (sqrtSq denom))
  | .sd v unb w => some (epow (lf (.variance v unb w)) (1/2))
  | .cv v unb => some (ediv (lf (.sd v unb none)) (lf (.mean v none)))
  | .corr v w wt =>
      some (ediv (ediv (lf (.cov v w true none wt none)) (lf (.sd v false wt))) (lf (.sd w false wt)))
  | .cov v w bias ddof wt fw => some (covEquiv v w bias ddof wt fw)

mutual
/-- `get_equivalent_metric_tree` (/repo/utils.py:548-561): one round. -/
def ET.step : ET → ET
  | .const q => .const q
  | .leaf k name wh =>
      match k.equiv with
      | none => .leaf k name wh
      | some e => e.setTop name wh
  | .comp op l r name wh => .comp op l.step r.step name wh
  | .node t cs name wh => .node t (ET.stepL cs) name wh
/-- The list comprehension over the children (/repo/utils.py:554-556). -/
def ET.stepL : List ET → List ET
  | [] => []
  | c :: cs => c.step :: ET.stepL cs
end

/-- The loop of `get_fully_expanded_equivalent_metric_tree` (/repo/utils.py:541-545) as a
transition relation: `ExpandLoop prev curr n res` says that from variables `prev`, `curr`
the loop body runs `n` times and `res` is returned. A loop that never stops has no `res`.
`prev != curr` is taken to be structural: metric equality (/repo/metrics.py:999-1013) compares types
level by level, and no equivalent has the type of its original. -/
inductive ExpandLoop : ET → ET → Nat → ET → Prop
  | stop (t : ET) : ExpandLoop t t 0 t
  | body (prev curr res : ET) (n : Nat) : prev ≠ curr → ExpandLoop curr curr.step n res →
      ExpandLoop prev curr (n + 1) res

/-- `get_fully_expanded_equivalent_metric_tree(m)` returns `res` after `n` loop rounds. -/
def Expands (m : ET) (n : Nat) (res : ET) : Prop := ExpandLoop m m.step n res

/-! ## Evaluation -/

open Classical in
/-- Division of numpy floats; by zero gives NaN or infinity. -/
noncomputable def rdiv (a b : ℝ) : Option ℝ := if b = 0 then none else some (a / b)

open Classical in
/-- `**` of numpy floats: a negative base with a fractional exponent is NaN, zero with a
negative exponent is infinite. -/
noncomputable def rpow? (a b : ℝ) : Option ℝ :=
  if a = 0 ∧ b < 0 then none
  else if a < 0 then
    if h : ∃ n : ℤ, b = n then some (a ^ h.choose) else none
  else some (a ^ b)

/-- The arithmetic of metrics on values; undefined propagates. -/
noncomputable def EOp.app (op : EOp) (a b : Option ℝ) : Option ℝ :=
  a.bind fun x => b.bind fun y =>
    match op with
    | .add => some (x + y)
    | .sub => some (x - y)
    | .mul => some (x * y)
    | .div => rdiv x y
    | .pow => rpow? x y
    | .neg => some (-x)

/-- What the model leaves open: conditions, leaves it does not spell out, and metrics with
children, which may use their children on any data (resampling does). -/
structure ESem where
  cond : Nat → RRow → Bool
  other : Nat → List RRow → Option ℝ
  node : Nat → List (List RRow → Option ℝ) → List RRow → Option ℝ

/-- The present values of a column. -/
noncomputable def present (v : ECol) (rs : List RRow) : List ℝ := rs.filterMap v.eval

/-- Sum of present values (0 if none): `Series.sum` (/repo/metrics.py:1708-1740). -/
noncomputable def sumOf (v : ECol) (rs : List RRow) : ℝ := (present v rs).sum

open Classical in
/-- `Count`: number of present (distinct) values (/repo/metrics.py:1743-1770). -/
noncomputable def countOf (v : ECol) (distinct : Bool) (rs : List RRow) : ℝ :=
  if distinct then ((present v rs).dedup.length : ℝ) else ((present v rs).length : ℝ)

open Classical in
/-- `Series.max`. -/
noncomputable def maxOf (v : ECol) (rs : List RRow) : Option ℝ := (present v rs).max?
open Classical in
/-- `Series.min`. -/
noncomputable def minOf (v : ECol) (rs : List RRow) : Option ℝ := (present v rs).min?

/-- Values of elementary leaves; a leaf that has an equivalent has none here (it is only evaluated
after the expansion). -/
noncomputable def SLeaf.elemVal (sem : ESem) : SLeaf → List RRow → Option ℝ
  | .sum v, rs => some (sumOf v rs)
  | .count v d, rs => some (countOf v d rs)
  | .max v, rs => maxOf v rs
  | .min v, rs => minOf v rs
  | .other i, rs => sem.other i rs
  | _, _ => none

/-- Applying a filter (/repo/metrics.py:447-449 `df.query`). -/
def keepRows (sem : ESem) (wh : List Nat) (rs : List RRow) : List RRow :=
  rs.filter fun r => wh.all fun i => sem.cond i r

mutual
/-- Evaluation of a metric tree, given how leaves are computed
(`Metric.compute_on`: filter, compute the children, combine). One slice. -/
noncomputable def ET.val (sem : ESem) (lv : SLeaf → List RRow → Option ℝ) : ET → List RRow → Option ℝ
  | .const q, _ => some (q : ℝ)
  | .leaf k _ wh, rs => lv k (keepRows sem wh rs)
  | .comp op l r _ wh, rs =>
      op.app (l.val sem lv (keepRows sem wh rs)) (r.val sem lv (keepRows sem wh rs))
  | .node t cs _ wh, rs => sem.node t (ET.valL sem lv cs) (keepRows sem wh rs)
/-- The children of a node as functions of the data. -/
noncomputable def ET.valL (sem : ESem) (lv : SLeaf → List RRow → Option ℝ) :
    List ET → List (List RRow → Option ℝ)
  | [] => []
  | c :: cs => (fun rs => c.val sem lv rs) :: ET.valL sem lv cs
end

end Verif
