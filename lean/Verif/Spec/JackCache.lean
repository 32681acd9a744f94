import Verif.Model.JackCache
import Verif.Spec.Cache
import Verif.Spec.Filters

/-!
# What a Jackknife is meant to return (C97, C98)
-/

namespace Verif

mutual
/-- The metric computed from given results of its leaves: `L k W sb` is the result of the leaf `k` with the filters `W` by `sb`. -/
def M.runW (env : Env) (L : Leaf → List String → List String → Except Err Res) : M → List String → List String → Except Err Res
  | .const q, _, _ => .ok (.num q)
  | .leaf k wh, W, sb => L k (W ++ wh) sb
  | .comp op l r wh, W, sb =>
    match l.runW env L (W ++ wh) sb with
    | .error e => .error e
    | .ok a =>
      match r.runW env L (W ++ wh) sb with
      | .error e => .error e
      | .ok b => combine (op.py env) a b
  | .list ms wh, W, sb => joinRes (runWAll env L ms (W ++ wh) sb)
  | .oper o c wh, W, sb =>
    match c.runW env L (W ++ wh) (sb ++ o.splitBy) with
    | .error e => .error e
    | .ok r => o.onRes sb.length r
/-- The results that are no errors. -/
def runWAll (env : Env) (L : Leaf → List String → List String → Except Err Res) : List M → List String → List String → List Res
  | [], _, _ => []
  | m :: ms, W, sb =>
    match m.runW env L W sb with
    | .ok r => r :: runWAll env L ms W sb
    | .error _ => runWAll env L ms W sb
end

/-- A leaf without a unit: for every slice and unit of the data, the leaf on the rows of the slice that pass the filters and have another unit.
`sb` is `split_by` with the unit at the end. (In a slice where no row passes the filters the value is missing.) -/
def leftOut (env : Env) (f : Frame) (unit : String) (k : Leaf) (W sb : List String) : Except Err Res :=
  if (k.vars ++ sb).all (fun c => f.cols.contains c) then
    .ok (.tbl [] [(groupKeys sb f.rows).map fun key =>
      let slice := rowsAt sb.dropLast key.dropLast (f.query env W).rows
      (key, if sb.dropLast ≠ [] ∧ slice = [] then .nan else k.agg (slice.filter fun r => decide (r unit ≠ key.getLast?)))])
  else .error .keyError

/-- What a Jackknife is meant to return: the child with every unit left out, and the child. -/
def jackMeant (env : Env) (f : Frame) (unit : String) (child : M) (wh sb : List String) : Except Err (Res × Res) :=
  match child.runW env (leftOut env (f.query env wh) unit) [] (sb ++ [unit]), child.run env (f.query env wh) sb with
  | .ok rep, .ok pt => .ok (rep, pt)
  | .error e, _ => .error e
  | .ok _, .error e => .error e

/-- What a call is meant to return. -/
def JackCall.meant (env : Env) (data : ℕ → Frame) : JackCall → JackOut
  | .plain call => .plain (call.metric.run env (data call.key) call.splitBy)
  | .jack key unit child wh sb => .jack (jackMeant env (data key) unit child wh sb)

mutual
/-- Sums and counts, lists of them and arithmetic on them. -/
def M.jackable : M → Prop
  | .const _ => True
  | .leaf (.sum _) _ => True
  | .leaf (.count _) _ => True
  | .leaf _ _ => False
  | .comp _ l r _ => l.jackable ∧ r.jackable
  | .list ms _ => jackableAll ms
  | .oper _ _ _ => False
@[inherit_doc M.jackable] def jackableAll : List M → Prop
  | [] => True
  | m :: ms => m.jackable ∧ jackableAll ms
end

mutual
/-- The metric is not made of an unweighted Mean. -/
def M.noMean : M → Prop
  | .const _ => True
  | .leaf (.mean _) _ => False
  | .leaf _ _ => True
  | .comp _ l r _ => l.noMean ∧ r.noMean
  | .list ms _ => noMeanAll ms
  | .oper _ c _ => c.noMean
@[inherit_doc M.noMean] def noMeanAll : List M → Prop
  | [] => True
  | m :: ms => m.noMean ∧ noMeanAll ms
end

/-- A call of another metric, or of a Jackknife without a filter of its own, with no quotient or mean that the cache confuses. It may fail. -/
def JackCall.plainEnough (data : ℕ → Frame) : JackCall → Prop
  | .plain call => call.metric.fpClean ∧ call.metric.noMean
  | .jack key unit child wh sb =>
    child.fpClean ∧ child.jackable ∧ wh = [] ∧ unit ∉ sb ∧ ∀ r ∈ (data key).rows, (r unit).isSome

/-- The key of a call. -/
def JackCall.key : JackCall → ℕ
  | .plain call => call.key
  | .jack key _ _ _ _ => key

/-- The Jackknifes with a unit of this name are all called with the key `owner unit`, and so on the same data. -/
def JackCall.ownsUnit (owner : String → ℕ) : JackCall → Prop
  | .plain _ => True
  | .jack key unit _ _ _ => key = owner unit

/-- The data without the rows of the unit `x`. -/
def Frame.without (f : Frame) (unit : String) (x : ℚ) : Frame := { f with rows := f.rows.filter fun r => decide (r unit ≠ some x) }

/-- The rows that have a unit. -/
def Frame.having (f : Frame) (unit : String) : Frame := { f with rows := f.rows.filter fun r => (r unit).isSome }

end Verif
