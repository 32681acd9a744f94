import Verif.Model.Expand

/-!
# Which trees take the fast path of Jackknife and Bootstrap

/repo/operations.py:2541-2566, 2753-2756.
-/

namespace Verif

mutual
/-- A metric and all metrics below it; numbers are not metrics. `Metric.traverse` (/repo/metrics.py:944-952), up to order,
which does not matter for a conjunction. -/
def ET.subs : ET → List ET
  | .const _ => []
  | .leaf k n w => [.leaf k n w]
  | .comp op l r n w => .comp op l r n w :: (l.subs ++ r.subs)
  | .node t cs n w => .node t cs n w :: ET.subsL cs
/-- The same for several. -/
def ET.subsL : List ET → List ET
  | [] => []
  | c :: cs => c.subs ++ ET.subsL cs
end

/-- `traverse(include_self=False)`. -/
def ET.proper : ET → List ET
  | .const _ => []
  | .leaf _ _ _ => []
  | .comp _ l r _ _ => l.subs ++ r.subs
  | .node _ cs _ _ => ET.subsL cs

/-- The body of the loop of `is_metric_precomputable` (/repo/operations.py:2546-2566) for one metric. `opOK` is
`precomputable_in_jk_bs` of an operation (true for what is not an operation), `rec` the recursive call. -/
def precompOne (opOK : Nat → Bool) (jk : Bool) (rec : ET → Bool) : ET → Bool
  | .const _ => true
  | .leaf k _ _ =>
    match k with
    | .count _ true => false
    | .sum _ => true
    | .count _ false => true
    | .max _ => !jk
    | .min _ => !jk
    | k =>
      match k.equiv with
      | none => false
      | some e => rec e
  | .comp _ _ _ _ _ => true
  | .node t cs _ _ => opOK t && !cs.isEmpty

/-- `is_metric_precomputable`; `jk` says whether its argument is a Jackknife, which an equivalent never is. The first
argument bounds the recursion (`C46_fuel`). -/
def precompF (opOK : Nat → Bool) : Nat → Bool → ET → Bool
  | 0, _, _ => false
  | n + 1, jk, t => t.proper.all (precompOne opOK jk (precompF opOK n false))

/-- `is_metric_precomputable` of a Jackknife (`jk`) or Bootstrap. -/
def precomputable (opOK : Nat → Bool) (jk : Bool) (t : ET) : Bool := precompF opOK 7 jk t

end Verif
