import Verif.Model.Traverse

/-!
# The index levels that a metric declares
-/

namespace Verif

/-- `metric.extra_index` of the node itself: what the operation splits by (/repo/metrics.py:243-248), nothing for the diversity
operations (/repo/diversity.py:36). -/
def Oper.ownIndex : Oper → List String
  | .hhi _ => []
  | o => o.splitBy

/-- The branch of `get_extra_idx` in which the children differ (/repo/utils.py:166-171). Python takes the elements of a set in an order
that is not specified; here it is that of their first appearance. -/
def mergeIdx (superset : Bool) (l : List (List String)) : Option (List String) :=
  match l.dedup with
  | [] => some []
  | [i] => some i
  | _ => if superset then some l.flatten.dedup else none

mutual
/-- `get_extra_idx` (/repo/utils.py:151-174); none where it raises `Incompatible indexes!`. Numbers are not metrics and are left out. -/
def M.extraIdx (superset : Bool) : M → Option (List String)
  | .const _ => some []
  | .leaf _ _ => some []
  | .comp _ l r _ => do
    let a ← l.extraIdx superset
    let b ← r.extraIdx superset
    mergeIdx superset ((if l.isConst then [] else [a]) ++ if r.isConst then [] else [b])
  | .list ms _ => extraIdxAll superset ms >>= mergeIdx superset
  | .oper o c _ => (c.extraIdx superset).map (o.ownIndex ++ ·)
/-- The levels of the children that are metrics. -/
def extraIdxAll (superset : Bool) : List M → Option (List (List String))
  | [] => some []
  | m :: ms => do
    let a ← m.extraIdx superset
    let l ← extraIdxAll superset ms
    return if m.isConst then l else a :: l
end

end Verif
