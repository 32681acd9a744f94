import Verif.Model.Metric

/-!
# What filters mean (C09-C11), independently of how they are moved around
-/

namespace Verif

mutual
/-- The leaves of a tree, each with all conditions on the path from the root. -/
def M.leafConds (above : List String) : M → List (Leaf × List String)
  | .const _ => []
  | .leaf k wh => [(k, above ++ wh)]
  | .comp _ l r wh => l.leafConds (above ++ wh) ++ r.leafConds (above ++ wh)
  | .list ms wh => leafCondsAll (above ++ wh) ms
  | .oper _ c wh => c.leafConds (above ++ wh)
def leafCondsAll (above : List String) : List M → List (Leaf × List String)
  | [] => []
  | m :: ms => m.leafConds above ++ leafCondsAll above ms
end

mutual
/-- The tree without any filter. -/
def M.unfiltered : M → M
  | .const q => .const q
  | .leaf k _ => .leaf k []
  | .comp op l r _ => .comp op l.unfiltered r.unfiltered []
  | .list ms _ => .list (unfilteredAll ms) []
  | .oper o c _ => .oper o c.unfiltered []
def unfilteredAll : List M → List M
  | [] => []
  | m :: ms => m.unfiltered :: unfilteredAll ms
end

/-- The metric with its own filter list replaced. -/
def M.setWhere (wh : List String) : M → M
  | .const q => .const q
  | .leaf k _ => .leaf k wh
  | .comp op l r _ => .comp op l r wh
  | .list ms _ => .list ms wh
  | .oper o c _ => .oper o c wh

/-- The metric's own filter list. -/
def M.ownWhere : M → List String
  | .const _ => []
  | .leaf _ wh | .comp _ _ _ wh | .list _ wh | .oper _ _ wh => wh

/-- All conditions hold of the row. -/
def holds (env : Env) (ws : List String) (r : Row) : Prop := ∀ w ∈ ws, env.query w r = true

mutual
/-- All nodes' filters are empty except those of leaves. -/
def M.onlyLeafFilters : M → Prop
  | .const _ => True
  | .leaf _ _ => True
  | .comp _ l r wh => wh = [] ∧ l.onlyLeafFilters ∧ r.onlyLeafFilters
  | .list ms wh => wh = [] ∧ onlyLeafFiltersAll ms
  | .oper _ c wh => wh = [] ∧ c.onlyLeafFilters
def onlyLeafFiltersAll : List M → Prop
  | [] => True
  | m :: ms => m.onlyLeafFilters ∧ onlyLeafFiltersAll ms
end

end Verif

namespace Verif

mutual
/-- What a filtered tree should compute: no node filters anything but the leaves,
and a leaf is computed on the rows of the *original* data that satisfy all the
conditions on the path from the root to it. -/
def M.denote (env : Env) (above : List String) : M → Frame → List String → Except Err Res
  | .const q, _, _ => .ok (.num q)
  | .leaf k wh, f, sb =>
      k.run { f with rows := f.rows.filter (fun r => (above ++ wh).all (fun w => env.query w r)) } sb
  | .comp op l r wh, f, sb =>
      match l.denote env (above ++ wh) f sb with
      | .error e => .error e
      | .ok a =>
        match r.denote env (above ++ wh) f sb with
        | .error e => .error e
        | .ok b => combine (op.py env) a b
  | .list ms wh, f, sb => joinRes (denoteAll env (above ++ wh) ms f sb)
  | .oper o child wh, f, sb =>
      match child.denote env (above ++ wh) f (sb ++ o.splitBy) with
      | .error e => .error e
      | .ok r => o.onRes sb.length r
def denoteAll (env : Env) (above : List String) : List M → Frame → List String → List Res
  | [], _, _ => []
  | m :: ms, f, sb =>
      match m.denote env above f sb with
      | .ok r => r :: denoteAll env above ms f sb
      | .error _ => denoteAll env above ms f sb
end

end Verif
