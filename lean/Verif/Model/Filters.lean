import Verif.Model.Metric

/-!
# Filters of a metric tree
-/

namespace Verif

/-- `add_where` on the filter list (/repo/metrics.py:273-279): the union as a set
(`tuple(set(...))`, whose order is arbitrary in Python; here: order of first
appearance from the right, as `List.dedup` gives). -/
def addWhere {α : Type} [DecidableEq α] (wh new : List α) : List α :=
  if wh = [] then new else (wh ++ new).dedup

mutual
/-- `push_filters_to_leaf(metric.add_where(acc))`
(/repo/utils.py:230-271, with the recursion's `add_where` folded into the
argument `acc`). Not modelled: the filter in the root's cache key (:254-256). -/
def M.push (acc : List String) : M → M
  | .const q => .const q
  | .leaf k wh => .leaf k (if acc = [] then wh else addWhere wh acc)
  | .comp op l r wh =>
      let wh' := if acc = [] then wh else addWhere wh acc
      .comp op (l.push wh') (r.push wh') []
  | .list ms wh =>
      let wh' := if acc = [] then wh else addWhere wh acc
      .list (pushAll wh' ms) []
  | .oper o c wh =>
      let wh' := if acc = [] then wh else addWhere wh acc
      .oper o (c.push wh') []
def pushAll (acc : List String) : List M → List M
  | [] => []
  | m :: ms => m.push acc :: pushAll acc ms
end

/-- `set.intersection(*children_filters)`; no children give nothing to add
(/repo/utils.py:221-227). -/
def interAll : List (List String) → List String
  | [] => []
  | [a] => a
  | a :: as => a.filter (fun w => (interAll as).contains w)

mutual
/-- `get_global_filter` (/repo/utils.py:213-227); `none` for a constant, which is
not a metric. Resampling operations are not in this tree type. -/
def M.globalFilter : M → Option (List String)
  | .const _ => none
  | .leaf _ wh => some wh
  | .comp _ l r wh =>
      some (wh ++ interAll ((l.globalFilter.toList) ++ (r.globalFilter.toList)))
  | .list ms wh => some (wh ++ interAll (globalFilters ms))
  | .oper _ c wh => some (wh ++ interAll c.globalFilter.toList)
def globalFilters : List M → List (List String)
  | [] => []
  | m :: ms => m.globalFilter.toList ++ globalFilters ms
end

/-- The filter list a node hands to its children while a query is generated:
`sql.Filters(self.where_).add(local_filter).remove(global_filter)`
(/repo/metrics.py:1540-1542, 1694-1696, 1300-1302; `SqlComponents.add` skips what
is already there, /repo/sql.py:148-155; `Filters.remove`, :195-199). -/
def localFilter (wh loc glob : List String) : List String :=
  ((wh ++ loc).dedup).filter (fun w => !glob.contains w)

end Verif

namespace Verif

mutual
/-- The condition each aggregation of the generated query is wrapped with
(`IF(cond, v, NULL)`), leaf by leaf: the recursion that carries `local_filter`
down in `get_sql_and_with_clause` (/repo/metrics.py:1300-1307, 1540-1557,
1692-1702). -/
def M.localConds (glob : List String) : M → List String → List (Leaf × List String)
  | .const _, _ => []
  | .leaf k wh, loc => [(k, localFilter wh loc glob)]
  | .comp _ l r wh, loc =>
      l.localConds glob (localFilter wh loc glob) ++ r.localConds glob (localFilter wh loc glob)
  | .list ms wh, loc => localCondsAll glob ms (localFilter wh loc glob)
  | .oper _ c wh, loc => c.localConds glob (localFilter wh loc glob)
def localCondsAll (glob : List String) : List M → List String → List (Leaf × List String)
  | [], _ => []
  | m :: ms, loc => m.localConds glob loc ++ localCondsAll glob ms loc
end

end Verif
