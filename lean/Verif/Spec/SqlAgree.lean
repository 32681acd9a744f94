import Verif.Model.SqlQuery
import Verif.Spec.Filters

/-!
# When SQL and DataFrame computation are expected to agree (C12)
-/

namespace Verif

/-- Aggregations whose SQL value on no values (NULL) differs from pandas' (0) have
a value to aggregate. -/
def Leaf.hasValues : Leaf → List Row → Prop
  | .sum v, rs => vals v rs ≠ []
  | .dot v w false, rs => prods v w rs ≠ []
  | .wmean v w, rs => prods v w rs ≠ []
  | _, _ => True

/-- The columns of the metrics of a list, side by side. -/
def listCols (glob loc : List String) (ms : List M) : List SqlE :=
  ms.flatMap (fun m => match m.compile glob loc with
    | .ok es => es
    | .error _ => [])

mutual
/-- Conditions under which the group `v` is compared. `above` are the conditions of
the nodes above.
* every column exists;
* every aggregation has a row of the group left after its filters, and a value
  if it is a sum (pandas: absent/0, SQL: NULL);
* no division by zero producing an infinity (SQL gives NULL);
* no column is requested twice in one list (SQL selects it once). -/
def SqlSafe (env : Env) (f : Frame) (sb : List String) (v : Key) (glob : List String) :
    M → List String → List String → Prop
  | .const _, _, _ => True
  | .leaf k wh, above, _ =>
      (∀ c ∈ k.vars, c ∈ f.cols) ∧
      v ∈ groupKeys sb (f.query env (above ++ wh)).rows ∧
      k.hasValues (rowsAt sb v (f.query env (above ++ wh)).rows) ∧
      (k.agg (rowsAt sb v (f.query env (above ++ wh)).rows)).isInf = false
  | .comp op l r wh, above, loc =>
      SqlSafe env f sb v glob l (above ++ wh) (localFilter wh loc glob) ∧
      SqlSafe env f sb v glob r (above ++ wh) (localFilter wh loc glob) ∧
      ∀ ex cs, (M.comp op l r wh).run env (f.query env above) sb = .ok (.tbl ex cs) →
        ∀ t ∈ cs, ∀ x, t.get v = some x → x.isInf = false
  | .list ms wh, above, loc =>
      ms ≠ [] ∧
      (listCols glob (localFilter wh loc glob) ms).Nodup ∧
      SqlSafeAll env f sb v glob ms (above ++ wh) (localFilter wh loc glob)
  | .oper _ _ _, _, _ => False
def SqlSafeAll (env : Env) (f : Frame) (sb : List String) (v : Key) (glob : List String) :
    List M → List String → List String → Prop
  | [], _, _ => True
  | m :: ms, above, loc =>
      SqlSafe env f sb v glob m above loc ∧ SqlSafeAll env f sb v glob ms above loc
end

end Verif
