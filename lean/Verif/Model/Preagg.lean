import Verif.Model.ExtraIdx
import Verif.Model.Filters
import Verif.Model.Fingerprint
import Verif.Model.Resample

/-!
# The preaggregated data of the bootstrap

`get_preaggregated_data`, `get_preaggregated_metric_tree` and `get_preaggregated_metric` (/repo/operations.py:3116-3185), and the samples
that `Bootstrap.get_samples` (/repo/operations.py:2665-2691) and `PoissonBootstrap.get_samples` (/repo/operations.py:2789-2876) take from
a table, be it the original one or the preaggregated one.

Simplifications: the function `ν` that names the new columns (`get_preaggregated_metric_var`, /repo/operations.py:3188-3202, see
`preaggVar`) is a parameter of the definitions, `preName` is the one in use; what the preaggregation saves to the cache (/repo/operations.py:3157-3161) is left out.
-/

namespace Verif

/-- How a new column is named after an aggregation and its filters. -/
abbrev PreNaming := Leaf → List String → String

/-- The word before the parenthesis in a name (/repo/operations.py:3194-3199). -/
def Leaf.word : Leaf → Txt
  | .count _ => "count".toList
  | .max _ => "max".toList
  | .min _ => "min".toList
  | _ => "sum".toList

/-- The names that Python gives (`get_preaggregated_metric_var`, /repo/operations.py:3188-3202); an alias that cannot be made
(`IndexError`) does not occur here, as the word is never dropped. -/
def preName : PreNaming := fun k wh =>
  String.ofList ((preaggVar k.word (k.vars.headD "").toList ((Fp.whereText wh).map String.toList)).getD [])

mutual
/-- `get_leaf_metrics` (/repo/utils.py:205-210): the aggregations of a tree with their filters, from left to right. -/
def M.leafList : M → List (Leaf × List String)
  | .const _ => []
  | .leaf k wh => [(k, wh)]
  | .comp _ l r _ => l.leafList ++ r.leafList
  | .list ms _ => leafListAll ms
  | .oper _ c _ => c.leafList
def leafListAll : List M → List (Leaf × List String)
  | [] => []
  | m :: ms => m.leafList ++ leafListAll ms
end

/-- The aggregations that `get_preaggregated_metric_var` accepts (/repo/operations.py:3190-3193). -/
def Leaf.canPre : Leaf → Bool
  | .sum _ | .count _ | .max _ | .min _ => true
  | _ => false

/-- `get_preaggregated_metric` (/repo/operations.py:3178-3185): a maximum of maxima, a minimum of minima, otherwise a sum. -/
def Leaf.pre (k : Leaf) (v : String) : Leaf :=
  match k with
  | .max _ => .max v
  | .min _ => .min v
  | _ => .sum v

mutual
/-- `get_preaggregated_metric_tree` (/repo/operations.py:3166-3175): the leaves read the new columns and have no filter, the other
nodes stay. -/
def M.preTree (ν : PreNaming) : M → M
  | .const q => .const q
  | .leaf k wh => .leaf (k.pre (ν k wh)) []
  | .comp op l r wh => .comp op (l.preTree ν) (r.preTree ν) wh
  | .list ms wh => .list (preTreeAll ν ms) wh
  | .oper o c wh => .oper o (c.preTree ν) wh
def preTreeAll (ν : PreNaming) : List M → List M
  | [] => []
  | m :: ms => m.preTree ν :: preTreeAll ν ms
end

mutual
/-- `get_extra_split_by(metric, return_superset=True)` (/repo/utils.py:177-202): what the operations of the tree split by. The elements
of the superset, whose order Python leaves open, are in the order of their first appearance. -/
def M.extraSplit : M → List String
  | .const _ => []
  | .leaf _ _ => []
  | .comp _ l r _ => (mergeIdx true ((if l.isConst then [] else [l.extraSplit]) ++ if r.isConst then [] else [r.extraSplit])).getD []
  | .list ms _ => (mergeIdx true (extraSplitAll ms)).getD []
  | .oper o c _ => o.splitBy ++ c.extraSplit
def extraSplitAll : List M → List (List String)
  | [] => []
  | m :: ms => if m.isConst then extraSplitAll ms else m.extraSplit :: extraSplitAll ms
end

/-- The cell of one new column in the row of the slice `key`: the aggregation on the filtered rows of the slice. A slice without such
rows is not in the aggregation's result and is filled in as missing by `reindex` (/repo/operations.py:3154). -/
def preCell (env : Env) (all : List String) (rs : List Row) (k : Leaf) (wh : List String) (key : Key) : Cell :=
  match rowsAt all key (rs.filter (fun r => wh.all (fun w => env.query w r))) with
  | [] => none
  | a :: as => match k.agg (a :: as) with
    | .fin q => some q
    | _ => none

/-- The row of the slice `key` in the preaggregated table: the columns of the index (`reset_index`, /repo/operations.py:3155-3156), then
the new columns, the first of those with the same name (`~columns.duplicated()`, /repo/operations.py:3151-3153). -/
def preRow (env : Env) (ν : PreNaming) (all : List String) (leaves : List (Leaf × List String)) (rs : List Row) (key : Key) : Row := fun c =>
  match (all.zip key).lookup c with
  | some x => some x
  | none => match leaves.find? (fun l => ν l.1 l.2 = c) with
    | some l => preCell env all rs l.1 l.2 key
    | none => none

/-- `preagg_df` (/repo/operations.py:3147-3156): one row for each slice of the original table. -/
def preFrame (env : Env) (ν : PreNaming) (all : List String) (leaves : List (Leaf × List String)) (f : Frame) : Frame :=
  { cols := all ++ leaves.map (fun l => ν l.1 l.2)
    rows := (groupKeys all f.rows).map (preRow env ν all leaves f.rows) }

/-- `get_preaggregated_data` (/repo/operations.py:3116-3163) for the child `m` of a bootstrap by `unit`: `all_split_by`, then the
metric and its table. A column twice in `all_split_by` cannot be reset from the index, an aggregation that cannot be preaggregated is
refused, a column that does not exist is a `KeyError`. -/
def preaggregate (env : Env) (ν : PreNaming) (unit : String) (m : M) (f : Frame) (sb : List String) : Except Err (M × Frame) :=
  let all := sb ++ [unit] ++ m.extraSplit
  let leaves := (m.push []).leafList
  if !(leaves.all (fun l => l.1.canPre)) then .error .valueError
  else if !((leaves.flatMap (fun l => l.1.vars) ++ all).all (fun c => f.cols.contains c)) then .error .keyError
  else if ¬ all.Nodup then .error .valueError
  else .ok ((m.push []).preTree ν, preFrame env ν all leaves f)

/-- The sample of `Bootstrap` (/repo/operations.py:2676-2691): the rows of the units drawn, slice by slice of `split_by`, as often as they
are drawn; `draws` lists their values of `split_by` and `unit`. On a preaggregated table with one row for each unit the rows are drawn
themselves (/repo/operations.py:2669-2674), which is the same. -/
def Frame.drawn (f : Frame) (grp : List String) (draws : List Key) : Frame :=
  { f with rows := draws.flatMap (fun u => rowsAt grp u f.rows) }

/-- The sample of `PoissonBootstrap` from a table that is not preaggregated (/repo/operations.py:2855-2861), and from a preaggregated one
with a row for each unit (/repo/operations.py:2836-2843): each unit's rows are repeated as often as its weight says. -/
def Frame.weighted (f : Frame) (grp : List String) (draws : List (Key × ℕ)) : Frame :=
  { f with rows := draws.flatMap (fun u => (List.replicate u.2 (rowsAt grp u.1 f.rows)).flatten) }

/-- The columns that a weight multiplies (/repo/operations.py:2818-2821). -/
def isSumOrCount (c : String) : Bool := "sum_".toList.isPrefixOf c.toList || "count_".toList.isPrefixOf c.toList

/-- A row of a preaggregated table times a weight. -/
def scaleRow (vars : List String) (w : ℕ) (r : Row) : Row := fun c =>
  if vars.contains c && isSumOrCount c then (r c).map (fun x => x * w) else r c

/-- The sample of `PoissonBootstrap` from a preaggregated table with more columns than `split_by` and `unit` in its index
(/repo/operations.py:2862-2876): the rows of the units with a positive weight, each once, sums and counts multiplied by the weight. The
columns after the first `n` are the new ones (/repo/operations.py:2812-2817). -/
def Frame.scaled (f : Frame) (n : ℕ) (grp : List String) (draws : List (Key × ℕ)) : Frame :=
  { f with rows := (draws.filter (fun u => 0 < u.2)).flatMap (fun u => (rowsAt grp u.1 f.rows).map (scaleRow (f.cols.drop n) u.2)) }

end Verif
