import Verif.Model.Comparison
import Verif.Model.SqlAlias
import Verif.Model.SqlWith
import Verif.Model.Filters

/-!
# MH: which columns are compared

/repo/operations.py:1170-1466. `Verif.pyMH` and `Verif.sqlMH` start from a table of numerators and denominators; here
is how that table comes from the child: a ratio or a list of ratios. Numerators and denominators are metrics with one
column whose queries only differ in the columns they select.
-/

namespace Verif

/-! ## check_is_ratio -/

/-- The operators of a composite metric (/repo/metrics.py:958-997), with `user` for a function given by the user
(/repo/metrics.py:1389-1395). -/
inductive ROp where
  | add | sub | mul | neg | div | pow
  | user (f : ℚ → ℚ → ℚ)

/-- The value of `op(x, 2)`, the second operand being the number 2 the check uses. -/
def ROp.app2 (x : ℚ) : ROp → ℚ
  | .add => x + 2
  | .sub => x - 2
  | .mul => x * 2
  | .neg => -x
  | .div => x / 2
  | .pow => x ^ 2
  | .user f => f x 2

/-- The metrics the check distinguishes. -/
inductive RMetric where
  | comp (op : ROp)
  | list (ms : List RMetric)
  | other

mutual
/-- `check_is_ratio` (/repo/operations.py:1203-1214): is no error raised. A `Ratio` is a composite. -/
def checkIsRatio : RMetric → Bool → Bool
  | .list ms, true => checkAllRatios ms
  | .list _, false => false
  | .comp op, _ => op.app2 2 == 1
  | .other, _ => false
/-- The loop (/repo/operations.py:1205-1206). -/
def checkAllRatios : List RMetric → Bool
  | [] => true
  | m :: ms => checkIsRatio m false && checkAllRatios ms
end

/-! ## The metrics -/

/-- A metric with one column: its name, its filters, and the text of its aggregation under given conditions
(`get_sql_columns(local_filter)`, /repo/metrics.py:1692-1702). -/
structure MHLeaf where
  name : Txt
  wh : List String
  expr : List String → Txt

/-- A ratio of two of them. -/
structure MHRatio where
  name : Txt
  numer : MHLeaf
  denom : MHLeaf
  wh : List String

/-- The child of `MH`. -/
inductive MHChild where
  | one (r : MHRatio)
  | many (rs : List MHRatio) (wh : List String)

/-- The ratios. -/
def MHChild.ratios : MHChild → List MHRatio
  | .one r => [r]
  | .many rs _ => rs

/-- The filters of the list. -/
def MHChild.listWh : MHChild → List String
  | .one _ => []
  | .many _ wh => wh

/-! ## On DataFrames -/

section
variable {S D G K : Type} [DecidableEq S] [DecidableEq D] [DecidableEq G] [Field K] [LinearOrder K]

/-- A table with named columns; names may repeat. -/
structure MHFrame (I K : Type) where
  header : List Txt
  rows : List (I × List (Option K))

def mhSuffix : Txt := "_base".toList

/-- The conditions under which a numerator or denominator is computed (/repo/operations.py:1216-1236): the filters of
`MH` (applied before, /repo/metrics.py:480), of the list, of the ratio and of the metric itself. -/
def mhConds (mhWh : List String) (c : MHChild) (r : MHRatio) (l : MHLeaf) : List String :=
  mhWh ++ (c.listWh ++ (r.wh ++ l.wh))

/-- `compute_children` for one ratio (/repo/operations.py:1216-1236): the two metrics side by side, each under its own
name. `val` is the value of a metric under conditions in a group, `keys` the groups. -/
def mhChildFrame (val : MHLeaf → List String → S × D × G → Option K) (keys : MHRatio → List (S × D × G))
    (mhWh : List String) (c : MHChild) (r : MHRatio) : MHFrame (S × D × G) K :=
  ⟨[r.numer.name, r.denom.name], (keys r).map fun k =>
    (k, [val r.numer (mhConds mhWh c r r.numer) k, val r.denom (mhConds mhWh c r r.denom) k])⟩

/-- `df_all.xs(baseline_key, level)` (/repo/operations.py:1252). -/
def frameBase (b : D) (f : MHFrame (S × D × G) K) : List ((S × G) × List (Option K)) :=
  f.rows.filterMap fun r => if r.1.2.1 = b then some ((r.1.1, r.1.2.2), r.2) else none

/-- `df_all.join(df_baseline, rsuffix='_base')` (/repo/operations.py:1253-1256): both have the same columns, so each
column of the right one gets the suffix. -/
def frameJoin (b : D) (f : MHFrame (S × D × G) K) : MHFrame (S × D × G) K :=
  ⟨f.header ++ f.header.map (· ++ mhSuffix), f.rows.map fun r =>
    (r.1, r.2 ++ ((frameBase b f).lookup (r.1.1, r.1.2.2)).getD (f.header.map fun _ => none))⟩

/-- `df_mh[name]` (/repo/operations.py:1257-1258): the position of the column. `none` if no column has the name
(KeyError) or several have: then pandas returns a DataFrame, and what follows is not modelled. -/
def pickCol (header : List Txt) (name : Txt) : Option Nat :=
  if header.count name = 1 then header.idxOf? name else none

/-- The rest of `compute_mh` (/repo/operations.py:1259-1274), from the joined rows; as in `Verif.pyMH`. -/
def mhFinish (b : D) (incl : Bool) (j : List ((S × D) × (Option K × Option K) × (Option K × Option K))) :
    DTab S D K :=
  let keys := (j.map (·.1)).dedup
  let sumOf (g : (Option K × Option K) → (Option K × Option K) → Option K) (k : S × D) : K :=
    nanSum ((j.filter fun r => decide (r.1 = k)).map fun r => g r.2.1 r.2.2)
  let res := keys.map fun k =>
    (k, (nanDiv
      (some (sumOf (fun a b => optMul (optMul a.1 b.2) (nanDiv (some 1) (optAdd a.2 b.2))) k))
      (some (sumOf (fun a b => optMul (optMul b.1 a.2) (nanDiv (some 1) (optAdd a.2 b.2))) k))).map
        fun x => (x - 1) * 100)
  if incl then res else res.filter fun r => !decide (r.1.2 = b)

/-- `compute_mh` (/repo/operations.py:1248-1274) for one ratio, with its column's name (:1263). -/
def computeMH (b : D) (incl : Bool) (r : MHRatio) (f : MHFrame (S × D × G) K) : Option (Txt × DTab S D K) :=
  if (frameBase b f).isEmpty then none
  else
    let j := frameJoin b f
    match pickCol j.header r.numer.name, pickCol j.header r.denom.name,
      pickCol j.header (r.numer.name ++ mhSuffix), pickCol j.header (r.denom.name ++ mhSuffix) with
    | some ka, some na, some kb, some nb =>
        let at' (vs : List (Option K)) (i : Nat) : Option K := (vs[i]?).join
        some (r.name, mhFinish b incl (j.rows.map fun x =>
          ((x.1.1, x.1.2.1), (at' x.2 ka, at' x.2 na), (at' x.2 kb, at' x.2 nb))))
    | _, _, _, _ => none

/-- `compute_children` and `compute_on_children` (/repo/operations.py:1216-1246): one result per ratio. -/
def computeMHAll (val : MHLeaf → List String → S × D × G → Option K) (keys : MHRatio → List (S × D × G))
    (mhWh : List String) (b : D) (incl : Bool) (c : MHChild) : Option (List (Txt × DTab S D K)) :=
  c.ratios.mapM fun r => computeMH b incl r (mhChildFrame val keys mhWh c r)

end

/-! ## In a query -/

/-- The column of a metric (/repo/metrics.py:1692-1702). -/
def mhLeafCol (glob loc : List String) (l : MHLeaf) : SCol :=
  ⟨l.expr (localFilter l.wh loc glob), some l.name, 0⟩

/-- `Sql.merge` of compatible queries (/repo/sql.py:747-766), on their columns: the receiver's and the argument's
columns afterwards. -/
def mhMergeCols (a b : List SCol) : Option (List SCol × List SCol) :=
  if a.map SCol.text = b.map SCol.text then some (a, b) else addColumns a b

/-- The query of a `MetricList` whose children's queries are compatible (/repo/metrics.py:1298-1318): the columns are
merged one child after the other. -/
def mhListCols : List (List SCol) → Option (List SCol)
  | [] => none
  | c :: cs => cs.foldlM (fun a b => (mhMergeCols a b).map (·.1)) c

/-- `MetricList(r.children, where=r.where_)` (/repo/operations.py:1363-1369). -/
def ratioCols (glob loc : List String) (r : MHRatio) : Option (List SCol) :=
  let loc' := localFilter r.wh loc glob
  mhListCols [[mhLeafCol glob loc' r.numer], [mhLeafCol glob loc' r.denom]]

/-- The value columns of `MHRaw` (/repo/operations.py:1359-1376). `loc` is the filter from above (with that of `MH`,
:1359-1361). Simplification: no table in the WITH clause is compatible with `MHRaw` before, and none of the value
columns is a GROUP BY column. -/
def mhRawCols (glob loc : List String) : MHChild → Option (List SCol)
  | .one r => ratioCols glob loc r
  | .many rs wh =>
      match rs.mapM (ratioCols glob (localFilter wh loc glob)) with
      | none => none
      | some css => mhListCols css

/-- The name by which the final query refers to a column: that of a one-column query after it was merged into a copy of
`MHRaw` (/repo/operations.py:1413-1427, 1437-1448). -/
def mhRef (raw : List SCol) (c : SCol) : Option (Option Txt) :=
  (mhMergeCols raw [c]).bind fun p => p.2.getLast?.bind SCol.alias

/-- The columns of the final query (/repo/operations.py:1410-1455): for each ratio its name and the two references. The
metrics are rebuilt with the filters of the ratio, not with those of the list. -/
def mhRefs (glob loc : List String) (raw : List SCol) (r : MHRatio) : Option (Txt × Option Txt × Option Txt) := do
  let loc' := localFilter r.wh loc glob
  let n ← mhRef raw (mhLeafCol glob loc' r.numer)
  let d ← mhRef raw (mhLeafCol glob loc' r.denom)
  pure (r.name, n, d)

/-- `get_sql_and_with_clause` of `MH` (/repo/operations.py:1357-1455): the columns of `MHRaw` and what the columns of
the final query refer to. -/
def mhSql (glob mhWh loc0 : List String) (c : MHChild) :
    Option (List SCol × List (Txt × Option Txt × Option Txt)) := do
  let loc := localFilter mhWh loc0 glob
  let raw ← mhRawCols glob loc c
  let refs ← c.ratios.mapM (mhRefs glob loc raw)
  pure (raw, refs)

end Verif
