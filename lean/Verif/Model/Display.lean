import Mathlib.Data.Prod.Lex
import Mathlib.Data.List.Sort
import Mathlib.Data.List.Lex
import Mathlib.Order.WithBot
import Mathlib.Data.Rat.Lemmas
import Mathlib.Algebra.Order.Field.Rat
import Mathlib.Data.List.Dedup

/-!
# The confidence interval display

/repo/confidence_interval_display.py. Floats are rational numbers. The rendering of a number by a Python format string is given
(`pyFormat`). HTML is a tree, not a text; CSS is not modelled; for `sort_by`, `metric_order` and the renaming of columns see `Verif.Model.DisplayDims`.
-/

namespace Verif

/-! ## A cell -/

/-- A number in a cell: `None`, NaN or a number. -/
inductive DNum where
  | none
  | nan
  | num (q : ℚ)
deriving DecidableEq, Repr

/-- `pd.isnull`. -/
def DNum.isnull : DNum → Bool
  | .num _ => false
  | _ => true

/-- `x > 0` after `None` has become 0 (/repo/confidence_interval_display.py:409-416). -/
def DNum.gt0 : DNum → Bool
  | .num q => decide (0 < q)
  | _ => false

/-- `x < 0` after `None` has become 0 (/repo/confidence_interval_display.py:409-416). -/
def DNum.lt0 : DNum → Bool
  | .num q => decide (q < 0)
  | _ => false

/-- HTML. -/
inductive Html where
  | text (s : String)
  | span (cls : String) (body : Html)
  | div (cls : String) (body : List Html)

/-- What a formatter is constructed with (/repo/confidence_interval_display.py:324-339). -/
structure CellFormat where
  valueForm : String := "absolute"
  ratioForm : String := "absolute"
  flip : Bool := false
  hideNullCtrl : Bool := false

/-- `form_lookup.get(form, form)` (/repo/confidence_interval_display.py:334-338, 352). -/
def formLookup (form : String) : String :=
  if form = "percent" then "{:.2f}" else if form = "absolute" then "{:.4f}" else if form = "pp" then "{:.2f}" else form

/-- `unit_lookup.get(form, '')` (/repo/confidence_interval_display.py:339, 353). -/
def unitLookup (form : String) : String := if form = "percent" then "%" else if form = "pp" then "pp" else ""

/-- `_format_value` of a single number (/repo/confidence_interval_display.py:352-360). -/
def formatValue (pyFormat : String → ℚ → String) (v : DNum) (form : String) : String :=
  match v with
  | .num q => pyFormat (formLookup form) q ++ unitLookup form
  | _ => "N/A"

/-- A bound of an interval (/repo/confidence_interval_display.py:362-363). -/
def formatBound (pyFormat : String → ℚ → String) (form : String) : DNum → String
  | .num q => pyFormat (formLookup form) q
  | _ => "N/A"

/-- `_format_value` of an interval (/repo/confidence_interval_display.py:352-366). -/
def formatCI (pyFormat : String → ℚ → String) (l u : DNum) (form : String) : String :=
  "[" ++ formatBound pyFormat form l ++ ", " ++ formatBound pyFormat form u ++ "]" ++
    if unitLookup form = "" then "" else " " ++ unitLookup form

/-- `value *= 100.0`; `None` raises (/repo/confidence_interval_display.py:387-390). -/
def timesHundred : DNum → Option DNum
  | .none => .none
  | .nan => some .nan
  | .num q => some (.num (q * 100))

/-- The value that is shown (/repo/confidence_interval_display.py:387-390). -/
def shownValue (form : String) (v : DNum) : Option DNum := if form = "percent" then timesHundred v else some v

/-- `MetricFormatter.__call__` (/repo/confidence_interval_display.py:369-417). The cell is `none` if it is not a tuple or list,
and the result is `none` if it raises. The line breaks between the parts are left out. -/
def formatCell (pyFormat : String → ℚ → String) (f : CellFormat) : Option (DNum × DNum × DNum × DNum) → Option Html
  | none => some (.div "" [.text "N/A"])
  | some (value0, ratio, l, u) => do
    let value ← shownValue f.valueForm value0
    let v := Html.text (formatValue pyFormat value f.valueForm)
    let r := Html.span "ci-display-ratio" (.text (formatValue pyFormat ratio f.ratioForm))
    let c := Html.span "ci-display-ci-range" (.text (formatCI pyFormat l u f.ratioForm))
    if ratio.isnull then return .div "ci-display-cell" [v]
    else
      let body := Html.div "" (if value.isnull then (if f.hideNullCtrl then [r, c] else [.div "" [.text "-"], r, c]) else [v, r, c])
      if (l.gt0 && !f.flip) || (u.lt0 && f.flip) then return .div "ci-display-good-change ci-display-cell" [body]
      else if (u.lt0 && !f.flip) || (l.gt0 && f.flip) then return .div "ci-display-bad-change ci-display-cell" [body]
      else return .div "ci-display-cell" [body]

/-- The class of the outer element: what the style sheet colours. -/
def Html.cls : Html → String
  | .div c _ => c
  | .span c _ => c
  | .text _ => ""

/-! ## The table -/

section
variable {ε δ μ : Type} [DecidableEq ε] [DecidableEq δ] [DecidableEq μ]

/-- A row of the long table (/repo/confidence_interval_display.py:211-285). Experiment ids and metrics are not null, values of
dimensions may be. `ctrl` and `isCtrl` are the columns Control_Id and Is_Control, if the table has them. There is no Description
column in the data; the one that is added is a function of `isCtrl`, so it does not change the groups. -/
structure DispRow (ε δ μ : Type) where
  exp : ε
  dims : List (Option δ)
  metric : μ
  value : Option ℚ
  ratio : Option ℚ
  lower : Option ℚ
  upper : Option ℚ
  ctrlVal : Option ℚ
  ctrl : Option ε
  isCtrl : Bool
deriving DecidableEq

/-- The argument `ctrl_id`: `None`, `None` for a table that has Control_Id but not Is_Control, one id, or a dict. -/
inductive CtrlArg (ε : Type) where
  | missing
  | fromControlId
  | single (c : ε)
  | dict (d : List (ε × List ε))

/-- `ctrl_id_lookup`, built entry after entry; a later entry replaces an earlier one
(/repo/confidence_interval_display.py:549-555). The last binding comes first in the list. -/
def ctrlLookup (d : List (ε × List ε)) : List (ε × ε) :=
  d.foldl (fun acc p => (p.1, p.1) :: (p.2.foldl (fun acc e => (e, p.1) :: acc) acc)) []

/-- `dict.get`. -/
def assocGet (l : List (ε × ε)) (k : ε) : Option ε := (l.find? fun p => p.1 = k).map (·.2)

/-- `_add_is_control_and_control_id` (/repo/confidence_interval_display.py:524-558). The flag tells whether the columns are
there. -/
def addIsControl (arg : CtrlArg ε) (has : Bool) (rows : List (DispRow ε δ μ)) : Bool × List (DispRow ε δ μ) :=
  match arg with
  | .missing => (has, rows)
  | .fromControlId => (true, rows.map fun r => { r with isCtrl := decide (r.ctrl = some r.exp) })
  | .single c => (true, rows.map fun r => { r with isCtrl := decide (r.exp = c), ctrl := some c })
  | .dict d => (true, rows.map fun r => { r with isCtrl := decide (r.exp ∈ d.map (·.1)), ctrl := assocGet (ctrlLookup d) r.exp })

/-- What pandas' `max` and `min` see: the values that are not NaN. -/
def dispVals (l : List (Option ℚ)) : List ℚ := l.filterMap id

/-- `agg('max')`. -/
def aggMax (l : List (Option ℚ)) : Option ℚ := (dispVals l).max?
/-- `agg('min')`. -/
def aggMin (l : List (Option ℚ)) : Option ℚ := (dispVals l).min?

/-- `thresh = 1**-5` (/repo/confidence_interval_display.py:502). -/
def ctrlThresh : ℚ := 1 ^ (-5 : ℤ)

/-- The group of a row in `add_control_rows`: metric, control and dimensions; none if one of them is null
(/repo/confidence_interval_display.py:498-500). -/
def ctrlGroup (r : DispRow ε δ μ) : Option (μ × ε × List δ) := do
  let c ← r.ctrl
  let d ← r.dims.mapM id
  return (r.metric, c, d)

/-- `control_vals` (/repo/confidence_interval_display.py:495-501): for each group its largest and its smallest value. pandas
sorts the groups; their order here is that of the rows. -/
def controlVals (rows : List (DispRow ε δ μ)) : List ((μ × ε × List δ) × Option ℚ × Option ℚ) :=
  ((rows.filterMap ctrlGroup).dedup).map fun k =>
    let vals := (rows.filter fun r => ctrlGroup r = some k).map (·.ctrlVal)
    (k, aggMax vals, aggMin vals)

/-- `max - min > thresh` (/repo/confidence_interval_display.py:503-504). -/
def isAmbiguous (p : Option ℚ × Option ℚ) : Bool := match p with
  | (some a, some b) => decide (ctrlThresh < a - b)
  | _ => false

/-- `max - min < thresh` (/repo/confidence_interval_display.py:509-510). -/
def isValid (p : Option ℚ × Option ℚ) : Bool := match p with
  | (some a, some b) => decide (a - b < ctrlThresh)
  | _ => false

/-- A row of `curr_ctrl_rows` and one of `valid_ctrl` agree on the columns they are merged on
(/repo/confidence_interval_display.py:511-515). -/
def mergesWith (r : DispRow ε δ μ) (k : μ × ε × List δ) : Bool :=
  decide (r.exp = k.2.1 ∧ r.ctrl = some k.2.1 ∧ r.metric = k.1 ∧ r.dims = k.2.2.map some)

/-- A row of the outer merge that has no partner in `curr_ctrl_rows` (/repo/confidence_interval_display.py:512-518). -/
def newCtrlRow (p : (μ × ε × List δ) × Option ℚ) : DispRow ε δ μ where
  exp := p.1.2.1
  dims := p.1.2.2.map some
  metric := p.1.1
  value := p.2
  ratio := none
  lower := none
  upper := none
  ctrlVal := none
  ctrl := some p.1.2.1
  isCtrl := true

/-- A row of `curr_ctrl_rows` in the outer merge; its value is filled if it is null (/repo/confidence_interval_display.py:513-518). -/
def fillCtrlRow (valid : List ((μ × ε × List δ) × Option ℚ)) (r : DispRow ε δ μ) : DispRow ε δ μ :=
  { r with value := r.value <|> ((valid.find? fun p => mergesWith r p.1).bind (·.2)), isCtrl := true }

/-- `add_control_rows` (/repo/confidence_interval_display.py:488-521): the groups it warns about, and the new table. `none` if
it raises, as it does when no control is valid: `new_ctrl_rows` is then not assigned. -/
def addControlRows (has : Bool) (rows : List (DispRow ε δ μ)) : Option (List (μ × ε × List δ) × List (DispRow ε δ μ)) :=
  if !has then some ([], rows)
  else
    let curr := rows.filter (·.isCtrl)
    let expr := rows.filter fun r => !r.isCtrl
    let vals := controlVals expr
    let warned := (vals.filter fun p => isAmbiguous p.2).map (·.1)
    let valid := (vals.filter fun p => isValid p.2).map fun p => (p.1, p.2.2)
    if valid.isEmpty then none
    else
      let filled := curr.map (fillCtrlRow valid)
      let added := (valid.filter fun p => !curr.any fun r => mergesWith r p.1).map newCtrlRow
      some (warned, expr ++ (filled ++ added))

/-- The switches of `get_formatted_df` that are modelled. -/
structure DispOpts where
  showControl : Bool
  autoDecide : Bool
  showValueHidden : Bool

/-- `_pre_aggregate_df` up to the wide format (/repo/confidence_interval_display.py:254-282), when CI_Upper and CI_Lower are in
the table. -/
def preAggregate (o : DispOpts) (arg : CtrlArg ε) (has : Bool) (rows : List (DispRow ε δ μ)) : Option (Bool × List (DispRow ε δ μ)) := do
  let (has, rows) := addIsControl arg has rows
  let rows :=
    if o.showControl then (if has then rows.map fun r => if r.isCtrl then { r with ratio := none } else r else rows)
    else
      let rows := if o.showValueHidden then rows else rows.map fun r => { r with value := none }
      if has then rows.filter fun r => !r.isCtrl else rows
  let rows ← if o.autoDecide then (addControlRows has rows).map (·.2) else some rows
  return (has, rows)

/-- The key of a row of the wide table. -/
structure DispKey (ε δ : Type) where
  dims : List δ
  ctrl : Option ε
  isCtrl : Bool
  exp : ε
deriving DecidableEq

/-- The key of a long row; none if a key column is null, and then the row is in no group
(/repo/confidence_interval_display.py:129-136, 153-157). -/
def dispKey (has useCtrl : Bool) (r : DispRow ε δ μ) : Option (DispKey ε δ) := do
  let d ← r.dims.mapM id
  let c ← if useCtrl then r.ctrl.map some else some none
  return ⟨d, c, has && r.isCtrl, r.exp⟩

/-- pandas' `mean`: of the values that are not NaN. -/
def aggMean (l : List (Option ℚ)) : Option ℚ :=
  let v := dispVals l
  if v.isEmpty then none else some (v.sum / v.length)

/-- A cell of the wide table. -/
structure WideCell where
  value : Option ℚ
  ratio : Option ℚ
  lower : Option ℚ
  upper : Option ℚ
deriving DecidableEq

/-- The cell of a key and metric (/repo/confidence_interval_display.py:153-157, 179-181). -/
def wideCell (has useCtrl : Bool) (rows : List (DispRow ε δ μ)) (k : DispKey ε δ) (m : μ) : WideCell :=
  let g := rows.filter fun r => dispKey has useCtrl r = some k ∧ r.metric = m
  ⟨aggMean (g.map (·.value)), aggMean (g.map (·.ratio)), aggMean (g.map (·.lower)), aggMean (g.map (·.upper))⟩

/-- Control_Id is a key unless it is missing or null everywhere (/repo/confidence_interval_display.py:133-136). -/
def usesCtrl (has : Bool) (rows : List (DispRow ε δ μ)) : Bool := has && !(rows.all fun r => r.ctrl.isNone)

/-- Control ids in their order; a column that is not there does not count. -/
def ctrlRank : Option ε → WithBot ε
  | none => ⊥
  | some c => (c : WithBot ε)

/-- The order of the rows without `sort_by`: by all keys, Is_Control downwards (/repo/confidence_interval_display.py:158-160,
175-176). -/
def DispKey.rank [LinearOrder ε] [LinearOrder δ] (k : DispKey ε δ) : List δ ×ₗ WithBot ε ×ₗ Bool ×ₗ ε :=
  toLex (k.dims, toLex (ctrlRank k.ctrl, toLex (!k.isCtrl, k.exp)))

/-- `_sorted_long_to_wide` without `sort_by` (/repo/confidence_interval_display.py:106-185): the rows with their cells. -/
def longToWide [LinearOrder ε] [LinearOrder δ] (has : Bool) (rows : List (DispRow ε δ μ)) : List (DispKey ε δ × (μ → WideCell)) :=
  let u := usesCtrl has rows
  let keys := ((rows.filterMap (dispKey has u)).dedup).mergeSort fun a b => decide (a.rank ≤ b.rank)
  keys.map fun k => (k, wideCell has u rows k)

/-- `get_formatted_df` before the formatting (/repo/confidence_interval_display.py:679-712). -/
def wideTable [LinearOrder ε] [LinearOrder δ] (o : DispOpts) (arg : CtrlArg ε) (has : Bool) (rows : List (DispRow ε δ μ)) :
    Option (List (DispKey ε δ × (μ → WideCell))) :=
  (preAggregate o arg has rows).map fun p => longToWide p.1 p.2

end

/-! ## Which formatter a column gets -/

/-- The formatter of a column: the text itself, the formatter of the dimensions, or the metric formatter
(/repo/confidence_interval_display.py:476-485). -/
inductive ColFormat where
  | plain
  | dimensions
  | metric
deriving DecidableEq

/-- `_get_formatter` (/repo/confidence_interval_display.py:476-485). -/
def colFormat (dims : List String) (col : String) : ColFormat :=
  if col ∈ dims ++ ["Experiment_Id", "Is_Control", "Description"] then .plain else if col = "Dimensions" then .dimensions else .metric

/-- A cell of the wide table as the metric formatter sees it. -/
def WideCell.toNums (c : WideCell) : DNum × DNum × DNum × DNum :=
  let f := fun x : Option ℚ => match x with
    | some q => DNum.num q
    | none => DNum.nan
  (f c.value, f c.ratio, f c.lower, f c.upper)

end Verif
