import Verif.Model.Display

/-!
# The column of dimensions, the columns of the display, and `sort_by`

/repo/confidence_interval_display.py:158-176, 189-204, 254-256, 263-268, 420-448, 679-760.
-/

namespace Verif

/-! ## The cell of the dimensions -/

/-- A Python value in the column of dimensions. -/
inductive DispVal where
  | str (s : String)
  | int (n : ℤ)
  | none
deriving DecidableEq, Repr

/-- `str(x)`; `pyInt` renders an integer. -/
def DispVal.pyStr (pyInt : ℤ → String) : DispVal → String
  | .str s => s
  | .int n => pyInt n
  | .none => "None"

/-- `bool(x)`. -/
def DispVal.truthy : DispVal → Bool
  | .str s => decide (s ≠ "")
  | .int n => decide (n ≠ 0)
  | .none => false

/-- The dict in a cell of the column Dimensions: the columns `Dim_i`, in the order of the dict, and Description and
Experiment_Id if they are there (/repo/confidence_interval_display.py:189-194). -/
structure DimsCell where
  slices : List (ℕ × DispVal)
  description : Option DispVal
  exprId : Option DispVal

/-- `' * '.join` (/repo/confidence_interval_display.py:437). -/
def joinStar : List String → String
  | [] => ""
  | [s] => s
  | s :: t => s ++ " * " ++ joinStar t

/-- `dimension_formatter` (/repo/confidence_interval_display.py:420-448). The line breaks between the parts are left out. -/
def dimensionFormatter (pyInt : ℤ → String) (x : DimsCell) : Html :=
  let slices := x.slices.mergeSort fun a b => decide (a.1 ≤ b.1)
  let info := joinStar (slices.map fun p => p.2.pyStr pyInt)
  let part := fun (cls : String) (o : Option DispVal) => match o with
    | some v => if v.truthy then [Html.span cls (.text (v.pyStr pyInt))] else []
    | Option.none => []
  .div "" [.div "" (part "ci-display-description-text" x.description ++ part "ci-display-experiment-id" x.exprId ++
    if info ≠ "" then [Html.span "ci-display-dimension" (.text info)] else [])]

/-! ## The columns -/

/-- `dims` of `get_formatted_df` when the caller gives none: the columns that start with `Dim_`, sorted as texts
(/repo/confidence_interval_display.py:679-681). -/
def defaultDims (cols : List String) : List String :=
  (cols.filter fun c => c.startsWith "Dim_").mergeSort fun a b => decide (a ≤ b)

/-- The name of the `i`-th dimension after the renaming, from 0 (/repo/confidence_interval_display.py:696-699). -/
def dimName (i : ℕ) : String := "Dim_" ++ toString (i + 1)

/-- A dict that is built entry after entry: the last entry of a key counts. -/
def dictGet (l : List (String × String)) (k : String) : Option String := (l.reverse.find? fun p => p.1 = k).map (·.2)

/-- `col_rename` (/repo/confidence_interval_display.py:683-698): `fixed` is the renaming of the columns that are not
dimensions. -/
def colRename (fixed : List (String × String)) (aggregate : Bool) (dims : List String) : List (String × String) :=
  fixed ++ if aggregate then dims.zipIdx.map fun p => (p.1, dimName p.2) else []

/-- `col_rename.get(c, c)` (/repo/confidence_interval_display.py:702). -/
def renamed (r : List (String × String)) (c : String) : String := (dictGet r c).getD c

/-- `s['column'] = col_rename.get(s['column'], s['column'])` for every entry of `sort_by`; the dicts are the caller's, so that
the result is also what the caller's `sort_by` is after the call (/repo/confidence_interval_display.py:700-702). Only columns
that are not those of a metric: a pair (field, metric) is not renamed unless it is a key of `col_rename`. -/
def sortByAfter (r : List (String × String)) (cols : List String) : List String := cols.map (renamed r)

/-- The columns of the wide table after `_merge_dimensions` (/repo/confidence_interval_display.py:189-204, 281-282): `keys` are
those of its key columns that remain, `metrics` the metrics in their order. -/
def wideColumns (aggregate : Bool) (keys metrics : List String) : List String :=
  if aggregate then (if keys.isEmpty then metrics else "Dimensions" :: metrics) else keys ++ metrics

/-- The columns that are shown (/repo/confidence_interval_display.py:716-731). -/
def shownColumns (aggregate info : Bool) (dims : List String) (metricOrder : Option (List String)) (cols : List String) : List String :=
  let cols := match metricOrder with
    | none => cols
    | some m => if m.isEmpty then cols
      else ((if aggregate then ["Dimensions"] else dims) ++ ["Experiment_Id", "Is_Control", "Description"] ++ m).filter (· ∈ cols)
  if !aggregate && !info then cols.filter fun c => c ∉ ["Control_Id", "Is_Control", "Description"] else cols

/-! ## CI_Range -/

/-- CI_Lower and CI_Upper, if one of the columns is missing (/repo/confidence_interval_display.py:254-256). -/
def fromRange (ratio range : Option ℚ) : Option ℚ × Option ℚ :=
  (do return (← ratio) - (← range) / 2, do return (← ratio) + (← range) / 2)

/-! ## The description -/

/-- A cell of a column Description in the data. -/
inductive DescVal where
  | str (s : String)
  | none
  | nan
deriving DecidableEq

/-- `bool(x)`: that of NaN is true. -/
def DescVal.truthy : DescVal → Bool
  | .str s => decide (s ≠ "")
  | .none => false
  | .nan => true

/-- `df['Description'].where(df['Description'].astype(bool), is_ctrl)` (/repo/confidence_interval_display.py:260-268). -/
def fillDescription (d : DescVal) (isCtrl : Bool) : DescVal :=
  if d.truthy then d else .str (if isCtrl then "Control" else "Not Control")

/-- The key of the description in the group of a row; none if it is null, and then the row is in no group
(/repo/confidence_interval_display.py:153-157). -/
def descKey : DescVal → Option String
  | .str s => some s
  | _ => Option.none

/-! ## sort_by -/

/-- An entry of `sort_by` for a row of type `α`: the value of the column (none: NaN), whether upwards, and `order` as positions:
a value that is not in `order` has become NaN (/repo/confidence_interval_display.py:161-174). -/
structure SortKey (α : Type) where
  code : α → Option ℚ
  ascending : Bool

/-- The code of a column of numbers. -/
def SortKey.num {α : Type} (f : α → Option ℚ) (ascending : Bool := true) : SortKey α := ⟨f, ascending⟩

/-- The code of a column with an `order`: the position (`pd.Categorical(df[col], s['order'], ordered=True)`). -/
def SortKey.ordered {α β : Type} [DecidableEq β] (f : α → β) (order : List β) (ascending : Bool := true) : SortKey α :=
  ⟨fun a => if f a ∈ order then some (order.idxOf (f a) : ℚ) else none, ascending⟩

/-- A row comes not later than another by one key; NaN is last in both directions (`na_position='last'`). -/
def SortKey.le {α : Type} (k : SortKey α) (a b : α) : Bool :=
  match k.code a, k.code b with
  | _, none => true
  | none, some _ => false
  | some x, some y => if k.ascending then decide (x ≤ y) else decide (y ≤ x)

/-- A row comes not later than another by the keys in their order of importance. -/
def sortLe {α : Type} : List (SortKey α) → α → α → Bool
  | [], _, _ => true
  | k :: ks, a, b => if k.le a b then (if k.le b a then sortLe ks a b else true) else false

/-- `df.sort_values(sorting_cols, ascending=ascending)` (/repo/confidence_interval_display.py:175-176). For one column pandas' order
of equal rows is not specified; here they stay in their order. -/
def sortBy {α : Type} (keys : List (SortKey α)) (rows : List α) : List α := if keys.isEmpty then rows else rows.mergeSort (sortLe keys)

/-- What a column with an `order` shows for a value: one that is not in `order` has become NaN
(/repo/confidence_interval_display.py:168-174). -/
def orderedShown {β : Type} [DecidableEq β] (order : List β) (v : β) : Option β := if v ∈ order then some v else none

/-- The columns that `reset_index` gives back when `order` is given for the key column `col`
(/repo/confidence_interval_display.py:171-174, 182): the column has become the last level. If it was the only one, the level before
it is the unnamed default one, which `reset_index` names `level_0`. -/
def keyColumnsAfterOrder (keys : List String) (col : String) : List String :=
  (if keys = [col] then ["level_0"] else keys.filter (· ≠ col)) ++ [col]

end Verif
