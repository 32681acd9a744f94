import Verif.Model.Display
import Verif.Model.DisplayDims

/-!
# From a result to its display

`get_display_fn`, `MetricWithCI.final_compute` and `add_display_fn` (/repo/operations.py:1469-1604, 1864-1903): how the result of a
Jackknife or Bootstrap with a confidence level, and the values the change compares, become the table given to `get_formatted_df`.
Names of metrics and texts are lists of characters.
-/

namespace Verif

/-! ## Names -/

/-- A name template `pre{}post`. -/
structure NameTmpl where
  pre : List Char
  post : List Char

/-- `name_tmpl.format(c)` (/repo/operations.py:1751). -/
def NameTmpl.format (t : NameTmpl) (c : List Char) : List Char := t.pre ++ c ++ t.post

/-- `AbsoluteChange('', '').name_tmpl.format('')` (/repo/operations.py:633, 1553). -/
def absSuffix : List Char := " Absolute Change".toList
/-- `PercentChange('', '').name_tmpl.format('')` (/repo/operations.py:582, 1554). -/
def pctSuffix : List Char := " Percent Change".toList

/-- `str.replace('( Absolute Change| Percent Change)$', '', regex=True)` (/repo/operations.py:1552-1561). -/
def stripChange (n : List Char) : List Char :=
  if absSuffix <:+ n then n.take (n.length - absSuffix.length)
  else if pctSuffix <:+ n then n.take (n.length - pctSuffix.length)
  else n

/-! ## The values of the condition -/

/-- A value of a condition column: an integer, a float or a text. -/
inductive CondVal where
  | int (n : ℤ)
  | flt (q : ℚ)
  | str (s : List Char)
deriving DecidableEq

/-- Python's `repr` of an integer. -/
def intRepr (n : ℤ) : List Char := if n < 0 then '-' :: Nat.toDigits 10 n.natAbs else Nat.toDigits 10 n.natAbs

/-- Python's `repr`; that of a float is given. Of a text only if it contains no quotation mark, backslash or control character. -/
def CondVal.repr (fltRepr : ℚ → List Char) : CondVal → List Char
  | .int n => intRepr n
  | .flt q => fltRepr q
  | .str s => '\'' :: (s ++ ['\''])

/-- `', '.join`. -/
def joinComma : List (List Char) → List Char
  | [] => []
  | [x] => x
  | x :: xs => x ++ [',', ' '] ++ joinComma xs

/-- `str(tuple)`, for tuples that do not have length 1 (/repo/operations.py:1571-1572). -/
def tupleText (fltRepr : ℚ → List Char) (vs : List CondVal) : List Char := ['('] ++ joinComma (vs.map (CondVal.repr fltRepr)) ++ [')']

/-- A number. -/
def CondVal.isNum : CondVal → Bool
  | .str _ => false
  | _ => true
/-- A float. -/
def CondVal.isFlt : CondVal → Bool
  | .flt _ => true
  | _ => false

/-- A row of a DataFrame as a Series has one type: if all columns are numbers and one is of floats, the integers become floats. (Columns
that hold integers as objects are not modelled.) -/
def rowValues (vs : List CondVal) : List CondVal :=
  if vs.all CondVal.isNum && vs.any CondVal.isFlt then vs.map (fun | .int n => .flt n | v => v) else vs

/-- `res[condition_column].agg(tuple, axis=1).astype(str)` (/repo/operations.py:1571). -/
def exprIdText (fltRepr : ℚ → List Char) (vs : List CondVal) : List Char := tupleText fltRepr (rowValues vs)

/-! ## The table -/

/-- A row of the melted result: metric, slice, values of the condition columns, estimate and bounds. -/
structure ResultRow (δ : Type) where
  metric : List Char
  slice : List (Option δ)
  cond : List CondVal
  value : Option ℚ
  lower : Option ℚ
  upper : Option ℚ

/-- A row of `meterstick_change_base` (/repo/operations.py:1724-1754). -/
structure BaseRow (δ : Type) where
  metric : List Char
  slice : List (Option δ)
  cond : List CondVal
  value : Option ℚ

section
variable {ε δ : Type} [DecidableEq δ]

/-- `res.loc[..]` for the index of a row of the base. -/
def ResultRow.matches (b : BaseRow δ) (r : ResultRow δ) : Bool := decide (r.metric = b.metric ∧ r.slice = b.slice ∧ r.cond = b.cond)

/-- `base.join(res)` (/repo/operations.py:1551), metrics with their names stripped (/repo/operations.py:1558-1561), and the columns renamed
(/repo/operations.py:1580-1590, /repo/confidence_interval_display.py:683-694): the change is the ratio, the value of the base the value.
`expId` is the experiment id of the condition: its value for one column, the text of the tuple for several. -/
def joinedRow (expId : List CondVal → ε) (res : List (ResultRow δ)) (b : BaseRow δ) : DispRow ε δ (List Char) :=
  let r := res.find? (ResultRow.matches b)
  { exp := expId b.cond, dims := b.slice, metric := stripChange b.metric, value := b.value,
    ratio := r.bind (·.value), lower := r.bind (·.lower), upper := r.bind (·.upper), ctrlVal := none, ctrl := none, isCtrl := false }

end

/-- The options of `display` that are modelled. -/
structure ShowOpts where
  showControl : Option Bool
  showValueHidden : Bool

section
variable {ε δ : Type} [LinearOrder ε] [LinearOrder δ]

/-- `res.display()` for a change (/repo/operations.py:1545-1600), up to the formatting of the cells; `none` if it raises.
`res.index.set_levels` refuses names that are not distinct. -/
def displayChange (o : ShowOpts) (expId : List CondVal → ε) (control : ε) (base : List (BaseRow δ)) (res : List (ResultRow δ)) :
    Option (List (DispKey ε δ × (List Char → WideCell))) :=
  if (((base.map (·.metric)).dedup).map stripChange).Nodup then
    wideTable ⟨o.showControl.getD true, false, o.showValueHidden⟩ (.single control) false (base.map (joinedRow expId res))
  else none

/-- A row of the table for a result that is not a change (/repo/operations.py:1545-1547, 1563-1565, 1580-1600). -/
def plainRow (r : ResultRow δ) : DispRow Unit δ (List Char) :=
  { exp := (), dims := r.slice, metric := r.metric, value := none, ratio := r.value, lower := r.lower, upper := r.upper,
    ctrlVal := none, ctrl := none, isCtrl := false }

/-- `res.display()` for any other metric: there is no base, `show_control` stays `None` unless given. -/
def displayPlain (o : ShowOpts) (res : List (ResultRow δ)) : Option (List (DispKey Unit δ × (List Char → WideCell))) :=
  wideTable ⟨o.showControl.getD false, false, o.showValueHidden⟩ .missing false (res.map plainRow)

end

/-- The dimensions given to `get_formatted_df` (/repo/operations.py:1872-1881): the levels of the index but for the condition columns.
Without split_by the only level of an index that is not melted has no name; for a melted one there are none. -/
def displaySplits (indexNames condition : List (Option String)) (melted : Bool) : List (Option String) :=
  ((if melted then indexNames.drop 1 else indexNames).filter fun i => i ∉ condition)

end Verif
