import Mathlib.Data.List.Basic

/-!
# The names of the columns of a result

/repo/metrics.py:1088-1365, 1370-1640, /repo/operations.py:111-197, 225-272, 488-530, /repo/diversity.py:26-57, /repo/sql.py:300-386.
Only names: values are not modelled here, nor are the suffixes that make equal aliases different (the names that the user sees are `alias_raw`,
without the suffix). A column that occurs twice in one query is kept twice here, see `C12_duplicate_column_violation`.
-/

namespace Verif

/-- The operations that can be expressed as one query. `tmpl` is `name_tmpl.format`; the comparisons have pairs of a condition column and its
baseline value. -/
inductive NOp where
  | dist (over : List String) (tmpl : String → String)
  | cumulative (over : List String) (tmpl : String → String)
  | comparison (cond : List (String × String)) (includeBase : Bool) (tmpl : String → String)
  | diversity (over : List String) (tmpl : String → String)

/-- `extra_split_by` (/repo/operations.py:208-213, 291-318, 417-434, /repo/diversity.py:29-35). -/
def NOp.splitBy : NOp → List String
  | .dist over _ => over
  | .cumulative over _ => over
  | .comparison cond _ _ => cond.map Prod.fst
  | .diversity over _ => over

/-- `extra_index`: the columns of `extra_split_by` (/repo/metrics.py:243-248), nothing for the diversity operations (/repo/diversity.py:36). -/
def NOp.ownIdx : NOp → List String
  | .diversity _ _ => []
  | o => o.splitBy

/-- `name_tmpl.format(c)` (/repo/utils.py:127-148, /repo/operations.py:180-190). -/
def NOp.py : NOp → String → String
  | .dist _ t, c => t c
  | .cumulative _ t, c => t c
  | .comparison _ _ t, c => t c
  | .diversity _ t, c => t c

/-- A metric tree with its names. `leaf`: the columns of the table that it reads; `flt` are the conditions of a leaf that first selects its
rows in a query of its own (Nth with a filter, /repo/metrics.py:1981-2035). `columns` is `rename_columns`. `tmpl` is the `name_tmpl` of an
arithmetic node, `col` what its operator does to the aliases of columns, and `name` its name. The names of lists and operations are the ones
that they get when they are built; a `name_tmpl` of a list is not modelled. -/
inductive NM where
  | const (text : String)
  | leaf (name : String) (reads : List String) (flt : Option (List (String × String)))
  | comp (tmpl col : String → String → String) (name : String) (l r : NM) (columns : Option (List String))
  | list (ms : List NM) (columns : Option (List String))
  | oper (o : NOp) (child : NM)

/-- The operators of metrics. -/
inductive NArith where
  | add | sub | mul | div | pow | neg | sqrt

/-- `name_tmpl.format(a, b)` (/repo/metrics.py:958-997). -/
def NArith.tmpl : NArith → String → String → String
  | .add, a, b => a ++ " + " ++ b
  | .sub, a, b => a ++ " - " ++ b
  | .mul, a, b => a ++ " * " ++ b
  | .div, a, b => a ++ " / " ++ b
  | .pow, a, b => a ++ " ^ " ++ b
  | .neg, a, _ => "-" ++ a
  | .sqrt, a, _ => "sqrt(" ++ a ++ ")"

/-- The alias of the operation on columns (/repo/sql.py:300-386). -/
def NArith.col : NArith → String → String → String
  | .add, a, b => a ++ (" + " ++ b)
  | .sub, a, b => a ++ (" - " ++ b)
  | .mul, a, b => a ++ (" * " ++ b)
  | .div, a, b => a ++ (" / " ++ b)
  | .pow, a, b => a ++ (" ^ " ++ b)
  | .neg, a, _ => "-" ++ a
  | .sqrt, a, _ => "sqrt(" ++ (a ++ ")")

/-- Is it a number? -/
def NM.isConst : NM → Bool
  | .const _ => true
  | _ => false

mutual
/-- `metric.name`, or the number as text (/repo/metrics.py:1119-1124, 1409, /repo/operations.py:120-121). -/
def NM.name : NM → String
  | .const t => t
  | .leaf n _ _ => n
  | .comp _ _ n _ _ _ => n
  | .list ms _ =>
    match namesOf ms with
    | [n] => n
    | ns => "MetricList(" ++ String.intercalate ", " ns ++ ")"
  | .oper o c => o.py c.name
/-- The names of several metrics. -/
def namesOf : List NM → List String
  | [] => []
  | m :: ms => m.name :: namesOf ms
end

mutual
/-- Does the result have index levels of its own, beyond `split_by`? -/
def NM.hasIdx : NM → Bool
  | .const _ => false
  | .leaf _ _ _ => false
  | .comp _ _ _ l r _ => l.hasIdx || r.hasIdx
  | .list ms _ => anyIdx ms
  | .oper (.diversity _ _) _ => false
  | .oper _ _ => true
/-- Does one of them? -/
def anyIdx : List NM → Bool
  | [] => false
  | m :: ms => m.hasIdx || anyIdx ms
end

/-- Renaming; none if the numbers of columns differ, which raises (/repo/metrics.py:1159-1165, 1349-1356, 1626-1635). An empty list renames
nothing; for an arithmetic node on a DataFrame it would raise. -/
def renameTo (columns : Option (List String)) (cs : List String) : Option (List String) :=
  match columns with
  | none => some cs
  | some l => if l.isEmpty then some cs else if l.length = cs.length then some l else none

/-- The names of `CompositeMetric.compute_on_children` before the renaming (/repo/metrics.py:1469-1500): `a` and `b` are the columns of the
children, of which one alone is reduced to a series. None for tables with different numbers of columns, where pandas aligns the columns. -/
def compPy (tmpl : String → String → String) (name : String) (lname rname : String) (a b : List String) : Option (List String) :=
  if a.length = 1 then (if b.length = 1 then some [name] else some (b.map (tmpl lname)))
  else if b.length = 1 then some (a.map fun c => tmpl c rname)
  else if a.length = b.length then some (List.zipWith tmpl a b) else none

mutual
/-- The names of the columns of `compute_on` (/repo/metrics.py:1125-1166, 1447-1509, /repo/operations.py:128-136, 180-190). `indexed` tells
whether there is a `split_by`; a single number without an index is not renamed (/repo/metrics.py:1501-1508). A number counts as one
column. -/
def NM.pyNames (indexed : Bool) : NM → Option (List String)
  | .const t => some [t]
  | .leaf n _ _ => some [n]
  | .comp tmpl _ name l r columns => do
    let a ← l.pyNames indexed
    let b ← r.pyNames indexed
    let cs ← compPy tmpl name l.name r.name a b
    if cs.length = 1 ∧ !(indexed || l.hasIdx || r.hasIdx) then some cs else renameTo columns cs
  | .list ms columns => do renameTo columns (← pyNamesAll indexed ms)
  | .oper o c => do return (← c.pyNames (indexed || !o.splitBy.isEmpty)).map o.py
/-- The names of the columns of several metrics. -/
def pyNamesAll (indexed : Bool) : List NM → Option (List String)
  | [] => some []
  | m :: ms => do return (← m.pyNames indexed) ++ (← pyNamesAll indexed ms)
end

end Verif
