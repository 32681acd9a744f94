import Mathlib.Data.List.Basic
import Mathlib.Data.Int.Notation

/-!
# The text of the conditions that meterstick writes itself

The baseline of a comparison, the `order` of a CumulativeDistribution, the unit that Jackknife leaves out, the slices of a
logistic regression.
Texts are lists of characters.
-/

namespace Verif

/-- Values of cells and of baselines: strings, integers, dates. -/
inductive CVal where
  | str (s : List Char)
  | int (n : ℤ)
  | date (y m d : ℕ)
  deriving DecidableEq

/-- `str(n)` of an integer. -/
def intText (n : ℤ) : List Char :=
  if n < 0 then '-' :: Nat.toDigits 10 n.natAbs else Nat.toDigits 10 n.natAbs

/-- Two digits. -/
def twoDigits (n : ℕ) : List Char := if n < 10 then '0' :: Nat.toDigits 10 n else Nat.toDigits 10 n

/-- `'%s' % v`. -/
def CVal.text : CVal → List Char
  | .str s => s
  | .int n => intText n
  | .date y m d => Nat.toDigits 10 y ++ '-' :: twoDigits m ++ '-' :: twoDigits d

/-- `_format_to_condition` (/repo/operations.py:408-411). -/
def formatToCondition : CVal → List Char
  | .str s => if s.head? = some '$' then s else '"' :: s ++ ['"']
  | v => v.text

/-- `sep.join(parts)`. -/
def joinText (sep : List Char) : List (List Char) → List Char
  | [] => []
  | [p] => p
  | p :: q :: ps => p ++ sep ++ joinText sep (q :: ps)

/-- `base_cond` of the comparisons (/repo/operations.py:499-501, 1382-1384). -/
def baseCond (kvs : List (List Char × CVal)) : List Char :=
  joinText " AND ".toList (kvs.map fun p => p.1 ++ " = ".toList ++ formatToCondition p.2)

/-- The condition that drops the baseline from the result (/repo/operations.py:509). -/
def notBaseCond (kvs : List (List Char × CVal)) : List Char := "NOT (".toList ++ baseCond kvs ++ [')']

/-- The same in MH (/repo/operations.py:1392-1394). -/
def mhExcludeCond (kvs : List (List Char × CVal)) : List Char :=
  joinText " OR ".toList (kvs.map fun p => p.1 ++ " != ".toList ++ formatToCondition p.2)

/-- `loo_where` of Jackknife computed by one query for each unit (/repo/operations.py:2477-2479);
`numeric` if the units are numbers. -/
def looCond (unit : List Char) (numeric : Bool) (v : CVal) : List Char :=
  if numeric then unit ++ " != ".toList ++ v.text
  else unit ++ " != \"".toList ++ v.text ++ ['"']

/-- The value of a slice of a logistic regression: `"{v}"` if `v` is a string, else `{v}` (/repo/models.py:1121-1124). `none` is a NULL,
which the DataFrame of the slices has as None. -/
def sliceVal : Option CVal → List Char
  | some (.str s) => '"' :: s ++ ['"']
  | some v => v.text
  | none => "None".toList

/-- The condition on the rows of a slice (/repo/models.py:1121-1126). It is a filter of the columns of the gradients and the argument of
COUNTIF (/repo/models.py:1182-1185, 1202). -/
def sliceCond (kvs : List (List Char × Option CVal)) : List Char :=
  joinText " AND ".toList (kvs.map fun p => p.1 ++ " = ".toList ++ sliceVal p.2)

/-- `COUNTIF(condition)` (/repo/models.py:1202). -/
def countIfText (kvs : List (List Char × Option CVal)) : List Char := "COUNTIF(".toList ++ sliceCond kvs ++ [')']

/-- `enumerate`. -/
def whenLines : ℕ → List CVal → List (List Char)
  | _, [] => []
  | i, v :: vs => ("WHEN ".toList ++ formatToCondition v ++ " THEN ".toList ++ Nat.toDigits 10 i)
      :: whenLines (i + 1) vs

/-- `get_ordered_col` with an `order` (/repo/operations.py:397-405). -/
def caseText (col : List Char) (order : List CVal) (ascending : Bool) : List Char :=
  "CASE ".toList ++ col ++ ['\n'] ++ joinText ['\n'] (whenLines 0 order)
    ++ "\nELSE ".toList ++ Nat.toDigits 10 order.length ++ "\nEND".toList
    ++ (if ascending then [] else " DESC".toList)

/-- `cond.replace('==', '=')` (/repo/sql.py:180). -/
def dropEqEq : List Char → List Char
  | '=' :: '=' :: cs => '=' :: dropEqEq cs
  | c :: cs => c :: dropEqEq cs
  | [] => []

/-- `' OR ' in cond.upper()` (/repo/sql.py:185). -/
def hasOr : List Char → Bool
  | [] => false
  | c :: cs => (" OR ".toList.isPrefixOf ((c :: cs).map Char.toUpper)) || hasOr cs

/-- One condition of a WHERE clause as it is printed (`str(Filter(cond))`, /repo/sql.py:173-185). -/
def filterText (cond : List Char) : List Char :=
  let c := dropEqEq cond
  if hasOr c then '(' :: c ++ [')'] else c

end Verif
