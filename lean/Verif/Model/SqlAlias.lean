import Mathlib.Data.List.Basic

/-!
# Aliases of SQL columns and the list of selected columns

/repo/sql.py:58-102, 241-278, 401-468. Text is a list of characters.
-/

namespace Verif

/-- Text. -/
abbrev Txt := List Char

/-- The set of special characters (/repo/sql.py:76). -/
def specialChars : Txt := " `~!@#$%^&*()-=+[]{}\\|;:'\",.<>/?".toList

/-- The replacement of one character (/repo/sql.py:79-95). -/
def escChar (c : Char) : Txt :=
  if c = '!' then "_not_".toList
  else if c = '$' then "_macro_".toList
  else if c = '@' then "_at_".toList
  else if c = '%' then "_pct_".toList
  else if c = '^' then "_to_the_power_".toList
  else if c = '*' then "_times_".toList
  else if c = ')' then []
  else if c = '-' then "_minus_".toList
  else if c = '=' then "_equals_".toList
  else if c = '+' then "_plus_".toList
  else if c = '.' then "_point_".toList
  else if c = '/' then "_divides_".toList
  else if c = '>' then "_greater_than_".toList
  else if c = '<' then "_smaller_than_".toList
  else if c ∈ specialChars then "_".toList
  else [c]

/-- Python's `str.strip(ch)`. -/
def stripC (ch : Char) (s : Txt) : Txt :=
  ((s.dropWhile (· == ch)).reverse.dropWhile (· == ch)).reverse

/-- Python's `s.replace('__', '_')`: left to right, non-overlapping. -/
def replUU : Txt → Txt
  | [] => []
  | [c] => [c]
  | a :: b :: t => if a = '_' ∧ b = '_' then '_' :: replUU t else a :: replUU (b :: t)

/-- `escape_alias` (/repo/sql.py:74-102). `none`: IndexError at `res[0]` (:102). Simplification:
`isdigit` is for ASCII digits. -/
def escapeAlias (a : Txt) : Option Txt :=
  if a = [] ∨ ∀ c ∈ specialChars, c ∉ a then some a
  else
    let res := replUU (stripC ' ' (stripC '_' (a.flatMap escChar)))
    match res with
    | [] => none
    | d :: _ => if d.isDigit then some ("col_".toList ++ res) else some res

/-- A column as far as names matter: its expression, the name given (`alias_raw`) and the suffix
(/repo/sql.py:241-278). Simplification: columns without any name (`auto_alias=False`, no
alias) have `raw = none`. -/
structure SCol where
  expr : Txt
  raw : Option Txt
  suffix : Nat
  deriving DecidableEq, Repr

/-- `Column.alias` (/repo/sql.py:265-270): `some none` is the missing alias, `none` an IndexError. -/
def SCol.alias (c : SCol) : Option (Option Txt) :=
  if c.suffix = 0 then
    match c.raw with
    | none => some none
    | some r => (escapeAlias r).map some
  else
    (escapeAlias ((c.raw.getD "None".toList) ++ '_' :: Nat.toDigits 10 c.suffix)).map some

/-- `Columns.get_alias` (/repo/sql.py:420-424): the raw name of the first column with the expression. -/
def getAlias (cols : List SCol) (e : Txt) : Option Txt :=
  match cols.find? (fun c => c.expr == e) with
  | none => none
  | some c => c.raw

/-- `Columns.add` of one column (/repo/sql.py:454-468). Result: the columns after, and the added
column object after (its name may have been changed in place). `none`: an alias raised. `fuel`
bounds the recursion `self.add(children)`; `Verif.C22_add_terminates` shows that it suffices. -/
def addCol (cols : List SCol) : Nat → SCol → Option (List SCol × SCol)
  | 0, _ => none
  | fuel + 1, c =>
      match c.alias with
      | none => none
      | some a =>
          match getAlias cols c.expr with
          | some (f :: fs) => some (cols, { c with raw := some (f :: fs) })
          | _ =>
              match cols.mapM SCol.alias with
              | none => none
              | some as =>
                  if a ∉ as then some (cols ++ [c], c)
                  else addCol cols fuel { c with suffix := c.suffix + 1 }

/-- Adding one column, with fuel that suffices. -/
def addColumn (cols : List SCol) (c : SCol) : Option (List SCol × SCol) := addCol cols (cols.length + 2) c

/-- `Columns.add` of an iterable (/repo/sql.py:450-453). -/
def addColumns (cols : List SCol) : List SCol → Option (List SCol × List SCol)
  | [] => some (cols, [])
  | c :: cs => do
      let (cols1, c1) ← addColumn cols c
      let (cols2, cs2) ← addColumns cols1 cs
      pure (cols2, c1 :: cs2)

end Verif
