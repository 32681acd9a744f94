import Verif.Model.Frame

/-!
# Auxiliary columns

/repo/utils.py:580-671. Column names are character lists here (`String.toList` of the
pandas names).
-/

namespace Verif

/-- Column names as text. -/
abbrev CName := List Char

/-- Operators of auxiliary columns (/repo/utils.py:643-671). Callables (`'lambda'` columns)
are not modelled; no metric of meterstick uses them. -/
inductive AOp where
  | add | sub | mul | div | pow
  deriving DecidableEq, Repr

/-- The tuples of `get_auxiliary_cols`: a column name, a number, or `(a, op, b)`. Numbers:
natural numbers only (meterstick itself uses only `2`). -/
inductive AReq where
  | col (c : CName)
  | num (n : Nat)
  | bin (op : AOp) (a b : AReq)
  deriving DecidableEq, Repr

/-- A DataFrame for this part: its columns by name, each a list of cells
(one per row). Insertion order is that of pandas. -/
abbrev DF := List (CName × List Cell)

/-- Elementwise arithmetic of two cells. Simplifications: a division by zero is missing instead of
infinite; a power with an exponent that is not a natural number is missing. -/
def AOp.cell : AOp → Cell → Cell → Cell
  | .add, a, b => Cell.map₂ (· + ·) a b
  | .sub, a, b => Cell.map₂ (· - ·) a b
  | .mul, a, b => Cell.map₂ (· * ·) a b
  | .div, a, b => Cell.safeDiv a b
  | .pow, some a, some b => if b.den = 1 ∧ 0 ≤ b.num then some (a ^ b.num.toNat) else none
  | .pow, _, _ => none

/-- Elementwise arithmetic of two columns. -/
def AOp.cells (op : AOp) (a b : List Cell) : List Cell := List.zipWith op.cell a b

/-- Python's `str` of a natural number. -/
def natName (n : Nat) : CName := Nat.toDigits 10 n

/-- The text of `(name0 op name1)` (/repo/utils.py:656-671). -/
def AOp.render (op : AOp) (n0 n1 : CName) : CName :=
  match op with
  | .add => '(' :: n0 ++ [' ', '+', ' '] ++ n1 ++ [')']
  | .sub => '(' :: n0 ++ [' ', '-', ' '] ++ n1 ++ [')']
  | .mul => '(' :: n0 ++ [' ', '*', ' '] ++ n1 ++ [')']
  | .div => '(' :: n0 ++ [' ', '/', ' '] ++ n1 ++ [')']
  | .pow => ['P', 'O', 'W', 'E', 'R', '('] ++ n0 ++ [',', ' '] ++ n1 ++ [')']

/-- `fn in ('+', '*')`. -/
def AOp.commutes : AOp → Bool
  | .add | .mul => true
  | _ => false

/-- `parse_auxiliary_col` (/repo/utils.py:624-671): name and cells, `none` if a column does not
exist (KeyError). The two arguments of `+` and `*` are sorted by name (:652-653; with equal
names the sort goes on to compare the two Series, which are the same object). `len` is the number of
rows, to spread constants. -/
def parseAux (df : DF) (len : Nat) : AReq → Option (CName × List Cell)
  | .col c => (df.lookup c).map (fun v => (c, v))
  | .num n => some (natName n, List.replicate len (some (n : Rat)))
  | .bin op a b =>
      match parseAux df len a, parseAux df len b with
      | some (n0, c0), some (n1, c1) =>
          if op.commutes && decide (n1 < n0) then some (op.render n1 n0, op.cells c1 c0)
          else some (op.render n0 n1, op.cells c0 c1)
      | _, _ => none

/-- `'meterstick_tmp:'` (/repo/utils.py:574). -/
def basePrefix : CName := "meterstick_tmp:".toList

/-- `get_unique_prefix` (/repo/utils.py:573-577): append `:` while a column starts with the
prefix. `fuel` bounds the loop; one more than the longest column name suffices, because
the prefix grows in every round. -/
def uniquePrefixLoop (cols : List CName) : Nat → CName → CName
  | 0, p => p
  | fuel + 1, p => if cols.any (fun c => p.isPrefixOf c) then uniquePrefixLoop cols fuel (p ++ [':']) else p

def maxLen (cols : List CName) : Nat := (cols.map List.length).foldr max 0

def uniquePrefix (cols : List CName) : CName := uniquePrefixLoop cols (maxLen cols + 1) basePrefix

/-- One round of the loop in `add_auxiliary_cols` (/repo/utils.py:613-621): the column is added
under `prefix + name` unless a column of that name exists. -/
def addAux (pre : CName) (len : Nat) (df : DF) (a : AReq) : Option (DF × CName) :=
  match parseAux df len a with
  | none => none
  | some (n, cells) =>
      some (if (df.lookup (pre ++ n)).isSome then df else df ++ [(pre ++ n, cells)], pre ++ n)

/-- `add_auxiliary_cols` for a list of requests. -/
def addAuxAll (pre : CName) (len : Nat) : DF → List AReq → Option (DF × List CName)
  | df, [] => some (df, [])
  | df, a :: as =>
      match addAux pre len df a with
      | none => none
      | some (df', n) =>
          match addAuxAll pre len df' as with
          | none => none
          | some (df'', ns) => some (df'', n :: ns)

end Verif
