import Verif.Model.AuxCols

/-!
# Specification for C20: the value a request stands for
-/

namespace Verif

/-- The cells of an auxiliary column computed directly from the columns, with no names and no
sorting involved. -/
def AReq.value (df : DF) (len : Nat) : AReq → Option (List Cell)
  | .col c => df.lookup c
  | .num n => some (List.replicate len (some (n : Rat)))
  | .bin op a b =>
      match a.value df len, b.value df len with
      | some x, some y => some (List.zipWith op.cell x y)
      | _, _ => none

/-- The value of an auxiliary column in one row, from the row's values: school arithmetic, missing as soon as an operand is missing,
the denominator is zero, or the exponent is not a natural number. -/
def AReq.inRow (row : CName → Option ℚ) : AReq → Option ℚ
  | .col c => row c
  | .num n => some n
  | .bin op a b =>
      match a.inRow row, b.inRow row with
      | some x, some y =>
          match op with
          | .add => some (x + y)
          | .sub => some (x - y)
          | .mul => some (x * y)
          | .div => if y = 0 then none else some (x / y)
          | .pow => if y = (y.num.toNat : ℚ) then some (x ^ y.num.toNat) else none
      | _, _ => none

/-- Characters that do not occur in ordinary column names. -/
def isDelim (c : Char) : Bool := c = ' ' || c = '(' || c = ')' || c = ','

/-- An ordinary column name: not empty, without blanks, parentheses and commas, and not
starting with a digit. -/
def PlainName (c : CName) : Prop :=
  (∀ x ∈ c, isDelim x = false) ∧ ∃ h t, c = h :: t ∧ h.isDigit = false

end Verif
