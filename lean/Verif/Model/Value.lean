import Mathlib.Algebra.Order.Field.Rat

/-!
# Numbers

`Cell`  a DataFrame / table cell: a number or missing (NaN / NULL).
`PyVal` a number computed in Python: finite, NaN or infinite.  pandas/numpy
        division by zero gives an infinity or NaN, so they are kept apart.
SQL results are `Cell`s: SQL arithmetic has no infinities here because every
division is generated through `SAFE_DIVIDE` (/repo/sql.py:27).

Simplifications: numbers are exact rationals, no rounding and no signed zero.
-/

namespace Verif

/-- A cell of a DataFrame or SQL table (numeric; categorical values are coded
as numbers). `none` is NaN/NULL. -/
abbrev Cell := Option Rat

/-- A Python number (numpy float64, exact). -/
inductive PyVal where
  | fin (q : Rat)
  | nan
  | pinf
  | ninf
  deriving DecidableEq, Repr, Inhabited

namespace PyVal

/-- numpy `+`. -/
def add : PyVal → PyVal → PyVal
  | fin a, fin b => fin (a + b)
  | nan, _ => nan
  | _, nan => nan
  | pinf, ninf => nan
  | ninf, pinf => nan
  | pinf, _ => pinf
  | _, pinf => pinf
  | ninf, _ => ninf
  | _, ninf => ninf

/-- numpy unary `-`. -/
def neg : PyVal → PyVal
  | fin a => fin (-a)
  | nan => nan
  | pinf => ninf
  | ninf => pinf

/-- numpy `-`. -/
def sub (a b : PyVal) : PyVal := add a (neg b)

/-- An infinity with the sign of `q`; NaN for `0` (`0 * inf`). -/
def infSign (q : Rat) : PyVal := if q = 0 then nan else if 0 < q then pinf else ninf

/-- numpy `*`. -/
def mul : PyVal → PyVal → PyVal
  | fin a, fin b => fin (a * b)
  | nan, _ => nan
  | _, nan => nan
  | fin a, pinf => infSign a
  | fin a, ninf => infSign (-a)
  | pinf, fin b => infSign b
  | ninf, fin b => infSign (-b)
  | pinf, pinf => pinf
  | ninf, ninf => pinf
  | pinf, ninf => ninf
  | ninf, pinf => ninf

/-- numpy `/`: division by zero gives an infinity, `0/0` gives NaN. -/
def div : PyVal → PyVal → PyVal
  | fin a, fin b => if b = 0 then infSign a else fin (a / b)
  | nan, _ => nan
  | _, nan => nan
  | fin _, pinf => fin 0
  | fin _, ninf => fin 0
  | pinf, fin b => if 0 ≤ b then pinf else ninf
  | ninf, fin b => if 0 ≤ b then ninf else pinf
  | pinf, pinf => nan
  | pinf, ninf => nan
  | ninf, pinf => nan
  | ninf, ninf => nan

/-- A missing cell read by pandas is NaN. -/
def ofCell : Cell → PyVal
  | some q => fin q
  | none => nan

/-- The finite value, if any. -/
def toCell : PyVal → Cell
  | fin q => some q
  | _ => none

/-- Neither finite nor NaN. -/
def isInf : PyVal → Bool
  | pinf => true
  | ninf => true
  | _ => false

end PyVal

/-- SQL arithmetic: NULL if an operand is NULL. -/
def Cell.map₂ (f : Rat → Rat → Rat) : Cell → Cell → Cell
  | some a, some b => some (f a b)
  | _, _ => none

/-- `SAFE_DIVIDE = 'IF(({denom}) = 0, NULL, ({numer}) / ({denom}))'`
(/repo/sql.py:27). -/
def Cell.safeDiv : Cell → Cell → Cell
  | some a, some b => if b = 0 then none else some (a / b)
  | _, _ => none

end Verif
