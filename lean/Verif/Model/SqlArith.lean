import Mathlib.Algebra.Field.Basic

/-!
# Arithmetic on query columns and its SQL text

/repo/sql.py:27 (`SAFE_DIVIDE`), 313-398 (`Column.__add__` ... `add_parenthesis_if_needed`). The text is
modelled as the list of its tokens.
-/

namespace Verif

/-- Tokens of the generated text. `uminus` is a minus sign without a space after it (`'-{}'`, :343-346), `bminus`
the one of `'{} - {}'` (:323-331). -/
inductive ATok (K : Type) where
  /-- the text of a column that is not built by arithmetic, such as `SUM(x)`; `pm`: it contains `+` or `-` -/
  | atom (i : Nat) (pm : Bool)
  /-- the text of a non-negative number; `pm`: it contains `+` or `-` (as in `1e-05`) -/
  | num (v : K) (pm : Bool)
  | plus | bminus | uminus | times | slash
  | lpar | rpar | comma
  /-- `IF(`, `NULL`, ` = 0`, `SAFE.POWER(`, `SAFE.SQRT(` -/
  | kwIf | kwNull | eqZero | kwPower | kwSqrt
  deriving DecidableEq

/-- The token's text contains `+` or `-`. -/
def ATok.pm {K} : ATok K → Bool
  | .atom _ b | .num _ b => b
  | .plus | .bminus | .uminus => true
  | _ => false

/-- Arithmetic as written in Python. A number only occurs as the other operand of a column
(`CE.wf`); Python computes with numbers itself. -/
inductive CE (K : Type) where
  | col (i : Nat) (pm : Bool)
  | num (ng : Bool) (v : K) (pm : Bool)
  | add (a b : CE K) | sub (a b : CE K) | mul (a b : CE K) | neg (a : CE K)
  | div (a b : CE K) | pow (a b : CE K)

namespace CE
variable {K : Type} [Field K] [DecidableEq K]

/-- The number 0.5 (/repo/sql.py:377). Simplification: the check that it is a float is not modelled; 0.5 is never
an int. -/
def isHalf : CE K → Bool
  | .num ng v _ => !ng && v == 1 / 2
  | _ => false

/-- A number and not a `Column` instance. -/
def isNum : CE K → Bool
  | .num _ _ _ => true
  | _ => false

/-- `add_parenthesis_if_needed` for one operand with its expression (/repo/sql.py:389-398). -/
def paren (num : Bool) (ts : List (ATok K)) : List (ATok K) :=
  if num then ts else if ts.any ATok.pm then .lpar :: ts ++ [.rpar] else ts

/-- The expression of a column built by arithmetic (/repo/sql.py:313-387). -/
def print : CE K → List (ATok K)
  | .col i pm => [.atom i pm]
  | .num ng v pm => if ng then [.uminus, .num v pm] else [.num v pm]
  | .add a b => paren a.isNum a.print ++ .plus :: paren b.isNum b.print
  | .sub a b => paren a.isNum a.print ++ .bminus :: paren b.isNum b.print
  | .mul a b => paren a.isNum a.print ++ .times :: paren b.isNum b.print
  | .neg a => .uminus :: paren a.isNum a.print
  | .div a b =>
      [.kwIf, .lpar] ++ b.print ++ [.rpar, .eqZero, .comma, .kwNull, .comma, .lpar] ++ a.print ++
        [.rpar, .slash, .lpar] ++ b.print ++ [.rpar, .rpar]
  | .pow a b =>
      if b.isHalf then .kwSqrt :: a.print ++ [.rpar]
      else .kwPower :: a.print ++ .comma :: b.print ++ [.rpar]

end CE
end Verif
