import Mathlib.Data.EReal.Inv
import Verif.Model.Metric

/-!
# Arithmetic with infinities and undefined results

What numpy's `+ - * /` give on exact numbers, said with the extended real numbers; `none` is NaN.
-/

namespace Verif

/-- The extended real number of a Python number; NaN is none. -/
noncomputable def PyVal.ext : PyVal → Option EReal
  | .fin q => some ((q : ℝ) : EReal)
  | .pinf => some ⊤
  | .ninf => some ⊥
  | .nan => none

/-- An extended real number is infinite. -/
def Infinite' (x : EReal) : Prop := x = ⊤ ∨ x = ⊥

open Classical in
/-- The result of an operation on two extended real numbers: undefined are the difference of two equal infinities, `0` times an
infinity, `0 / 0` and an infinity over an infinity; anything else over `0` is infinite with its own sign. -/
noncomputable def ieee : BinOp → EReal → EReal → Option EReal
  | .add, x, y => if (x = ⊤ ∧ y = ⊥) ∨ (x = ⊥ ∧ y = ⊤) then none else some (x + y)
  | .sub, x, y => if (x = ⊤ ∧ y = ⊤) ∨ (x = ⊥ ∧ y = ⊥) then none else some (x - y)
  | .mul, x, y => if (x = 0 ∧ Infinite' y) ∨ (Infinite' x ∧ y = 0) then none else some (x * y)
  | .div, x, y =>
    if y = 0 then (if x = 0 then none else some (if 0 < x then ⊤ else ⊥))
    else if Infinite' x ∧ Infinite' y then none else some (x / y)
  | .neg, x, _ => some (-x)
  | .pow, _, _ => none

/-- NaN in, NaN out. -/
noncomputable def ieeeNan (op : BinOp) (x y : Option EReal) : Option EReal :=
  match x, y with
  | some x, some y => ieee op x y
  | _, _ => none

/-- The number a table has for a key, with NaN where it has no row. -/
noncomputable def numberAt (t : Tbl) (k : Key) : Option EReal := (t.get k).bind PyVal.ext

/-- The column standing against the `j`-th one of the other side: the only one, or the `j`-th. -/
def columnAt (ts : List Tbl) (j : Nat) : Tbl := (if ts.length = 1 then ts[0]? else ts[j]?).getD []

/-- `t` is the column of results: rows where either side has some, and there the result of the two numbers. -/
def IsResult (op : BinOp) (a b t : Tbl) : Prop :=
  (∀ k, (∃ v, (k, v) ∈ t) ↔ (∃ v, (k, v) ∈ a) ∨ (∃ v, (k, v) ∈ b)) ∧
    ∀ k, numberAt t k = ieeeNan op (numberAt a k) (numberAt b k)

end Verif
