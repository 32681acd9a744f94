import Verif.Model.SqlAlias

/-!
# Specification for C21-C23
-/

namespace Verif

/-- Legal in an unquoted SQL identifier: ASCII letters, digits, underscore. -/
def IdentChar (c : Char) : Prop := c.isAlphanum ∨ c = '_'

/-- Printable ASCII. -/
def Printable (c : Char) : Prop := 32 ≤ c.toNat ∧ c.toNat < 127

/-- A column with a non-empty name. -/
def SCol.named (c : SCol) : Prop := ∃ f fs, c.raw = some (f :: fs)

/-- The names under which columns are selected; `none` if one of them raises. -/
def aliasesOf (cols : List SCol) : Option (List (Option Txt)) := cols.mapM SCol.alias

/-- The expression `e` is selected under the name `a`. -/
def SelectedAs (cols : List SCol) (e : Txt) (a : Option Txt) : Prop :=
  ∃ d ∈ cols, d.expr = e ∧ d.alias = some a

end Verif
