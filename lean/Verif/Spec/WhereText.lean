import Verif.Model.WhereText

/-!
# What a condition text means: the usual grammar

`not` binds tighter than `and`, `and` tighter than `or`, in Python/pandas and in
SQL alike. White space separates tokens and is otherwise ignored.
-/

namespace Verif

/-- White space removed. -/
def stripWs (ts : Text) : Text := ts.filter (fun t => t ≠ .sp ∧ t ≠ .nl)

variable (ρ : Nat → Bool)   -- truth of the atoms on the row at hand

mutual
/-- An atom, a negation or a parenthesised condition. -/
inductive IsFac : Text → Bool → Prop
  | atom (n) : IsFac [.atom n] (ρ n)
  | not {ts v} : IsFac ts v → IsFac (.not :: ts) (!v)
  | paren {ts v} : IsOr ts v → IsFac (.lp :: ts ++ [.rp]) v
/-- A chain of `and`. -/
inductive IsAnd : Text → Bool → Prop
  | fac {ts v} : IsFac ts v → IsAnd ts v
  | and {ts us v w} : IsAnd ts v → IsFac us w → IsAnd (ts ++ .and :: us) (v && w)
/-- A chain of `or`. -/
inductive IsOr : Text → Bool → Prop
  | one {ts v} : IsAnd ts v → IsOr ts v
  | or {ts us v w} : IsOr ts v → IsAnd us w → IsOr (ts ++ .or :: us) (v || w)
end

/-- The text `c` is a condition with truth value `v`. -/
def Denotes (c : Text) (v : Bool) : Prop := IsOr ρ (stripWs c) v

end Verif
