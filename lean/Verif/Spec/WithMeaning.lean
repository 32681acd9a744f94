import Verif.Spec.SqlWith

/-!
# What the tables of a WITH clause mean

For C24. A table is a text, given as its words. A word that is the name of an earlier table of the clause stands for what that table means; every
other word (keywords, columns, tables of the database) stands for itself.
-/

namespace Verif

/-- What a word means. -/
inductive Meaning
  | itself (x : Txt)
  | query (words : List Meaning)

/-- The meaning of a word where some names have a meaning. -/
def wordMeaning (env : List (Txt × Meaning)) (x : Txt) : Meaning := (env.lookup x).getD (.itself x)

/-- What the names of a WITH clause mean, `env` being the meaning of the names before. -/
def meaningsFrom (env : List (Txt × Meaning)) : List (Txt × List Txt) → List (Txt × Meaning)
  | [] => env
  | (n, t) :: l => meaningsFrom (env ++ [(n, .query (t.map (wordMeaning env)))]) l

/-- What the names of a WITH clause mean. -/
def meanings (l : List (Txt × List Txt)) : List (Txt × Meaning) := meaningsFrom [] l

/-- A WITH clause that an engine accepts: names are unique and a table does not read itself or later tables. -/
def Scoped (l : List (Txt × List Txt)) : Prop :=
  (l.map Prod.fst).Nodup ∧ ∀ l1 n t l2, l = l1 ++ (n, t) :: l2 → ∀ x ∈ t, x ∉ ((n, t) :: l2).map Prod.fst

/-- The clause as an object. -/
def asWith (l : List (Txt × List Txt)) : With := l.map fun p => (p.1, .raw p.2)

/-- Is the word in one of the texts? -/
def Mentions (l : List (Txt × List Txt)) (x : Txt) : Prop := ∃ p ∈ l, x ∈ p.2

end Verif
