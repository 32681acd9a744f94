import Verif.Model.Filters

/-!
# The text of combined filter conditions

A condition is a text of tokens; comparisons such as `x > 1` are atoms. Not
modelled: the rewriting of `==` to `=` (/repo/sql.py:180), string literals that
contain ` or ` (they only cause redundant parentheses), `|`/`&`.
-/

namespace Verif

/-- Tokens of a condition: atomic comparisons, connectives, parentheses, a single
space, other white space (newline, tab, ...). -/
inductive Tok where
  | atom (n : Nat)
  | and | or | not | lp | rp | sp | nl
  deriving DecidableEq, Repr

abbrev Text := List Tok

/-- `f'({i})'` (/repo/metrics.py:260) and `'(%s)' % cond` (/repo/sql.py:185). -/
def paren (c : Text) : Text := .lp :: c ++ [.rp]

/-- `' and '.join(...)` / `' AND '.join(...)`. -/
def joinAnd : List Text → Text
  | [] => []
  | [c] => c
  | c :: cs => c ++ [.sp, .and, .sp] ++ joinAnd cs

/-- `Metric.where` (/repo/metrics.py:255-262); `le` is the order `sorted` uses. -/
def pyWhere (le : Text → Text → Bool) (cs : List Text) : Text :=
  if cs.length > 1 then joinAnd ((cs.mergeSort le).map paren) else joinAnd cs

/-- `' OR ' in cond.upper()` (/repo/sql.py:185). -/
def hasSpacedOr : Text → Bool
  | [] => false
  | t :: ts => [Tok.sp, .or, .sp].isPrefixOf (t :: ts) || hasSpacedOr ts

/-- `str(Filter(cond))` (/repo/sql.py:182-185). -/
def sqlFilter (c : Text) : Text := if hasSpacedOr c then paren c else c

/-- `str(Filters(conds))` (/repo/sql.py:188-202); `SqlComponents.add` skips
repeated conditions (/repo/sql.py:148-155). -/
def sqlWhere (le : Text → Text → Bool) (cs : List Text) : Text :=
  joinAnd ((cs.dedup.map sqlFilter).mergeSort le)

/-- A history of `add_where` calls on a metric (/repo/metrics.py:273-279). -/
def addWheres {α : Type} [DecidableEq α] (init : List α) (calls : List (List α)) : List α :=
  calls.foldl addWhere init

end Verif
