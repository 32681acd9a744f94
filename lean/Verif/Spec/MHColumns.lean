import Verif.Model.MHColumns
import Verif.Spec.Comparison
import Verif.Spec.SqlAlias

/-!
# Specification for C82
-/

namespace Verif

section
variable {S D G K : Type} [DecidableEq S] [DecidableEq D] [DecidableEq G] [Field K]

/-- The numbers MH is about: for each group of a ratio its own numerator and its own denominator, each computed under
the filters of `MH`, of the list, of the ratio and its own. -/
def ownPairs (val : MHLeaf → List String → S × D × G → Option K) (keys : MHRatio → List (S × D × G))
    (mhWh listWh : List String) (r : MHRatio) : MHTab S D G K :=
  (keys r).map fun k =>
    (k, (val r.numer (mhWh ++ (listWh ++ (r.wh ++ r.numer.wh))) k,
         val r.denom (mhWh ++ (listWh ++ (r.wh ++ r.denom.wh))) k))

end

/-- The name `a` refers to the aggregation of `l`, and to nothing else, under exactly the conditions that were set for
it somewhere (`own`, `loc`) and are not applied to the whole query already. -/
def RefersTo (raw : List SCol) (glob loc own : List String) (l : MHLeaf) (a : Option Txt) : Prop :=
  ∃ conds : List String, (∀ w, w ∈ conds ↔ (w ∈ own ∨ w ∈ loc) ∧ w ∉ glob) ∧
    SelectedAs raw (l.expr conds) a ∧ ∀ d ∈ raw, d.alias = some a → d.expr = l.expr conds

/-- The columns of all the numerators and denominators of the child before any renaming. -/
def mhLeafCols (glob loc : List String) (c : MHChild) : List SCol :=
  c.ratios.flatMap fun r => [mhLeafCol glob (localFilter r.wh loc glob) r.numer,
    mhLeafCol glob (localFilter r.wh loc glob) r.denom]

/-- No two different aggregations have the same name as a column. -/
def NoConflict (cols : List SCol) : Prop :=
  (∀ c ∈ cols, c.named ∧ c.suffix = 0 ∧ c.alias ≠ none) ∧
    ∀ c ∈ cols, ∀ d ∈ cols, c.alias = d.alias → c.expr = d.expr

end Verif
