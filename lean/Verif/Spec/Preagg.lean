import Verif.Model.Preagg
import Verif.Spec.MixedMode

/-!
# When the preaggregated data stand for the rows
-/

namespace Verif

/-- No row lacks a value in the columns. -/
def Frame.completeIn (f : Frame) (cs : List String) : Prop := ∀ r ∈ f.rows, ∀ c ∈ cs, r c ≠ none

/-- The new columns do not take the names of the index columns, and two of them have one name only if they are the same aggregation of
the same rows. -/
def namesFit (env : Env) (ν : PreNaming) (all : List String) (leaves : List (Leaf × List String)) : Prop :=
  (∀ l ∈ leaves, ν l.1 l.2 ∉ all) ∧
  ∀ l ∈ leaves, ∀ l' ∈ leaves, ν l.1 l.2 = ν l'.1 l'.2 → l.1 = l'.1 ∧ ∀ r, holds env l.2 r ↔ holds env l'.2 r

/-- Wherever an aggregation is reached, each slice of the table still has a row that passes the filters on the way. -/
def NoSliceEmptied (env : Env) (m : M) (f : Frame) (sb : List String) : Prop :=
  ∀ k wh f' sb', Reach env m f sb (.leaf k wh) f' sb' → ∀ v ∈ groupKeys sb' f.rows, v ∈ groupKeys sb' (f'.query env wh).rows

/-- The names tell sums and counts from maxima and minima by their first letters. -/
def namesTell (ν : PreNaming) (leaves : List (Leaf × List String)) : Prop :=
  ∀ l ∈ leaves, (isSumOrCount (ν l.1 l.2) = true ↔ ∃ v, l.1 = .sum v ∨ l.1 = .count v)

end Verif
