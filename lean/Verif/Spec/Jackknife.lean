import Verif.Model.Jackknife

/-!
# What a leave-one-out table should hold
-/

namespace Verif

section
variable {S U O C F K : Type} [DecidableEq S] [DecidableEq U] [DecidableEq O] [Field K]

/-- Unit `u` has a row in slice `s`. -/
def UnitIn (t : List (JRow S U O C F K)) (s : S) (u : U) : Prop := ∃ r ∈ t, r.s = s ∧ r.u = u

/-- Slice `(s, o)` still has a row after leaving out `u`. -/
def Remains (t : List (JRow S U O C F K)) (s : S) (u : U) (o : O) : Prop := ∃ r ∈ t, r.s = s ∧ r.o = o ∧ r.u ≠ u

/-- ... a row that the filter keeps. -/
def RemainsF (f : F) (t : List (JRow S U O C F K)) (s : S) (u : U) (o : O) : Prop :=
  ∃ r ∈ t, r.s = s ∧ r.o = o ∧ r.u ≠ u ∧ r.pass f = true

/-- What a row adds to a sum or a count. -/
def JLeaf.adds (L : JLeaf C F) (r : JRow S U O C F K) : K :=
  match r.col L.col with
  | none => 0
  | some x => if L.isCount then 1 else x

/-- The sum or count over the filtered rows of slice `(s, o)` without unit `u`. -/
def looSpec (L : JLeaf C F) (t : List (JRow S U O C F K)) (s : S) (u : U) (o : O) : K :=
  ((t.filter fun r => r.pass L.flt && decide (r.s = s) && decide (r.o = o) && decide (r.u ≠ u)).map L.adds).sum

/-- The same for slice `s`, whatever the other columns. -/
def looSpecS (L : JLeaf C F) (t : List (JRow S U O C F K)) (s : S) (u : U) : K :=
  ((t.filter fun r => r.pass L.flt && decide (r.s = s) && decide (r.u ≠ u)).map L.adds).sum

/-- The same on all the data. -/
def looSpecU (L : JLeaf C F) (t : List (JRow S U O C F K)) (u : U) : K :=
  ((t.filter fun r => r.pass L.flt && decide (r.u ≠ u)).map L.adds).sum

end

end Verif
