import Verif.Model.Metric

/-!
# Specification vocabulary for slicing (C08)
-/

namespace Verif

/-- Side conditions under which the slice `v` of the split result is compared
with the result on the slice's rows; `ex` are the extra split columns that
operations above have added.

* an aggregation that is computed without extra split columns must have at least
  one row of the slice left after the filters (otherwise the slice is absent
  from the split result, while computing on no rows gives e.g. 0);
* the same for the shares under HHI;
* a metric of a list must not fail on the slice alone while succeeding on the
  whole data. -/
def SliceCovered (env : Env) (sb : List String) (v : Key) : M → Frame → List String → Prop
  | .const _, _, _ => True
  | .leaf _ wh, f, ex => ex ≠ [] ∨ v ∈ groupKeys sb (f.query env wh).rows
  | .comp _ l r wh, f, ex =>
      SliceCovered env sb v l (f.query env wh) ex ∧ SliceCovered env sb v r (f.query env wh) ex
  | .list ms wh, f, ex => ∀ m ∈ ms,
      SliceCovered env sb v m (f.query env wh) ex ∧
      ((∃ r, m.run env ((f.query env wh).slice sb v) ex = .ok r) ∨
        ((∃ e, m.run env ((f.query env wh).slice sb v) ex = .error e) ∧
          ∃ e, m.run env (f.query env wh) (sb ++ ex) = .error e))
  | .oper o c wh, f, ex =>
      SliceCovered env sb v c (f.query env wh) (ex ++ o.splitBy) ∧
      ∀ over, o = .hhi over → ex = [] →
        ∀ ex' cs, c.run env ((f.query env wh).slice sb v) (ex ++ o.splitBy) = .ok (.tbl ex' cs) →
          ∀ t ∈ cs, t ≠ []

/-- No filter anywhere, no list and no HHI in the tree. -/
def M.plain : M → Prop
  | .const _ => True
  | .leaf _ wh => wh = []
  | .comp _ l r wh => wh = [] ∧ l.plain ∧ r.plain
  | .list _ _ => False
  | .oper o c wh => wh = [] ∧ (∀ over, o ≠ .hhi over) ∧ c.plain

end Verif
