import Verif.Lemmas.FiltersB
import Verif.Spec.Example

/-!
# C09, C10, C11: filters on metric trees
-/

namespace Verif

/-- **C09** A metric with `where = ws` gives, on any data, what the same metric
without that filter gives on the rows that satisfy all of `ws`. -/
theorem C09_filter_is_prefilter (env : Env) (m : M) (hm : ∀ q, m ≠ .const q) (ws : List String)
    (f : Frame) (sb : List String) :
    (m.setWhere ws).run env f sb
      = (m.setWhere []).run env
          { f with rows := f.rows.filter (fun r => ws.all (fun w => env.query w r)) } sb := by
  cases m with
  | const q => exact absurd rfl (hm q)
  | _ => simp only [M.setWhere, M.run, query_nil]; rfl

/-- **C09** Nested filters combine by conjunction: the tree computes what it would
compute if each leaf was evaluated on the rows of the original data satisfying
every condition on its path (`M.denote`). -/
theorem C09_nested_filters_conjoin (env : Env) (m : M) (f : Frame) (sb : List String) :
    m.run env f sb = m.denote env [] f sb := by
  rw [← run_denote, query_nil]

/-- **C10** Pushing all filters to the leaves changes no number, leaves filters only
on leaves, and changes nothing else of the tree. -/
theorem C10_push_preserves (env : Env) (m : M) (f : Frame) (sb : List String) :
    (m.push []).run env f sb = m.run env f sb ∧ (m.push []).onlyLeafFilters ∧
      (m.push []).unfiltered = m.unfiltered := by
  refine ⟨?_, push_onlyLeaf m [], push_unfiltered m []⟩
  rw [push_run, query_nil]

/-- **C10** Every leaf ends up with exactly the conditions on its path. -/
theorem C10_push_conditions (m : M) :
    List.Forall₂ (fun x y : Leaf × List String => x.1 = y.1 ∧ ∀ w, w ∈ x.2 ↔ w ∈ y.2)
      ((m.push []).leafConds []) (m.leafConds []) :=
  push_leafConds m []

/-- **C11** Whatever is hoisted to the WHERE of the whole query is among the
conditions of every leaf, so no row a leaf needs is lost: a row that satisfies all
the conditions of some leaf satisfies the hoisted ones. -/
theorem C11_hoisted_is_implied (env : Env) (m : M) (g : List String) (h : m.globalFilter = some g)
    (x : Leaf × List String) (hx : x ∈ m.leafConds []) (r : Row) (hr : holds env x.2 r) :
    holds env g r :=
  fun w hw => hr w (globalFilter_sub m g [] h x hx w hw)

/-- **C11** Hoisted plus local is the original: leaf by leaf, a row satisfies the
path conditions iff it satisfies the hoisted conditions and the condition generated
for that leaf. -/
theorem C11_hoisting_exact (env : Env) (m : M) (g : List String) (h : m.globalFilter = some g) :
    List.Forall₂ (fun x y : Leaf × List String => x.1 = y.1 ∧
        ∀ r, holds env x.2 r ↔ holds env g r ∧ holds env y.2 r)
      (m.leafConds []) (m.localConds g []) := by
  have hh := hoisted_conds g m [] [] (by simp) (by simp)
  apply forall₂_imp_mem hh
  intro x hx y hxy
  refine ⟨hxy.1, fun r => ?_⟩
  have hs := hxy.2 (fun w hw => globalFilter_sub m g [] h x hx w hw)
  unfold holds
  constructor
  · intro hr
    exact ⟨fun w hw => hr w ((hs w).2 (Or.inl hw)), fun w hw => hr w ((hs w).2 (Or.inr hw))⟩
  · rintro ⟨h1, h2⟩ w hw
    rcases (hs w).1 hw with h | h
    · exact h1 w h
    · exact h2 w h

/-! ### Concrete cases -/

/-- A ratio with a filter on the ratio, on the sum and on both leaves. -/
def exFiltered : M :=
  .comp .div (.leaf (.sum "x") ["a", "g == 1"]) (.leaf (.count "x") ["a"]) ["b"]

example : exFiltered.globalFilter = some ["b", "a"] ∧
    exFiltered.localConds ["b", "a"] [] = [(.sum "x", ["g == 1"]), (.count "x", [])] ∧
    exFiltered.leafConds [] = [(.sum "x", ["b", "a", "g == 1"]), (.count "x", ["b", "a"])] ∧
    exFiltered.push [] = .comp .div (.leaf (.sum "x") ["a", "g == 1", "b"])
      (.leaf (.count "x") ["a", "b"]) [] ∧
    exFiltered.run exEnv exFrame [] = .ok (.tbl [] [[([], .fin (9/4))]]) := by
  refine ⟨rfl, by decide +kernel, rfl, ?_, by decide +kernel⟩
  simp [exFiltered, M.push, addWhere]

end Verif
