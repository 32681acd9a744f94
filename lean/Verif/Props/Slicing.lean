import Verif.Lemmas.SliceRun
import Verif.Spec.Example

/-!
# C08: splitting commutes with computing
-/

namespace Verif

/-- **C08** (partial: the side conditions of `SliceCovered` are needed, see
`C08_filtered_slice_violation`). If computing on the rows of slice `v` alone
succeeds with result `r`, then computing on everything with `split_by` succeeds,
and its part at slice `v` is `r`: same index values, same numbers, same columns. -/
theorem C08_split_commutes_partial (env : Env) (m : M) (f : Frame) (sb : List String) (v : Key)
    (hsb : sb ≠ []) (hcols : ∀ c ∈ sb, c ∈ f.cols) (hv : v.length = sb.length)
    (hcov : SliceCovered env sb v m f []) {r : Res}
    (h : m.run env (f.slice sb v) [] = .ok r) :
    ∃ R, m.run env f sb = .ok R ∧ R.at v = r := by
  have := run_slice_aux env sb v hv hsb m f [] hcols hcov r h
  simpa using this

/-- **C08** for trees without filters, lists and HHI: no side condition but that the
slice occurs in the data. -/
theorem C08_split_commutes_plain (env : Env) (m : M) (f : Frame) (sb : List String) (v : Key)
    (hsb : sb ≠ []) (hcols : ∀ c ∈ sb, c ∈ f.cols) (hm : m.plain)
    (hv : v ∈ groupKeys sb f.rows) {r : Res} (h : m.run env (f.slice sb v) [] = .ok r) :
    ∃ R, m.run env f sb = .ok R ∧ R.at v = r := by
  have hlen : v.length = sb.length := by
    unfold groupKeys at hv
    rw [if_neg hsb, List.mem_dedup, List.mem_filterMap] at hv
    obtain ⟨x, _, hx⟩ := hv
    exact keyOf_length hx
  exact C08_split_commutes_partial env m f sb v hsb hcols hlen
    (plain_covered env sb v m f [] hm hv) h

/-- **C08** slices: every index value of a split result begins with values of the
`split_by` columns that occur together in some row. -/
theorem C08_slices_occur (env : Env) (m : M) (f : Frame) (sb : List String) (hsb : sb ≠ [])
    {ex : List String} {cs : List Tbl} (h : m.run env f sb = .ok (.tbl ex cs)) :
    ∀ t ∈ cs, ∀ p ∈ t, ∃ r ∈ f.rows, keyOf sb r = some (p.1.take sb.length) := by
  intro t ht p hp
  have := run_keysIn env sb hsb m f [] (.tbl ex cs) (by simpa using h) t ht p hp
  unfold groupKeys at this
  rw [if_neg hsb, List.mem_dedup, List.mem_filterMap] at this
  exact this

/-! ### Concrete cases -/

/-- The hypotheses of `C08_split_commutes_plain` are met by the percent change of
`sum(x) / count(x)` split by `g`, at slice `g = 1`. -/
example : ∃ R, M.run exEnv (.oper (.pctChange ["c"] [0] false)
      (.comp .div (.leaf (.sum "x") []) (.leaf (.count "x") []) []) []) exFrame ["g"] = .ok R ∧
    R.at [1] = .tbl ["c"] [[([1], .fin 25)]] :=
  C08_split_commutes_plain exEnv _ exFrame ["g"] [1] (by decide +kernel) (by decide +kernel)
    (by simp [M.plain]) (by decide +kernel) (by decide +kernel)

/-- **C08 is violated** when a filter leaves no row of a slice: on the rows of slice
`g = 0` alone, `Sum(x) - Sum(x, where='g == 1')` is `3`, but in the split result
slice `g = 0` is NaN. -/
theorem C08_filtered_slice_violation :
    let m : M := .comp .sub (.leaf (.sum "x") []) (.leaf (.sum "x") ["g == 1"]) []
    [0] ∈ groupKeys ["g"] exFrame.rows ∧
    m.run exEnv (exFrame.slice ["g"] [0]) [] = .ok (.tbl [] [[([], .fin 3)]]) ∧
    ∃ R, m.run exEnv exFrame ["g"] = .ok R ∧ R.at [0] = .tbl [] [[([], .nan)]] := by
  refine ⟨by decide +kernel, by decide +kernel, _, rfl, by decide +kernel⟩

end Verif
