import Verif.Spec.OtherColumns

/-!
# C108: columns that a metric does not name do not matter

/repo/metrics.py:478-483, 541-578, 1125-1152, 1427-1509, 1730-1904, /repo/operations.py:128-154.
-/

namespace Verif

theorem filterMap_same {β : Type} {S : String → Prop} {g : Row → Option β} (hg : ∀ r r', RowSameIn S r r' → g r = g r') {rs rs' : List Row}
    (h : List.Forall₂ (RowSameIn S) rs rs') : rs.filterMap g = rs'.filterMap g := by
  induction h with
  | nil => rfl
  | cons hr _ ih => rw [List.filterMap_cons, List.filterMap_cons, hg _ _ hr, ih]

theorem filter_same {S : String → Prop} {p : Row → Bool} (hp : ∀ r r', RowSameIn S r r' → p r = p r') {rs rs' : List Row}
    (h : List.Forall₂ (RowSameIn S) rs rs') : List.Forall₂ (RowSameIn S) (rs.filter p) (rs'.filter p) := by
  induction h with
  | nil => exact .nil
  | @cons r r' rs rs' hr _ ih =>
    rw [List.filter_cons, List.filter_cons, hp _ _ hr]
    split
    · exact .cons hr ih
    · exact ih

theorem query_same {env : Env} {S : String → Prop} {wh : List String} (hw : FiltersIn env S wh) {f f' : Frame} (h : f.SameIn S f') :
    (f.query env wh).SameIn S (f'.query env wh) := by
  refine ⟨h.cols, filter_same (fun r r' hr => ?_) h.rows⟩
  rw [Bool.eq_iff_iff, List.all_eq_true, List.all_eq_true]
  exact forall₂_congr fun w hmem => by rw [hw w hmem r r' hr]

theorem keyOf_same {S : String → Prop} {sb : List String} (hsb : ∀ v ∈ sb, S v) (r r' : Row) (h : RowSameIn S r r') : keyOf sb r = keyOf sb r' := by
  unfold keyOf
  induction sb with
  | nil => rfl
  | cons v sb ih => rw [List.mapM_cons, List.mapM_cons, h v (hsb v (by simp)), ih fun v hv => hsb v (by simp [hv])]

theorem agg_same {S : String → Prop} {k : Leaf} (hk : ∀ v ∈ k.vars, S v) {rs rs' : List Row} (h : List.Forall₂ (RowSameIn S) rs rs') :
    k.agg rs = k.agg rs' := by
  have hv : ∀ v, S v → vals v rs = vals v rs' := fun v hv => filterMap_same (fun r r' hr => hr v hv) h
  have hp : ∀ v w, S v → S w → prods v w rs = prods v w rs' := fun v w hv hw =>
    filterMap_same (fun r r' hr => by rw [hr v hv, hr w hw]) h
  cases k <;> simp only [Leaf.vars, List.mem_cons, List.not_mem_nil, or_false, forall_eq_or_imp, forall_eq] at hk <;>
    simp only [Leaf.agg] <;>
    first
      | rw [hv _ hk]
      | rw [hp _ _ hk.1 hk.2, hv _ hk.2]
      | rw [hp _ _ hk.1 hk.2]

theorem leaf_same {S : String → Prop} {k : Leaf} (hk : ∀ v ∈ k.vars, S v) {f f' : Frame} (h : f.SameIn S f') {sb : List String}
    (hsb : ∀ v ∈ sb, S v) : k.run f sb = k.run f' sb := by
  have hc : (k.vars ++ sb).all (fun c => f.cols.contains c) = (k.vars ++ sb).all (fun c => f'.cols.contains c) := by
    rw [Bool.eq_iff_iff, List.all_eq_true, List.all_eq_true]
    refine forall₂_congr fun v hv => ?_
    have : S v := by
      rcases List.mem_append.1 hv with hv | hv
      · exact hk v hv
      · exact hsb v hv
    simpa using h.cols v this
  have hg : groupKeys sb f.rows = groupKeys sb f'.rows := by
    unfold groupKeys
    rw [filterMap_same (keyOf_same hsb) h.rows]
  have hr : ∀ key, k.agg (rowsAt sb key f.rows) = k.agg (rowsAt sb key f'.rows) := fun key =>
    agg_same hk (filter_same (fun r r' hr => by rw [keyOf_same hsb r r' hr]) h.rows)
  unfold Leaf.run
  rw [hc, hg]
  simp only [hr]

private theorem runAll_same {env : Env} {f f' : Frame} {sb : List String} : ∀ ms : List M,
    (∀ m ∈ ms, m.run env f sb = m.run env f' sb) → runAll env ms f sb = runAll env ms f' sb
  | [], _ => rfl
  | m :: ms, h => by
    rw [runAll, runAll, h m (by simp), runAll_same ms fun m hm => h m (by simp [hm])]

/-- **C108.** If two tables are the same in all columns that the metric and `split_by` name, the results are the same, errors included:
other columns may be added, dropped or changed. -/
theorem C108_other_columns (env : Env) (S : String → Prop) (m : M) (hm : NamesOnly env S m) (f f' : Frame) (h : f.SameIn S f')
    (sb : List String) (hsb : ∀ v ∈ sb, S v) : m.run env f sb = m.run env f' sb := by
  induction hm generalizing f f' sb with
  | const q => rfl
  | leaf hk hw => rw [M.run, M.run]; exact leaf_same hk (query_same hw h) hsb
  | comp _ _ hw ihl ihr =>
    rw [M.run, M.run, ihl _ _ (query_same hw h) sb hsb, ihr _ _ (query_same hw h) sb hsb]
  | list _ hw ih =>
    rw [M.run, M.run, runAll_same _ fun m hm => ih m hm _ _ (query_same hw h) sb hsb]
  | @oper o m wh _ ho hw ih =>
    rw [M.run, M.run, ih _ _ (query_same hw h) (sb ++ o.splitBy) fun v hv => ?_]
    rcases List.mem_append.1 hv with hv | hv
    · exact hsb v hv
    · exact ho v hv

/-- The share of the mean of `x` over `g` where `g` is not 2. -/
private def exShare : M := .oper (.dist ["g"]) (.leaf (.mean "x") ["g != 2"]) []

/-- A filter that reads the column `g` only. -/
private def exReads : Env where
  query := fun _ r => decide (r "g" ≠ some 2)
  pow := fun _ _ => .nan

/-- With a third column or without. -/
private def exWide (wide : Bool) : Frame where
  cols := if wide then ["x", "g", "note"] else ["x", "g"]
  rows := [(3, 1), (5, 0)].map fun p v => if v = "x" then some p.1 else if v = "g" then some p.2 else if wide then some 7 else none

example : NamesOnly exReads (fun v => v = "x" ∨ v = "g") exShare ∧ (exWide true).SameIn (fun v => v = "x" ∨ v = "g") (exWide false) := by
  refine ⟨?_, ?_, ?_⟩
  · refine .oper (.leaf ?_ ?_) ?_ ?_
    · simp [Leaf.vars]
    · intro w _ r r' h
      show decide (r "g" ≠ some 2) = decide (r' "g" ≠ some 2)
      rw [h "g" (Or.inr rfl)]
    · simp [Oper.splitBy]
    · intro w h; cases h
  · rintro v (rfl | rfl) <;> simp [exWide]
  · refine .cons ?_ (.cons ?_ .nil) <;> rintro v (rfl | rfl) <;> simp

end Verif
