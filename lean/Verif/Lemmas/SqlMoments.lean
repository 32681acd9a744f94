import Verif.Spec.SqlMoments
import Verif.Lemmas.ExpandTree
import Verif.Lemmas.ExpandCov
import Mathlib.Tactic.Linarith
import Mathlib.Tactic.Ring
import Mathlib.Tactic.FieldSimp

/-! # Lemmas for C77 -/

namespace Verif

/-! ## Lists of numbers -/

theorem sum_cross (ps : List (ℝ × ℝ)) (a b : ℝ) :
    (ps.map fun p => (p.1 - a) * (p.2 - b)).sum
      = (ps.map fun p => p.1 * p.2).sum - a * (ps.map fun p => p.2).sum
        - b * (ps.map fun p => p.1).sum + ps.length * (a * b) := by
  induction ps with
  | nil => simp
  | cons p ps ih =>
    simp only [List.map_cons, List.sum_cons, ih, List.length_cons]
    push_cast
    ring

theorem sum_sq (xs : List ℝ) (a : ℝ) :
    (xs.map fun x => (x - a) ^ 2).sum
      = (xs.map fun x => x * x).sum - 2 * a * xs.sum + xs.length * (a * a) := by
  induction xs with
  | nil => simp
  | cons x xs ih =>
    simp only [List.map_cons, List.sum_cons, ih, List.length_cons]
    push_cast
    ring

theorem sum_sq_mean (xs : List ℝ) (h : xs ≠ []) :
    (xs.map fun x => (x - xs.sum / xs.length) ^ 2).sum
      = (xs.map fun x => x * x).sum - xs.sum * xs.sum / xs.length := by
  rw [sum_sq]
  have : (xs.length : ℝ) ≠ 0 := by simpa using h
  field_simp
  ring

theorem pdVar_pop (xs : List ℝ) : pdVar 0 xs = Agg1.varPop.eval xs := by
  unfold pdVar Agg1.eval
  by_cases h : xs = []
  · simp [h]
  · rw [if_neg (by simpa using h)]
    simp only [h, if_false, sum_sq_mean xs h]
    simp

theorem pdVar_samp (xs : List ℝ) : pdVar 1 xs = Agg1.varSamp.eval xs := by
  unfold pdVar Agg1.eval
  by_cases h : xs.length ≤ 1
  · simp [h]
  · rw [if_neg h]
    have h0 : xs ≠ [] := by rintro rfl; simp at h
    simp only [h, if_false, sum_sq_mean xs h0]
    simp

theorem pdSd_pop (xs : List ℝ) : (pdVar 0 xs).map Real.sqrt = Agg1.stddevPop.eval xs := by
  rw [pdVar_pop]
  unfold Agg1.eval
  by_cases h : xs = [] <;> simp [h]

theorem pdSd_samp (xs : List ℝ) : (pdVar 1 xs).map Real.sqrt = Agg1.stddevSamp.eval xs := by
  rw [pdVar_samp]
  unfold Agg1.eval
  by_cases h : xs.length ≤ 1 <;> simp [h]

theorem pdMean_avg (xs : List ℝ) : pdMean xs = Agg1.avg.eval xs := by
  unfold pdMean Agg1.eval
  by_cases h : xs = [] <;> simp [h]

theorem pdCorr_corr (ps : List (ℝ × ℝ)) : pdCorr ps = Agg2.corr.eval ps := by
  unfold pdCorr Agg2.eval
  simp only
  by_cases h : ps = []
  · simp [h]
  have hN : (0 : ℝ) < ps.length := by
    have := List.length_pos_iff.2 h
    exact_mod_cast this
  set N : ℝ := (ps.length : ℝ) with hNdef
  set Sx := (ps.map fun p => p.1).sum with hSx
  set Sy := (ps.map fun p => p.2).sum with hSy
  set Sxy := (ps.map fun p => p.1 * p.2).sum with hSxy
  set Sxx := (ps.map fun p => p.1 * p.1).sum with hSxx
  set Syy := (ps.map fun p => p.2 * p.2).sum with hSyy
  have exy : (ps.map fun p => (p.1 - Sx / N) * (p.2 - Sy / N)).sum = (N * Sxy - Sx * Sy) / N := by
    rw [sum_cross]
    simp only [← hSx, ← hSy, ← hSxy, ← hNdef]
    field_simp
    ring
  have exx : (ps.map fun p => (p.1 - Sx / N) * (p.1 - Sx / N)).sum = (N * Sxx - Sx * Sx) / N := by
    have := sum_cross (ps.map fun p => (p.1, p.1)) (Sx / N) (Sx / N)
    simp only [List.map_map, Function.comp_def, List.length_map] at this
    rw [this]
    simp only [← hSx, ← hSxx, ← hNdef]
    field_simp
    ring
  have eyy : (ps.map fun p => (p.2 - Sy / N) * (p.2 - Sy / N)).sum = (N * Syy - Sy * Sy) / N := by
    have := sum_cross (ps.map fun p => (p.2, p.2)) (Sy / N) (Sy / N)
    simp only [List.map_map, Function.comp_def, List.length_map] at this
    rw [this]
    simp only [← hSy, ← hSyy, ← hNdef]
    field_simp
    ring
  have nx : 0 ≤ (N * Sxx - Sx * Sx) / N := by
    rw [← exx]
    apply List.sum_nonneg
    simp only [List.mem_map]
    rintro _ ⟨p, _, rfl⟩
    exact mul_self_nonneg _
  have ny : 0 ≤ (N * Syy - Sy * Sy) / N := by
    rw [← eyy]
    apply List.sum_nonneg
    simp only [List.mem_map]
    rintro _ ⟨p, _, rfl⟩
    exact mul_self_nonneg _
  rw [exx, eyy, exy]
  have hs : Real.sqrt ((N * Sxx - Sx * Sx) / N * ((N * Syy - Sy * Sy) / N))
      = Real.sqrt ((N * Sxx - Sx * Sx) * (N * Syy - Sy * Sy)) / N := by
    rw [show (N * Sxx - Sx * Sx) / N * ((N * Syy - Sy * Sy) / N)
      = ((N * Sxx - Sx * Sx) * (N * Syy - Sy * Sy)) / N ^ 2 by field_simp]
    rw [Real.sqrt_div' _ (by positivity), Real.sqrt_sq hN.le]
  have hx : 0 ≤ N * Sxx - Sx * Sx := by
    rcases div_nonneg_iff.1 nx with h1 | h1
    · exact h1.1
    · exact absurd h1.2 (not_le.2 hN)
  have hy : 0 ≤ N * Syy - Sy * Sy := by
    rcases div_nonneg_iff.1 ny with h1 | h1
    · exact h1.1
    · exact absurd h1.2 (not_le.2 hN)
  rw [hs]
  have hiff : Real.sqrt ((N * Sxx - Sx * Sx) * (N * Syy - Sy * Sy)) / N = 0
      ↔ (N * Sxx - Sx * Sx = 0 ∨ N * Syy - Sy * Sy = 0) := by
    rw [div_eq_zero_iff, Real.sqrt_eq_zero (mul_nonneg hx hy), mul_eq_zero]
    constructor
    · rintro (h1 | h1)
      · exact h1
      · exact absurd h1 hN.ne'
    · exact Or.inl
  by_cases hz : N * Sxx - Sx * Sx = 0 ∨ N * Syy - Sy * Sy = 0
  · rw [if_pos (hiff.2 hz), if_pos hz]
  · rw [if_neg (fun h1 => hz (hiff.1 h1)), if_neg hz]
    congr 1
    field_simp

/-! ## Rows -/

theorem keepRows_keepRows (sem : ESem) (a b : List Nat) (rs : List RRow) :
    keepRows sem a (keepRows sem b rs) = keepRows sem (a ++ b) rs := by
  simp only [keepRows, List.filter_filter, List.all_append]

theorem mem_keepRows {sem : ESem} {wh : List Nat} {rs : List RRow} {r : RRow} :
    r ∈ keepRows sem wh rs ↔ r ∈ rs ∧ ∀ i ∈ wh, sem.cond i r = true := by
  simp [keepRows]

theorem keepRows_idem (sem : ESem) (a : List Nat) (rs : List RRow) :
    keepRows sem a (keepRows sem a rs) = keepRows sem a rs := by
  simp only [keepRows, List.filter_filter, Bool.and_self]

/-- WHERE and the filter inside the aggregate are together the filter. -/
theorem where_and_if (sem : ESem) (glob flt path : List Nat) (hg : ∀ g ∈ glob, g ∈ path)
    (h1 : ∀ i ∈ flt, i ∈ path) (h2 : ∀ i ∈ path, i ∈ flt ∨ i ∈ glob) {α : Type}
    (f : RRow → Option α) (rs : List RRow) :
    ((keepRows sem glob rs).filterMap fun r => if flt.all fun i => sem.cond i r then f r else none)
      = (keepRows sem path rs).filterMap f := by
  unfold keepRows
  rw [List.filterMap_filter, List.filterMap_filter]
  apply List.filterMap_congr
  intro r _
  by_cases hp : path.all fun i => sem.cond i r
  · rw [if_pos hp]
    rw [List.all_eq_true] at hp
    rw [if_pos (List.all_eq_true.2 fun g hgm => hp g (hg g hgm)),
      if_pos (List.all_eq_true.2 fun i hi => hp i (h1 i hi))]
  · rw [if_neg hp]
    by_cases hgl : glob.all fun i => sem.cond i r
    · rw [if_pos hgl, if_neg]
      intro hf
      apply hp
      rw [List.all_eq_true] at hgl hf ⊢
      intro i hi
      rcases h2 i hi with h | h
      · exact hf i h
      · exact hgl i h
    · rw [if_neg hgl]

/-! ## Fully expanded trees -/

theorem atLeaves_setTop (sem : ESem) (P) (k : SLeaf) (e : ET) (he : k.equiv = some e)
    (n : Option String) (wh : List Nat) (rs : List RRow)
    (h : e.AtLeaves sem P (keepRows sem wh rs)) : (e.setTop n wh).AtLeaves sem P rs := by
  rcases equiv_shape k e he with ⟨k', rfl⟩ | ⟨op, l, r, rfl⟩
  · simpa [ET.setTop, ET.AtLeaves] using h
  · simpa [ET.setTop, ET.AtLeaves] using h

theorem complete_covEquiv (sem : ESem) (v w : ECol) (bias : Bool) (ddof : Option ℤ)
    (wt fw : Option ECol) (rs : List RRow) (h : (SLeaf.cov v w bias ddof wt fw).someComplete rs) :
    (covEquiv v w bias ddof wt fw).AtLeaves sem SLeaf.someComplete rs := by
  obtain ⟨r, hr, h⟩ := h
  have key : ∀ k : SLeaf, (∀ c ∈ k.cols, (c.eval r).isSome) → k.someComplete rs :=
    fun k hk => ⟨r, hr, hk⟩
  have hm : ∀ a b : ECol, (a.eval r).isSome → (b.eval r).isSome → ((ECol.mul a b).eval r).isSome := by
    intro a b ha hb
    obtain ⟨x, hx⟩ := Option.isSome_iff_exists.1 ha
    obtain ⟨y, hy⟩ := Option.isSome_iff_exists.1 hb
    simp [ECol.eval, hx, hy]
  unfold covEquiv
  cases wt <;> cases fw <;> simp only [SLeaf.cols, Option.toList, List.mem_cons, List.not_mem_nil,
    or_false, forall_eq_or_imp, forall_eq, List.append_nil, List.nil_append, List.mem_append] at h <;>
    simp only <;> split <;>
    simp only [ET.AtLeaves, sqrtSq, keepRows_nil, and_true, true_and] <;>
    (repeat' apply And.intro) <;> apply key <;>
    simp [SLeaf.cols] <;> simp_all

theorem complete_equiv (sem : ESem) (k : SLeaf) (e : ET) (he : k.equiv = some e) (rs : List RRow)
    (h : k.someComplete rs) : e.AtLeaves sem SLeaf.someComplete rs := by
  have hm : ∀ (r : RRow) (a b : ECol), (a.eval r).isSome → (b.eval r).isSome →
      ((ECol.mul a b).eval r).isSome := by
    intro r a b ha hb
    obtain ⟨x, hx⟩ := Option.isSome_iff_exists.1 ha
    obtain ⟨y, hy⟩ := Option.isSome_iff_exists.1 hb
    simp [ECol.eval, hx, hy]
  have hs : ∀ (r : RRow) (a : ECol), (a.eval r).isSome → ((ECol.sq a).eval r).isSome := by
    intro r a ha
    obtain ⟨x, hx⟩ := Option.isSome_iff_exists.1 ha
    simp [ECol.eval, hx]
  have hcov := complete_covEquiv sem
  obtain ⟨r, hr, h⟩ := h
  have key : ∀ k : SLeaf, (∀ c ∈ k.cols, (c.eval r).isSome) → k.someComplete rs :=
    fun k hk => ⟨r, hr, hk⟩
  cases k with
  | cov v w b d wt fw =>
    cases he
    exact hcov v w b d wt fw rs ⟨r, hr, h⟩
  | dot v w n =>
    cases n <;> cases he <;> simp only [ET.AtLeaves, keepRows_nil] <;> (repeat' apply And.intro) <;>
      apply key <;> simp_all [SLeaf.cols]
  | mean v w =>
    cases w <;> cases he <;> simp only [ET.AtLeaves, keepRows_nil] <;> (repeat' apply And.intro) <;>
      apply key <;> simp_all [SLeaf.cols]
  | variance v u w =>
    cases w <;> cases he <;> cases u <;>
      simp only [ET.AtLeaves, keepRows_nil, sqrtSq, and_true, true_and, if_true, if_false,
        Bool.false_eq_true] <;>
      (repeat' apply And.intro) <;> apply key <;> simp_all [SLeaf.cols]
  | sd v u w =>
    cases w <;> cases he <;> simp only [ET.AtLeaves, keepRows_nil, and_true] <;>
      apply key <;> simp_all [SLeaf.cols]
  | cv v u =>
    cases he <;> simp only [ET.AtLeaves, keepRows_nil] <;> constructor <;>
      apply key <;> simp_all [SLeaf.cols]
  | corr v w wt =>
    cases wt <;> cases he <;> simp only [ET.AtLeaves, keepRows_nil] <;>
      (repeat' apply And.intro) <;>
      apply key <;> simp_all [SLeaf.cols]
  | _ => cases he

theorem complete_step (sem : ESem) : ∀ (t : ET) (rs : List RRow),
    t.AtLeaves sem SLeaf.someComplete rs → t.step.AtLeaves sem SLeaf.someComplete rs
  | .const _, _, _ => trivial
  | .leaf k n wh, rs, h => by
      rw [ET.step]
      cases he : k.equiv with
      | none => exact h
      | some e => exact atLeaves_setTop sem _ k e he n wh rs (complete_equiv sem k e he _ h)
  | .comp op l r n wh, rs, h => by
      simp only [ET.step, ET.AtLeaves] at h ⊢
      exact ⟨complete_step sem l _ h.1, complete_step sem r _ h.2⟩
  | .node _ _ _ _, _, _ => by simp only [ET.step, ET.AtLeaves]

theorem fits_of_complete (k : SLeaf) (rs : List RRow) (he : k.elementary) (h : k.someComplete rs) :
    k.fits rs := by
  cases k <;> simp_all [SLeaf.fits, SLeaf.elementary]

theorem atLeaves_mono (sem : ESem) {P Q : SLeaf → List RRow → Prop} : ∀ (t : ET) (rs : List RRow),
    (∀ k ∈ t.leaves, ∀ rs, P k rs → Q k rs) → t.AtLeaves sem P rs → t.AtLeaves sem Q rs
  | .const _, _, _, _ => trivial
  | .leaf k n wh, rs, hk, h => hk k (by simp [ET.leaves]) _ h
  | .comp op l r n wh, rs, hk, h => by
      simp only [ET.AtLeaves] at h ⊢
      exact ⟨atLeaves_mono sem l _ (fun k hm => hk k (by simp [ET.leaves, hm])) h.1,
        atLeaves_mono sem r _ (fun k hm => hk k (by simp [ET.leaves, hm])) h.2⟩
  | .node _ _ _ _, _, _, _ => trivial

/-- On a fully expanded tree `compute_on` is the evaluation by elementary metrics. -/
theorem dfVal_elem (sem : ESem) {t : ET} {rs : List RRow} {o : Option ℝ} (h : DfVal sem t rs o) :
    (∀ k ∈ t.leaves, k.elementary) → o = t.val sem (fun k => k.elemVal sem) rs := by
  induction h with
  | const q rs => intro _; simp [ET.val]
  | native k n wh rs f hf =>
    intro he
    have := he k (by simp [ET.leaves])
    cases k <;> simp only [SLeaf.elementary] at this <;> simp only [SLeaf.pandas] at hf <;>
      first | cases hf; rfl | cases hf
  | equivalent k n wh rs m res o hk hexp _ ih =>
    intro he
    have := he k (by simp [ET.leaves])
    cases k with
    | other i =>
      -- an unknown leaf is never computed this way: the tree is its own expansion
      have hfix : Expands (.leaf (.other i) n wh) 0 (.leaf (.other i) n wh) := by
        have hs : (ET.leaf (.other i) n wh).step = .leaf (.other i) n wh := by
          simp [ET.step, SLeaf.equiv]
        unfold Expands
        rw [hs]
        exact .stop _
      have hr := (loop_unique hexp hfix).2
      subst hr
      rw [ih he]
      simp only [ET.val, keepRows_idem]
    | _ => simp_all [SLeaf.elementary, SLeaf.pandas]
  | comp op l r n wh rs a b _ _ iha ihb =>
    intro he
    rw [iha fun k hk => he k (by simp [ET.leaves, hk]), ihb fun k hk => he k (by simp [ET.leaves, hk])]
    simp [ET.val]

end Verif
