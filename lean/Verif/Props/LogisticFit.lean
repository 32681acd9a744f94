import Verif.Lemmas.LogisticDeriv
import Verif.Props.Logistic
import Mathlib.Algebra.BigOperators.Field
import Mathlib.Analysis.Calculus.LocalExtr.Basic

/-!
# C52: the logistic formulas are exact, and C61: what a resting point is

/repo/models.py:1031-1407.
-/

namespace Verif

open Finset

/-- **C52.** `sig_minus_b` is the logistic function minus `b`, on both of its branches. -/
theorem C52_sig_minus_b (z b : ℝ) : sigMinusB z b = logistic z - b := sigMinusB_eq z b

/-- **C52.** The curvature weight is the logistic function times its complement. -/
theorem C52_weight (z : ℝ) : sigW z = logistic z * (1 - logistic z) := sigW_eq z

/-- The strength of the `l2` penalty in the objective. -/
noncomputable def LogitCfg.strength (m : LogitCfg) : ℝ := match m.l2C with
  | some C => 1 / C
  | none => 0

/-- The objective without an `l1` penalty as a function of the row of coefficients that the code optimises. -/
noncomputable def LogitCfg.objective (m : LogitCfg) (rows : List RegRow) (c : ℕ → ℝ) : ℝ :=
  logitObjective m.k 0 m.strength rows (lastIntercept m.k m.fit c) c

theorem objective_eq (m : LogitCfg) (rows : List RegRow) (c : ℕ → ℝ) :
    m.objective rows c = (rows.map fun r => xent r.y (m.z c r)).sum + m.strength / 2 * ∑ i ∈ range m.k, c i ^ 2 := by
  unfold LogitCfg.objective logitObjective
  simp only [← z_eq_predict]
  ring

theorem strength_grad (m : LogitCfg) {rows : List RegRow} (hrows : rows ≠ []) (c : ℕ → ℝ) (i : ℕ) :
    (rows.length : ℝ) * m.gradPen rows.length c i = if i < m.k then m.strength * c i else 0 := by
  have hN : (rows.length : ℝ) ≠ 0 := by
    have := List.length_pos_iff.2 hrows
    positivity
  unfold LogitCfg.strength LogitCfg.gradPen
  cases m.l2C with
  | none => simp
  | some C =>
    simp only
    split
    · field_simp
    · simp

/-- **C52.** The gradient columns of the query, times the number of rows, are the partial derivatives of sklearn's objective
(divided by `C`): for no penalty and for `l2`, with and without an intercept, for all data and coefficients. -/
theorem C52_gradient (m : LogitCfg) (rows : List RegRow) (hrows : rows ≠ []) (c : ℕ → ℝ) (i : ℕ) (hi : i < m.n) :
    HasDerivAt (fun t => m.objective rows (Function.update c i t)) (rows.length * (m.gradCols rows c).getD i 0) (c i) := by
  have h1 := hasDerivAt_list_sum rows (fun r t => xent r.y (m.z (Function.update c i t) r))
    (fun r => m.xs r i * (logistic (m.z c r) - r.y)) (c i) (by
      intro r _
      have hz := hasDerivAt_z m c i hi r
      have hx : HasDerivAt (xent r.y) (logistic (m.z c r) - r.y) ((fun t => m.z (Function.update c i t) r) (c i)) := by
        simp only [Function.update_eq_self]; exact hasDerivAt_xent _ _
      have := hx.comp (c i) hz
      refine this.congr_deriv ?_
      ring)
  have h2 := (hasDerivAt_sumsq m.k c i).const_mul (m.strength / 2)
  have e : (fun t => m.objective rows (Function.update c i t)) = fun t =>
      (rows.map fun r => xent r.y (m.z (Function.update c i t) r)).sum + m.strength / 2 * ∑ j ∈ range m.k, (Function.update c i t) j ^ 2 :=
    funext fun t => objective_eq m rows _
  rw [e]
  refine (h1.add h2).congr_deriv ?_
  rw [gradCols_getD m rows c i hi, mul_add, rows_mul_avg hrows, strength_grad m hrows]
  congr 1
  split <;> ring

theorem hess_entries (m : LogitCfg) (hk : 0 < m.k) (rows : List RegRow) (c : ℕ → ℝ) :
    ∃ H, symmetrize (m.hessCols rows c) = some (m.n, H) ∧ ∀ i j, i < m.n → j < m.n → H i j =
      avg rows (fun r => m.xs r i * m.xs r j * (logistic (m.z c r) * (1 - logistic (m.z c r)))) + m.hessPen rows.length i j := by
  obtain ⟨H, hH, hent⟩ := symmetrize_triu m.n fun i j =>
    avg rows (fun r => m.xs r i * m.xs r j * (logistic (m.z c r) * (1 - logistic (m.z c r)))) + m.hessPen rows.length i j
  refine ⟨H, by rw [hessCols_eq m hk]; exact hH, ?_⟩
  intro i j hi hj
  rcases le_total i j with h | h
  · exact (hent i j h hj).1
  · rw [(hent j i h hi).2]
    congr 1
    · congr 1; funext r; ring
    · unfold LogitCfg.hessPen
      cases m.l2C with
      | none => rfl
      | some C =>
        simp only
        by_cases hij : i = j
        · subst hij; rfl
        · rw [if_neg (by tauto), if_neg (by tauto)]

/-- **C52.** The Hessian rebuilt from the columns of the query has the partial derivatives of the gradient columns as its
entries. -/
theorem C52_hessian (m : LogitCfg) (hk : 0 < m.k) (rows : List RegRow) (c : ℕ → ℝ) :
    ∃ H, symmetrize (m.hessCols rows c) = some (m.n, H) ∧ ∀ i j, i < m.n → j < m.n →
      HasDerivAt (fun t => (m.gradCols rows (Function.update c j t)).getD i 0) (H i j) (c j) := by
  obtain ⟨H, hH, hH'⟩ := hess_entries m hk rows c
  refine ⟨H, hH, ?_⟩
  intro i j hi hj
  rw [hH' i j hi hj]
  have e : (fun t => (m.gradCols rows (Function.update c j t)).getD i 0) = fun t =>
      (rows.map fun r => m.xs r i * (logistic (m.z (Function.update c j t) r) - r.y)).sum / rows.length +
      m.gradPen rows.length (Function.update c j t) i := funext fun t => gradCols_getD m rows _ i hi
  rw [e]
  have h1 := hasDerivAt_list_sum rows (fun r t => m.xs r i * (logistic (m.z (Function.update c j t) r) - r.y))
    (fun r => m.xs r i * m.xs r j * (logistic (m.z c r) * (1 - logistic (m.z c r)))) (c j) (by
      intro r _
      have hz := hasDerivAt_z m c j hj r
      have hx : HasDerivAt logistic (logistic (m.z c r) * (1 - logistic (m.z c r))) ((fun t => m.z (Function.update c j t) r) (c j)) := by
        simp only [Function.update_eq_self]; exact hasDerivAt_logistic _
      have := ((hx.comp (c j) hz).sub_const r.y).const_mul (m.xs r i)
      refine this.congr_deriv ?_
      ring)
  refine (h1.div_const _).add ?_
  unfold LogitCfg.gradPen LogitCfg.hessPen
  cases m.l2C with
  | none => exact hasDerivAt_const _ _
  | some C =>
    simp only
    by_cases hik : i < m.k
    · simp only [hik, if_true, and_true]
      by_cases hij : i = j
      · subst hij
        simp only [Function.update_self, if_true]
        refine (((hasDerivAt_id (c i)).div_const (rows.length : ℝ)).div_const C).congr_deriv ?_
        rw [div_div]
      · simp only [Function.update_of_ne hij, if_neg hij]
        exact hasDerivAt_const _ _
    · simp only [hik, if_false, and_false]
      exact hasDerivAt_const _ _

/-! ## C61 -/

/-- Only the first `k` coefficients matter. -/
theorem logitObjective_congr (k : ℕ) (L1 L2 : ℝ) (rows : List RegRow) (b : ℝ) {w w' : ℕ → ℝ} (h : ∀ i < k, w i = w' i) :
    logitObjective k L1 L2 rows b w = logitObjective k L1 L2 rows b w' := by
  unfold logitObjective predict
  have e1 : ∑ i ∈ range k, |w i| = ∑ i ∈ range k, |w' i| := Finset.sum_congr rfl fun i hi => by rw [h i (mem_range.1 hi)]
  have e2 : ∑ i ∈ range k, w i ^ 2 = ∑ i ∈ range k, w' i ^ 2 := Finset.sum_congr rfl fun i hi => by rw [h i (mem_range.1 hi)]
  have e3 : ∀ r : RegRow, ∑ i ∈ range k, w i * r.x i = ∑ i ∈ range k, w' i * r.x i :=
    fun r => Finset.sum_congr rfl fun i hi => by rw [h i (mem_range.1 hi)]
  rw [e1, e2]
  simp only [e3]

/-- The part of the objective that is differentiated lies above its tangents. -/
theorem smooth_tangent (m : LogitCfg) {rows : List RegRow} (hrows : rows ≠ []) (hC : 0 ≤ m.strength) (c c' : ℕ → ℝ) :
    m.objective rows c + ∑ j ∈ range m.n, (rows.length * (m.gradCols rows c).getD j 0) * (c' j - c j) ≤ m.objective rows c' := by
  rw [objective_eq, objective_eq]
  have e : ∑ j ∈ range m.n, (rows.length * (m.gradCols rows c).getD j 0) * (c' j - c j) =
      (rows.map fun r => (logistic (m.z c r) - r.y) * (m.z c' r - m.z c r)).sum + ∑ j ∈ range m.k, m.strength * c j * (c' j - c j) := by
    have hg : ∀ j ∈ range m.n, (rows.length * (m.gradCols rows c).getD j 0) * (c' j - c j) =
        (rows.map fun r => m.xs r j * (logistic (m.z c r) - r.y)).sum * (c' j - c j) + (if j < m.k then m.strength * c j else 0) * (c' j - c j) := by
      intro j hj
      rw [gradCols_getD m rows c j (mem_range.1 hj), mul_add, rows_mul_avg hrows, strength_grad m hrows]; ring
    rw [Finset.sum_congr rfl hg, Finset.sum_add_distrib]
    congr 1
    · clear hg hrows
      induction rows with
      | nil => simp
      | cons r rows ih =>
        simp only [List.map_cons, List.sum_cons, add_mul, Finset.sum_add_distrib, ih]
        congr 1
        rw [z_sub, Finset.mul_sum]
        apply Finset.sum_congr rfl; intro j _; ring
    · have hkn : m.k ≤ m.n := by unfold LogitCfg.n; split <;> omega
      rw [← Finset.sum_subset (Finset.range_mono hkn)]
      · apply Finset.sum_congr rfl; intro j hj; rw [if_pos (mem_range.1 hj)]
      · intro j _ hj
        rw [if_neg (by simpa using hj), zero_mul]
  rw [e]
  have h1 : (rows.map fun r => xent r.y (m.z c r)).sum + (rows.map fun r => (logistic (m.z c r) - r.y) * (m.z c' r - m.z c r)).sum ≤
      (rows.map fun r => xent r.y (m.z c' r)).sum := by
    rw [← List.sum_map_add]
    exact List.sum_le_sum fun r _ => xent_tangent r.y (m.z c r) (m.z c' r)
  have h2 : m.strength / 2 * ∑ i ∈ range m.k, c i ^ 2 + ∑ j ∈ range m.k, m.strength * c j * (c' j - c j) ≤
      m.strength / 2 * ∑ i ∈ range m.k, c' i ^ 2 := by
    rw [Finset.mul_sum, Finset.mul_sum, ← Finset.sum_add_distrib]
    apply Finset.sum_le_sum
    intro j _
    have := mul_nonneg (by linarith : 0 ≤ m.strength / 2) (sq_nonneg (c' j - c j))
    nlinarith
  linarith

/-- Coefficients where the gradient vanishes minimise the objective. -/
theorem grad_zero_min (m : LogitCfg) {rows : List RegRow} (hrows : rows ≠ []) (hS : 0 ≤ m.strength) (c : ℕ → ℝ)
    (hz : ∀ i < m.n, (m.gradCols rows c).getD i 0 = 0) (b : ℝ) (w : ℕ → ℝ) (hb : m.fit = false → b = 0) :
    logitObjective m.k 0 m.strength rows (lastIntercept m.k m.fit c) c ≤ logitObjective m.k 0 m.strength rows b w := by
  have ht := smooth_tangent m hrows hS c fun j => if j < m.k then w j else b
  rw [Finset.sum_eq_zero (fun j hj => by rw [hz j (mem_range.1 hj)]; ring), add_zero] at ht
  refine le_trans ht (le_of_eq ?_)
  unfold LogitCfg.objective logitObjective
  have e1 : ∀ i ∈ range m.k, (if i < m.k then w i else b) = w i := fun i hi => if_pos (mem_range.1 hi)
  have e2 : lastIntercept m.k m.fit (fun j => if j < m.k then w j else b) = b := by
    unfold lastIntercept
    cases h : m.fit
    · simp [hb h]
    · simp
  rw [e2]
  congr 1
  · congr 1
    · congr 1
      apply List.map_congr_left
      intro r _
      unfold predict
      congr 2
      apply Finset.sum_congr rfl; intro i hi; simp only [if_pos (mem_range.1 hi)]
    · simp
  · congr 1
    apply Finset.sum_congr rfl; intro i hi; simp only [if_pos (mem_range.1 hi)]

/-- **C61.** If a Newton step does not move the coefficients they minimise sklearn's objective, for no penalty and for `l2`. -/
theorem C61_newton_rest (m : LogitCfg) (hk : 0 < m.k) (hC : ∀ C, m.l2C = some C → 0 < C) (rows : List RegRow) (hrows : rows ≠ [])
    (c c' : ℕ → ℝ) (conv : Bool) (hnewton : { m with maxIter := 1 }.newton (rows.map fun r => ((), r)) [] false [c] = some [(c', conv)])
    (hrest : ∀ i < m.n, c' i = c i) (b : ℝ) (w : ℕ → ℝ)
    (hb : m.fit = false → b = 0) :
    logitObjective m.k 0 m.strength rows (lastIntercept m.k m.fit c) c ≤ logitObjective m.k 0 m.strength rows b w := by
  have hS : 0 ≤ m.strength := by
    unfold LogitCfg.strength
    cases h : m.l2C with
    | none => exact le_rfl
    | some C => have := hC C h; positivity
  have hstep : m.newtonStep rows (c, false) = some (c', conv) := by
    rw [LogitCfg.newton, List.map_cons, List.map_nil, newtonLoop_solo ({ m with maxIter := 1 } : LogitCfg) (m.n_pos hk), List.map_map] at hnewton
    rw [show ((·.2) ∘ fun r : RegRow => ((), r)) = id from rfl, List.map_id] at hnewton
    have hn : ({ m with maxIter := 1 } : LogitCfg).newtonIter rows 1 (c, false) = m.newtonStep rows (c, false) := by
      show (m.newtonStep rows (c, false)).bind some = _
      cases m.newtonStep rows (c, false) <;> rfl
    rw [hn] at hnewton
    cases hs : m.newtonStep rows (c, false) with
    | none => rw [hs] at hnewton; simp at hnewton
    | some s => rw [hs] at hnewton; simpa using hnewton
  obtain ⟨H, hH, _⟩ := C52_hessian m hk rows c
  rw [LogitCfg.newtonStep, if_neg (by simp)] at hstep
  simp only [hH, Option.bind_some, Option.map_eq_some_iff, Prod.mk.injEq] at hstep
  obtain ⟨delta, hd, he, _⟩ := hstep
  obtain ⟨_, hsys, _⟩ := npSolve_spec hd
  have hz : ∀ i < m.n, (m.gradCols rows c).getD i 0 = 0 := by
    intro i hi
    rw [← hsys i hi]
    apply Finset.sum_eq_zero
    intro j hj
    have : c' j = c j := hrest j (mem_range.1 hj)
    have h2 : c j - delta j = c j := by rw [← he] at this; exact this
    have : delta j = 0 := by linarith
    rw [this, mul_zero]
  exact grad_zero_min m hrows hS c hz b w hb

/-- The Hessian as a quadratic form. -/
theorem hess_form (m : LogitCfg) (hk : 0 < m.k) (rows : List RegRow) (c : ℕ → ℝ) {H : ℕ → ℕ → ℝ}
    (hH : symmetrize (m.hessCols rows c) = some (m.n, H)) (d : ℕ → ℝ) :
    ∑ i ∈ range m.n, d i * ∑ j ∈ range m.n, H i j * d j =
      avg rows (fun r => logistic (m.z c r) * (1 - logistic (m.z c r)) * m.z d r ^ 2) + ∑ i ∈ range m.n, m.hessPen rows.length i i * d i ^ 2 := by
  obtain ⟨H', h', hent⟩ := hess_entries m hk rows c
  rw [hH] at h'
  simp only [Option.some.injEq, Prod.mk.injEq, true_and] at h'
  subst h'
  have h1 : ∀ i ∈ range m.n, d i * ∑ j ∈ range m.n, H i j * d j =
      (∑ j ∈ range m.n, d i * avg rows (fun r => m.xs r i * m.xs r j * (logistic (m.z c r) * (1 - logistic (m.z c r)))) * d j) +
        m.hessPen rows.length i i * d i ^ 2 := by
    intro i hi
    have h2 : ∀ j ∈ range m.n, d i * (H i j * d j) =
        d i * avg rows (fun r => m.xs r i * m.xs r j * (logistic (m.z c r) * (1 - logistic (m.z c r)))) * d j +
          if i = j then m.hessPen rows.length i i * d i ^ 2 else 0 := by
      intro j hj
      rw [hent i j (mem_range.1 hi) (mem_range.1 hj)]
      by_cases hij : i = j
      · subst hij; rw [if_pos rfl]; ring
      · have : m.hessPen rows.length i j = 0 := by
          unfold LogitCfg.hessPen
          cases m.l2C <;> simp [hij]
        rw [if_neg hij, this]; ring
    rw [Finset.mul_sum, Finset.sum_congr rfl h2, Finset.sum_add_distrib, Finset.sum_ite_eq, if_pos hi]
  rw [Finset.sum_congr rfl h1, Finset.sum_add_distrib]
  congr 1
  simp only [avg, ← mul_div_assoc, div_mul_eq_mul_div, ← Finset.sum_div]
  congr 1
  clear h1 hent hH
  induction rows with
  | nil => simp
  | cons r rows ih =>
    simp only [List.map_cons, List.sum_cons, mul_add, add_mul, Finset.sum_add_distrib, ih]
    congr 1
    have hz : m.z d r = ∑ i ∈ range m.n, d i * m.xs r i := by rw [LogitCfg.z, listsum_range]
    rw [hz, sq, Finset.sum_mul_sum, Finset.mul_sum]
    apply Finset.sum_congr rfl; intro i _
    rw [Finset.mul_sum]
    apply Finset.sum_congr rfl; intro j _
    ring

/-- With an `l2` penalty the Hessian is nonsingular. -/
theorem hess_nonsingular (m : LogitCfg) (hk : 0 < m.k) (C : ℝ) (hC : m.l2C = some C) (hC0 : 0 < C) (rows : List RegRow) (hrows : rows ≠ [])
    (c : ℕ → ℝ) {H : ℕ → ℕ → ℝ} (hH : symmetrize (m.hessCols rows c) = some (m.n, H)) (d : ℕ → ℝ)
    (hd : ∀ i < m.n, ∑ j ∈ range m.n, H i j * d j = 0) : ∀ j < m.n, d j = 0 := by
  have hN : 0 < (rows.length : ℝ) := by
    have := List.length_pos_iff.2 hrows
    positivity
  have hform := hess_form m hk rows c hH d
  rw [Finset.sum_eq_zero (fun i hi => by rw [hd i (mem_range.1 hi), mul_zero])] at hform
  have hw : ∀ r : RegRow, 0 < logistic (m.z c r) * (1 - logistic (m.z c r)) := fun r =>
    mul_pos (logistic_pos _) (sub_pos.2 (logistic_lt_one _))
  have hA : 0 ≤ avg rows (fun r => logistic (m.z c r) * (1 - logistic (m.z c r)) * m.z d r ^ 2) := by
    apply div_nonneg _ hN.le
    apply List.sum_nonneg
    intro x hx
    obtain ⟨r, _, rfl⟩ := List.mem_map.1 hx
    exact mul_nonneg (hw r).le (sq_nonneg _)
  have hP : ∀ i ∈ range m.n, 0 ≤ m.hessPen rows.length i i * d i ^ 2 := by
    intro i _
    apply mul_nonneg _ (sq_nonneg _)
    unfold LogitCfg.hessPen
    rw [hC]; simp only
    split
    · positivity
    · exact le_rfl
  have hP0 : ∑ i ∈ range m.n, m.hessPen rows.length i i * d i ^ 2 = 0 := by
    have := Finset.sum_nonneg hP
    linarith
  have hA0 : avg rows (fun r => logistic (m.z c r) * (1 - logistic (m.z c r)) * m.z d r ^ 2) = 0 := by linarith
  have hlow : ∀ j < m.k, d j = 0 := by
    intro j hj
    have hjn : j < m.n := by unfold LogitCfg.n; split <;> omega
    have := (Finset.sum_eq_zero_iff_of_nonneg hP).1 hP0 j (mem_range.2 hjn)
    unfold LogitCfg.hessPen at this
    rw [hC] at this
    simp only [hj, and_self, if_true] at this
    rcases mul_eq_zero.1 this with h | h
    · have : 0 < 1 / ((rows.length : ℝ) * C) := by positivity
      linarith
    · simpa using h
  intro j hj
  by_cases hjk : j < m.k
  · exact hlow j hjk
  · have hf : m.fit = true := by
      by_contra h
      unfold LogitCfg.n at hj
      simp [h] at hj; omega
    have hjk' : j = m.k := by
      unfold LogitCfg.n at hj
      rw [hf] at hj; simp at hj; omega
    have hz : ∀ r : RegRow, m.z d r = d j := by
      intro r
      rw [z_eq_predict, predict, lastIntercept, hf, if_pos rfl, hjk',
        Finset.sum_eq_zero (fun i hi => by rw [hlow i (mem_range.1 hi), zero_mul]), add_zero]
    simp only [hz] at hA0
    rw [avg, List.sum_map_mul_right] at hA0
    have hs : 0 < (rows.map fun r => logistic (m.z c r) * (1 - logistic (m.z c r))).sum := by
      cases rows with
      | nil => exact absurd rfl hrows
      | cons r rows =>
        rw [List.map_cons, List.sum_cons]
        have : 0 ≤ (rows.map fun r => logistic (m.z c r) * (1 - logistic (m.z c r))).sum := by
          apply List.sum_nonneg
          intro x hx
          obtain ⟨r, _, rfl⟩ := List.mem_map.1 hx
          exact (hw r).le
        have := hw r
        linarith
    rcases div_eq_zero_iff.1 hA0 with h | h
    · rcases mul_eq_zero.1 h with h | h
      · linarith
      · simpa using h
    · linarith

/-- **C61.** With an `l2` penalty no Newton step meets a singular matrix: the iteration returns coefficients for all data, all
starting points and any number of iterations, with or without an intercept. -/
theorem C61_newton_returns (m : LogitCfg) (hk : 0 < m.k) (C : ℝ) (hC : m.l2C = some C) (hC0 : 0 < C) (rows : List RegRow) (hrows : rows ≠ [])
    (c : ℕ → ℝ) : ∃ c' conv, m.newton (rows.map fun r => ((), r)) [] false [c] = some [(c', conv)] := by
  rw [LogitCfg.newton, List.map_cons, List.map_nil, newtonLoop_solo _ (m.n_pos hk), List.map_map]
  rw [show ((·.2) ∘ fun r : RegRow => ((), r)) = id from rfl, List.map_id]
  suffices h : ∀ f s, ∃ s', m.newtonIter rows f s = some s' by
    obtain ⟨s', h'⟩ := h m.maxIter (c, false)
    exact ⟨s'.1, s'.2, by rw [h']; rfl⟩
  intro f
  induction f with
  | zero => exact fun s => ⟨s, rfl⟩
  | succ f ih =>
    intro s
    have : ∃ s', m.newtonStep rows s = some s' := by
      cases hs : s.2
      · obtain ⟨H, hH, _⟩ := C52_hessian m hk rows s.1
        obtain ⟨delta, hd⟩ := npSolve_isSome (length_gradCols m rows s.1) (hess_nonsingular m hk C hC hC0 rows hrows s.1 hH)
        exact ⟨_, by rw [LogitCfg.newtonStep, if_neg (by simp [hs]), hH, Option.bind_some, hd]; rfl⟩
      · exact ⟨s, by rw [LogitCfg.newtonStep, if_pos hs]⟩
    obtain ⟨s', hs'⟩ := this
    obtain ⟨s'', h''⟩ := ih s'
    exact ⟨s'', by rw [LogitCfg.newtonIter, hs', Option.bind_some, h'']⟩

/-- The gradient vanishes where the objective is minimal. -/
theorem min_grad_zero (m : LogitCfg) {rows : List RegRow} (hrows : rows ≠ []) (c : ℕ → ℝ)
    (hmin : ∀ c', logitObjective m.k 0 m.strength rows (lastIntercept m.k m.fit c) c ≤
      logitObjective m.k 0 m.strength rows (lastIntercept m.k m.fit c') c') :
    ∀ i < m.n, (m.gradCols rows c).getD i 0 = 0 := by
  have hN : 0 < (rows.length : ℝ) := by
    have := List.length_pos_iff.2 hrows
    positivity
  intro i hi
  have hd := C52_gradient m rows hrows c i hi
  have hl : IsLocalMin (fun t => m.objective rows (Function.update c i t)) (c i) := by
    apply Filter.Eventually.of_forall
    intro t
    simp only [Function.update_eq_self]
    unfold LogitCfg.objective
    exact hmin _
  rcases mul_eq_zero.1 (hl.hasDerivAt_eq_zero hd) with h | h
  · exact absurd h hN.ne'
  · exact h

/-- **C61.** Coefficients that minimise sklearn's objective with an `l2` penalty are at rest: the iteration returns them and
does not warn. -/
theorem C61_minimiser_rests (m : LogitCfg) (hk : 0 < m.k) (C : ℝ) (hC : m.l2C = some C) (hC0 : 0 < C) (htol : 0 < m.tol) (hit : 0 < m.maxIter)
    (rows : List RegRow) (hrows : rows ≠ []) (c : ℕ → ℝ)
    (hmin : ∀ c', logitObjective m.k 0 (1 / C) rows (lastIntercept m.k m.fit c) c ≤ logitObjective m.k 0 (1 / C) rows (lastIntercept m.k m.fit c') c') :
    ∃ c', m.newton (rows.map fun r => ((), r)) [] false [c] = some [(c', true)] ∧ ∀ i < m.n, c' i = c i := by
  have hst : m.strength = 1 / C := by unfold LogitCfg.strength; rw [hC]
  have hz : ∀ i < m.n, (m.gradCols rows c).getD i 0 = 0 := min_grad_zero m hrows c (by rw [hst]; exact hmin)
  obtain ⟨H, hH, _⟩ := C52_hessian m hk rows c
  have hns := hess_nonsingular m hk C hC hC0 rows hrows c hH
  obtain ⟨delta, hd⟩ := npSolve_isSome (length_gradCols m rows c) hns
  have hdz : ∀ i < m.n, delta i = 0 := hns delta fun i hi => by rw [(npSolve_spec hd).2.1 i hi, hz i hi]
  rw [LogitCfg.newton, List.map_cons, List.map_nil, newtonLoop_solo _ (m.n_pos hk), List.map_map]
  rw [show ((·.2) ∘ fun r : RegRow => ((), r)) = id from rfl, List.map_id]
  obtain ⟨f, hf⟩ : ∃ f, m.maxIter = f + 1 := ⟨m.maxIter - 1, by omega⟩
  have hsm : smallStep m.n m.tol delta = true := by
    unfold smallStep
    rw [List.all_eq_true]
    intro i hi
    rw [hdz i (by simpa using hi)]
    simpa using htol
  refine ⟨fun i => c i - delta i, ?_, fun i hi => by simp only [hdz i hi, sub_zero]⟩
  rw [hf, LogitCfg.newtonIter, LogitCfg.newtonStep, if_neg (by simp), hH, Option.bind_some]
  simp only [hd, Option.map_some, Option.bind_some, hsm]
  rw [newtonIter_conv _ _ _ _ rfl]
  rfl

/-- The hypotheses of the theorems above are met: with labels 0 and 1 on the same feature the coefficients 0 minimise. -/
def exFit : LogitCfg := ⟨1, true, some 2, 1, 1⟩
def exFitRows : List RegRow := [⟨0, fun _ => 3⟩, ⟨1, fun _ => 3⟩]

theorem exFit_min (c' : ℕ → ℝ) : logitObjective 1 0 (1 / 2) exFitRows (lastIntercept 1 true fun _ => 0) (fun _ => 0) ≤
    logitObjective 1 0 (1 / 2) exFitRows (lastIntercept 1 true c') c' := by
  have hst : exFit.strength = 1 / 2 := rfl
  have h := smooth_tangent exFit (rows := exFitRows) (by simp [exFitRows]) (by rw [hst]; norm_num) (fun _ => 0) c'
  have hz : ∀ r : RegRow, exFit.z (fun _ => 0) r = 0 := by intro r; simp [LogitCfg.z]
  have hg : ∀ j ∈ range exFit.n, (exFitRows.length * (exFit.gradCols exFitRows fun _ => 0).getD j 0) * (c' j - 0) = 0 := by
    intro j hj
    rw [gradCols_getD _ _ _ _ (mem_range.1 hj)]
    have hp : exFit.gradPen exFitRows.length (fun _ => 0) j = 0 := by simp [LogitCfg.gradPen, exFit]
    have ha : avg exFitRows (fun r => exFit.xs r j * (logistic (exFit.z (fun _ => 0) r) - r.y)) = 0 := by
      simp only [hz, logistic]
      by_cases hj : j < 1
      · simp [avg, exFitRows, exFit, LogitCfg.xs, hj]; norm_num
      · simp [avg, exFitRows, exFit, LogitCfg.xs, hj]; norm_num
    rw [hp, ha]; ring
  rw [Finset.sum_eq_zero hg, add_zero] at h
  unfold LogitCfg.objective at h
  rw [hst] at h
  exact h

example : ∃ c', exFit.newton (exFitRows.map fun r => ((), r)) [] false [fun _ => 0] = some [(c', true)] ∧ ∀ i < exFit.n, c' i = 0 :=
  C61_minimiser_rests exFit (by decide) 2 rfl (by norm_num) (by norm_num [exFit]) (by decide) exFitRows (by simp [exFitRows]) (fun _ => 0) exFit_min

theorem smallStep_iff {n : ℕ} {tol : ℝ} {delta : ℕ → ℝ} : smallStep n tol delta = true ↔ ∀ i < n, |delta i| < tol := by
  unfold smallStep
  simp [List.all_eq_true]

theorem newton_once (m : LogitCfg) (hk : 0 < m.k) (rows : List RegRow) (c : ℕ → ℝ) :
    { m with maxIter := 1 }.newton (rows.map fun r => ((), r)) [] false [c] = (m.newtonStep rows (c, false)).map fun s => [s] := by
  rw [LogitCfg.newton, List.map_cons, List.map_nil, newtonLoop_solo ({ m with maxIter := 1 } : LogitCfg) (m.n_pos hk), List.map_map]
  rw [show ((·.2) ∘ fun r : RegRow => ((), r)) = id from rfl, List.map_id]
  have hn : ({ m with maxIter := 1 } : LogitCfg).newtonIter rows 1 (c, false) = m.newtonStep rows (c, false) := by
    show (m.newtonStep rows (c, false)).bind some = _
    cases m.newtonStep rows (c, false) <;> rfl
  rw [hn]

/-- **C61.** When Newton's method stops: what it returns was reached by one step from coefficients `c`, and it is returned without the
warning exactly if no coefficient moved by `tol` or more in that step. The gradient at `c` is then less than `tol` times the sum of the
curvatures, in every coordinate. -/
theorem C61_newton_stop (m : LogitCfg) (hk : 0 < m.k) (hit : 0 < m.maxIter) (rows : List RegRow) (c0 c' : ℕ → ℝ) (conv : Bool)
    (hnewton : m.newton (rows.map fun r => ((), r)) [] false [c0] = some [(c', conv)]) :
    ∃ c, { m with maxIter := 1 }.newton (rows.map fun r => ((), r)) [] false [c] = some [(c', conv)] ∧
      (conv = true ↔ ∀ i < m.n, |c' i - c i| < m.tol) ∧
      (conv = true → ∃ H, symmetrize (m.hessCols rows c) = some (m.n, H) ∧
        ∀ i < m.n, |(m.gradCols rows c).getD i 0| ≤ m.tol * ∑ j ∈ range m.n, |H i j|) := by
  rw [LogitCfg.newton, List.map_cons, List.map_nil, newtonLoop_solo _ (m.n_pos hk), List.map_map] at hnewton
  rw [show ((·.2) ∘ fun r : RegRow => ((), r)) = id from rfl, List.map_id] at hnewton
  have hiter : m.newtonIter rows m.maxIter (c0, false) = some (c', conv) := by
    cases h : m.newtonIter rows m.maxIter (c0, false) with
    | none => rw [h] at hnewton; simp at hnewton
    | some s => rw [h] at hnewton; simpa using hnewton
  have key : ∀ f c1, m.newtonIter rows (f + 1) (c1, false) = some (c', conv) →
      ∃ c, m.newtonStep rows (c, false) = some (c', conv) := by
    intro f
    induction f with
    | zero =>
      intro c1 h
      rw [LogitCfg.newtonIter] at h
      cases hs : m.newtonStep rows (c1, false) with
      | none => rw [hs] at h; simp at h
      | some s => rw [hs] at h; simp [LogitCfg.newtonIter] at h; exact ⟨c1, by rw [hs, h]⟩
    | succ f ih =>
      intro c1 h
      rw [LogitCfg.newtonIter] at h
      cases hs : m.newtonStep rows (c1, false) with
      | none => rw [hs] at h; simp at h
      | some s =>
        rw [hs, Option.bind_some] at h
        obtain ⟨c2, d⟩ := s
        cases d with
        | false => exact ih c2 h
        | true =>
          rw [newtonIter_conv _ _ _ _ rfl] at h
          exact ⟨c1, by rw [hs, h]⟩
  obtain ⟨f, hf⟩ : ∃ f, m.maxIter = f + 1 := ⟨m.maxIter - 1, by omega⟩
  rw [hf] at hiter
  obtain ⟨c, hc⟩ := key f c0 hiter
  refine ⟨c, by rw [newton_once m hk, hc]; rfl, ?_⟩
  obtain ⟨H, hH, _⟩ := C52_hessian m hk rows c
  rw [LogitCfg.newtonStep, if_neg (by simp)] at hc
  simp only [hH, Option.bind_some, Option.map_eq_some_iff, Prod.mk.injEq] at hc
  obtain ⟨delta, hd, he, hcv⟩ := hc
  obtain ⟨_, hsys, _⟩ := npSolve_spec hd
  have hmove : ∀ i, c' i - c i = -delta i := fun i => by rw [← he]; ring
  constructor
  · rw [← hcv, smallStep_iff]
    simp only [hmove, abs_neg]
  · intro h
    rw [← hcv, smallStep_iff] at h
    refine ⟨H, hH, fun i hi => ?_⟩
    rw [← hsys i hi, Finset.mul_sum]
    refine (Finset.abs_sum_le_sum_abs _ _).trans (Finset.sum_le_sum fun j hj => ?_)
    rw [abs_mul, mul_comm]
    exact mul_le_mul_of_nonneg_right (h j (mem_range.1 hj)).le (abs_nonneg _)

/-- **C61.** The same for the proximal method: a step leaves a slice without the warning exactly if no coefficient moved by `tol` or more. -/
theorem C61_fista_stop (m : LogitCfg) (a : FistaConst) (g : List ℝ) (s : FistaSlice) (hs : s.conv = false) :
    (m.fistaUpdate a g s).conv = true ↔ ∀ i < m.n, |(m.fistaUpdate a g s).coef i - s.coef i| < m.tol := by
  unfold LogitCfg.fistaUpdate
  rw [hs, if_neg (by simp)]
  simp only [smallStep_iff]

example : ∃ c c' : ℕ → ℝ, ({ exFit with maxIter := 1 } : LogitCfg).newton (exFitRows.map fun r => ((), r)) [] false [c] = some [(c', true)] ∧
    ∀ i < exFit.n, |c' i - c i| < exFit.tol := by
  obtain ⟨c', h, _⟩ := C61_minimiser_rests exFit (by decide) 2 rfl (by norm_num) (by norm_num [exFit]) (by decide) exFitRows
    (by simp [exFitRows]) (fun _ => 0) exFit_min
  obtain ⟨c, h1, h2, _⟩ := C61_newton_stop exFit (by decide) (by decide) exFitRows _ c' true h
  exact ⟨c, c', h1, h2.1 rfl⟩

/-- **C61.** If a proximal step from coefficients that have no momentum does not move them, they minimise sklearn's objective
with the `l1` or `elasticnet` penalty, whatever positive step size is used. -/
theorem C61_fista_rest (m : LogitCfg) (hm : m.l2C = none) (L1 L2 : ℝ) (hL1 : 0 ≤ L1) (hL2 : 0 ≤ L2) (rows : List RegRow) (hrows : rows ≠ [])
    (step : ℝ) (hs : 0 < step) (s : FistaSlice) (hconv : s.conv = false) (hv : ∀ j < m.n, s.v j = s.coef j)
    (hrest : ∀ j < m.n, (m.fistaUpdate ⟨step, L1 / rows.length, L2 / rows.length⟩ (m.gradCols rows s.coef) s).coef j = s.coef j)
    (b : ℝ) (w : ℕ → ℝ) (hb : m.fit = false → b = 0) :
    logitObjective m.k L1 L2 rows (lastIntercept m.k m.fit s.coef) s.coef ≤ logitObjective m.k L1 L2 rows b w := by
  have hN : 0 < (rows.length : ℝ) := by
    have := List.length_pos_iff.2 hrows
    positivity
  have hst : m.strength = 0 := by unfold LogitCfg.strength; rw [hm]
  set c := s.coef with hc
  set w' : ℕ → ℝ := fun j => if j < m.k then w j else b with hw'
  have ht := smooth_tangent m hrows hst.ge c w'
  set g := fun j => (m.gradCols rows c).getD j 0 with hg
  have hkn : m.k ≤ m.n := by unfold LogitCfg.n; split <;> omega
  -- one entry
  have hentry : ∀ j ∈ range m.k, L1 * |c j| + L2 / 2 * c j ^ 2 - rows.length * g j * (w' j - c j) ≤ L1 * |w' j| + L2 / 2 * w' j ^ 2 := by
    intro j hj
    have hjk := mem_range.1 hj
    have hjn : j < m.n := by omega
    have hr := hrest j hjn
    rw [LogitCfg.fistaUpdate, if_neg (by simp [hconv])] at hr
    have hnot : ¬ (m.fit = true ∧ j = m.n - 1) := by
      rintro ⟨hf, hj'⟩
      unfold LogitCfg.n at hj'
      rw [hf] at hj'
      simp at hj'; omega
    simp only [if_neg hnot, hv j hjn] at hr
    set a : FistaConst := ⟨step, L1 / rows.length, L2 / rows.length⟩ with ha
    have hkk : 0 < a.kk := by
      have h0 : 0 ≤ L2 / rows.length * step := by positivity
      have h1 : a.kk = L2 / rows.length * step + 1 := rfl
      linarith
    have hth : 0 ≤ a.threshold := by
      have : 0 ≤ a.l1 * a.step := by show 0 ≤ L1 / rows.length * step; positivity
      exact div_nonneg this hkk.le
    have hsub := softT_subgradient ((c j - step * g j) / a.kk) a.threshold hth (w' j)
    have hr' : softT ((c j - step * g j) / a.kk) a.threshold = c j := hr
    rw [hr'] at hsub
    have hmul := mul_le_mul_of_nonneg_left hsub (by positivity : 0 ≤ a.kk * (rows.length / step))
    have x1 : a.kk * (rows.length / step) * (a.threshold * |c j| + ((c j - step * g j) / a.kk - c j) * (w' j - c j)) =
        L1 * |c j| + (-(rows.length * g j) - L2 * c j) * (w' j - c j) := by
      have hkk' : a.kk = L2 / rows.length * step + 1 := rfl
      have hth' : a.threshold = L1 / rows.length * step / a.kk := rfl
      have hne : a.kk ≠ 0 := hkk.ne'
      rw [hth']
      have : a.kk * (rows.length / step) * (L1 / rows.length * step / a.kk * |c j| + ((c j - step * g j) / a.kk - c j) * (w' j - c j)) =
        (rows.length / step) * (L1 / rows.length * step * |c j| + ((c j - step * g j) - a.kk * c j) * (w' j - c j)) := by
        field_simp
      rw [this, hkk']
      field_simp; ring
    have x2 : a.kk * (rows.length / step) * (a.threshold * |w' j|) = L1 * |w' j| := by
      have hth' : a.threshold = L1 / rows.length * step / a.kk := rfl
      rw [hth']; field_simp
    rw [x1, x2] at hmul
    have := mul_nonneg (by linarith : 0 ≤ L2 / 2) (sq_nonneg (w' j - c j))
    nlinarith
  -- the intercept
  have hint : ∀ j ∈ range m.n, j ∉ range m.k → rows.length * g j * (w' j - c j) = 0 := by
    intro j hj hj'
    have hjn := mem_range.1 hj
    have hjk : ¬ j < m.k := by simpa using hj'
    have hf : m.fit = true := by
      by_contra h
      unfold LogitCfg.n at hjn
      simp [h] at hjn; omega
    have hj0 : j = m.n - 1 := by
      unfold LogitCfg.n at hjn ⊢
      rw [hf] at hjn ⊢
      simp at hjn ⊢; omega
    have hr := hrest j hjn
    rw [LogitCfg.fistaUpdate, if_neg (by simp [hconv])] at hr
    simp only [hf, hj0, and_self, if_true] at hr
    rw [← hj0, hv j hjn] at hr
    have : step * g j = 0 := by
      have : c j - step * g j = c j := hr
      linarith
    have hg0 : g j = 0 := by
      rcases mul_eq_zero.1 this with h | h
      · exact absurd h hs.ne'
      · exact h
    rw [hg0]; ring
  have hsum : ∑ j ∈ range m.n, (rows.length * (m.gradCols rows c).getD j 0) * (w' j - c j) = ∑ j ∈ range m.k, rows.length * g j * (w' j - c j) := by
    rw [← Finset.sum_subset (Finset.range_mono hkn) hint]
  rw [hsum] at ht
  have hpen := Finset.sum_le_sum hentry
  rw [Finset.sum_sub_distrib] at hpen
  have hobj : ∀ c : ℕ → ℝ, logitObjective m.k L1 L2 rows (lastIntercept m.k m.fit c) c =
      m.objective rows c + ∑ j ∈ range m.k, (L1 * |c j| + L2 / 2 * c j ^ 2) := by
    intro c
    unfold LogitCfg.objective logitObjective
    rw [hst, Finset.sum_add_distrib, Finset.mul_sum, Finset.mul_sum]
    ring
  have hw : logitObjective m.k L1 L2 rows b w = logitObjective m.k L1 L2 rows (lastIntercept m.k m.fit w') w' := by
    have e1 : ∀ i ∈ range m.k, w' i = w i := fun i hi => if_pos (mem_range.1 hi)
    have e2 : lastIntercept m.k m.fit w' = b := by
      unfold lastIntercept
      cases h : m.fit
      · simp [hb h]
      · simp [hw']
    rw [e2]
    exact logitObjective_congr _ _ _ _ _ fun i hi => (e1 i (mem_range.2 hi)).symm
  rw [hw, hobj, hobj]
  linarith

/-- A point at rest with a gradient that is not 0: the penalty holds the coefficient at 0. -/
example : ∃ (m : LogitCfg) (rows : List RegRow) (s : FistaSlice), rows ≠ [] ∧ s.conv = false ∧ (∀ j < m.n, s.v j = s.coef j) ∧
    (m.gradCols rows s.coef).getD 0 0 ≠ 0 ∧
    ∀ j < m.n, (m.fistaUpdate ⟨1, 1 / rows.length, 0 / rows.length⟩ (m.gradCols rows s.coef) s).coef j = s.coef j := by
  refine ⟨⟨1, false, none, 1, 1⟩, [⟨1, fun _ => 1⟩], ⟨fun _ => 0, fun _ => 0, fun _ => 0, false⟩, by simp, rfl, fun _ _ => rfl, ?_, ?_⟩
  · rw [gradCols_getD _ _ _ _ (by decide)]
    norm_num [avg, LogitCfg.gradPen, LogitCfg.z, LogitCfg.n, LogitCfg.xs, logistic]
  · intro j hj
    have : j = 0 := by simpa [LogitCfg.n] using hj
    subst this
    rw [LogitCfg.fistaUpdate, if_neg (by simp)]
    simp only [gradCols_getD (⟨1, false, none, 1, 1⟩ : LogitCfg) [⟨1, fun _ => 1⟩] (fun _ => 0) 0 (by decide)]
    norm_num [avg, LogitCfg.gradPen, LogitCfg.z, LogitCfg.n, LogitCfg.xs, logistic, FistaConst.kk, FistaConst.threshold, softT]

/-- **C61, violated for other labels.** sklearn accepts any two labels, and so does the check of the SQL route that there are
two; but then the SQL route uses the labels as numbers. With labels 1 and 2 (or 1 and 5 ...) and an intercept, the gradient of
the intercept is negative at all coefficients, so no coefficients are at rest, and larger intercepts are always better. -/
theorem C61_violation_labels (m : LogitCfg) (hfit : m.fit = true) (rows : List RegRow) (hrows : rows ≠ [])
    (hy : ∀ r ∈ rows, 1 ≤ r.y) (c : ℕ → ℝ) :
    (m.gradCols rows c).getD m.k 0 < 0 ∧
    m.objective rows (Function.update c m.k (c m.k + 1)) < m.objective rows c := by
  have hN : 0 < (rows.length : ℝ) := by
    have := List.length_pos_iff.2 hrows
    positivity
  have hn : m.n = m.k + 1 := by unfold LogitCfg.n; rw [hfit]; rfl
  have hx : ∀ r, m.xs r m.k = 1 := fun r => by unfold LogitCfg.xs; rw [if_neg (by omega)]
  have hneg : ∀ f : RegRow → ℝ, (∀ r ∈ rows, f r < 0) → (rows.map f).sum < 0 := by
    clear hN hy
    intro f
    induction rows with
    | nil => exact absurd rfl hrows
    | cons r rows ih =>
      intro hf
      rw [List.map_cons, List.sum_cons]
      by_cases h : rows = []
      · subst h; simpa using hf r (by simp)
      · have := ih h fun r hr => hf r (by simp [hr])
        have := hf r (by simp)
        linarith
  constructor
  · have hp : m.gradPen rows.length c m.k = 0 := by
      unfold LogitCfg.gradPen
      cases m.l2C <;> simp
    rw [gradCols_getD m rows c m.k (by omega), hp, add_zero, avg]
    apply div_neg_of_neg_of_pos _ hN
    apply hneg
    intro r hr
    rw [hx, one_mul]
    have := hy r hr
    have := logistic_lt_one (m.z c r)
    linarith
  · have hq : ∑ i ∈ range m.k, (Function.update c m.k (c m.k + 1)) i ^ 2 = ∑ i ∈ range m.k, c i ^ 2 := by
      apply Finset.sum_congr rfl
      intro i hi
      rw [Function.update_of_ne (by have := mem_range.1 hi; omega)]
    rw [objective_eq, objective_eq, hq]
    have hs := hneg (fun r => xent r.y (m.z (Function.update c m.k (c m.k + 1)) r) + (-1) * xent r.y (m.z c r)) (by
      intro r hr
      rw [z_update m c m.k (by omega), hx, xent_eq, xent_eq]
      have h1 : Real.log (1 + Real.exp (-(m.z c r + (c m.k + 1 - c m.k) * 1))) < Real.log (1 + Real.exp (-m.z c r)) := by
        apply Real.log_lt_log (by positivity)
        have : Real.exp (-(m.z c r + (c m.k + 1 - c m.k) * 1)) < Real.exp (-m.z c r) := Real.exp_lt_exp.2 (by linarith)
        linarith
      have := hy r hr
      nlinarith)
    rw [List.sum_map_add, List.sum_map_mul_left] at hs
    linarith

end Verif
