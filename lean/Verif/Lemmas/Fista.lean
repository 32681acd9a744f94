import Verif.Model.ElasticNet
import Mathlib.Algebra.BigOperators.Ring.Finset
import Mathlib.Algebra.Order.Field.Basic
import Mathlib.Tactic.Linarith
import Mathlib.Tactic.FieldSimp

namespace Verif

open Finset

section
variable {K : Type} [Field K] [LinearOrder K] [IsStrictOrderedRing K]

theorem softT_cases (x t : K) (ht : 0 ≤ t) :
    (t < x ∧ softT x t = x - t) ∨ (x < -t ∧ softT x t = x + t) ∨ (-t ≤ x ∧ x ≤ t ∧ softT x t = 0) := by
  unfold softT
  by_cases h1 : t < x
  · left; refine ⟨h1, ?_⟩
    rw [max_eq_left (by linarith), min_eq_right (by linarith), add_zero]
  · by_cases h2 : x < -t
    · right; left; refine ⟨h2, ?_⟩
      rw [max_eq_right (by linarith), min_eq_left (by linarith), zero_add]
    · right; right
      push Not at h1 h2
      refine ⟨h2, h1, ?_⟩
      rw [max_eq_right (by linarith), min_eq_right (by linarith), add_zero]

/-- The distance from a point to its thresholding is a subgradient of `t |·|`. -/
theorem softT_subgradient (x t : K) (ht : 0 ≤ t) (u : K) :
    t * |softT x t| + (x - softT x t) * (u - softT x t) ≤ t * |u| := by
  have hu1 := le_abs_self u
  have hu2 := neg_abs_le u
  have e1 : t * u ≤ t * |u| := mul_le_mul_of_nonneg_left hu1 ht
  have e2 : -(t * |u|) ≤ t * u := by
    have := mul_le_mul_of_nonneg_left hu2 ht
    linarith
  rcases softT_cases x t ht with ⟨h, e⟩ | ⟨h, e⟩ | ⟨h1, h2, e⟩
  · rw [e, abs_of_pos (by linarith)]; nlinarith
  · rw [e, abs_of_neg (by linarith)]; nlinarith
  · rw [e, abs_zero]
    have : x * u ≤ t * |u| := by
      rcases le_total 0 u with hu | hu
      · rw [abs_of_nonneg hu]; exact mul_le_mul_of_nonneg_right h2 hu
      · rw [abs_of_nonpos hu]; nlinarith
    nlinarith

theorem listsum_range (k : ℕ) (f : ℕ → K) : ((List.range k).map f).sum = ∑ i ∈ range k, f i := by
  induction k with
  | zero => simp
  | succ k ih => rw [List.range_succ, Finset.sum_range_succ, ← ih]; simp

/-- The penalty of one entry. -/
noncomputable def FistaArgs.pen (a : FistaArgs K) (j : ℕ) (u : K) : K :=
  if a.fit ∧ j = 0 then 0 else a.l1 * |u| + a.l2 / 2 * u ^ 2

/-- What the iteration minimises. -/
noncomputable def FistaArgs.obj (a : FistaArgs K) (w : ℕ → K) : K :=
  (∑ i ∈ range a.n, ∑ j ∈ range a.n, a.xtx i j * w i * w j) / 2 - (∑ i ∈ range a.n, a.xty i * w i) + ∑ j ∈ range a.n, a.pen j (w j)

/-- The residual of a step from `v` to `c`. -/
noncomputable def FistaArgs.resid (a : FistaArgs K) (v c : ℕ → K) (j : ℕ) : K :=
  (v j - c j) / a.step - ∑ t ∈ range a.n, a.xtx j t * (v t - c t)

/-- The gradient of the squares at `v`. -/
noncomputable def FistaArgs.grad (a : FistaArgs K) (v : ℕ → K) (j : ℕ) : K := (∑ t ∈ range a.n, a.xtx j t * v t) - a.xty j

/-- The step of one entry: the move over the step size, less the gradient, is a subgradient of the penalty. -/
theorem prox_subgradient (a : FistaArgs K) (hs : 0 < a.step) (h1 : 0 ≤ a.l1) (h2 : 0 ≤ a.l2) (v : ℕ → K) (j : ℕ) (u : K) :
    a.pen j (a.prox v j) + ((v j - a.prox v j) / a.step - a.grad v j) * (u - a.prox v j) ≤ a.pen j u := by
  have hk : 0 < a.k := by unfold FistaArgs.k; positivity
  unfold FistaArgs.pen FistaArgs.prox
  simp only [listsum_range]
  by_cases hj : a.fit ∧ j = 0
  · simp only [hj, and_self, if_true]
    have : (v j - (v j - a.step * (∑ i ∈ range a.n, a.xtx j i * v i - a.xty j))) / a.step - a.grad v j = 0 := by
      rw [FistaArgs.grad]; field_simp; ring
    have hj' : j = 0 := hj.2
    subst hj'
    rw [this]; simp
  · simp only [hj, if_false]
    set g := v j - a.step * (∑ i ∈ range a.n, a.xtx j i * v i - a.xty j) with hg
    set c := softT (g / a.k) a.threshold with hc
    have ht : 0 ≤ a.threshold := by unfold FistaArgs.threshold; positivity
    have hsub := softT_subgradient (g / a.k) a.threshold ht u
    rw [← hc] at hsub
    have hgrad : (v j - c) / a.step - a.grad v j = (g - c) / a.step := by
      rw [FistaArgs.grad, hg]; field_simp; ring
    rw [hgrad]
    -- multiply the inequality by k / step
    have hthr : a.threshold = a.l1 * a.step / a.k := rfl
    have hkd : a.k = a.l2 * a.step + 1 := rfl
    have hm := mul_le_mul_of_nonneg_left hsub (le_of_lt (div_pos hk hs))
    have e1 : a.k / a.step * (a.threshold * |c| + (g / a.k - c) * (u - c)) =
        a.l1 * |c| + (g - a.k * c) / a.step * (u - c) := by
      rw [hthr]; field_simp
    have e2 : a.k / a.step * (a.threshold * |u|) = a.l1 * |u| := by
      rw [hthr]; field_simp
    rw [e1, e2] at hm
    have e3 : (g - a.k * c) / a.step = (g - c) / a.step - a.l2 * c := by
      rw [hkd]; field_simp; ring
    rw [e3] at hm
    have hsq : 0 ≤ a.l2 / 2 * (u - c) ^ 2 := by positivity
    nlinarith

/-- The first-order inequality of the squares. -/
theorem quad_convex (n : ℕ) (A : ℕ → ℕ → K) (hsym : ∀ i j, i < n → j < n → A i j = A j i)
    (hpsd : ∀ d : ℕ → K, 0 ≤ ∑ i ∈ range n, ∑ j ∈ range n, A i j * d i * d j) (c w : ℕ → K) :
    (∑ i ∈ range n, ∑ j ∈ range n, A i j * c i * c j) / 2 + ∑ i ∈ range n, (∑ j ∈ range n, A i j * c j) * (w i - c i) ≤
      (∑ i ∈ range n, ∑ j ∈ range n, A i j * w i * w j) / 2 := by
  have h := hpsd fun i => w i - c i
  have hexp : ∑ i ∈ range n, ∑ j ∈ range n, A i j * (w i - c i) * (w j - c j) =
      ∑ i ∈ range n, ∑ j ∈ range n, A i j * w i * w j - ∑ i ∈ range n, ∑ j ∈ range n, A i j * c i * c j
      - ∑ i ∈ range n, (∑ j ∈ range n, A i j * c j) * (w i - c i)
      - ∑ i ∈ range n, ∑ j ∈ range n, A i j * c i * (w j - c j) := by
    rw [← Finset.sum_sub_distrib, ← Finset.sum_sub_distrib, ← Finset.sum_sub_distrib]
    apply Finset.sum_congr rfl; intro i _
    rw [Finset.sum_mul, ← Finset.sum_sub_distrib, ← Finset.sum_sub_distrib, ← Finset.sum_sub_distrib]
    apply Finset.sum_congr rfl; intro j _; ring
  have hswap : ∑ i ∈ range n, ∑ j ∈ range n, A i j * c i * (w j - c j) = ∑ i ∈ range n, (∑ j ∈ range n, A i j * c j) * (w i - c i) := by
    rw [Finset.sum_comm]
    apply Finset.sum_congr rfl; intro i hi
    rw [Finset.sum_mul]
    apply Finset.sum_congr rfl; intro j hj
    rw [hsym j i (mem_range.1 hj) (mem_range.1 hi)]
  rw [hexp, hswap] at h
  linarith

/-- How far a step's result can be from the minimum, in terms of the step itself. -/
theorem prox_certificate (a : FistaArgs K) (hs : 0 < a.step) (h1 : 0 ≤ a.l1) (h2 : 0 ≤ a.l2)
    (hsym : ∀ i j, i < a.n → j < a.n → a.xtx i j = a.xtx j i)
    (hpsd : ∀ d : ℕ → K, 0 ≤ ∑ i ∈ range a.n, ∑ j ∈ range a.n, a.xtx i j * d i * d j) (v w : ℕ → K) :
    a.obj (a.prox v) + ∑ j ∈ range a.n, a.resid v (a.prox v) j * (w j - a.prox v j) ≤ a.obj w := by
  set c := a.prox v with hc
  have hq := quad_convex a.n a.xtx hsym hpsd c w
  have hp : ∑ j ∈ range a.n, (a.pen j (c j) + ((v j - c j) / a.step - a.grad v j) * (w j - c j)) ≤ ∑ j ∈ range a.n, a.pen j (w j) :=
    Finset.sum_le_sum fun j _ => prox_subgradient a hs h1 h2 v j (w j)
  rw [Finset.sum_add_distrib] at hp
  have hr : ∑ j ∈ range a.n, a.resid v c j * (w j - c j) =
      ∑ j ∈ range a.n, ((v j - c j) / a.step - a.grad v j) * (w j - c j)
      + ∑ i ∈ range a.n, (∑ j ∈ range a.n, a.xtx i j * c j) * (w i - c i) - ∑ j ∈ range a.n, a.xty j * (w j - c j) := by
    rw [← Finset.sum_add_distrib, ← Finset.sum_sub_distrib]
    apply Finset.sum_congr rfl; intro j _
    have : ∑ t ∈ range a.n, a.xtx j t * (v t - c t) = ∑ t ∈ range a.n, a.xtx j t * v t - ∑ t ∈ range a.n, a.xtx j t * c t := by
      rw [← Finset.sum_sub_distrib]; apply Finset.sum_congr rfl; intro t _; ring
    rw [FistaArgs.resid, FistaArgs.grad, this]; ring
  have hxy : ∑ j ∈ range a.n, a.xty j * (w j - c j) = ∑ j ∈ range a.n, a.xty j * w j - ∑ j ∈ range a.n, a.xty j * c j := by
    rw [← Finset.sum_sub_distrib]; apply Finset.sum_congr rfl; intro j _; ring
  rw [hr, hxy]
  unfold FistaArgs.obj
  linarith

/-- What the loop returns when it stops by itself: the step of some iteration, with a change below the tolerance. -/
theorem run_stop (a : FistaArgs K) : ∀ (fuel i : ℕ) (coef delta c : ℕ → K), a.run fuel i coef delta = (c, true) →
    ∃ (i' : ℕ) (coef' delta' : ℕ → K), c = a.prox (fistaPoint i' coef' delta') ∧ ∑ j ∈ range a.n, |c j - coef' j| < a.tol
  | 0, i, coef, delta, c, h => by simp [FistaArgs.run] at h
  | fuel + 1, i, coef, delta, c, h => by
    rw [FistaArgs.run] at h
    simp only [listsum_range] at h
    split at h
    · rename_i hlt
      simp only [Prod.mk.injEq, and_true] at h
      subst h
      exact ⟨i, coef, delta, rfl, hlt⟩
    · exact run_stop a fuel _ _ _ c h

end

end Verif
