import Mathlib.Probability.Distributions.Poisson.Basic
import Mathlib.Probability.Moments.Variance
import Mathlib.Tactic.Ring
import Mathlib.Tactic.FieldSimp

/-!
# Mean and variance of Poisson weights
-/

namespace Verif

open MeasureTheory ProbabilityTheory
open scoped Nat

/-- The weights of one unit: Poisson with rate 1. -/
noncomputable abbrev pois : Measure ℕ := poissonMeasure 1

private theorem sum_shift (f : ℕ → ℝ) (c : ℝ) (h : HasSum (fun n => Real.exp (-1) / (n)! * f (n + 1)) c) :
    HasSum (fun n => Real.exp (-1) / (n)! * (n * f n)) c := by
  have h' : HasSum (fun n : ℕ => Real.exp (-1) / ((n + 1 : ℕ))! * (((n + 1 : ℕ) : ℝ) * f (n + 1))) c := by
    convert h using 2 with n
    rw [Nat.factorial_succ]
    have : ((n + 1 : ℕ) : ℝ) ≠ 0 := by positivity
    have : ((n)! : ℝ) ≠ 0 := by positivity
    push_cast
    field_simp
  have := (hasSum_nat_add_iff (f := fun n : ℕ => Real.exp (-1) / (n)! * (n * f n)) 1).1 h'
  simpa using this

private theorem sum0 : HasSum (fun n : ℕ => Real.exp (-1) / (n)! * 1) 1 := by
  have := hasSum_one_poissonMeasure 1
  simpa using this

private theorem sum1 : HasSum (fun n : ℕ => Real.exp (-1) / (n)! * (n : ℝ)) 1 := by
  have := sum_shift (fun _ => 1) 1 sum0
  simpa using this

private theorem sum2 : HasSum (fun n : ℕ => Real.exp (-1) / (n)! * (n : ℝ) ^ 2) 2 := by
  have := sum_shift (fun n => (n : ℝ)) 2 (by
    have h := sum1.add sum0
    norm_num at h
    convert h using 2 with n
    push_cast
    ring)
  convert this using 2 with n
  ring

theorem pois_mean : ∫ n, (n : ℝ) ∂pois = 1 := by
  rw [integral_poissonMeasure]
  rw [← sum1.tsum_eq]
  congr 1
  funext n
  simp

theorem pois_square : ∫ n, (n : ℝ) ^ 2 ∂pois = 2 := by
  rw [integral_poissonMeasure]
  rw [← sum2.tsum_eq]
  congr 1
  funext n
  simp

theorem pois_memLp : MemLp (fun n : ℕ => (n : ℝ)) 2 pois := by
  rw [memLp_two_iff_integrable_sq (by exact Measurable.aestronglyMeasurable (by fun_prop)), integrable_poissonMeasure_iff]
  convert sum2.summable using 2 with n
  simp

theorem pois_variance : Var[fun n : ℕ => (n : ℝ); pois] = 1 := by
  rw [variance_eq_sub pois_memLp]
  have h1 : ∫ n, ((fun n : ℕ => (n : ℝ)) ^ 2) n ∂pois = 2 := pois_square
  rw [h1, pois_mean]
  norm_num

/-- The weights of `n` units, independent. -/
noncomputable abbrev poisWeights (n : ℕ) : Measure (Fin n → ℕ) := Measure.pi fun _ => pois

theorem pois_sum_mean {n : ℕ} (x : Fin n → ℝ) : ∫ ω, ∑ i, x i * (ω i : ℝ) ∂(poisWeights n) = ∑ i, x i := by
  have hint : Integrable (fun n : ℕ => (n : ℝ)) pois := pois_memLp.integrable (by norm_num)
  rw [integral_finset_sum]
  · apply Finset.sum_congr rfl
    intro i _
    rw [integral_const_mul, integral_comp_eval (μ := fun _ : Fin n => pois) (i := i) (f := fun m : ℕ => (m : ℝ)) hint.aestronglyMeasurable,
      pois_mean, mul_one]
  · intro i _
    exact (integrable_comp_eval (μ := fun _ : Fin n => pois) (i := i) (f := fun m : ℕ => (m : ℝ)) hint).const_mul _

theorem pois_sum_variance {n : ℕ} (x : Fin n → ℝ) : Var[fun ω => ∑ i, x i * (ω i : ℝ); poisWeights n] = ∑ i, x i ^ 2 := by
  have := variance_sum_pi (μ := fun _ : Fin n => pois) (X := fun i (m : ℕ) => x i * (m : ℝ)) fun i => pois_memLp.const_mul _
  have e : (∑ i, fun ω : Fin n → ℕ => x i * (ω i : ℝ)) = fun ω => ∑ i, x i * (ω i : ℝ) := by
    funext ω; simp
  rw [e] at this
  rw [this]
  apply Finset.sum_congr rfl
  intro i _
  rw [variance_const_mul, pois_variance, mul_one]

end Verif
