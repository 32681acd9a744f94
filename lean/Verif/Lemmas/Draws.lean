import Verif.Spec.Draws
import Verif.Model.StdErr
import Mathlib.Tactic.Ring
import Mathlib.Tactic.Linarith
import Mathlib.Tactic.FieldSimp
import Mathlib.Tactic.LinearCombination
import Mathlib.Algebra.BigOperators.Field

/-!
# Moments of sums over independent uniform draws
-/

namespace Verif

variable {α : Type} [Fintype α]

theorem sum_cons (m : ℕ) (f : (Fin (m + 1) → α) → ℝ) : ∑ d, f d = ∑ a, ∑ d' : Fin m → α, f (Fin.cons a d') := by
  rw [← Fintype.sum_prod_type']
  exact (Fintype.sum_equiv (Fin.consEquiv fun _ => α) _ _ fun p => rfl).symm

theorem sum_linear (b : α → ℝ) (hb : ∑ a, b a = 0) (m : ℕ) : ∑ d : Fin m → α, ∑ i, b (d i) = 0 := by
  induction m with
  | zero => simp
  | succ m ih =>
    rw [sum_cons]
    simp only [Fin.sum_univ_succ, Fin.cons_zero, Fin.cons_succ, Finset.sum_add_distrib, ih, Finset.sum_const, add_zero]
    rw [← Finset.smul_sum, hb, smul_zero]

theorem sum_square (b : α → ℝ) (hb : ∑ a, b a = 0) (m : ℕ) :
    (Fintype.card α : ℝ) * ∑ d : Fin m → α, (∑ i, b (d i)) ^ 2 = m * (Fintype.card α : ℝ) ^ m * ∑ a, b a ^ 2 := by
  induction m with
  | zero => simp
  | succ m ih =>
    rw [sum_cons]
    have h : ∀ a : α, ∑ d' : Fin m → α, (∑ i, b ((Fin.cons a d' : Fin (m + 1) → α) i)) ^ 2 =
        (Fintype.card α : ℝ) ^ m * b a ^ 2 + ∑ d' : Fin m → α, (∑ i, b (d' i)) ^ 2 := by
      intro a
      have e : ∀ d' : Fin m → α, (∑ i, b ((Fin.cons a d' : Fin (m + 1) → α) i)) ^ 2 =
          b a ^ 2 + 2 * b a * (∑ i, b (d' i)) + (∑ i, b (d' i)) ^ 2 := by
        intro d'
        simp only [Fin.sum_univ_succ, Fin.cons_zero, Fin.cons_succ]
        ring
      simp only [e, Finset.sum_add_distrib, ← Finset.mul_sum, sum_linear b hb m]
      simp
    simp only [h, Finset.sum_add_distrib, ← Finset.mul_sum, Finset.sum_const, Finset.card_univ, nsmul_eq_mul]
    rw [mul_add, ih]
    push_cast
    ring

theorem sum_squares (b : α → ℝ) (m : ℕ) :
    (Fintype.card α : ℝ) * ∑ d : Fin m → α, ∑ i, b (d i) = m * (Fintype.card α : ℝ) ^ m * ∑ a, b a := by
  induction m with
  | zero => simp
  | succ m ih =>
    rw [sum_cons]
    simp only [Fin.sum_univ_succ, Fin.cons_zero, Fin.cons_succ, Finset.sum_add_distrib, Finset.sum_const, Finset.card_univ, nsmul_eq_mul,
      ← Finset.mul_sum]
    rw [mul_add, ih]
    simp
    ring

variable [Nonempty α]

theorem card_pos' : (0 : ℝ) < Fintype.card α := by exact_mod_cast Fintype.card_pos

theorem average_sum (a : α → ℝ) (m : ℕ) : average (fun d : Fin m → α => ∑ i, a (d i)) = m * average a := by
  have h := sum_squares a m
  have hc := (card_pos' (α := α)).ne'
  unfold average
  rw [Fintype.card_fun, Fintype.card_fin]
  push_cast
  field_simp
  linear_combination h

theorem average_square (a : α → ℝ) (m : ℕ) :
    average (fun d : Fin m → α => (∑ i, a (d i) - m * average a) ^ 2) = m * average (fun x => (a x - average a) ^ 2) := by
  have hc := (card_pos' (α := α)).ne'
  have hb : ∑ x, (a x - average a) = 0 := by
    rw [Finset.sum_sub_distrib, Finset.sum_const, Finset.card_univ, nsmul_eq_mul]
    unfold average
    field_simp
    ring
  have h := sum_square (fun x => a x - average a) hb m
  have e : ∀ d : Fin m → α, ∑ i, (a (d i) - average a) = ∑ i, a (d i) - m * average a := by
    intro d
    rw [Finset.sum_sub_distrib, Finset.sum_const, Finset.card_univ, nsmul_eq_mul, Fintype.card_fin]
  simp only [e] at h
  generalize average a = A at h ⊢
  unfold average
  rw [Fintype.card_fun, Fintype.card_fin]
  push_cast
  field_simp
  linear_combination h

/-- The expected variance of a sample (divided by `m - 1`) is the variance. -/
theorem average_variance (T : α → ℝ) (m : ℕ) (hm : 2 ≤ m) :
    average (fun d : Fin m → α => spread (List.ofFn fun i => T (d i)) / ((m : ℝ) - 1)) = average fun x => (T x - average T) ^ 2 := by
  have hm0 : (m : ℝ) ≠ 0 := by positivity
  have hm1 : (m : ℝ) - 1 ≠ 0 := by
    have : (2 : ℝ) ≤ m := by exact_mod_cast hm
    linarith
  have key : ∀ d : Fin m → α, spread (List.ofFn fun i => T (d i)) =
      ∑ i, (T (d i) - average T) ^ 2 - (∑ i, T (d i) - m * average T) ^ 2 / m := by
    intro d
    unfold spread
    rw [List.map_ofFn, List.sum_ofFn, List.sum_ofFn, List.length_ofFn]
    generalize average T = A
    have e : ∀ c : ℝ, ∑ i : Fin m, (T (d i) - c) ^ 2 = ∑ i, T (d i) ^ 2 - 2 * c * ∑ i, T (d i) + m * c ^ 2 := by
      intro c
      have : ∀ i, (T (d i) - c) ^ 2 = T (d i) ^ 2 - 2 * c * T (d i) + c ^ 2 := fun i => by ring
      simp only [this, Finset.sum_add_distrib, Finset.sum_sub_distrib, ← Finset.mul_sum, Finset.sum_const, Finset.card_univ,
        nsmul_eq_mul, Fintype.card_fin]
    simp only [Function.comp_def]
    rw [e, e]
    field_simp
    ring
  have h1 := average_sum (fun x => (T x - average T) ^ 2) m
  have h2 := average_square T m
  have hsplit : average (fun d : Fin m → α => spread (List.ofFn fun i => T (d i)) / ((m : ℝ) - 1)) =
      (average (fun d : Fin m → α => ∑ i, (T (d i) - average T) ^ 2) -
        average (fun d : Fin m → α => (∑ i, T (d i) - m * average T) ^ 2) / m) / ((m : ℝ) - 1) := by
    simp only [key]
    generalize average T = A
    unfold average
    rw [← Finset.sum_div, Finset.sum_sub_distrib, ← Finset.sum_div]
    ring
  rw [hsplit, h1, h2]
  field_simp

end Verif
