import Verif.Spec.Regress
import Mathlib.LinearAlgebra.Matrix.ToLinearEquiv
import Mathlib.Algebra.BigOperators.Ring.Finset
import Mathlib.Tactic.Linarith
import Mathlib.Tactic.FieldSimp

namespace Verif

open Finset

/-- Linear prediction. -/
noncomputable def lin (n : ℕ) (w D : ℕ → ℝ) : ℝ := ∑ j ∈ range n, w j * D j

/-- Penalised sum of squares over a list of pairs of a target and a design row. -/
noncomputable def quad (n : ℕ) (P : ℕ → ℝ) (l : List (ℝ × (ℕ → ℝ))) (w : ℕ → ℝ) : ℝ :=
  (l.map fun r => (r.1 - lin n w r.2) ^ 2).sum + ∑ j ∈ range n, P j * w j ^ 2

/-- The normal equations. -/
def NormalEq (n : ℕ) (P : ℕ → ℝ) (l : List (ℝ × (ℕ → ℝ))) (c : ℕ → ℝ) : Prop :=
  ∀ i < n, (∑ j ∈ range n, (l.map fun r => r.2 i * r.2 j).sum * c j) + P i * c i = (l.map fun r => r.2 i * r.1).sum

theorem lin_sub (n : ℕ) (w c D : ℕ → ℝ) : lin n w D - lin n c D = lin n (fun j => w j - c j) D := by
  simp [lin, sub_mul, Finset.sum_sub_distrib]

/-- Expanding the squares around `c`. -/
theorem sq_expand (n : ℕ) (c w : ℕ → ℝ) (l : List (ℝ × (ℕ → ℝ))) :
    (l.map fun r => (r.1 - lin n w r.2) ^ 2).sum = (l.map fun r => (r.1 - lin n c r.2) ^ 2).sum
      + (l.map fun r => lin n (fun j => w j - c j) r.2 ^ 2).sum
      - 2 * ∑ j ∈ range n, (w j - c j) * (l.map fun r => r.2 j * (r.1 - lin n c r.2)).sum := by
  induction l with
  | nil => simp
  | cons r l ih =>
    have h : ∑ j ∈ range n, (w j - c j) * ((r :: l).map fun r => r.2 j * (r.1 - lin n c r.2)).sum =
        lin n (fun j => w j - c j) r.2 * (r.1 - lin n c r.2) +
        ∑ j ∈ range n, (w j - c j) * (l.map fun r => r.2 j * (r.1 - lin n c r.2)).sum := by
      rw [lin, Finset.sum_mul, ← Finset.sum_add_distrib]
      apply Finset.sum_congr rfl
      intro j _
      simp only [List.map_cons, List.sum_cons]; ring
    rw [h]
    simp only [List.map_cons, List.sum_cons]
    rw [ih]
    have := lin_sub n w c r.2
    have e : lin n w r.2 = lin n c r.2 + lin n (fun j => w j - c j) r.2 := by linarith
    rw [e]; ring

theorem sum_resid (n : ℕ) (c : ℕ → ℝ) (i : ℕ) (l : List (ℝ × (ℕ → ℝ))) :
    (l.map fun r => r.2 i * (r.1 - lin n c r.2)).sum =
      (l.map fun r => r.2 i * r.1).sum - ∑ j ∈ range n, (l.map fun r => r.2 i * r.2 j).sum * c j := by
  induction l with
  | nil => simp
  | cons r l ih =>
    simp only [List.map_cons, List.sum_cons]
    rw [ih]
    have : ∑ j ∈ range n, (r.2 i * r.2 j + (l.map fun r => r.2 i * r.2 j).sum) * c j =
        r.2 i * lin n c r.2 + ∑ j ∈ range n, (l.map fun r => r.2 i * r.2 j).sum * c j := by
      rw [lin, Finset.mul_sum, ← Finset.sum_add_distrib]
      apply Finset.sum_congr rfl
      intro j _; ring
    rw [this]; ring

/-- The loss at `w` in terms of a solution of the normal equations. -/
theorem quad_eq {n : ℕ} {P : ℕ → ℝ} {l : List (ℝ × (ℕ → ℝ))} {c : ℕ → ℝ} (h : NormalEq n P l c) (w : ℕ → ℝ) :
    quad n P l w = quad n P l c + (l.map fun r => lin n (fun j => w j - c j) r.2 ^ 2).sum
      + ∑ j ∈ range n, P j * (w j - c j) ^ 2 := by
  rw [quad, quad, sq_expand n c w l]
  have h1 : ∑ j ∈ range n, (w j - c j) * (l.map fun r => r.2 j * (r.1 - lin n c r.2)).sum =
      ∑ j ∈ range n, (w j - c j) * (P j * c j) := by
    apply Finset.sum_congr rfl
    intro j hj
    rw [sum_resid, ← h j (mem_range.1 hj)]
    ring
  have h2 : ∑ j ∈ range n, P j * w j ^ 2 = ∑ j ∈ range n, P j * c j ^ 2 + ∑ j ∈ range n, P j * (w j - c j) ^ 2
      + 2 * ∑ j ∈ range n, (w j - c j) * (P j * c j) := by
    rw [Finset.mul_sum, ← Finset.sum_add_distrib, ← Finset.sum_add_distrib]
    apply Finset.sum_congr rfl
    intro j _; ring
  rw [h1, h2]; ring

theorem list_sum_sq_nonneg {α : Type} (l : List α) (f : α → ℝ) : 0 ≤ (l.map fun r => f r ^ 2).sum :=
  List.sum_nonneg (by simp only [List.mem_map]; rintro x ⟨r, _, rfl⟩; positivity)

theorem list_sum_sq_zero {α : Type} (l : List α) (f : α → ℝ) (h : (l.map fun r => f r ^ 2).sum ≤ 0) : ∀ r ∈ l, f r = 0 := by
  induction l with
  | nil => simp
  | cons a l ih =>
    simp only [List.map_cons, List.sum_cons] at h
    have h1 := list_sum_sq_nonneg l f
    have h2 := sq_nonneg (f a)
    intro r hr
    rcases List.mem_cons.1 hr with rfl | hr
    · have : f r ^ 2 = 0 := by linarith
      simpa using this
    · exact ih (by linarith) r hr

theorem quad_min {n : ℕ} {P : ℕ → ℝ} (hP : ∀ j < n, 0 ≤ P j) {l : List (ℝ × (ℕ → ℝ))} {c : ℕ → ℝ} (h : NormalEq n P l c)
    (w : ℕ → ℝ) : quad n P l c ≤ quad n P l w := by
  rw [quad_eq h w]
  have h1 := list_sum_sq_nonneg l (fun r => lin n (fun j => w j - c j) r.2)
  have h2 : 0 ≤ ∑ j ∈ range n, P j * (w j - c j) ^ 2 :=
    Finset.sum_nonneg fun j hj => mul_nonneg (hP j (mem_range.1 hj)) (sq_nonneg _)
  linarith

/-- Another minimiser satisfies the homogeneous equations for the difference. -/
theorem quad_unique_aux {n : ℕ} {P : ℕ → ℝ} (hP : ∀ j < n, 0 ≤ P j) {l : List (ℝ × (ℕ → ℝ))} {c : ℕ → ℝ}
    (h : NormalEq n P l c) (w : ℕ → ℝ) (hw : quad n P l w ≤ quad n P l c) :
    ∀ i < n, (∑ j ∈ range n, (l.map fun r => r.2 i * r.2 j).sum * (w j - c j)) + P i * (w i - c i) = 0 := by
  rw [quad_eq h w] at hw
  have h1 := list_sum_sq_nonneg l (fun r => lin n (fun j => w j - c j) r.2)
  have h2 : 0 ≤ ∑ j ∈ range n, P j * (w j - c j) ^ 2 :=
    Finset.sum_nonneg fun j hj => mul_nonneg (hP j (mem_range.1 hj)) (sq_nonneg _)
  have z1 := list_sum_sq_zero l (fun r => lin n (fun j => w j - c j) r.2) (by linarith)
  have z2 : ∀ j ∈ range n, P j * (w j - c j) ^ 2 = 0 := by
    apply (Finset.sum_eq_zero_iff_of_nonneg fun j hj => mul_nonneg (hP j (mem_range.1 hj)) (sq_nonneg _)).1
    linarith
  intro i hi
  have e1 : ∑ j ∈ range n, (l.map fun r => r.2 i * r.2 j).sum * (w j - c j) =
      (l.map fun r => r.2 i * lin n (fun j => w j - c j) r.2).sum := by
    clear z1 hw h h1
    induction l with
    | nil => simp
    | cons r l ih =>
      simp only [List.map_cons, List.sum_cons, add_mul, Finset.sum_add_distrib]
      rw [ih, lin, Finset.mul_sum]
      congr 1
      apply Finset.sum_congr rfl
      intro j _; ring
  have e2 : (l.map fun r => r.2 i * lin n (fun j => w j - c j) r.2).sum = 0 := by
    apply List.sum_eq_zero
    simp only [List.mem_map]
    rintro x ⟨r, hr, rfl⟩
    rw [z1 r hr, mul_zero]
  have e3 : P i * (w i - c i) = 0 := by
    rcases mul_eq_zero.1 (z2 i (mem_range.2 hi)) with h | h
    · rw [h, zero_mul]
    · rw [pow_eq_zero_iff (by norm_num)] at h
      rw [h, mul_zero]
  rw [e1, e2, e3, add_zero]

/-! ## The solver -/

theorem npSolve_spec {n : ℕ} {A : ℕ → ℕ → ℝ} {b : List ℝ} {c : ℕ → ℝ} (h : npSolve n A b = some c) :
    b.length = n ∧ (∀ i < n, ∑ j ∈ range n, A i j * c j = b.getD i 0) ∧
    (∀ d : ℕ → ℝ, (∀ i < n, ∑ j ∈ range n, A i j * d j = 0) → ∀ j < n, d j = 0) := by
  classical
  rw [npSolve] at h
  split at h
  · exact absurd h (by simp)
  · rename_i hc
    push Not at hc
    obtain ⟨hlen, hdet⟩ := hc
    rw [Option.some.injEq] at h
    subst h
    set M : Matrix (Fin n) (Fin n) ℝ := Matrix.of fun i j => A i j with hM
    have hu : IsUnit M.det := isUnit_iff_ne_zero.2 hdet
    refine ⟨hlen, ?_, ?_⟩
    · intro i hi
      have := congrFun (Matrix.mulVec_mulVec (fun i : Fin n => b.getD i 0) M M⁻¹) ⟨i, hi⟩
      rw [Matrix.mul_nonsing_inv M hu, Matrix.one_mulVec] at this
      simp only [Matrix.mulVec, dotProduct] at this
      rw [Finset.sum_range, ← this]
      apply Finset.sum_congr rfl
      intro j _
      simp [hM]
      exact Or.inl rfl
    · intro d hd j hj
      have h0 : M.mulVec (fun j => d j) = 0 := by
        funext i
        simp only [Matrix.mulVec, dotProduct, hM, Matrix.of_apply, Pi.zero_apply]
        rw [← Finset.sum_range (fun j => A i j * d j)]
        exact hd i i.2
      have h1 := Matrix.eq_zero_of_mulVec_eq_zero hdet h0
      exact congrFun h1 ⟨j, hj⟩

theorem npSolve_isSome {n : ℕ} {A : ℕ → ℕ → ℝ} {b : List ℝ} (hb : b.length = n)
    (h : ∀ d : ℕ → ℝ, (∀ i < n, ∑ j ∈ range n, A i j * d j = 0) → ∀ j < n, d j = 0) : ∃ c, npSolve n A b = some c := by
  classical
  rw [npSolve]
  rw [if_neg]
  · exact ⟨_, rfl⟩
  · push Not
    refine ⟨hb, fun hdet => ?_⟩
    obtain ⟨v, hv, h0⟩ := Matrix.exists_mulVec_eq_zero_iff.2 hdet
    apply hv
    funext j
    have := h (fun j => if hj : j < n then v ⟨j, hj⟩ else 0) (by
      intro i hi
      have := congrFun h0 ⟨i, hi⟩
      simp only [Matrix.mulVec, dotProduct, Matrix.of_apply, Pi.zero_apply] at this
      rw [Finset.sum_range, ← this]
      apply Finset.sum_congr rfl
      intro j _; simp) j j.2
    simpa using this

end Verif
