import Verif.Spec.Adjust
import Mathlib.LinearAlgebra.BilinearForm.Orthogonal
import Mathlib.LinearAlgebra.Matrix.ToLin
import Mathlib.Tactic.Linarith
import Mathlib.Tactic.Ring

/-!
# Least squares fits exist, over any ordered field
-/

namespace Verif

section
variable {K : Type} [Field K] [LinearOrder K] [IsStrictOrderedRing K]

/-- The nearest point of a subspace. -/
theorem nearest {n : ℕ} (W : Submodule K (Fin n → K)) (b : Fin n → K) :
    ∃ w ∈ W, ∀ u ∈ W, ∑ i, (b i - w i) ^ 2 ≤ ∑ i, (b i - u i) ^ 2 := by
  let B : LinearMap.BilinForm K (Fin n → K) := dotProductBilin K K
  have hB : ∀ x y, B x y = ∑ i, x i * y i := fun x y => rfl
  have hrefl : B.IsRefl := by
    intro x y h
    rw [hB] at h ⊢
    rw [← h]
    exact Finset.sum_congr rfl fun i _ => mul_comm _ _
  have hd : Disjoint W (B.orthogonal W) := by
    rw [Submodule.disjoint_def]
    intro x hx hx'
    have h0 : ∑ i, x i * x i = 0 := by
      have := (LinearMap.BilinForm.mem_orthogonal_iff.1 hx') x hx
      exact this
    rw [Finset.sum_eq_zero_iff_of_nonneg fun i _ => mul_self_nonneg _] at h0
    funext i
    exact mul_self_eq_zero.1 (h0 i (Finset.mem_univ i))
  have hc := (LinearMap.BilinForm.isCompl_orthogonal_iff_disjoint hrefl).2 hd
  obtain ⟨w, hw, w', hw', hs⟩ := Submodule.mem_sup.1 (hc.sup_eq_top ▸ Submodule.mem_top : b ∈ W ⊔ B.orthogonal W)
  refine ⟨w, hw, fun u hu => ?_⟩
  have horth : ∑ i, (w i - u i) * w' i = 0 := (LinearMap.BilinForm.mem_orthogonal_iff.1 hw') (w - u) (W.sub_mem hw hu)
  have hb : ∀ i, b i = w i + w' i := fun i => by rw [← hs]; rfl
  have e1 : ∑ i, (b i - u i) ^ 2 = ∑ i, (b i - w i) ^ 2 + (2 * ∑ i, (w i - u i) * w' i + ∑ i, (w i - u i) ^ 2) := by
    rw [Finset.mul_sum, ← Finset.sum_add_distrib, ← Finset.sum_add_distrib]
    refine Finset.sum_congr rfl fun i _ => ?_
    rw [hb]
    ring
  rw [e1, horth]
  have : 0 ≤ ∑ i, (w i - u i) ^ 2 := Finset.sum_nonneg fun i _ => sq_nonneg _
  linarith

/-- What a linear model predicts for some rows. -/
def lmPredict {p : ℕ} (l : List (K × (Fin p → K))) : ((Fin p → K) × K) →ₗ[K] (Fin l.length → K) where
  toFun v := fun i => v.2 + ∑ j, v.1 j * (l[i]).2 j
  map_add' v w := by
    funext i
    simp only [Prod.fst_add, Prod.snd_add, Pi.add_apply, add_mul, Finset.sum_add_distrib]
    ring
  map_smul' a v := by
    funext i
    simp only [Prod.smul_fst, Prod.smul_snd, Pi.smul_apply, smul_eq_mul, RingHom.id_apply, mul_add, Finset.mul_sum, mul_assoc]

omit [LinearOrder K] [IsStrictOrderedRing K] in
theorem sqLoss_predict {p : ℕ} (l : List (K × (Fin p → K))) (v : (Fin p → K) × K) :
    sqLoss v.1 v.2 l = ∑ i, ((l[i]).1 - lmPredict l v i) ^ 2 := by
  unfold sqLoss
  rw [← Fin.sum_univ_getElem]
  have hl : (l.map fun r => (r.1 - v.2 - ∑ j, v.1 j * r.2 j) ^ 2).length = l.length := List.length_map _
  rw [← Fin.sum_congr' _ hl.symm]
  refine Finset.sum_congr rfl fun i _ => ?_
  simp only [Fin.getElem_fin, List.getElem_map, Fin.val_cast]
  rw [sub_sub]
  rfl

/-- There is a least squares solver, for any number of covariates. -/
theorem exists_leastSquares (p : ℕ) : ∃ fit : Fit K p, LeastSquares fit := by
  have h : ∀ l : List (K × (Fin p → K)), ∃ v : (Fin p → K) × K, ∀ th c, sqLoss v.1 v.2 l ≤ sqLoss th c l := by
    intro l
    obtain ⟨w, ⟨v, rfl⟩, hw⟩ := nearest (LinearMap.range (lmPredict l)) fun i => (l[i]).1
    refine ⟨v, fun th c => ?_⟩
    rw [sqLoss_predict, sqLoss_predict l (th, c)]
    exact hw _ ⟨(th, c), rfl⟩
  choose fit hfit using h
  exact ⟨fit, fun l _ => hfit l⟩

end

end Verif
