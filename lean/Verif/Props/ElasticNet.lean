import Verif.Lemmas.Center
import Verif.Spec.ElasticNet
import Mathlib.Algebra.BigOperators.Field

/-!
# C49: where the elastic net iteration rests

/repo/models.py:664-887.
-/

namespace Verif

open Finset

section
variable {K : Type} [Field K] [LinearOrder K] [IsStrictOrderedRing K]

/-- **C49.** Soft thresholding is the proximal map of the absolute value: it minimises half the squared distance plus
`t` times the absolute value, and nothing else does. -/
theorem C49_soft_threshold (x t : K) (ht : 0 ≤ t) (u : K) :
    (softT x t - x) ^ 2 / 2 + t * |softT x t| ≤ (u - x) ^ 2 / 2 + t * |u| ∧
    ((u - x) ^ 2 / 2 + t * |u| ≤ (softT x t - x) ^ 2 / 2 + t * |softT x t| → u = softT x t) := by
  have h := softT_subgradient x t ht u
  have e : (u - x) ^ 2 / 2 - (softT x t - x) ^ 2 / 2 = (u - softT x t) ^ 2 / 2 - (x - softT x t) * (u - softT x t) := by ring
  have h2 : 0 ≤ (u - softT x t) ^ 2 / 2 := by positivity
  refine ⟨by linarith, fun h' => ?_⟩
  have : (u - softT x t) ^ 2 = 0 := by linarith
  rw [pow_eq_zero_iff (by norm_num)] at this
  linarith

example : softT (3 : ℚ) 1 = 2 ∧ softT (-3 : ℚ) 1 = -2 ∧ softT (1 / 2 : ℚ) 1 = 0 := by decide +kernel

theorem obj_eq_matrixLoss (a : FistaArgs K) : a.obj = matrixLoss a.n a.xtx a.xty a.l1 a.l2 a.fit := rfl

/-- **C49.** A point where a step of the iteration does not move minimises the objective, for every positive semidefinite
matrix, right hand side and penalties. -/
theorem C49_rest_is_minimiser (a : FistaArgs K) (hs : 0 < a.step) (h1 : 0 ≤ a.l1) (h2 : 0 ≤ a.l2) (hA : PSD a.n a.xtx) (c : ℕ → K)
    (hc : ∀ j < a.n, a.prox c j = c j) (w : ℕ → K) :
    matrixLoss a.n a.xtx a.xty a.l1 a.l2 a.fit c ≤ matrixLoss a.n a.xtx a.xty a.l1 a.l2 a.fit w := by
  have h := prox_certificate a hs h1 h2 hA.1 hA.2 c w
  have hr : ∑ j ∈ range a.n, a.resid c (a.prox c) j * (w j - a.prox c j) = 0 := by
    apply Finset.sum_eq_zero
    intro j hj
    have : a.resid c (a.prox c) j = 0 := by
      rw [FistaArgs.resid, hc j (mem_range.1 hj), Finset.sum_eq_zero]
      · simp
      · intro t ht; rw [hc t (mem_range.1 ht)]; ring
    rw [this, zero_mul]
  have ho : a.obj (a.prox c) = a.obj c := by
    unfold FistaArgs.obj
    congr 1
    · congr 1
      · congr 1
        apply Finset.sum_congr rfl; intro i hi
        apply Finset.sum_congr rfl; intro j hj
        rw [hc i (mem_range.1 hi), hc j (mem_range.1 hj)]
      · apply Finset.sum_congr rfl; intro i hi; rw [hc i (mem_range.1 hi)]
    · apply Finset.sum_congr rfl; intro i hi; rw [hc i (mem_range.1 hi)]
  rw [hr, add_zero, ho] at h
  exact h

/-- **C49.** And at a minimiser a step does not move, with the step size the code takes from the largest eigenvalue: so the
resting points are exactly the minimisers. -/
theorem C49_minimiser_rests (a : FistaArgs K) (lam : K) (hlam : 0 < lam) (hb : FormBound a.n a.xtx lam) (hstep : a.step = stepSize lam)
    (h1 : 0 ≤ a.l1) (h2 : 0 ≤ a.l2) (hA : PSD a.n a.xtx) (c : ℕ → K)
    (hmin : ∀ w, matrixLoss a.n a.xtx a.xty a.l1 a.l2 a.fit c ≤ matrixLoss a.n a.xtx a.xty a.l1 a.l2 a.fit w) :
    ∀ j < a.n, a.prox c j = c j := by
  have hs : 0 < a.step := by
    rw [hstep, stepSize]
    apply div_pos _ hlam
    norm_num
  have h := prox_certificate a hs h1 h2 hA.1 hA.2 c c
  have hm : a.obj c ≤ a.obj (a.prox c) := hmin (a.prox c)
  have hle : ∑ j ∈ range a.n, a.resid c (a.prox c) j * (c j - a.prox c j) ≤ 0 := by linarith
  have hr : ∑ j ∈ range a.n, a.resid c (a.prox c) j * (c j - a.prox c j) =
      (∑ j ∈ range a.n, (c j - a.prox c j) ^ 2) / a.step
      - ∑ i ∈ range a.n, ∑ j ∈ range a.n, a.xtx i j * (c i - a.prox c i) * (c j - a.prox c j) := by
    rw [Finset.sum_div, ← Finset.sum_sub_distrib]
    apply Finset.sum_congr rfl; intro j _
    rw [FistaArgs.resid, sub_mul, Finset.sum_mul]
    congr 1
    · ring
    · apply Finset.sum_congr rfl; intro t _; ring
  have hbd := hb fun i => c i - a.prox c i
  rw [hr] at hle
  have hnn : 0 ≤ ∑ j ∈ range a.n, (c j - a.prox c j) ^ 2 := Finset.sum_nonneg fun j _ => sq_nonneg _
  have hs1 : 1 / a.step = lam * (1000000 / 999999) := by
    rw [hstep, stepSize]; field_simp; norm_num
  have hz : ∑ j ∈ range a.n, (c j - a.prox c j) ^ 2 ≤ 0 := by
    rw [div_eq_mul_one_div, hs1] at hle
    have e : (∑ j ∈ range a.n, (c j - a.prox c j) ^ 2) * (lam * (1000000 / 999999)) =
        lam * (∑ j ∈ range a.n, (c j - a.prox c j) ^ 2) + lam * (∑ j ∈ range a.n, (c j - a.prox c j) ^ 2) / 999999 := by ring
    have : lam * (∑ j ∈ range a.n, (c j - a.prox c j) ^ 2) / 999999 ≤ 0 := by linarith
    by_contra hcon
    push Not at hcon
    have : 0 < lam * (∑ j ∈ range a.n, (c j - a.prox c j) ^ 2) / 999999 := by positivity
    linarith
  have hzero := (Finset.sum_eq_zero_iff_of_nonneg (s := range a.n) (fun j _ => sq_nonneg (c j - a.prox c j))).1 (le_antisymm hz hnn)
  intro j hj
  have := hzero j (mem_range.2 hj)
  rw [pow_eq_zero_iff (by norm_num)] at this
  linarith

end

/-! ## From the rows -/

theorem sum_lin_sq (n : ℕ) (w : ℕ → ℝ) (l : List (ℝ × (ℕ → ℝ))) :
    (l.map fun r => lin n w r.2 ^ 2).sum = ∑ i ∈ range n, ∑ j ∈ range n, (l.map fun r => r.2 i * r.2 j).sum * w i * w j := by
  induction l with
  | nil => simp
  | cons r l ih =>
    simp only [List.map_cons, List.sum_cons, ih, add_mul, Finset.sum_add_distrib]
    congr 1
    rw [sq, lin, Finset.sum_mul_sum]
    apply Finset.sum_congr rfl; intro i _
    apply Finset.sum_congr rfl; intro j _; ring

/-- The mean squared residual in terms of moments. -/
theorem mean_sq_expand (n : ℕ) (w : ℕ → ℝ) (l : List (ℝ × (ℕ → ℝ))) (N : ℝ) (hN : N ≠ 0) :
    (l.map fun r => (r.1 - lin n w r.2) ^ 2).sum / (2 * N) = (l.map fun r => r.1 ^ 2).sum / (2 * N)
      + ((∑ i ∈ range n, ∑ j ∈ range n, (l.map fun r => r.2 i * r.2 j).sum / N * w i * w j) / 2
        - ∑ i ∈ range n, (l.map fun r => r.2 i * r.1).sum / N * w i) := by
  have h := sq_expand n (fun _ => 0) w l
  have h0 : ∀ D : ℕ → ℝ, lin n (fun _ => 0) D = 0 := fun D => by simp [lin]
  simp only [h0, sub_zero] at h
  rw [h, sum_lin_sq]
  have e1 : ∑ i ∈ range n, ∑ j ∈ range n, (l.map fun r => r.2 i * r.2 j).sum / N * w i * w j =
      (∑ i ∈ range n, ∑ j ∈ range n, (l.map fun r => r.2 i * r.2 j).sum * w i * w j) / N := by
    rw [Finset.sum_div]
    apply Finset.sum_congr rfl; intro i _
    rw [Finset.sum_div]
    apply Finset.sum_congr rfl; intro j _; ring
  have e2 : ∑ i ∈ range n, (l.map fun r => r.2 i * r.1).sum / N * w i = (∑ j ∈ range n, w j * (l.map fun r => r.2 j * r.1).sum) / N := by
    rw [Finset.sum_div]
    apply Finset.sum_congr rfl; intro i _; ring
  rw [e1, e2]
  field_simp; ring

theorem enetLoss_pen (k : ℕ) (l1 l2 : ℝ) (w : ℕ → ℝ) :
    l1 * ∑ i ∈ range k, |w i| + l2 / 2 * ∑ i ∈ range k, w i ^ 2 = ∑ i ∈ range k, (l1 * |w i| + l2 / 2 * w i ^ 2) := by
  rw [Finset.sum_add_distrib, Finset.mul_sum, Finset.mul_sum]

/-- Without an intercept the matrices of the statistics give the objective on the rows. -/
theorem enetLoss_false (k : ℕ) (l1 l2 : ℝ) (rows : List RegRow) (hrows : rows ≠ []) (A : ℕ → ℕ → ℝ) (b : ℕ → ℝ)
    (hA : ∀ i j, i < k → j < k → A i j = moment false rows i j) (hb : ∀ i < k, b i = avg rows fun r => r.x i * r.y) (w : ℕ → ℝ) :
    enetLoss k l1 l2 rows 0 w = (rows.map fun r => r.y ^ 2).sum / (2 * rows.length) + matrixLoss k A b l1 l2 false w := by
  have hN : (rows.length : ℝ) ≠ 0 := by
    have := List.length_pos_iff.2 hrows
    positivity
  have h := mean_sq_expand k w (rows.map fun r => (r.y, r.x)) rows.length hN
  simp only [List.map_map, Function.comp_def] at h
  rw [enetLoss, add_assoc, enetLoss_pen]
  have e : (rows.map fun r => (r.y - predict k 0 w r) ^ 2) = rows.map fun r => (r.y - lin k w r.x) ^ 2 := by
    apply List.map_congr_left; intro r _; simp [predict, lin]
  rw [e, h, matrixLoss]
  have e1 : ∑ i ∈ range k, ∑ j ∈ range k, A i j * w i * w j =
      ∑ i ∈ range k, ∑ j ∈ range k, (rows.map fun r => r.x i * r.x j).sum / rows.length * w i * w j := by
    apply Finset.sum_congr rfl; intro i hi
    apply Finset.sum_congr rfl; intro j hj
    rw [hA i j (mem_range.1 hi) (mem_range.1 hj)]; simp [moment]
  have e2 : ∑ i ∈ range k, b i * w i = ∑ i ∈ range k, (rows.map fun r => r.x i * r.y).sum / rows.length * w i := by
    apply Finset.sum_congr rfl; intro i hi
    rw [hb i (mem_range.1 hi), avg]
  rw [e1, e2]
  simp; ring

/-- With an intercept the matrices of the centred statistics give the objective on the rows, the first entry being the
intercept for centred features. -/
theorem enetLoss_true (k : ℕ) (l1 l2 : ℝ) (rows : List RegRow) (hrows : rows ≠ []) (A : ℕ → ℕ → ℝ) (b : ℕ → ℝ)
    (h00 : A 0 0 = 1) (h0j : ∀ j < k, A 0 (j + 1) = 0 ∧ A (j + 1) 0 = 0)
    (hA : ∀ i j, i < k → j < k → A (i + 1) (j + 1) = cov rows i j) (hb0 : b 0 = avg rows fun r => r.y)
    (hb : ∀ i < k, b (i + 1) = avg rows (fun r => r.x i * r.y) - avg rows (fun r => r.x i) * avg rows (fun r => r.y)) (w : ℕ → ℝ) :
    enetLoss k l1 l2 rows (w 0 - ∑ i ∈ range k, w (i + 1) * colMean rows i) (fun i => w (i + 1)) =
      (rows.map fun r => r.y ^ 2).sum / (2 * rows.length) + matrixLoss (k + 1) A b l1 l2 true w := by
  have hN : (rows.length : ℝ) ≠ 0 := by
    have := List.length_pos_iff.2 hrows
    positivity
  set D : RegRow → ℕ → ℝ := fun r i => if i = 0 then 1 else r.x (i - 1) - colMean rows (i - 1) with hD
  have h := mean_sq_expand (k + 1) w (rows.map fun r => (r.y, D r)) rows.length hN
  simp only [List.map_map, Function.comp_def] at h
  rw [enetLoss, add_assoc, enetLoss_pen]
  have e : (rows.map fun r => (r.y - predict k (w 0 - ∑ i ∈ range k, w (i + 1) * colMean rows i) (fun i => w (i + 1)) r) ^ 2) =
      rows.map fun r => (r.y - lin (k + 1) w (D r)) ^ 2 := by
    apply List.map_congr_left; intro r _
    congr 2
    rw [lin, Finset.sum_range_succ', predict]
    have : ∑ i ∈ range k, w (i + 1) * D r (i + 1) = ∑ i ∈ range k, w (i + 1) * r.x i - ∑ i ∈ range k, w (i + 1) * colMean rows i := by
      rw [← Finset.sum_sub_distrib]
      apply Finset.sum_congr rfl; intro i _; simp [hD]; ring
    rw [this]; simp [hD]; ring
  rw [e, h, matrixLoss]
  have hent : ∀ i j, i < k + 1 → j < k + 1 → (rows.map fun r => D r i * D r j).sum / rows.length = A i j := by
    intro i j hi hj
    cases i with
    | zero =>
      cases j with
      | zero => simp [hD, h00, hN]
      | succ j =>
        rw [(h0j j (by omega)).1]
        have : (rows.map fun r => D r 0 * D r (j + 1)) = rows.map fun r => r.x j - colMean rows j := by simp [hD]
        rw [this, sum_center_zero hrows, zero_div]
    | succ i =>
      cases j with
      | zero =>
        rw [(h0j i (by omega)).2]
        have : (rows.map fun r => D r (i + 1) * D r 0) = rows.map fun r => r.x i - colMean rows i := by simp [hD]
        rw [this, sum_center_zero hrows, zero_div]
      | succ j =>
        rw [hA i j (by omega) (by omega)]
        have : (rows.map fun r => D r (i + 1) * D r (j + 1)) = rows.map fun r => (r.x i - colMean rows i) * (r.x j - colMean rows j) := by
          simp [hD]
        rw [this, sum_cov hrows]
        field_simp
  have hrhs : ∀ i, i < k + 1 → (rows.map fun r => D r i * r.y).sum / rows.length = b i := by
    intro i hi
    cases i with
    | zero => rw [hb0, avg]; simp [hD]
    | succ i =>
      rw [hb i (by omega)]
      have : (rows.map fun r => D r (i + 1) * r.y) = rows.map fun r => (r.x i - colMean rows i) * r.y := by simp [hD]
      rw [this, sum_cov_y hrows]
      field_simp
  have e1 : ∑ i ∈ range (k + 1), ∑ j ∈ range (k + 1), (rows.map fun r => D r i * D r j).sum / rows.length * w i * w j =
      ∑ i ∈ range (k + 1), ∑ j ∈ range (k + 1), A i j * w i * w j := by
    apply Finset.sum_congr rfl; intro i hi
    apply Finset.sum_congr rfl; intro j hj
    rw [hent i j (mem_range.1 hi) (mem_range.1 hj)]
  have e2 : ∑ i ∈ range (k + 1), (rows.map fun r => D r i * r.y).sum / rows.length * w i = ∑ i ∈ range (k + 1), b i * w i := by
    apply Finset.sum_congr rfl; intro i hi
    rw [hrhs i (mem_range.1 hi)]
  have e3 : ∑ j ∈ range (k + 1), (if true = true ∧ j = 0 then (0 : ℝ) else l1 * |w j| + l2 / 2 * w j ^ 2) =
      ∑ i ∈ range k, (l1 * |w (i + 1)| + l2 / 2 * w (i + 1) ^ 2) := by
    rw [Finset.sum_range_succ']; simp
  rw [e1, e2, e3]
  ring

/-- What the code makes of the row that the iteration returns: with an intercept its first entry is replaced
(/repo/models.py:784-787). -/
noncomputable def finish (k : ℕ) (fit : Bool) (rows : List RegRow) (c : ℕ → ℝ) (j : ℕ) : ℝ :=
  if fit ∧ j = 0 then avg rows (fun r => r.y) - ∑ i ∈ range k, colMean rows i * c (i + 1) else c j

/-- The arguments of the iteration have to do with the rows. -/
structure ArgsOf (k : ℕ) (l1 l2 : ℝ) (fit : Bool) (tol : ℝ) (rows : List RegRow) (a : FistaArgs ℝ) : Prop where
  hn : a.n = if fit then k + 1 else k
  hl1 : a.l1 = l1
  hl2 : a.l2 = l2
  hfit : a.fit = fit
  htol : a.tol = tol
  sym : ∀ i j, i < a.n → j < a.n → a.xtx i j = a.xtx j i
  corner : fit = true → a.xtx 0 0 = 1 ∧ (∀ j < k, a.xtx 0 (j + 1) = 0 ∧ a.xtx (j + 1) 0 = 0) ∧ a.xty 0 = avg rows fun r => r.y
  inner : fit = true → ∀ i j, i < k → j < k → a.xtx (i + 1) (j + 1) = cov rows i j
  right : fit = true → ∀ i < k, a.xty (i + 1) = avg rows (fun r => r.x i * r.y) - avg rows (fun r => r.x i) * avg rows (fun r => r.y)
  inner' : fit = false → ∀ i j, i < k → j < k → a.xtx i j = moment false rows i j
  right' : fit = false → ∀ i < k, a.xty i = avg rows fun r => r.x i * r.y

/-- The pipeline calls the iteration with the matrices of the rows. -/
theorem enetCoefs_eq (maxEig : ℕ → (ℕ → ℕ → ℝ) → ℝ) (pre : Series ℝ) (k : ℕ) (hk : 0 < k) (l1 l2 : ℝ) (fit : Bool) (tol : ℝ)
    (rows : List RegRow) (hpre : NoClash pre k fit false rows) :
    ∃ a : FistaArgs ℝ, ArgsOf k l1 l2 fit tol rows a ∧ a.step = stepSize (maxEig a.n a.xtx) ∧
      ∀ maxIter init, enetCoefs maxEig (pre ++ suffStats k fit false rows) k l1 l2 fit tol maxIter init =
        some (finish k fit rows (a.fista maxIter init).1, (a.fista maxIter init).2) := by
  cases fit
  · obtain ⟨M, hM, hent⟩ := construct_general pre k hk false false (SN.val rows) hpre.sn
    simp only [Bool.false_eq_true, if_false] at hM hent
    refine ⟨⟨k, l1, l2, M, fun i => ((List.range k).map (rhsOf (SN.val rows) false)).getD i 0, tol, false, stepSize (maxEig k M)⟩, ?_, rfl, ?_⟩
    · constructor <;> first | rfl | dsimp only
      · intro i j hi hj
        rcases le_total i j with h | h
        · rw [(hent i j h hj).1, (hent i j h hj).2]
        · rw [(hent j i h hi).1, (hent j i h hi).2]
      · simp
      · simp
      · simp
      · intro _ i j hi hj
        rcases le_total i j with h | h
        · rw [(hent i j h hj).1]; simp [entryOf, SN.val, moment, avg]
        · rw [(hent j i h hi).2]; simp [entryOf, SN.val, moment, avg, mul_comm]
      · intro _ i hi
        simp [List.getD, hi, rhsOf, SN.val]
    · intro maxIter init
      rw [enetCoefs, suffStats_eq]
      simp only [Bool.false_eq_true, if_false, Option.bind_eq_bind, Option.bind_some, hM, Option.pure_def, false_and]
      congr 2
  · obtain ⟨M, hM, hent⟩ := construct_general pre k hk true false (centVal rows) hpre.sn
    simp only [if_true] at hM hent
    refine ⟨⟨k + 1, l1, l2, M, fun i => ((List.range (k + 1)).map (rhsOf (centVal rows) true)).getD i 0, tol, true,
      stepSize (maxEig (k + 1) M)⟩, ?_, rfl, ?_⟩
    · constructor <;> first | rfl | dsimp only
      · intro i j hi hj
        rcases le_total i j with h | h
        · rw [(hent i j h hj).1, (hent i j h hj).2]
        · rw [(hent j i h hi).1, (hent j i h hi).2]
      · intro _
        refine ⟨?_, fun j hj => ?_, ?_⟩
        · rw [(hent 0 0 le_rfl (by omega)).1]; simp [entryOf]
        · rw [(hent 0 (j + 1) (by omega) (by omega)).1, (hent 0 (j + 1) (by omega) (by omega)).2]
          simp [entryOf, centVal]
        · simp [List.getD, rhsOf, centVal]
      · intro _ i j hi hj
        rcases le_total i j with h | h
        · rw [(hent (i + 1) (j + 1) (by omega) (by omega)).1]; simp [entryOf, centVal]
        · rw [(hent (j + 1) (i + 1) (by omega) (by omega)).2]; simp [entryOf, centVal, cov, mul_comm]
      · intro _ i hi
        simp [List.getD, hi, rhsOf, centVal]
      · simp
      · simp
    · intro maxIter init
      rw [enetCoefs, if_pos rfl, enetCenter_eq hpre]
      simp only [Option.bind_eq_bind, Option.bind_some, hM, Option.pure_def, Option.some.injEq, Prod.mk.injEq, and_true]
      funext j
      by_cases hj : j = 0
      · subst hj
        simp only [finish, and_self, if_true]
        congr 1
        rw [← list_range_sum]
        congr 1
        apply List.map_congr_left
        intro i hi
        rw [List.mem_range] at hi
        simp [List.getD, hi, colMean]
      · simp [finish, hj]

theorem psd_of_args {k : ℕ} {l1 l2 : ℝ} {fit : Bool} {tol : ℝ} {rows : List RegRow} (hrows : rows ≠ []) {a : FistaArgs ℝ}
    (h : ArgsOf k l1 l2 fit tol rows a) : PSD a.n a.xtx := by
  refine ⟨h.sym, fun d => ?_⟩
  have hN : 0 < (rows.length : ℝ) := by
    have := List.length_pos_iff.2 hrows
    positivity
  cases fit
  · have hn : a.n = k := by rw [h.hn]; simp
    rw [hn]
    have e : ∑ i ∈ range k, ∑ j ∈ range k, a.xtx i j * d i * d j =
        (rows.map fun r => lin k d r.x ^ 2).sum / rows.length := by
      have := sum_lin_sq k d (rows.map fun r => (r.y, r.x))
      simp only [List.map_map, Function.comp_def] at this
      rw [this, Finset.sum_div]
      apply Finset.sum_congr rfl; intro i hi
      rw [Finset.sum_div]
      apply Finset.sum_congr rfl; intro j hj
      rw [h.inner' rfl i j (mem_range.1 hi) (mem_range.1 hj)]
      simp [moment]; ring
    rw [e]
    exact div_nonneg (list_sum_sq_nonneg _ _) hN.le
  · have hn : a.n = k + 1 := by rw [h.hn]; simp
    rw [hn]
    have hc := h.corner rfl
    have e : ∑ i ∈ range (k + 1), ∑ j ∈ range (k + 1), a.xtx i j * d i * d j =
        d 0 ^ 2 + (rows.map fun r => lin k (fun i => d (i + 1)) (fun i => r.x i - colMean rows i) ^ 2).sum / rows.length := by
      have := sum_lin_sq k (fun i => d (i + 1)) (rows.map fun r => (r.y, fun i => r.x i - colMean rows i))
      simp only [List.map_map, Function.comp_def] at this
      rw [this, Finset.sum_range_succ', Finset.sum_range_succ', hc.1, Finset.sum_div]
      have z : ∑ j ∈ range k, a.xtx 0 (j + 1) * d 0 * d (j + 1) = 0 := by
        apply Finset.sum_eq_zero; intro j hj; rw [(hc.2.1 j (mem_range.1 hj)).1]; ring
      rw [z]
      have e2 : ∑ i ∈ range k, ∑ j ∈ range (k + 1), a.xtx (i + 1) j * d (i + 1) * d j =
          ∑ i ∈ range k, (∑ j ∈ range k, (rows.map fun r => (r.x i - colMean rows i) * (r.x j - colMean rows j)).sum * d (i + 1) * d (j + 1)) / rows.length := by
        apply Finset.sum_congr rfl; intro i hi
        rw [Finset.sum_range_succ', (hc.2.1 i (mem_range.1 hi)).2, Finset.sum_div]
        simp only [zero_mul, add_zero]
        apply Finset.sum_congr rfl; intro j hj
        rw [h.inner rfl i j (mem_range.1 hi) (mem_range.1 hj), sum_cov hrows]
        field_simp
      rw [e2]; ring
    rw [e]
    exact add_nonneg (sq_nonneg _) (div_nonneg (list_sum_sq_nonneg _ _) hN.le)

/-- The step size is positive: with an intercept the matrix has a 1 on the diagonal, without one some feature is not 0. -/
theorem step_pos {k : ℕ} {l1 l2 : ℝ} {fit : Bool} {tol : ℝ} {rows : List RegRow} (hrows : rows ≠ []) {a : FistaArgs ℝ}
    (h : ArgsOf k l1 l2 fit tol rows a) {lam : ℝ} (hlam : FormBound a.n a.xtx lam) (hnz : fit = false → ∃ r ∈ rows, ∃ i < k, r.x i ≠ 0) :
    0 < lam := by
  have hN : 0 < (rows.length : ℝ) := by
    have := List.length_pos_iff.2 hrows
    positivity
  have key : ∀ i < a.n, a.xtx i i ≤ lam := by
    intro i hi
    have := hlam fun j => if j = i then 1 else 0
    rw [Finset.sum_eq_single i, Finset.sum_eq_single i, Finset.sum_eq_single i] at this
    · simpa using this
    · intro j _ hj; simp [hj]
    · intro hh; exact absurd (mem_range.2 hi) hh
    · intro j _ hj; simp [hj]
    · intro hh; exact absurd (mem_range.2 hi) hh
    · intro j _ hj; simp [hj]
    · intro hh; exact absurd (mem_range.2 hi) hh
  cases fit
  · obtain ⟨r, hr, i, hi, hx⟩ := hnz rfl
    have hn : a.n = k := by rw [h.hn]; simp
    have := key i (by omega)
    rw [h.inner' rfl i i hi hi] at this
    refine lt_of_lt_of_le ?_ this
    simp only [moment, Bool.false_eq_true, if_false]
    apply div_pos _ hN
    have hnn := list_sum_sq_nonneg rows (fun r => r.x i)
    simp only [sq] at hnn
    rcases lt_or_eq_of_le hnn with h' | h'
    · exact h'
    · exact absurd (list_sum_sq_zero rows (fun r => r.x i) (by simp only [sq]; linarith) r hr) hx
  · have hn : a.n = k + 1 := by rw [h.hn]; simp
    have := key 0 (by omega)
    rw [(h.corner rfl).1] at this
    linarith

/-- The objective on the rows from a row of the iteration. -/
theorem enetLoss_args {k : ℕ} {l1 l2 : ℝ} {fit : Bool} {tol : ℝ} {rows : List RegRow} (hrows : rows ≠ []) {a : FistaArgs ℝ}
    (h : ArgsOf k l1 l2 fit tol rows a) (w : ℕ → ℝ) :
    enetLoss k l1 l2 rows (if fit then w 0 - ∑ i ∈ range k, w (i + 1) * colMean rows i else 0) (slopesOf fit w) =
      (rows.map fun r => r.y ^ 2).sum / (2 * rows.length) + matrixLoss a.n a.xtx a.xty a.l1 a.l2 a.fit w := by
  rw [h.hn, h.hl1, h.hl2, h.hfit]
  cases fit
  · exact enetLoss_false k l1 l2 rows hrows a.xtx a.xty (h.inner' rfl) (h.right' rfl) w
  · obtain ⟨h0, h1, h2⟩ := h.corner rfl
    exact enetLoss_true k l1 l2 rows hrows a.xtx a.xty h0 h1 (h.inner rfl) h2 (h.right rfl) w

/-- The first entry is on its own. -/
theorem matrixLoss_zero {k : ℕ} {l1 l2 tol : ℝ} {rows : List RegRow} {a : FistaArgs ℝ} (h : ArgsOf k l1 l2 true tol rows a) (w : ℕ → ℝ) (t : ℝ) :
    matrixLoss a.n a.xtx a.xty a.l1 a.l2 a.fit w - matrixLoss a.n a.xtx a.xty a.l1 a.l2 a.fit (fun j => if j = 0 then t else w j)
      = (w 0 - a.xty 0) ^ 2 / 2 - (t - a.xty 0) ^ 2 / 2 := by
  obtain ⟨h0, h1, _⟩ := h.corner rfl
  have hn : a.n = k + 1 := by rw [h.hn]; simp
  have key : ∀ u : ℕ → ℝ, matrixLoss a.n a.xtx a.xty a.l1 a.l2 a.fit u = u 0 ^ 2 / 2 - a.xty 0 * u 0 +
      ((∑ i ∈ range k, ∑ j ∈ range k, a.xtx (i + 1) (j + 1) * u (i + 1) * u (j + 1)) / 2 - ∑ i ∈ range k, a.xty (i + 1) * u (i + 1)
        + ∑ j ∈ range k, (a.l1 * |u (j + 1)| + a.l2 / 2 * u (j + 1) ^ 2)) := by
    intro u
    rw [matrixLoss, hn, h.hfit, Finset.sum_range_succ', Finset.sum_range_succ' (fun j => a.xtx 0 j * u 0 * u j),
      Finset.sum_range_succ' (fun i => a.xty i * u i), Finset.sum_range_succ' (fun j => if true = true ∧ j = 0 then (0 : ℝ) else _), h0]
    have z : ∑ j ∈ range k, a.xtx 0 (j + 1) * u 0 * u (j + 1) = 0 := by
      apply Finset.sum_eq_zero; intro j hj; rw [(h1 j (mem_range.1 hj)).1]; ring
    have e2 : ∑ i ∈ range k, ∑ j ∈ range (k + 1), a.xtx (i + 1) j * u (i + 1) * u j =
        ∑ i ∈ range k, ∑ j ∈ range k, a.xtx (i + 1) (j + 1) * u (i + 1) * u (j + 1) := by
      apply Finset.sum_congr rfl; intro i hi
      rw [Finset.sum_range_succ', (h1 i (mem_range.1 hi)).2]; ring
    rw [z, e2]
    simp; ring
  rw [key, key]
  simp; ring

/-- A row of the iteration from an intercept and coefficients on the rows. -/
noncomputable def rowOf (k : ℕ) (fit : Bool) (rows : List RegRow) (b : ℝ) (w : ℕ → ℝ) (j : ℕ) : ℝ :=
  if fit then (if j = 0 then b + ∑ i ∈ range k, w i * colMean rows i else w (j - 1)) else w j

theorem slopes_rowOf (k : ℕ) (fit : Bool) (rows : List RegRow) (b : ℝ) (w : ℕ → ℝ) : slopesOf fit (rowOf k fit rows b w) = w := by
  funext i; cases fit <;> simp [slopesOf, rowOf]

theorem enetLoss_rowOf {k : ℕ} {l1 l2 : ℝ} {fit : Bool} {tol : ℝ} {rows : List RegRow} (hrows : rows ≠ []) {a : FistaArgs ℝ}
    (h : ArgsOf k l1 l2 fit tol rows a) (b : ℝ) (w : ℕ → ℝ) (hb : fit = false → b = 0) :
    enetLoss k l1 l2 rows b w =
      (rows.map fun r => r.y ^ 2).sum / (2 * rows.length) + matrixLoss a.n a.xtx a.xty a.l1 a.l2 a.fit (rowOf k fit rows b w) := by
  rw [← enetLoss_args hrows h, slopes_rowOf]
  congr 1
  cases fit
  · simp [hb]
  · simp [rowOf]

theorem slopes_finish (k : ℕ) (fit : Bool) (rows : List RegRow) (c : ℕ → ℝ) : slopesOf fit (finish k fit rows c) = slopesOf fit c := by
  funext i; cases fit <;> simp [slopesOf, finish]

/-- The row as finished has the first entry at its best. -/
theorem enetLoss_finish {k : ℕ} {l1 l2 : ℝ} {fit : Bool} {tol : ℝ} {rows : List RegRow} (hrows : rows ≠ []) {a : FistaArgs ℝ}
    (h : ArgsOf k l1 l2 fit tol rows a) (c : ℕ → ℝ) :
    enetLoss k l1 l2 rows (interceptOf fit (finish k fit rows c)) (slopesOf fit c) =
      (rows.map fun r => r.y ^ 2).sum / (2 * rows.length) + matrixLoss a.n a.xtx a.xty a.l1 a.l2 a.fit
        (fun j => if fit ∧ j = 0 then a.xty 0 else c j) := by
  rw [← enetLoss_args hrows h]
  cases fit
  · simp [interceptOf, slopesOf]
  · obtain ⟨_, _, h3⟩ := h.corner rfl
    have e1 : slopesOf true (fun j => if true = true ∧ j = 0 then a.xty 0 else c j) = slopesOf true c := by
      funext i; simp [slopesOf]
    rw [e1, h3]
    simp only [interceptOf, finish, and_self, if_true]
    congr 2
    apply Finset.sum_congr rfl; intro i _
    simp [mul_comm]

/-- **C49.** On the rows of a slice: `compute_coef_for_elastic_net` runs an iteration whose resting points are exactly the rows
of coefficients that minimise the elastic net objective on the rows. -/
theorem C49_rows (maxEig : ℕ → (ℕ → ℕ → ℝ) → ℝ) (hEig : ∀ n A, PSD n A → FormBound n A (maxEig n A)) (pre : Series ℝ) (k : ℕ)
    (hk : 0 < k) (l1 l2 : ℝ) (h1 : 0 ≤ l1) (h2 : 0 ≤ l2) (fit : Bool) (tol : ℝ) (rows : List RegRow) (hrows : rows ≠ [])
    (hpre : NoClash pre k fit false rows) (hnz : fit = false → ∃ r ∈ rows, ∃ i < k, r.x i ≠ 0) :
    ∃ a : FistaArgs ℝ, a.n = (if fit then k + 1 else k) ∧ a.tol = tol ∧
      (∀ maxIter init, enetCoefs maxEig (pre ++ suffStats k fit false rows) k l1 l2 fit tol maxIter init =
        some (finish k fit rows (a.fista maxIter init).1, (a.fista maxIter init).2)) ∧
      (∀ c : ℕ → ℝ, (∀ j < a.n, a.prox c j = c j) → ∀ b w, (fit = false → b = 0) →
        enetLoss k l1 l2 rows (interceptOf fit (finish k fit rows c)) (slopesOf fit (finish k fit rows c)) ≤ enetLoss k l1 l2 rows b w) ∧
      (∀ b u, (fit = false → b = 0) → (∀ b' w, (fit = false → b' = 0) → enetLoss k l1 l2 rows b u ≤ enetLoss k l1 l2 rows b' w) →
        ∃ c : ℕ → ℝ, (∀ j < a.n, a.prox c j = c j) ∧ interceptOf fit (finish k fit rows c) = b ∧
          slopesOf fit (finish k fit rows c) = u) := by
  obtain ⟨a, ha, hstep, hrun⟩ := enetCoefs_eq maxEig pre k hk l1 l2 fit tol rows hpre
  have hpsd := psd_of_args hrows ha
  have hfb := hEig a.n a.xtx hpsd
  have hlam := step_pos hrows ha hfb hnz
  have hs : 0 < a.step := by
    rw [hstep, stepSize]
    exact div_pos (by norm_num) hlam
  have hzero : ∀ c : ℕ → ℝ, (∀ w, matrixLoss a.n a.xtx a.xty a.l1 a.l2 a.fit c ≤ matrixLoss a.n a.xtx a.xty a.l1 a.l2 a.fit w) →
      fit = true → c 0 = a.xty 0 := by
    rintro c hc rfl
    have := matrixLoss_zero ha c (a.xty 0)
    have h' := hc (fun j => if j = 0 then a.xty 0 else c j)
    have : (c 0 - a.xty 0) ^ 2 = 0 := by
      have := sq_nonneg (c 0 - a.xty 0)
      nlinarith
    rw [pow_eq_zero_iff (by norm_num)] at this
    linarith
  have hfix : ∀ c : ℕ → ℝ, (∀ w, matrixLoss a.n a.xtx a.xty a.l1 a.l2 a.fit c ≤ matrixLoss a.n a.xtx a.xty a.l1 a.l2 a.fit w) →
      (fun j => if fit ∧ j = 0 then a.xty 0 else c j) = c := by
    intro c hc
    funext j
    by_cases hj : fit = true ∧ j = 0
    · rw [if_pos hj, hj.2, hzero c hc hj.1]
    · rw [if_neg hj]
  refine ⟨a, ha.hn, ha.htol, hrun, ?_, ?_⟩
  · intro c hc b w hb
    have hmin := C49_rest_is_minimiser a hs (by rw [ha.hl1]; exact h1) (by rw [ha.hl2]; exact h2) hpsd c hc
    rw [slopes_finish, enetLoss_finish hrows ha, hfix c hmin, enetLoss_rowOf hrows ha b w hb]
    have := hmin (rowOf k fit rows b w)
    linarith
  · intro b u hb hmin
    have hm : ∀ w, matrixLoss a.n a.xtx a.xty a.l1 a.l2 a.fit (rowOf k fit rows b u) ≤ matrixLoss a.n a.xtx a.xty a.l1 a.l2 a.fit w := by
      intro w
      have e1 := enetLoss_rowOf hrows ha b u hb
      have e2 := enetLoss_args hrows ha w
      have := hmin (if fit then w 0 - ∑ i ∈ range k, w (i + 1) * colMean rows i else 0) (slopesOf fit w) (by rintro rfl; simp)
      linarith
    refine ⟨rowOf k fit rows b u, ?_, ?_, ?_⟩
    · exact C49_minimiser_rests a _ hlam hfb hstep (by rw [ha.hl1]; exact h1) (by rw [ha.hl2]; exact h2) hpsd _ hm
    · cases fit
      · simp [interceptOf, hb]
      · have h0 := hzero _ hm rfl
        rw [(ha.corner rfl).2.2] at h0
        simp only [rowOf, if_true] at h0
        simp only [interceptOf, finish, and_self, if_true, rowOf]
        rw [← h0]
        have : ∑ i ∈ range k, colMean rows i * (if i + 1 = 0 then b + ∑ i ∈ range k, u i * colMean rows i else u (i + 1 - 1)) =
            ∑ i ∈ range k, u i * colMean rows i := by
          apply Finset.sum_congr rfl; intro i _; simp [mul_comm]
        rw [this]; ring
    · rw [slopes_finish, slopes_rowOf]

/-- **C49.** In the parameters a user gives: `ElasticNet(alpha, l1_ratio)` on the rows of a slice runs an iteration whose resting
points are exactly the rows of coefficients that minimise sklearn's objective for `alpha` and `l1_ratio`. -/
theorem C49_user (maxEig : ℕ → (ℕ → ℕ → ℝ) → ℝ) (hEig : ∀ n A, PSD n A → FormBound n A (maxEig n A)) (pre : Series ℝ) (k : ℕ)
    (hk : 0 < k) (alpha ratio : ℝ) (ha : 0 ≤ alpha) (hr0 : 0 < ratio) (hr1 : ratio ≤ 1) (fit : Bool) (tol : ℝ) (rows : List RegRow)
    (hrows : rows ≠ []) (hpre : NoClash pre k fit false rows) (hnz : fit = false → ∃ r ∈ rows, ∃ i < k, r.x i ≠ 0) :
    ∃ a : FistaArgs ℝ, a.n = (if fit then k + 1 else k) ∧ a.tol = tol ∧
      (∀ maxIter init, enetSql maxEig pre k alpha ratio fit false tol maxIter init rows =
        some (finish k fit rows (a.fista maxIter init).1, (a.fista maxIter init).2)) ∧
      (∀ c : ℕ → ℝ, (∀ j < a.n, a.prox c j = c j) → ∀ b w, (fit = false → b = 0) →
        skEnet k alpha ratio rows (interceptOf fit (finish k fit rows c)) (slopesOf fit (finish k fit rows c)) ≤
          skEnet k alpha ratio rows b w) ∧
      (∀ b u, (fit = false → b = 0) → (∀ b' w, (fit = false → b' = 0) → skEnet k alpha ratio rows b u ≤ skEnet k alpha ratio rows b' w) →
        ∃ c : ℕ → ℝ, (∀ j < a.n, a.prox c j = c j) ∧ interceptOf fit (finish k fit rows c) = b ∧
          slopesOf fit (finish k fit rows c) = u) := by
  have he : ∀ b w, skEnet k alpha ratio rows b w = enetLoss k (ratio * alpha) ((1 - ratio) * alpha) rows b w := by
    intro b w
    unfold skEnet enetLoss
    ring
  simp only [he]
  have h := C49_rows maxEig hEig pre k hk (ratio * alpha) ((1 - ratio) * alpha) (by positivity)
    (mul_nonneg (by linarith) ha) fit tol rows hrows hpre hnz
  have hsql : ∀ maxIter init, enetSql maxEig pre k alpha ratio fit false tol maxIter init rows =
      enetCoefs maxEig (pre ++ suffStats k fit false rows) k (ratio * alpha) ((1 - ratio) * alpha) fit tol maxIter init := by
    intro maxIter init
    rw [enetSql, if_neg (by intro h; rcases h with h | h; exact hr0.ne' h; exact h ⟨hr0.le, hr1⟩)]
    simp
  simp only [hsql]
  exact h

/-- There are functions that bound every form (the largest eigenvalue is one; this is a cruder one). -/
theorem exists_maxEig : ∃ maxEig : ℕ → (ℕ → ℕ → ℝ) → ℝ, ∀ n A, PSD n A → FormBound n A (maxEig n A) := by
  refine ⟨fun n A => ∑ i ∈ range n, ∑ j ∈ range n, |A i j|, fun n A _ d => ?_⟩
  rw [Finset.sum_mul]
  refine Finset.sum_le_sum fun i hi => ?_
  rw [Finset.sum_mul]
  refine Finset.sum_le_sum fun j hj => ?_
  have h1 : A i j * d i * d j ≤ |A i j| * ((d i ^ 2 + d j ^ 2) / 2) := by
    have h2 : A i j * d i * d j ≤ |A i j| * |d i * d j| := by rw [← abs_mul, ← mul_assoc]; exact le_abs_self _
    have h3 : |d i * d j| ≤ (d i ^ 2 + d j ^ 2) / 2 := by
      rw [abs_le]; constructor <;> nlinarith [sq_nonneg (d i + d j), sq_nonneg (d i - d j)]
    exact h2.trans (mul_le_mul_of_nonneg_left h3 (abs_nonneg _))
  have h4 : ∀ i ∈ range n, d i ^ 2 ≤ ∑ i ∈ range n, d i ^ 2 := fun i hi =>
    Finset.single_le_sum (f := fun i => d i ^ 2) (fun _ _ => sq_nonneg _) hi
  refine h1.trans (mul_le_mul_of_nonneg_left ?_ (abs_nonneg _))
  have := h4 i hi
  have := h4 j hj
  linarith

/-- The hypotheses are met by two rows, with and without an intercept. -/
example : ∃ maxEig : ℕ → (ℕ → ℕ → ℝ) → ℝ, (∀ n A, PSD n A → FormBound n A (maxEig n A)) ∧
    ∀ fit, NoClash [] 1 fit false [⟨1, fun _ => 2⟩, ⟨3, fun _ => 5⟩] ∧
      (fit = false → ∃ r ∈ [(⟨1, fun _ => 2⟩ : RegRow), ⟨3, fun _ => 5⟩], ∃ i < 1, r.x i ≠ 0) := by
  obtain ⟨e, he⟩ := exists_maxEig
  exact ⟨e, he, fun fit => ⟨by intro p hp; simp at hp, fun _ => ⟨⟨1, fun _ => 2⟩, by simp, 0, by simp, by norm_num⟩⟩⟩

/-- **C49.** `l1_ratio = 0`, which the documentation and the error message allow (`between 0 and 1`), is refused. -/
theorem C49_violation_zero_ratio (maxEig : ℕ → (ℕ → ℕ → ℝ) → ℝ) (pre : Series ℝ) (k : ℕ) (alpha : ℝ) (fit normalize : Bool)
    (tol : ℝ) (maxIter : ℕ) (init : ℕ → ℝ) (rows : List RegRow) :
    enetSql maxEig pre k alpha 0 fit normalize tol maxIter init rows = none := by
  rw [enetSql, if_pos (Or.inl rfl)]

/-- **C49.** When the iteration stops by itself, what is known about the coefficients: there is the point `v` from which its last
step was made, and the objective exceeds its minimum by no more than the product of the distance to the minimiser and the
residual of that step. In particular the coefficients minimise the objective if the last step did not move `v`. -/
theorem C49_stop_bound (maxEig : ℕ → (ℕ → ℕ → ℝ) → ℝ) (hEig : ∀ n A, PSD n A → FormBound n A (maxEig n A)) (pre : Series ℝ) (k : ℕ)
    (hk : 0 < k) (l1 l2 : ℝ) (h1 : 0 ≤ l1) (h2 : 0 ≤ l2) (fit : Bool) (tol : ℝ) (rows : List RegRow) (hrows : rows ≠ [])
    (hpre : NoClash pre k fit false rows) (hnz : fit = false → ∃ r ∈ rows, ∃ i < k, r.x i ≠ 0) (maxIter : ℕ) (init c : ℕ → ℝ)
    (hrun : enetCoefs maxEig (pre ++ suffStats k fit false rows) k l1 l2 fit tol maxIter init = some (c, true)) :
    ∃ (step : ℝ) (t : ℕ) (prev delta : ℕ → ℝ), 0 < step ∧
      ∑ i ∈ range k, |slopesOf fit c i - slopesOf fit prev i| < tol ∧
      ∀ b w, (fit = false → b = 0) →
        enetLoss k l1 l2 rows (interceptOf fit c) (slopesOf fit c) +
          ∑ i ∈ range k, ((slopesOf fit (fistaPoint t prev delta) i - slopesOf fit c i) / step -
            ∑ j ∈ range k, moment fit rows i j * (slopesOf fit (fistaPoint t prev delta) j - slopesOf fit c j)) * (w i - slopesOf fit c i)
        ≤ enetLoss k l1 l2 rows b w := by
  obtain ⟨a, ha, hstep, hr⟩ := enetCoefs_eq maxEig pre k hk l1 l2 fit tol rows hpre
  have hpsd := psd_of_args hrows ha
  have hfb := hEig a.n a.xtx hpsd
  have hlam := step_pos hrows ha hfb hnz
  have hs : 0 < a.step := by
    rw [hstep, stepSize]
    exact div_pos (by norm_num) hlam
  rw [hr maxIter init, Option.some.injEq, Prod.mk.injEq] at hrun
  obtain ⟨hc, hconv⟩ := hrun
  obtain ⟨t, prev, delta, hc', htol⟩ := run_stop a maxIter 0 init (fun _ => 0) (a.fista maxIter init).1 (Prod.ext rfl hconv)
  set q := (a.fista maxIter init).1 with hq
  set v := fistaPoint t prev delta with hv
  have hsl : slopesOf fit c = slopesOf fit q := by rw [← hc, slopes_finish]
  refine ⟨a.step, t, prev, delta, hs, ?_, ?_⟩
  · rw [hsl, ← ha.htol]
    refine lt_of_le_of_lt ?_ htol
    rw [ha.hn]
    cases fit
    · simp [slopesOf]
    · simp only [if_true, slopesOf]
      rw [Finset.sum_range_succ']
      have := abs_nonneg (q 0 - prev 0)
      linarith
  · intro b w hb
    rw [hsl, ← hc, enetLoss_finish hrows ha, enetLoss_rowOf hrows ha b w hb]
    have hcert := prox_certificate a hs (by rw [ha.hl1]; exact h1) (by rw [ha.hl2]; exact h2) hpsd.1 hpsd.2 v
      (fun j => if fit ∧ j = 0 then q 0 else rowOf k fit rows b w j)
    rw [← hc', obj_eq_matrixLoss] at hcert
    cases fit
    · have hn : a.n = k := by rw [ha.hn]; simp
      have e1 : (fun j => if false = true ∧ j = 0 then a.xty 0 else q j) = q := by funext j; simp
      have e2 : (fun j => if false = true ∧ j = 0 then q 0 else rowOf k false rows b w j) = rowOf k false rows b w := by funext j; simp
      have e4 : ∀ j, (if false = true ∧ j = 0 then q 0 else rowOf k false rows b w j) = rowOf k false rows b w j := by intro j; simp
      rw [e1]
      rw [e2] at hcert
      simp only [e4] at hcert
      have e3 : ∑ j ∈ range a.n, a.resid v q j * (rowOf k false rows b w j - q j) =
          ∑ i ∈ range k, ((slopesOf false v i - slopesOf false q i) / a.step -
            ∑ j ∈ range k, moment false rows i j * (slopesOf false v j - slopesOf false q j)) * (w i - slopesOf false q i) := by
        rw [hn]
        apply Finset.sum_congr rfl; intro i hi
        rw [FistaArgs.resid, hn]
        simp only [slopesOf, rowOf, Bool.false_eq_true, if_false]
        congr 2
        apply Finset.sum_congr rfl; intro j hj
        rw [ha.inner' rfl i j (mem_range.1 hi) (mem_range.1 hj)]
      rw [e3] at hcert
      linarith
    · have hn : a.n = k + 1 := by rw [ha.hn]; simp
      simp only [true_and] at hcert ⊢
      obtain ⟨h0, hr0, _⟩ := ha.corner rfl
      have z1 := matrixLoss_zero ha q (a.xty 0)
      have z2 := matrixLoss_zero ha (rowOf k true rows b w) (q 0)
      have hmom : ∀ i j, moment true rows i j = cov rows i j := by
        intro i j
        have hN : (rows.length : ℝ) ≠ 0 := by
          have := List.length_pos_iff.2 hrows
          positivity
        have := sum_cov hrows i j
        simp only [colMean, avg] at this
        simp only [moment, if_true]
        rw [this]; field_simp
      have e3 : ∑ j ∈ range a.n, a.resid v q j * ((if j = 0 then q 0 else rowOf k true rows b w j) - q j) =
          ∑ i ∈ range k, ((slopesOf true v i - slopesOf true q i) / a.step -
            ∑ j ∈ range k, moment true rows i j * (slopesOf true v j - slopesOf true q j)) * (w i - slopesOf true q i) := by
        rw [hn, Finset.sum_range_succ']
        simp only [if_true, sub_self, mul_zero, add_zero, Nat.add_eq_zero_iff, one_ne_zero, and_false, if_false]
        apply Finset.sum_congr rfl; intro i hi
        rw [FistaArgs.resid, hn, Finset.sum_range_succ', (hr0 i (mem_range.1 hi)).2]
        simp only [slopesOf, rowOf, if_true, zero_mul, add_zero, Nat.add_eq_zero_iff, one_ne_zero, and_false, if_false, Nat.add_sub_cancel]
        congr 2
        apply Finset.sum_congr rfl; intro j hj
        rw [ha.inner rfl i j (mem_range.1 hi) (mem_range.1 hj), hmom]
      rw [e3] at hcert
      have hsq := sq_nonneg (rowOf k true rows b w 0 - a.xty 0)
      simp only [sub_self, ne_eq, OfNat.ofNat_ne_zero, not_false_eq_true, zero_pow, zero_div, sub_zero] at z1
      linarith

end Verif
