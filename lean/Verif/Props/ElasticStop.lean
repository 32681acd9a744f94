import Verif.Props.ElasticNet

/-!
# C50: scaling back, and C60: what the stopping rule does not promise

/repo/models.py:112-130, 664-918.
-/

namespace Verif

open Finset

/-! ## C50 -/

/-- Coefficients on the centred and scaled features with the mean of `y` as intercept, turned back. -/
theorem predict_normalizedCoef (k : ℕ) (rows : List RegRow) (hnorm : ∀ i < k, colNorm rows i ≠ 0) (p : ℕ → ℝ)
    (hp : p 0 = avg rows fun r => r.y) (r : RegRow) :
    predict k (normalizedCoef k p (colNorm rows) (colMean rows) (avg rows fun r => r.y) 0)
      (fun i => normalizedCoef k p (colNorm rows) (colMean rows) (avg rows fun r => r.y) (i + 1)) r =
    predict k (p 0) (fun i => p (i + 1)) (normRow rows r) := by
  simp only [predict, normalizedCoef, if_true, Nat.add_eq_zero_iff, one_ne_zero, and_false, if_false, Nat.add_sub_cancel, normRow]
  rw [list_range_sum, hp, sub_add_eq_add_sub, add_sub_assoc, ← Finset.sum_sub_distrib]
  congr 1
  apply Finset.sum_congr rfl; intro i hi
  have := hnorm i (mem_range.1 hi)
  field_simp

theorem colMean_normRows {rows : List RegRow} (hrows : rows ≠ []) (i : ℕ) : colMean (normRows rows) i = 0 := by
  rw [colMean, avg, normRows_eq, List.map_map]
  have : (rows.map ((fun r => r.x i) ∘ normRow rows)) = rows.map fun r => (r.x i - colMean rows i) * (colNorm rows i)⁻¹ := by
    apply List.map_congr_left; intro r _; simp [normRow, div_eq_mul_inv]
  rw [this, List.sum_map_mul_right, sum_center_zero hrows]
  simp

theorem avgY_normRows (rows : List RegRow) : avg (normRows rows) (fun r => r.y) = avg rows fun r => r.y := by
  simp [avg, normRows, Function.comp_def]

/-- The statistics the code makes for normalised features are those of the normalised rows. -/
theorem suffStatsNorm_eq (k : ℕ) {rows : List RegRow} (hrows : rows ≠ []) : suffStatsNorm k rows = suffStats k true false (normRows rows) := by
  have h0 : ∀ i, (avg (normRows rows) fun r => r.x i) = 0 := fun i => colMean_normRows hrows i
  simp [suffStatsNorm, suffStats, h0]
  rfl

theorem noClash_normRows {pre : Series ℝ} {k : ℕ} {rows : List RegRow} (h : NoClash pre k true false rows) :
    NoClash pre k true false (normRows rows) := by
  intro p hp
  have := h p hp
  rw [suffStats_eq] at this ⊢
  simpa using this

/-- **C50.** With normalisation, the coefficients that `ElasticNet` and `Lasso` report on SQL give every row, of the data or
not, the prediction that the coefficients fitted on the centred and scaled rows give the centred and scaled row; these are
those of the same model without normalisation on those rows. -/
theorem C50_sql (maxEig : ℕ → (ℕ → ℕ → ℝ) → ℝ) (pre : Series ℝ) (k : ℕ) (hk : 0 < k) (alpha l1Ratio tol : ℝ) (maxIter : ℕ) (init : ℕ → ℝ)
    (rows : List RegRow) (hrows : rows ≠ []) (hpre : NoClash pre k true false rows) (hnorm : ∀ i < k, colNorm rows i ≠ 0)
    (c : ℕ → ℝ) (conv : Bool) (h : enetSql maxEig pre k alpha l1Ratio true true tol maxIter init rows = some (c, conv)) :
    ∃ p, enetSql maxEig pre k alpha l1Ratio true false tol maxIter init (normRows rows) = some (p, conv) ∧
      ∀ r, predict k (interceptOf true c) (slopesOf true c) r = predict k (interceptOf true p) (slopesOf true p) (normRow rows r) := by
  rw [enetSql] at h ⊢
  split at h
  · exact absurd h (by simp)
  · rename_i hc
    rw [if_neg hc]
    simp only [Bool.and_self, if_true, Bool.and_false, Bool.false_eq_true, if_false] at h ⊢
    rw [suffStatsNorm_eq k hrows, Option.map_eq_some_iff] at h
    obtain ⟨⟨p, cv⟩, hp, he⟩ := h
    simp only [Prod.mk.injEq] at he
    obtain ⟨he, rfl⟩ := he
    refine ⟨p, hp, fun r => ?_⟩
    obtain ⟨a, _, _, hr⟩ := enetCoefs_eq maxEig pre k hk (l1Ratio * alpha) ((1 - l1Ratio) * alpha) true tol (normRows rows) (noClash_normRows hpre)
    rw [hr, Option.some.injEq, Prod.mk.injEq] at hp
    have hp0 : p 0 = avg rows fun r => r.y := by
      rw [← hp.1]
      simp only [finish, and_self, if_true]
      rw [Finset.sum_eq_zero, sub_zero, avgY_normRows]
      intro i _
      rw [colMean_normRows hrows, zero_mul]
    have := predict_normalizedCoef k rows hnorm p hp0 r
    rw [← he]
    exact this

/-- The intercept of a least squares fit with any penalty on the other coefficients is the mean of `y` when the features are
centred. -/
theorem intercept_of_fit (k : ℕ) (pen : (ℕ → ℝ) → ℝ) {rows : List RegRow} (hrows : rows ≠ []) (hmean : ∀ i < k, colMean rows i = 0)
    (b : ℝ) (w : ℕ → ℝ)
    (hmin : ∀ b', (rows.map fun r => (r.y - predict k b w r) ^ 2).sum + pen w ≤ (rows.map fun r => (r.y - predict k b' w r) ^ 2).sum + pen w) :
    b = avg rows fun r => r.y := by
  have hN : (rows.length : ℝ) ≠ 0 := by
    have := List.length_pos_iff.2 hrows
    positivity
  have hz : (rows.map fun r => ∑ i ∈ range k, w i * r.x i).sum = 0 := by
    have e : (rows.map fun r => ∑ i ∈ range k, w i * r.x i).sum = ∑ i ∈ range k, w i * (rows.map fun r => r.x i).sum := by
      clear hmin hrows hN hmean
      induction rows with
      | nil => simp
      | cons r rows ih =>
        simp only [List.map_cons, List.sum_cons, ih, mul_add, Finset.sum_add_distrib]
    rw [e]
    apply Finset.sum_eq_zero; intro i hi
    rw [← mul_avg hrows]
    have := hmean i (mem_range.1 hi)
    rw [colMean] at this
    rw [this]; ring
  have hexp : ∀ b', (rows.map fun r => (r.y - predict k b' w r) ^ 2).sum = (rows.map fun r => (r.y - predict k b w r) ^ 2).sum
      - 2 * (b' - b) * ((rows.map fun r => r.y).sum - (rows.map fun r => ∑ i ∈ range k, w i * r.x i).sum - rows.length * b)
      + rows.length * (b' - b) ^ 2 := by
    intro b'
    clear hmin hrows hN hmean hz
    induction rows with
    | nil => simp
    | cons r rows ih =>
      have e : ∀ b, predict k b w r = b + ∑ i ∈ range k, w i * r.x i := fun b => rfl
      simp only [List.map_cons, List.sum_cons, ih, List.length_cons, e]
      generalize (∑ i ∈ range k, w i * r.x i) = S
      generalize (List.map (fun r => (r.y - predict k b w r) ^ 2) rows).sum = A
      push_cast; ring
  set m := avg rows fun r => r.y with hm
  have hsum : (rows.map fun r => r.y).sum = rows.length * m := (mul_avg hrows _).symm
  have h := hmin m
  rw [hexp m, hz, hsum] at h
  have : (rows.length : ℝ) * (m - b) ^ 2 ≤ 0 := by nlinarith
  have hpos : 0 < (rows.length : ℝ) := lt_of_le_of_ne (by positivity) (Ne.symm hN)
  have h2 : (m - b) ^ 2 = 0 := by
    have := sq_nonneg (m - b)
    by_contra hc
    have : 0 < (m - b) ^ 2 := lt_of_le_of_ne this (Ne.symm hc)
    have := mul_pos hpos this
    linarith
  rw [pow_eq_zero_iff (by norm_num)] at h2
  linarith

/-- **C50.** The same for `Model.compute` on a DataFrame: whatever solver fits the model, as long as its intercept is optimal
for its coefficients under the squared loss, every prediction is unchanged by the scaling back. -/
theorem C50_pandas (k : ℕ) (pen : (ℕ → ℝ) → ℝ) (fitted : List RegRow → ℝ × (ℕ → ℝ)) (rows : List RegRow) (hrows : rows ≠ [])
    (hnorm : ∀ i < k, colNorm rows i ≠ 0)
    (hfit : ∀ b', ((normRows rows).map fun r => (r.y - predict k (fitted (normRows rows)).1 (fitted (normRows rows)).2 r) ^ 2).sum
        + pen (fitted (normRows rows)).2 ≤
      ((normRows rows).map fun r => (r.y - predict k b' (fitted (normRows rows)).2 r) ^ 2).sum + pen (fitted (normRows rows)).2) (r : RegRow) :
    predict k (interceptOf true (modelCompute fitted k true true rows)) (slopesOf true (modelCompute fitted k true true rows)) r =
      predict k (fitted (normRows rows)).1 (fitted (normRows rows)).2 (normRow rows r) := by
  have hne : normRows rows ≠ [] := by simpa [normRows] using hrows
  have hb := intercept_of_fit k pen hne (fun i _ => colMean_normRows hrows i) _ _ hfit
  rw [avgY_normRows] at hb
  have := predict_normalizedCoef k rows hnorm (fun j => if j = 0 then avg rows (fun r => r.y) else (fitted (normRows rows)).2 (j - 1))
    (by simp) r
  simp only [if_true, Nat.add_eq_zero_iff, one_ne_zero, and_false, if_false, Nat.add_sub_cancel] at this
  rw [hb, ← this]
  congr 1

/-! ## C60 -/

/-- A Lasso problem with two uncorrelated features; the largest eigenvalue of the matrix is 1, and the minimum is at
`(1/2, R)`. -/
noncomputable def slowArgs (R : ℝ) : FistaArgs ℝ where
  n := 2
  l1 := 1
  l2 := 0
  xtx := fun i j => if i = j then (if i = 0 then 1 else 6000000 / 6999993) else 0
  xty := fun i => if i = 0 then 3 / 2 else 1 + R * (6000000 / 6999993)
  tol := 1 / 10000
  fit := false
  step := stepSize 1

theorem slow_psd (R : ℝ) : PSD (slowArgs R).n (slowArgs R).xtx ∧ FormBound (slowArgs R).n (slowArgs R).xtx 1 := by
  refine ⟨⟨fun i j hi hj => ?_, fun d => ?_⟩, fun d => ?_⟩
  · simp only [slowArgs] at hi hj ⊢
    by_cases h : i = j
    · subst h; rfl
    · rw [if_neg h, if_neg (Ne.symm h)]
  · simp [slowArgs, Finset.sum_range_succ]
    nlinarith [sq_nonneg (d 0), sq_nonneg (d 1)]
  · simp [slowArgs, Finset.sum_range_succ]
    nlinarith [sq_nonneg (d 0), sq_nonneg (d 1)]

theorem slow_prox (R : ℝ) (v : ℕ → ℝ) (h0 : v 0 = 1 / 2) (h1 : 0 < v 1 / 7 + 6 / 7 * R) :
    (slowArgs R).prox v 0 = 1 / 2 ∧ (slowArgs R).prox v 1 = v 1 / 7 + 6 / 7 * R := by
  have key : ∀ x t : ℝ, 0 ≤ t → t < x → softT x t = x - t := by
    intro x t ht hx
    rcases softT_cases x t ht with ⟨_, e⟩ | ⟨h, _⟩ | ⟨_, h, _⟩
    · exact e
    · linarith
    · linarith
  constructor
  · rw [FistaArgs.prox, if_neg (by simp [slowArgs]), key]
    · simp [slowArgs, FistaArgs.k, FistaArgs.threshold, stepSize, List.range_succ, h0]; norm_num
    · simp [slowArgs, FistaArgs.k, FistaArgs.threshold, stepSize]; norm_num
    · simp [slowArgs, FistaArgs.k, FistaArgs.threshold, stepSize, List.range_succ, h0]; norm_num
  · rw [FistaArgs.prox, if_neg (by simp [slowArgs]), key]
    · simp [slowArgs, FistaArgs.k, FistaArgs.threshold, stepSize, List.range_succ]; ring
    · simp [slowArgs, FistaArgs.k, FistaArgs.threshold, stepSize]; norm_num
    · simp [slowArgs, FistaArgs.k, FistaArgs.threshold, stepSize, List.range_succ]; linarith

theorem slow_step (R : ℝ) (fuel i : ℕ) (coef delta : ℕ → ℝ) (h0 : coef 0 = 1 / 2) (d0 : delta 0 = 0)
    (v1 : ℝ) (hv : coef 1 + ((i : ℝ) - 1) / ((i : ℝ) + 2) * delta 1 = v1) (h1 : 0 < v1 / 7 + 6 / 7 * R) :
    ∃ c d : ℕ → ℝ, c 0 = 1 / 2 ∧ d 0 = 0 ∧ c 1 = v1 / 7 + 6 / 7 * R ∧ d 1 = v1 / 7 + 6 / 7 * R - coef 1 ∧
      (slowArgs R).run (fuel + 1) i coef delta =
        if |d 1| < 1 / 10000 then (c, true) else (slowArgs R).run fuel (i + 1) c d := by
  have hp := slow_prox R (fistaPoint i coef delta) (by simp [fistaPoint, h0, d0]) (by rw [fistaPoint, hv]; exact h1)
  rw [show fistaPoint i coef delta 1 = v1 from hv] at hp
  refine ⟨(slowArgs R).prox (fistaPoint i coef delta), fun j => (slowArgs R).prox (fistaPoint i coef delta) j - coef j, hp.1, ?_, hp.2, ?_, ?_⟩
  · show (slowArgs R).prox (fistaPoint i coef delta) 0 - coef 0 = 0
    rw [hp.1, h0]; ring
  · show (slowArgs R).prox (fistaPoint i coef delta) 1 - coef 1 = _
    rw [hp.2]
  · rw [FistaArgs.run]
    have : ((List.range (slowArgs R).n).map fun j => |(slowArgs R).prox (fistaPoint i coef delta) j - coef j|).sum =
        |(slowArgs R).prox (fistaPoint i coef delta) 1 - coef 1| := by
      have hn : (slowArgs R).n = 2 := rfl
      rw [hn]
      simp [List.range_succ, hp.1, h0]
    simp only [this]
    rfl

/-- **C60, violated.** The iteration can stop by itself, with no change at all in its last step, as far from the minimum as one
likes: from `(1/2, 1/2)` towards `(1/2, R)` the momentum makes it stand still at the fourth step with an error of
`(R - 1/2) / 686`, because only the change of the coefficients is looked at, not whether the point from which the step was
made is at rest. -/
theorem C60_violation_momentum (R : ℝ) (hR : 1 ≤ R) (n : ℕ) :
    ∃ c : ℕ → ℝ, (slowArgs R).fista (n + 4) (fun _ => 1 / 2) = (c, true) ∧ c 0 = 1 / 2 ∧ c 1 = R + (R - 1 / 2) / 686 ∧
      matrixLoss (slowArgs R).n (slowArgs R).xtx (slowArgs R).xty (slowArgs R).l1 (slowArgs R).l2 (slowArgs R).fit
        (fun j => if j = 0 then 1 / 2 else R) <
      matrixLoss (slowArgs R).n (slowArgs R).xtx (slowArgs R).xty (slowArgs R).l1 (slowArgs R).l2 (slowArgs R).fit c := by
  obtain ⟨c1, d1, a1, b1, e1, f1, r1⟩ := slow_step R (n + 3) 0 (fun _ => 1 / 2) (fun _ => 0) rfl rfl (1 / 2) (by norm_num) (by linarith)
  obtain ⟨c2, d2, a2, b2, e2, f2, r2⟩ := slow_step R (n + 2) 1 c1 d1 a1 b1 (1 / 14 + 6 / 7 * R) (by rw [e1]; norm_num) (by linarith)
  obtain ⟨c3, d3, a3, b3, e3, f3, r3⟩ := slow_step R (n + 1) 2 c2 d2 a2 b2 (R + (R - 1 / 2) / 98) (by rw [e2, f2, e1]; norm_num; ring) (by linarith)
  obtain ⟨c4, d4, a4, b4, e4, f4, r4⟩ := slow_step R n 3 c3 d3 a3 b3 (R + (R - 1 / 2) / 98) (by rw [e3, f3, e2]; norm_num; ring) (by linarith)
  have n1 : ¬ |d1 1| < 1 / 10000 := by
    rw [f1, not_lt, abs_of_nonneg (by linarith)]; linarith
  have n2 : ¬ |d2 1| < 1 / 10000 := by
    rw [f2, e1, not_lt, abs_of_nonneg (by linarith)]; linarith
  have n3 : ¬ |d3 1| < 1 / 10000 := by
    rw [f3, e2, not_lt, abs_of_nonneg (by linarith)]; linarith
  have y4 : |d4 1| < 1 / 10000 := by
    rw [f4, e3]; norm_num
  rw [if_neg n1] at r1
  rw [if_neg n2] at r2
  rw [if_neg n3] at r3
  rw [if_pos y4] at r4
  have ec : c4 1 = R + (R - 1 / 2) / 686 := by rw [e4]; ring
  refine ⟨c4, ?_, a4, ec, ?_⟩
  · rw [FistaArgs.fista, r1, r2, r3, r4]
  · simp only [matrixLoss, slowArgs, Finset.sum_range_succ, Finset.sum_range_zero, a4, ec]
    simp
    rw [abs_of_pos (by linarith : (0 : ℝ) < R), abs_of_pos (by norm_num; linarith : 0 < R + (R - 2⁻¹) / 686)]
    nlinarith [sq_nonneg (R - 1 / 2)]

end Verif
