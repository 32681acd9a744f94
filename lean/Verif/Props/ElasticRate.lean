import Verif.Lemmas.FistaRate
import Verif.Props.ElasticNet

/-!
# How close lasso and elastic net on SQL come to the minimum

/repo/models.py:736-788, 827-883.
-/

namespace Verif

open Finset

/-- **C49.** In the parameters of a user: `ElasticNet(alpha, l1_ratio)` (and `Lasso`) on the rows of a slice comes as close to the
minimum of sklearn's objective as its number of iterations `T` says: the excess is at most the squared distance of the starting
point, times the largest eigenvalue of the matrix of moments, over about half of `(T + 1)²`. `T` is `max_iter` if the iteration did
not stop by itself, and always if `tol` is not positive. -/
theorem C49_rate (maxEig : ℕ → (ℕ → ℕ → ℝ) → ℝ) (hEig : ∀ n A, PSD n A → FormBound n A (maxEig n A)) (pre : Series ℝ) (k : ℕ)
    (hk : 0 < k) (alpha ratio : ℝ) (ha : 0 ≤ alpha) (hr0 : 0 < ratio) (hr1 : ratio ≤ 1) (fit : Bool) (tol : ℝ) (rows : List RegRow)
    (hrows : rows ≠ []) (hpre : NoClash pre k fit false rows) (hnz : fit = false → ∃ r ∈ rows, ∃ i < k, r.x i ≠ 0) :
    ∃ A : ℕ → ℕ → ℝ, (∀ i j, i < k → j < k → A (if fit then i + 1 else i) (if fit then j + 1 else j) = moment fit rows i j) ∧
      0 < maxEig (if fit then k + 1 else k) A ∧
      ∀ (maxIter : ℕ) (init c : ℕ → ℝ) (conv : Bool), 0 < maxIter →
        enetSql maxEig pre k alpha ratio fit false tol maxIter init rows = some (c, conv) →
        ∀ (b : ℝ) (w : ℕ → ℝ), (fit = false → b = 0) →
          (∀ b' w', (fit = false → b' = 0) → skEnet k alpha ratio rows b w ≤ skEnet k alpha ratio rows b' w') →
          ∃ T, 1 ≤ T ∧ T ≤ maxIter ∧ (conv = false ∨ tol ≤ 0 → T = maxIter) ∧
            skEnet k alpha ratio rows (interceptOf fit c) (slopesOf fit c) - skEnet k alpha ratio rows b w ≤
              2 / 0.999999 * maxEig (if fit then k + 1 else k) A *
                (∑ j ∈ range (if fit then k + 1 else k), (init j - rowOf k fit rows b w j) ^ 2) / ((T : ℝ) + 1) ^ 2 := by
  have he : ∀ b w, skEnet k alpha ratio rows b w = enetLoss k (ratio * alpha) ((1 - ratio) * alpha) rows b w := by
    intro b w
    unfold skEnet enetLoss
    ring
  simp only [he]
  have hsql : ∀ maxIter init, enetSql maxEig pre k alpha ratio fit false tol maxIter init rows =
      enetCoefs maxEig (pre ++ suffStats k fit false rows) k (ratio * alpha) ((1 - ratio) * alpha) fit tol maxIter init := by
    intro maxIter init
    rw [enetSql, if_neg (by intro h; rcases h with h | h; exact hr0.ne' h; exact h ⟨hr0.le, hr1⟩)]
    simp
  obtain ⟨a, hargs, hstep, hrun⟩ := enetCoefs_eq maxEig pre k hk (ratio * alpha) ((1 - ratio) * alpha) fit tol rows hpre
  have hpsd := psd_of_args hrows hargs
  have hfb := hEig a.n a.xtx hpsd
  have hlam := step_pos hrows hargs hfb hnz
  have hs : 0 < a.step := by
    rw [hstep, stepSize]
    exact div_pos (by norm_num) hlam
  have hl1 : 0 ≤ a.l1 := by rw [hargs.hl1]; positivity
  have hl2 : 0 ≤ a.l2 := by rw [hargs.hl2]; exact mul_nonneg (by linarith) ha
  have hadm : a.step * maxEig a.n a.xtx ≤ 1 := by
    rw [hstep, stepSize, div_mul_cancel₀ _ hlam.ne']
    norm_num
  refine ⟨a.xtx, ?_, ?_, ?_⟩
  · intro i j hi hj
    cases fit
    · simpa using hargs.inner' rfl i j hi hj
    · have := hargs.inner rfl i j hi hj
      have hN : (rows.length : ℝ) ≠ 0 := by
        have := List.length_pos_iff.2 hrows
        positivity
      have hcov := sum_cov hrows i j
      simp only [colMean, avg] at hcov
      simp only [if_true, this, moment]
      rw [hcov]; field_simp
  · rw [← hargs.hn]; exact hlam
  intro maxIter init c conv hit h b w hb hmin
  rw [hsql, hrun, Option.some.injEq, Prod.mk.injEq] at h
  obtain ⟨hc, hcv⟩ := h
  obtain ⟨f, rfl⟩ : ∃ f, maxIter = f + 1 := ⟨maxIter - 1, by omega⟩
  have hm : ∀ w', a.obj (rowOf k fit rows b w) ≤ a.obj w' := by
    intro w'
    have e1 := enetLoss_rowOf hrows hargs b w hb
    have e2 := enetLoss_args hrows hargs w'
    have := hmin (if fit then w' 0 - ∑ i ∈ range k, w' (i + 1) * colMean rows i else 0) (slopesOf fit w') (by rintro rfl; simp)
    have o1 : a.obj (rowOf k fit rows b w) = matrixLoss a.n a.xtx a.xty a.l1 a.l2 a.fit (rowOf k fit rows b w) := rfl
    have o2 : a.obj w' = matrixLoss a.n a.xtx a.xty a.l1 a.l2 a.fit w' := rfl
    rw [o1, o2]
    linarith
  obtain ⟨T, t1, t2, t3, t4⟩ := run_rate a hs (fun v x => enet_step a hs hl1 hl2 _ hfb hadm hpsd v x) _ hm f 0 init (fun _ => 0)
  rw [FistaArgs.fista] at hc hcv
  refine ⟨T, t1, by omega, fun h => ?_, ?_⟩
  · have := t3 (by
      rcases h with h | h
      · left; rw [hcv, h]
      · right; rw [hargs.htol]; exact h)
    omega
  set q := (a.run (f + 1) 0 init fun _ => 0).1 with hq
  have hfin : enetLoss k (ratio * alpha) ((1 - ratio) * alpha) rows (interceptOf fit c) (slopesOf fit c) ≤
      (rows.map fun r => r.y ^ 2).sum / (2 * rows.length) + a.obj q := by
    rw [← hc, slopes_finish, enetLoss_finish hrows hargs]
    have : matrixLoss a.n a.xtx a.xty a.l1 a.l2 a.fit (fun j => if fit ∧ j = 0 then a.xty 0 else q j) ≤ a.obj q := by
      have o : a.obj q = matrixLoss a.n a.xtx a.xty a.l1 a.l2 a.fit q := rfl
      rw [o]
      cases fit
      · have : (fun j => if false = true ∧ j = 0 then a.xty 0 else q j) = q := by funext j; simp
        rw [this]
      · have z := matrixLoss_zero hargs q (a.xty 0)
        have z2 := sq_nonneg (q 0 - a.xty 0)
        simp only [true_and]
        rw [sub_self, zero_pow (by norm_num), zero_div, sub_zero] at z
        linarith
    linarith
  have hopt := enetLoss_rowOf hrows hargs b w hb
  have o1 : a.obj (rowOf k fit rows b w) = matrixLoss a.n a.xtx a.xty a.l1 a.l2 a.fit (rowOf k fit rows b w) := rfl
  have hG : enetLoss k (ratio * alpha) ((1 - ratio) * alpha) rows (interceptOf fit c) (slopesOf fit c) -
      enetLoss k (ratio * alpha) ((1 - ratio) * alpha) rows b w ≤ a.obj q - a.obj (rowOf k fit rows b w) := by
    rw [hopt, o1]
    linarith
  have hah : ahead 0 init (fun _ => (0 : ℝ)) = init := by funext j; simp [ahead]
  rw [hah] at t4
  have hD : dist2 a.n init (rowOf k fit rows b w) = ∑ j ∈ range (if fit then k + 1 else k), (init j - rowOf k fit rows b w j) ^ 2 := by
    rw [dist2, hargs.hn]
  rw [hD, hstep, stepSize] at t4
  refine hG.trans ?_
  rw [← hargs.hn] at t4 ⊢
  set D := ∑ j ∈ range a.n, (init j - rowOf k fit rows b w j) ^ 2
  set lam := maxEig a.n a.xtx
  set G := a.obj q - a.obj (rowOf k fit rows b w)
  rw [le_div_iff₀ (by positivity)]
  have h5 : ((T : ℝ) + 1) ^ 2 / 4 * (2 * ((1 - 1 / 1000000) / lam) * G) ≤ D := by
    push_cast at t4
    linarith
  have e : G * ((T : ℝ) + 1) ^ 2 = 2 / 0.999999 * lam * (((T : ℝ) + 1) ^ 2 / 4 * (2 * ((1 - 1 / 1000000) / lam) * G)) := by
    field_simp
    ring
  rw [e]
  exact mul_le_mul_of_nonneg_left h5 (by positivity)

/-- **C49.** With a `tol` that never stops the iteration the coefficients that `ElasticNet` (and `Lasso`) returns come as close to the
minimum of sklearn's objective as one likes if `max_iter` is large enough, whatever the data and the starting point. -/
theorem C49_converges (maxEig : ℕ → (ℕ → ℕ → ℝ) → ℝ) (hEig : ∀ n A, PSD n A → FormBound n A (maxEig n A)) (pre : Series ℝ) (k : ℕ)
    (hk : 0 < k) (alpha ratio : ℝ) (ha : 0 ≤ alpha) (hr0 : 0 < ratio) (hr1 : ratio ≤ 1) (fit : Bool) (tol : ℝ) (htol : tol ≤ 0)
    (rows : List RegRow) (hrows : rows ≠ []) (hpre : NoClash pre k fit false rows)
    (hnz : fit = false → ∃ r ∈ rows, ∃ i < k, r.x i ≠ 0) (init : ℕ → ℝ) (b : ℝ) (w : ℕ → ℝ) (hb : fit = false → b = 0)
    (hmin : ∀ b' w', (fit = false → b' = 0) → skEnet k alpha ratio rows b w ≤ skEnet k alpha ratio rows b' w') (ε : ℝ) (hε : 0 < ε) :
    ∃ M : ℕ, ∀ maxIter ≥ M, ∃ c, enetSql maxEig pre k alpha ratio fit false tol maxIter init rows = some (c, false) ∧
      skEnet k alpha ratio rows (interceptOf fit c) (slopesOf fit c) ≤ skEnet k alpha ratio rows b w + ε := by
  obtain ⟨A, _, hlam, hrate⟩ := C49_rate maxEig hEig pre k hk alpha ratio ha hr0 hr1 fit tol rows hrows hpre hnz
  obtain ⟨a, hargs, _, hrun⟩ := enetCoefs_eq maxEig pre k hk (ratio * alpha) ((1 - ratio) * alpha) fit tol rows hpre
  have hsql : ∀ maxIter init, enetSql maxEig pre k alpha ratio fit false tol maxIter init rows =
      some (finish k fit rows (a.fista maxIter init).1, (a.fista maxIter init).2) := by
    intro maxIter init
    rw [← hrun, enetSql, if_neg (by intro h; rcases h with h | h; exact hr0.ne' h; exact h ⟨hr0.le, hr1⟩)]
    simp
  have hnc : ∀ maxIter, (a.fista maxIter init).2 = false := by
    have key : ∀ f i (co de : ℕ → ℝ), (a.run f i co de).2 = false := by
      intro f
      induction f with
      | zero => intro i co de; rfl
      | succ f ih =>
        intro i co de
        rw [FistaArgs.run]
        simp only
        rw [if_neg]
        · exact ih _ _ _
        · rw [hargs.htol, listsum_range, not_lt]
          exact htol.trans (Finset.sum_nonneg fun _ _ => abs_nonneg _)
    intro maxIter
    exact key _ _ _ _
  set B := 2 / 0.999999 * maxEig (if fit then k + 1 else k) A *
    (∑ j ∈ range (if fit then k + 1 else k), (init j - rowOf k fit rows b w j) ^ 2) with hB
  have hB0 : 0 ≤ B := mul_nonneg (by positivity) (Finset.sum_nonneg fun _ _ => sq_nonneg _)
  obtain ⟨M, hM⟩ := exists_nat_gt (B / ε)
  refine ⟨M + 1, fun maxIter hmax => ⟨finish k fit rows (a.fista maxIter init).1, by rw [hsql, hnc], ?_⟩⟩
  obtain ⟨T, _, _, hT, hbound⟩ := hrate maxIter init (finish k fit rows (a.fista maxIter init).1) false (by omega) (by rw [hsql, hnc]) b w hb hmin
  have hTm := hT (Or.inl rfl)
  have hTM : (M : ℝ) ≤ T := by exact_mod_cast (by omega : M ≤ T)
  have hM0 : (0 : ℝ) ≤ M := Nat.cast_nonneg M
  have h3 : B / ((T : ℝ) + 1) ^ 2 ≤ ε := by
    rw [div_le_iff₀ (by positivity)]
    rw [div_lt_iff₀ hε] at hM
    have ha' : (M : ℝ) ≤ ((T : ℝ) + 1) ^ 2 := by nlinarith
    have := mul_le_mul_of_nonneg_right ha' hε.le
    linarith
  exact sub_le_iff_le_add'.1 (hbound.trans h3)

/-- The hypotheses of the theorems above are met by `Lasso(alpha=1, fit_intercept=False)` on two rows; the coefficient 1 minimises. -/
example : ∃ maxEig : ℕ → (ℕ → ℕ → ℝ) → ℝ, (∀ n A, PSD n A → FormBound n A (maxEig n A)) ∧
    NoClash [] 1 false false [⟨2, fun _ => 1⟩, ⟨2, fun _ => 1⟩] ∧
    (∃ r ∈ [(⟨2, fun _ => 1⟩ : RegRow), ⟨2, fun _ => 1⟩], ∃ i < 1, r.x i ≠ 0) ∧
    ∀ b' w', (false = false → b' = 0) → skEnet 1 1 1 [⟨2, fun _ => 1⟩, ⟨2, fun _ => 1⟩] 0 (fun _ => 1) ≤
      skEnet 1 1 1 [⟨2, fun _ => 1⟩, ⟨2, fun _ => 1⟩] b' w' := by
  obtain ⟨e, he⟩ := exists_maxEig
  refine ⟨e, he, by intro p hp; simp at hp, ⟨⟨2, fun _ => 1⟩, by simp, 0, by simp, by norm_num⟩, fun b' w' hb => ?_⟩
  rw [hb rfl]
  simp only [skEnet, predict, Finset.sum_range_one, List.map_cons, List.map_nil, List.sum_cons, List.sum_nil, List.length_cons,
    List.length_nil]
  norm_num
  have := le_abs_self (w' 0)
  nlinarith [sq_nonneg (w' 0 - 1)]

end Verif
