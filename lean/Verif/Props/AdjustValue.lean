import Verif.Props.Adjust

/-!
# C66: the adjusted values are those of a regression on the covariate
-/

namespace Verif

section
variable {S D K : Type} [DecidableEq S] [DecidableEq D] [Field K] [LinearOrder K] [IsStrictOrderedRing K]

/-- The squared loss around a reference line. -/
theorem loss_expand (l : List (K × K)) (a b th th' c' : K) :
    (l.map fun p => (p.1 - c' - th' * p.2) ^ 2).sum =
      (l.map fun p => (p.1 - a - th * (p.2 - b)) ^ 2).sum
      + 2 * (th - th') * (l.map fun p => (p.1 - a - th * (p.2 - b)) * (p.2 - b)).sum
      + 2 * (a - c' - th' * b) * (l.map fun p => p.1 - a - th * (p.2 - b)).sum
      + (th - th') ^ 2 * (l.map fun p => (p.2 - b) * (p.2 - b)).sum
      + 2 * (a - c' - th' * b) * (th - th') * (l.map fun p => p.2 - b).sum
      + l.length * (a - c' - th' * b) ^ 2 := by
  induction l with
  | nil => simp
  | cons p l ih =>
    simp only [List.map_cons, List.sum_cons, List.length_cons, ih]
    push_cast
    ring

theorem sum_dev {α : Type} (l : List α) (f : α → K) (hl : l ≠ []) : (l.map fun a => f a - avgL (l.map f)).sum = 0 := by
  have hn : (l.length : K) ≠ 0 := by
    have := List.length_pos_iff.2 hl
    exact_mod_cast this.ne'
  have : ∀ (l' : List α) (c : K), (l'.map fun a => f a - c).sum = (l'.map f).sum - l'.length * c := by
    intro l' c
    induction l' with
    | nil => simp
    | cons a l' ih => simp only [List.map_cons, List.sum_cons, ih, List.length_cons]; push_cast; ring
  rw [this]
  unfold avgL
  rw [List.length_map]
  field_simp
  ring

theorem sum_lin (l : List (K × K)) (a b th : K) :
    (l.map fun p => p.1 - a - th * (p.2 - b)).sum = (l.map fun p => p.1 - a).sum - th * (l.map fun p => p.2 - b).sum := by
  induction l with
  | nil => simp
  | cons p l ih => simp only [List.map_cons, List.sum_cons, ih]; ring

theorem sum_lin2 (l : List (K × K)) (a b th : K) :
    (l.map fun p => (p.1 - a - th * (p.2 - b)) * (p.2 - b)).sum =
      (l.map fun p => (p.1 - a) * (p.2 - b)).sum - th * (l.map fun p => (p.2 - b) * (p.2 - b)).sum := by
  induction l with
  | nil => simp
  | cons p l ih => simp only [List.map_cons, List.sum_cons, ih]; ring

theorem sum_sq_nonneg' (l : List (K × K)) (b : K) : 0 ≤ (l.map fun p => (p.2 - b) * (p.2 - b)).sum := by
  induction l with
  | nil => simp
  | cons p l ih => simp only [List.map_cons, List.sum_cons]; nlinarith [mul_self_nonneg (p.2 - b)]

/-- When `theta` exists it is the quotient of the centred sums. -/
theorem thetaOf_some {l : List (K × K)} {th : K} (h : thetaOf l = some th) :
    l ≠ [] ∧ 0 < (l.map fun p => (p.2 - avgL (l.map (·.2))) * (p.2 - avgL (l.map (·.2)))).sum ∧
    (l.map fun p => (p.1 - avgL (l.map (·.1))) * (p.2 - avgL (l.map (·.2)))).sum =
      th * (l.map fun p => (p.2 - avgL (l.map (·.2))) * (p.2 - avgL (l.map (·.2)))).sum := by
  unfold thetaOf varSampX covSamp at h
  rw [List.length_map, List.map_map, List.map_map] at h
  simp only [Function.comp_def] at h
  by_cases hl : l.length ≤ 1
  · simp [hl, nanDiv] at h
  · rw [if_neg hl, if_neg hl] at h
    unfold nanDiv at h
    simp only at h
    have hn : (0 : K) < (l.length : K) - 1 := by
      have : (1 : K) < l.length := by exact_mod_cast (not_le.1 hl)
      linarith
    rw [List.map_map] at h
    simp only [Function.comp_def] at h
    split at h
    · cases h
    · rename_i hv
      rw [Option.some.injEq] at h
      have hv' : (l.map fun p => (p.2 - avgL (l.map (·.2))) * (p.2 - avgL (l.map (·.2)))).sum ≠ 0 := by
        intro h0
        exact hv (by rw [h0]; simp)
      refine ⟨by rintro rfl; simp at hl, lt_of_le_of_ne (sum_sq_nonneg' _ _) (Ne.symm hv'), ?_⟩
      rw [← h]
      generalize (l.map fun p => (p.2 - avgL (l.map (·.2))) * (p.2 - avgL (l.map (·.2)))).sum = q at hv' ⊢
      have := hn.ne'
      field_simp

/-- **C66** `Cov(y, x) / Var(x)`, when it is not missing, is the slope of the least squares line. -/
theorem C66_theta_is_slope {l : List (K × K)} {th : K} (h : thetaOf l = some th) : IsSlope th l := by
  obtain ⟨hl, hpos, hth⟩ := thetaOf_some h
  set a := avgL (l.map (·.1)) with ha
  set b := avgL (l.map (·.2)) with hb
  have hn : (0 : K) < l.length := by exact_mod_cast List.length_pos_iff.2 hl
  have h1 : (l.map fun p => p.1 - a).sum = 0 := sum_dev l (·.1) hl
  have h2 : (l.map fun p => p.2 - b).sum = 0 := sum_dev l (·.2) hl
  have h3 : (l.map fun p => p.1 - a - th * (p.2 - b)).sum = 0 := by rw [sum_lin, h1, h2]; simp
  have h4 : (l.map fun p => (p.1 - a - th * (p.2 - b)) * (p.2 - b)).sum = 0 := by rw [sum_lin2, hth]; ring
  have key : ∀ th' c', (l.map fun p => (p.1 - c' - th' * p.2) ^ 2).sum =
      (l.map fun p => (p.1 - a - th * (p.2 - b)) ^ 2).sum
      + (th - th') ^ 2 * (l.map fun p => (p.2 - b) * (p.2 - b)).sum + l.length * (a - c' - th' * b) ^ 2 := by
    intro th' c'
    rw [loss_expand l a b th th' c', h2, h3, h4]
    ring
  have hmin : (l.map fun p => (p.1 - (a - th * b) - th * p.2) ^ 2).sum =
      (l.map fun p => (p.1 - a - th * (p.2 - b)) ^ 2).sum := by
    rw [key th (a - th * b)]
    ring
  refine ⟨⟨a - th * b, fun th' c' => ?_⟩, fun th' c' hopt => ?_⟩
  · rw [hmin, key th' c']
    have := mul_nonneg (sq_nonneg (th - th')) hpos.le
    have := mul_nonneg hn.le (sq_nonneg (a - c' - th' * b))
    linarith
  · have h5 := hopt th (a - th * b)
    rw [hmin, key th' c'] at h5
    have h6 := mul_nonneg (sq_nonneg (th - th')) hpos.le
    have h7 := mul_nonneg hn.le (sq_nonneg (a - c' - th' * b))
    have h8 : (th - th') ^ 2 * (l.map fun p => (p.2 - b) * (p.2 - b)).sum = 0 := by linarith
    rcases mul_eq_zero.1 h8 with h9 | h9
    · exact (sub_eq_zero.1 (pow_eq_zero_iff (by norm_num) |>.1 h9)).symm
    · exact absurd h9 hpos.ne'

/-- **C66** The value of CUPED for one covariate, in closed form: the plain difference minus the slope of the slice
times the difference of the covariate. -/
theorem C66_cuped_value (b : D) (incl : Bool) (t : ATab S D K) (res : DTab S D K) (h : pyCuped b incl t = some res)
    {k : S × D} {v : K} (hv : (k, some v) ∈ res) :
    ∃ th, IsSlope th (sliceXY t k.1) ∧
      v = (avgL ((cellXY t k).map (·.1)) - avgL ((cellXY t (k.1, b)).map (·.1)))
        - th * (avgL ((cellXY t k).map (·.2)) - avgL ((cellXY t (k.1, b)).map (·.2))) := by
  unfold pyCuped at h
  rw [pyCupedAdj_eq, pyChange_keyed] at h
  split at h
  · cases h
  · rw [Option.some.injEq] at h
    rw [← h, List.mem_filter, List.mem_map] at hv
    obtain ⟨⟨k', _, he⟩, _⟩ := hv
    rw [Prod.mk.injEq] at he
    obtain ⟨rfl, he⟩ := he
    split at he
    · unfold pyCupedVal at he
      cases hth : thetaOf (sliceXY t k'.1) with
      | none => rw [hth] at he; simp [optSub] at he
      | some th =>
        rw [hth] at he
        simp only [Option.map_some, optSub, Option.some.injEq] at he
        refine ⟨th, C66_theta_is_slope hth, ?_⟩
        rw [← he]
        ring
    · cases hp : pyCupedVal t k' <;> rw [hp] at he <;> simp [optSub] at he

/-- The value of PrePostChange before the comparison. -/
theorem pyPrePostAdj_eq (t : ATab S D K) : pyPrePostAdj t = (cellKeys t).map fun k =>
    (k, (thetaOf (cellXY t k)).map fun th =>
      avgL ((cellXY t k).map (·.1)) - (avgL ((cellXY t k).map (·.2)) - muX t k.1) * th) := by
  unfold pyPrePostAdj
  simp only [cellKeys_center]
  apply List.map_congr_left
  intro k hk
  rw [mem_cellKeys] at hk
  rw [centerX_eq, cellXY_map, thetaOf_shift, List.map_map, List.map_map]
  have h2 : avgL ((cellXY t k).map ((fun x : K × K => x.2) ∘ fun p => (p.1, p.2 - muX t k.1)))
      = avgL ((cellXY t k).map (·.2)) - muX t k.1 := avgL_sub _ (cell_ne_nil hk) (·.2) _
  rw [h2]
  rfl

/-- **C66** The value of PrePostChange for one covariate: the percent change between the heights, at the slice's average
covariate, of the two regression lines, one through the rows of the condition and one through those of the baseline. -/
theorem C66_prepost_value (b : D) (incl : Bool) (t : ATab S D K) (res : DTab S D K) (h : pyPrePost b incl t = some res)
    {k : S × D} {v : K} (hv : (k, some v) ∈ res) :
    ∃ th thb A B, IsSlope th (cellXY t k) ∧ IsSlope thb (cellXY t (k.1, b)) ∧
      A = avgL ((cellXY t k).map (·.1)) + th * (avgL ((sliceXY t k.1).map (·.2)) - avgL ((cellXY t k).map (·.2))) ∧
      B = avgL ((cellXY t (k.1, b)).map (·.1))
        + thb * (avgL ((sliceXY t k.1).map (·.2)) - avgL ((cellXY t (k.1, b)).map (·.2))) ∧
      B ≠ 0 ∧ v = (A / B - 1) * 100 := by
  unfold pyPrePost at h
  rw [pyPrePostAdj_eq, pyChange_keyed] at h
  split at h
  · cases h
  · rw [Option.some.injEq] at h
    rw [← h, List.mem_filter, List.mem_map] at hv
    obtain ⟨⟨k', _, he⟩, _⟩ := hv
    rw [Prod.mk.injEq] at he
    obtain ⟨rfl, he⟩ := he
    split at he
    · cases hth : thetaOf (cellXY t k') with
      | none => rw [hth] at he; simp [pyPct, nanDiv] at he
      | some th =>
        cases hthb : thetaOf (cellXY t (k'.1, b)) with
        | none => rw [hthb] at he; rw [hth] at he; simp [pyPct, nanDiv] at he
        | some thb =>
          rw [hth, hthb] at he
          simp only [Option.map_some, pyPct, nanDiv] at he
          split at he
          · simp at he
          · rename_i hB
            simp only [Option.map_some, Option.some.injEq] at he
            refine ⟨th, thb, _, _, C66_theta_is_slope hth, C66_theta_is_slope hthb, rfl, rfl, ?_, ?_⟩
            · intro h0
              apply hB
              rw [← h0]
              unfold muX
              ring
            · rw [← he]
              unfold muX
              congr 2
              congr 1 <;> ring
    · generalize (thetaOf (cellXY t k')).map _ = q at he
      cases q <;> simp [pyPct, nanDiv] at he

/-! ## The shortcut for one covariate and the regression for several agree -/

theorem oneCov_slice (t : ATab S D K) (s : S) :
    sliceM (oneCov t) s = (sliceXY t s).map fun p => (p.1, fun _ => p.2) := by
  unfold sliceM oneCov sliceXY
  rw [List.filter_map, List.map_map, List.map_map]
  rfl

theorem oneCov_cell (t : ATab S D K) (k : S × D) :
    cellM (oneCov t) k = (cellXY t k).map fun p => (p.1, fun _ => p.2) := by
  unfold cellM oneCov cellXY
  rw [List.filter_map, List.map_map, List.map_map]
  rfl

theorem oneCov_center (t : ATab S D K) : centerM (oneCov t) = oneCov (centerX t) := by
  unfold centerM centerX
  have : oneCov (t.map fun r => (r.1, (r.2.1, r.2.2 - avgL ((sliceXY t r.1.1).map (·.2)))))
      = t.map fun r => (r.1, (r.2.1, fun _ : Fin 1 => r.2.2 - avgL ((sliceXY t r.1.1).map (·.2)))) := by
    unfold oneCov; rw [List.map_map]; rfl
  rw [this]
  have h2 : ∀ g : (S × D) × (K × (Fin 1 → K)) → (S × D) × (K × (Fin 1 → K)), (oneCov t).map g
      = t.map fun r => g (r.1, (r.2.1, fun _ => r.2.2)) := by
    intro g; unfold oneCov; rw [List.map_map]; rfl
  rw [h2]
  apply List.map_congr_left
  intro r _
  simp only [oneCov_slice, avgX, List.map_map]
  rfl

/-- The slope a least squares fit finds for one covariate. -/
theorem fit_slope {fit : Fit K 1} (hfit : LeastSquares fit) {l : List (K × K)} {th : K} (h : thetaOf l = some th) :
    (fit (l.map fun p => (p.1, fun _ => p.2))).1 = fun _ => th := by
  have hl := (thetaOf_some h).1
  have hs := (C66_theta_is_slope h).2
  set L : List (K × (Fin 1 → K)) := l.map fun p => (p.1, fun _ => p.2) with hL
  have hne : L ≠ [] := by rw [hL]; simpa using hl
  have conv : ∀ (w : Fin 1 → K) c, sqLoss w c L = (l.map fun p => (p.1 - c - w 0 * p.2) ^ 2).sum := by
    intro w c
    unfold sqLoss
    rw [hL, List.map_map]
    congr 1
    apply List.map_congr_left
    intro p _
    simp
  have := hs ((fit L).1 0) (fit L).2 (by
    intro th'' c''
    have h := hfit L hne (fun _ => th'') c''
    rw [conv, conv] at h
    exact h)
  funext j
  rw [Subsingleton.elim j 0]
  exact this

/-- **C66** With one covariate, the formula `Cov / Var` and the regression that is used for several covariates give the
same adjusted values, for CUPED and for PrePostChange, whatever least squares solver is used. -/
theorem C66_shortcut (fit : Fit K 1) (hfit : LeastSquares fit) (t : ATab S D K) :
    ((∀ k ∈ t.map (·.1), (thetaOf (sliceXY t k.1)).isSome) → pyCupedAdjM fit (oneCov t) = pyCupedAdj t) ∧
    ((∀ k ∈ t.map (·.1), (thetaOf (cellXY t k)).isSome) → pyPrePostAdjM fit (oneCov t) = pyPrePostAdj t) := by
  have hkeys : ((oneCov (centerX t)).map (·.1)).dedup = cellKeys (centerX t) := by
    unfold oneCov cellKeys
    rw [List.map_map]
    rfl
  constructor
  · intro hth
    unfold pyCupedAdjM pyCupedAdj
    simp only [oneCov_center]
    rw [hkeys]
    apply List.map_congr_left
    intro k hk
    rw [cellKeys_center, mem_cellKeys] at hk
    obtain ⟨th, h⟩ := Option.isSome_iff_exists.1 (hth k hk)
    have hc : thetaOf (sliceXY (centerX t) k.1) = some th := by rw [centerX_eq, sliceXY_map, thetaOf_shift, h]
    rw [hc, oneCov_slice, fit_slope hfit hc, oneCov_cell]
    simp only [dotP, avgX, List.map_map, Function.comp_def, Option.map_some, Finset.univ_unique, Finset.sum_singleton]
  · intro hth
    unfold pyPrePostAdjM pyPrePostAdj
    simp only [oneCov_center]
    rw [hkeys]
    apply List.map_congr_left
    intro k hk
    rw [cellKeys_center, mem_cellKeys] at hk
    obtain ⟨th, h⟩ := Option.isSome_iff_exists.1 (hth k hk)
    have hc : thetaOf (cellXY (centerX t) k) = some th := by rw [centerX_eq, cellXY_map, thetaOf_shift, h]
    have hne : (cellXY (centerX t) k).map (fun p : K × K => (p.1, fun _ : Fin 1 => p.2)) ≠ [] := by
      simpa using (thetaOf_some hc).1
    rw [hc, oneCov_cell, ls_intercept hfit _ hne, fit_slope hfit hc]
    simp only [dotP, avgX, List.map_map, Function.comp_def, Option.map_some, Finset.univ_unique, Finset.sum_singleton]
    congr 2
    ring

/-- **C66** Violated where the covariate is constant in a slice: the formula for one covariate gives a missing value, while
the regression that is used for several covariates gives, whatever solver is used, the plain average, that is, no adjustment
(here 1 and 3). -/
theorem C66_violation_constant_covariate :
    ∃ t : ATab Nat Nat ℚ, pyCupedAdj t = [((0, 0), none), ((0, 1), none)] ∧
      ∀ fit : Fit ℚ 1, pyCupedAdjM fit (oneCov t) = [((0, 0), some 1), ((0, 1), some 3)] := by
  refine ⟨[((0, 0), (1, 4)), ((0, 1), (3, 4))], by decide +kernel, fun fit => ?_⟩
  unfold pyCupedAdjM
  have h0 : ∀ k : Nat × Nat, k ∈ [((0 : Nat), (0 : Nat)), (0, 1)] →
      avgX (cellM (centerM (oneCov ([((0, 0), (1, 4)), ((0, 1), (3, 4))] : ATab Nat Nat ℚ))) k) = fun _ => 0 := by
    intro k hk
    funext j
    rw [Subsingleton.elim j 0]
    revert k
    decide +kernel
  have hk : ((centerM (oneCov ([((0, 0), (1, 4)), ((0, 1), (3, 4))] : ATab Nat Nat ℚ))).map (·.1)).dedup
      = [((0 : Nat), (0 : Nat)), (0, 1)] := by decide +kernel
  simp only [hk, List.map_cons, List.map_nil, h0 (0, 0) (by simp), h0 (0, 1) (by simp), dotP, zero_mul,
    Finset.sum_const_zero, sub_zero]
  have e1 : avgL ((cellM (centerM (oneCov ([((0, 0), (1, 4)), ((0, 1), (3, 4))] : ATab Nat Nat ℚ))) (0, 0)).map (·.1)) = 1 := by
    decide +kernel
  have e2 : avgL ((cellM (centerM (oneCov ([((0, 0), (1, 4)), ((0, 1), (3, 4))] : ATab Nat Nat ℚ))) (0, 1)).map (·.1)) = 3 := by
    decide +kernel
  rw [e1, e2]

/-- The hypotheses are met, and the adjustment matters: the plain difference is 5/2. -/
example :
    let t : ATab Nat Nat ℚ := [((0, 0), (1, 4)), ((0, 0), (2, 6)), ((0, 1), (3, 4)), ((0, 1), (5, 8))]
    (∀ k ∈ t.map (·.1), (thetaOf (sliceXY t k.1)).isSome) ∧ (∀ k ∈ t.map (·.1), (thetaOf (cellXY t k)).isSome) ∧
    pyCuped 0 false t = some [((0, 1), some (20 / 11))] ∧
    pyPrePost 0 false t = some [((0, 1), some (800 / 7))] := by
  decide +kernel

end
end Verif
