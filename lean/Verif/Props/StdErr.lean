import Verif.Spec.StdErr
import Mathlib.Tactic.Ring
import Mathlib.Tactic.FieldSimp
import Mathlib.Tactic.Linarith
import Mathlib.Tactic.NormNum

/-!
# C39 and C42
-/

namespace Verif

theorem jk_scale (Q n : ℝ) (hn : 2 ≤ n) :
    Real.sqrt (Q / (n - 1)) * (n - 1) / Real.sqrt n = Real.sqrt ((n - 1) / n * Q) := by
  have hn1 : 0 < n - 1 := by linarith
  have hn0 : 0 < n := by linarith
  have h1 : Real.sqrt (Q / (n - 1)) * (n - 1) = Real.sqrt (Q / (n - 1) * (n - 1) ^ 2) := by
    rw [Real.sqrt_mul' _ (sq_nonneg _), Real.sqrt_sq hn1.le]
  rw [h1, ← Real.sqrt_div' _ hn0.le]
  congr 1
  field_simp

/-- C39: with at least two leave-one-out estimates the standard error is the textbook value; with fewer there is
none. Missing estimates are skipped. -/
theorem C39_value (reps : List (Option ℝ)) :
    (jkStderr reps).1 =
      if 2 ≤ (reps.filterMap id).length then some (jackknifeSE (reps.filterMap id)) else none := by
  unfold jkStderr bsStderr stdSamp jackknifeSE
  dsimp only
  generalize reps.filterMap id = xs
  by_cases h : 2 ≤ xs.length
  · rw [if_neg (by omega), if_pos h, Option.map_some]
    congr 1
    have hn : (2 : ℝ) ≤ xs.length := by exact_mod_cast h
    push_cast
    rw [sub_add_cancel]
    exact jk_scale _ _ hn
  · rw [if_pos (by omega), if_neg h, Option.map_none]

/-- C39: SQL and Python give the same standard error, for all replicates. -/
theorem C39_sql_agrees (reps : List (Option ℝ)) : sqlJkStderr reps = (jkStderr reps).1 := by
  unfold sqlJkStderr jkStderr bsStderr
  dsimp only
  generalize reps.filterMap id = xs
  by_cases h : 2 ≤ xs.length
  · have hn : (2 : ℝ) ≤ xs.length := by exact_mod_cast h
    have hs : Real.sqrt (xs.length : ℝ) ≠ 0 := by
      rw [Real.sqrt_ne_zero']; linarith
    rw [if_neg hs]
    cases stdSamp xs with
    | none => rfl
    | some s =>
      simp only [Option.bind_some, Option.map_some]
      congr 1
      push_cast
      rw [sub_add_cancel, mul_div_assoc]
  · have : stdSamp xs = none := by unfold stdSamp; rw [if_pos (by omega)]
    rw [this]; rfl

/-- C39: for the mean of `n ≥ 2` units the jackknife gives `s / sqrt n`. The leave-one-out estimate without the unit of
value `y` is `(Σ - y) / (n - 1)`. -/
theorem C39_mean (ys : List ℝ) (h : 2 ≤ ys.length) :
    (jkStderr (ys.map fun y => some ((ys.sum - y) / ((ys.length : ℝ) - 1)))).1 = some (meanSE ys) := by
  have hx : (ys.map fun y => some ((ys.sum - y) / ((ys.length : ℝ) - 1))).filterMap id
      = ys.map fun y => (ys.sum - y) / ((ys.length : ℝ) - 1) := by
    rw [List.filterMap_map]
    have : (id ∘ fun y => some ((ys.sum - y) / ((ys.length : ℝ) - 1)))
        = some ∘ fun y => (ys.sum - y) / ((ys.length : ℝ) - 1) := rfl
    rw [this, List.filterMap_eq_map]
  rw [C39_value, hx, List.length_map, if_pos h]
  congr 1
  have hn : (2 : ℝ) ≤ ys.length := by exact_mod_cast h
  have hn1 : (ys.length : ℝ) - 1 ≠ 0 := by linarith
  have hn0 : (ys.length : ℝ) ≠ 0 := by linarith
  have hsum : ∀ (l : List ℝ) (a c : ℝ), (l.map fun y => (a - y) / c).sum = ((l.length : ℝ) * a - l.sum) / c := by
    intro l a c
    induction l with
    | nil => simp
    | cons y l ih => simp only [List.map_cons, List.sum_cons, ih, List.length_cons]; push_cast; ring
  have hsq : ∀ (l : List ℝ) (f : ℝ → ℝ) (c : ℝ), (l.map fun y => f y * c).sum = (l.map f).sum * c := by
    intro l f c
    induction l with
    | nil => simp
    | cons y l ih => simp only [List.map_cons, List.sum_cons, ih]; ring
  unfold jackknifeSE meanSE
  rw [List.length_map, hsum, List.map_map]
  have hterm : (fun x => (x - ((ys.length : ℝ) * ys.sum - ys.sum) / ((ys.length : ℝ) - 1) / ys.length) ^ 2) ∘
      (fun y => (ys.sum - y) / ((ys.length : ℝ) - 1))
      = fun y => (y - ys.sum / ys.length) ^ 2 * (1 / ((ys.length : ℝ) - 1) ^ 2) := by
    funext y
    simp only [Function.comp]
    field_simp
    ring
  rw [hterm, hsq, ← Real.sqrt_div' _ (by linarith)]
  congr 1
  field_simp

/-- A concrete case of C39: the units 1, 2, 3 have mean 2 and standard error `sqrt(1/3)`. -/
example : (jkStderr ([1, 2, 3].map fun y => some ((6 - y) / 2))).1 = some (Real.sqrt (1 / 3)) := by
  have h := C39_mean [1, 2, 3] (by simp)
  have h1 : ([1, 2, 3] : List ℝ).sum = 6 := by norm_num
  have h2 : (([1, 2, 3] : List ℝ).length : ℝ) - 1 = 2 := by norm_num
  rw [h1, h2] at h
  rw [h]
  unfold meanSE
  rw [h1, ← Real.sqrt_div' _ (by norm_num)]
  norm_num

/-! ## C42 -/

/-- C42: a reported interval is symmetric around the point estimate, contains it, has half width critical value times
standard error, and is not narrower for a higher confidence. -/
theorem C42_interval (ppf : ℝ → ℤ → ℝ) (hp : IsQuantile ppf) (c : ℝ) (hc : 0 < c ∧ c < 1) (pt s : ℝ) (hs : 0 ≤ s)
    (dof : ℤ) :
    ∃ lo hi, ciBounds ppf c pt (some s) dof = some (lo, hi) ∧ (lo + hi) / 2 = pt ∧ lo ≤ pt ∧ pt ≤ hi ∧
      (hi - lo) / 2 = s * ppf ((1 + c) / 2) dof ∧
      ∀ c', c < c' → c' < 1 → ∃ lo' hi', ciBounds ppf c' pt (some s) dof = some (lo', hi') ∧ lo' ≤ lo ∧ hi ≤ hi' := by
  have h0 : 0 ≤ ppf ((1 + c) / 2) dof := by
    have := hp.mono dof (1 / 2) ((1 + c) / 2) (by norm_num) (by linarith) (by linarith)
    rw [hp.half] at this
    exact this
  have h1 : 0 ≤ s * ppf ((1 + c) / 2) dof := mul_nonneg hs h0
  refine ⟨_, _, rfl, by ring, by linarith, by linarith, by ring, ?_⟩
  intro c' hcc' hc'
  have h2 := hp.mono dof ((1 + c) / 2) ((1 + c') / 2) (by linarith) (by linarith) (by linarith)
  have h3 := mul_le_mul_of_nonneg_left h2 hs
  exact ⟨_, _, rfl, by linarith, by linarith⟩

/-- No interval without a standard error. -/
theorem C42_missing (ppf : ℝ → ℤ → ℝ) (c pt : ℝ) (dof : ℤ) : ciBounds ppf c pt none dof = none := rfl

/-- C42: standard errors are never negative, so `C42_interval` applies to all that are computed. -/
theorem C42_se_nonneg (reps : List (Option ℝ)) (s : ℝ) (h : (jkStderr reps).1 = some s ∨ (bsStderr reps).1 = some s) :
    0 ≤ s := by
  rcases h with h | h
  · rw [C39_value] at h
    split at h
    · rw [Option.some.injEq] at h
      rw [← h]; exact Real.sqrt_nonneg _
    · cases h
  · unfold bsStderr stdSamp at h
    dsimp only at h
    split at h
    · cases h
    · rw [Option.some.injEq] at h
      rw [← h]; exact Real.sqrt_nonneg _

/-- C42: exactly the nonzero confidences outside (0, 1) are refused. Missing: 0, see `C42_violation_zero`. -/
theorem C42_refused_partial (x : ℝ) (hx : x ≠ 0) : ¬ confidenceAccepted (some x) ↔ ¬ (0 < x ∧ x < 1) := by
  unfold confidenceAccepted
  constructor
  · intro h h'
    exact h fun y hy _ => by rw [Option.some.injEq] at hy; rw [← hy]; exact h'
  · intro h h'
    exact h (h' x rfl hx)

/-- C42 is violated for confidence 0, which is outside (0, 1): it is accepted, and then no interval is reported. -/
theorem C42_violation_zero : confidenceAccepted (some 0) ∧ ¬ reportsInterval (some 0) := by
  constructor
  · intro x hx hx0
    rw [Option.some.injEq] at hx
    exact absurd hx.symm hx0
  · rintro ⟨x, hx, hx0⟩
    rw [Option.some.injEq] at hx
    exact hx0 hx.symm

/-- A function that meets `IsQuantile`, and the resulting interval. -/
example : IsQuantile (fun p _ => p - 1 / 2) :=
  ⟨fun _ p q _ h _ => by linarith, fun _ => by norm_num⟩
example : ciBounds (fun p _ => p - 1 / 2) (1 / 2) 10 (some 4) 3 = some (9, 11) := by
  simp only [ciBounds, ciHalfWidth, Option.map_some, Option.some.injEq, Prod.mk.injEq]
  constructor <;> norm_num

end Verif
