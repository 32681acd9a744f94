import Verif.Model.SqlMoments
import Mathlib.Tactic.Ring
import Mathlib.Tactic.FieldSimp
import Mathlib.Tactic.Linarith
import Mathlib.Tactic.NormNum

/-!
# C106: statistics under a change of unit and zero point

/repo/metrics.py:1826-1844, 2330-2590.
-/

namespace Verif

/-- Row by row the column reads `c * x + d` where it read `x`, and is missing where it was. -/
def Rescaled (v : ECol) (c d : ℝ) (rs rs' : List RRow) : Prop :=
  List.Forall₂ (fun r r' => v.eval r' = (v.eval r).map fun x => c * x + d) rs rs'

theorem present_rescaled {v : ECol} {c d : ℝ} {rs rs' : List RRow} (h : Rescaled v c d rs rs') :
    present v rs' = (present v rs).map fun x => c * x + d := by
  unfold present
  induction h with
  | nil => rfl
  | @cons r r' rs rs' hr _ ih =>
    rw [List.filterMap_cons, List.filterMap_cons, hr]
    cases v.eval r with
    | none => exact ih
    | some x => simp [ih]

theorem pairs_rescaled {v w : ECol} {c d c' d' : ℝ} {rs rs' : List RRow} (h : Rescaled v c d rs rs') (h' : Rescaled w c' d' rs rs') :
    pairsOf v w rs' = (pairsOf v w rs).map fun p => (c * p.1 + d, c' * p.2 + d') := by
  unfold pairsOf
  induction h with
  | nil => rfl
  | @cons r r' rs rs' hr _ ih =>
    cases h' with
    | cons hr' h' =>
      rw [List.filterMap_cons, List.filterMap_cons, hr, hr', ih h']
      cases v.eval r <;> cases w.eval r <;> simp

private theorem sum_affine (c d : ℝ) (xs : List ℝ) : (xs.map fun x => c * x + d).sum = c * xs.sum + xs.length * d := by
  induction xs with
  | nil => simp
  | cons x xs ih => simp only [List.map_cons, List.sum_cons, ih, List.length_cons]; push_cast; ring

theorem pdMean_affine (c d : ℝ) (xs : List ℝ) : pdMean (xs.map fun x => c * x + d) = (pdMean xs).map fun m => c * m + d := by
  unfold pdMean
  rw [List.length_map]
  split
  · rfl
  · rename_i h
    have : (xs.length : ℝ) ≠ 0 := by exact_mod_cast h
    simp only [Option.map_some, sum_affine]
    congr 1
    field_simp

theorem pdVar_affine (ddof : ℕ) (c d : ℝ) (xs : List ℝ) : pdVar ddof (xs.map fun x => c * x + d) = (pdVar ddof xs).map fun s => c ^ 2 * s := by
  have hsq : ∀ (l : List ℝ) (μ : ℝ), (l.map fun x => (c * x + d - (c * μ + d)) ^ 2).sum = c ^ 2 * (l.map fun x => (x - μ) ^ 2).sum := by
    intro l μ
    induction l with
    | nil => simp
    | cons x l ih => simp only [List.map_cons, List.sum_cons, ih]; ring
  unfold pdVar
  rw [List.length_map]
  split
  · rfl
  · rename_i h
    have hn : (xs.length : ℝ) ≠ 0 := by
      have : 0 < xs.length := by omega
      exact_mod_cast this.ne'
    have hm : (c * xs.sum + xs.length * d) / (xs.length : ℝ) = c * (xs.sum / xs.length) + d := by field_simp
    simp only [Option.map_some, List.map_map, Function.comp_def, sum_affine, hm, hsq, mul_div_assoc]

private theorem sum_scaled (a b : ℝ) (f g : ℝ × ℝ → ℝ) (l : List (ℝ × ℝ)) :
    (l.map fun p => (a * f p) * (b * g p)).sum = a * b * (l.map fun p => f p * g p).sum := by
  induction l with
  | nil => simp
  | cons p l ih => simp only [List.map_cons, List.sum_cons, ih]; ring

private theorem rdiv_scaled {c : ℝ} (hc : 0 < c) (x y : ℝ) : rdiv (c * x) (c * y) = rdiv x y := by
  unfold rdiv
  by_cases hy : y = 0
  · simp [hy]
  · simp [hy, hc.ne', mul_div_mul_left]

theorem pdCorr_affine {c c' : ℝ} (hc : 0 < c) (hc' : 0 < c') (d d' : ℝ) (ps : List (ℝ × ℝ)) :
    pdCorr (ps.map fun p => (c * p.1 + d, c' * p.2 + d')) = pdCorr ps := by
  by_cases hps : ps = []
  · simp [hps]
  have hn : (ps.length : ℝ) ≠ 0 := by exact_mod_cast (List.length_pos_iff.2 hps).ne'
  have h1 : (ps.map fun p => c * p.1 + d).sum = c * (ps.map fun p => p.1).sum + ps.length * d := by
    have := sum_affine c d (ps.map fun p => p.1)
    simpa [List.map_map, Function.comp_def] using this
  have h2 : (ps.map fun p => c' * p.2 + d').sum = c' * (ps.map fun p => p.2).sum + ps.length * d' := by
    have := sum_affine c' d' (ps.map fun p => p.2)
    simpa [List.map_map, Function.comp_def] using this
  have m1 : (c * (ps.map fun p => p.1).sum + ps.length * d) / (ps.length : ℝ) = c * ((ps.map fun p => p.1).sum / ps.length) + d := by field_simp
  have m2 : (c' * (ps.map fun p => p.2).sum + ps.length * d') / (ps.length : ℝ) = c' * ((ps.map fun p => p.2).sum / ps.length) + d' := by
    field_simp
  unfold pdCorr
  simp only [List.map_map, Function.comp_def, List.length_map, h1, h2, m1, m2]
  generalize (ps.map fun p => p.1).sum / (ps.length : ℝ) = mx
  generalize (ps.map fun p => p.2).sum / (ps.length : ℝ) = my
  have e : ∀ (a b : ℝ) (f g : ℝ × ℝ → ℝ), (ps.map fun p => (a * f p) * (b * g p)).sum = a * b * (ps.map fun p => f p * g p).sum :=
    fun a b f g => sum_scaled a b f g ps
  have e1 : ∀ p : ℝ × ℝ, c * p.1 + d - (c * mx + d) = c * (p.1 - mx) := fun p => by ring
  have e2 : ∀ p : ℝ × ℝ, c' * p.2 + d' - (c' * my + d') = c' * (p.2 - my) := fun p => by ring
  simp only [e1, e2, e c c (fun p => p.1 - mx) (fun p => p.1 - mx), e c' c' (fun p => p.2 - my) (fun p => p.2 - my),
    e c c' (fun p => p.1 - mx) (fun p => p.2 - my)]
  generalize (ps.map fun p => (p.1 - mx) * (p.1 - mx)).sum = sx
  generalize (ps.map fun p => (p.2 - my) * (p.2 - my)).sum = sy
  generalize (ps.map fun p => (p.1 - mx) * (p.2 - my)).sum = sxy
  have hs : Real.sqrt (c * c * sx * (c' * c' * sy)) = c * c' * Real.sqrt (sx * sy) := by
    have : c * c * sx * (c' * c' * sy) = (c * c') ^ 2 * (sx * sy) := by ring
    rw [this, Real.sqrt_mul (sq_nonneg _), Real.sqrt_sq (mul_pos hc hc').le]
  have hcc : c * c' ≠ 0 := (mul_pos hc hc').ne'
  rw [hs]
  by_cases h0 : Real.sqrt (sx * sy) = 0
  · simp [h0]
  · rw [if_neg (mul_ne_zero hcc h0), if_neg h0, mul_div_mul_left _ _ hcc]

/-- **C106.** If a column is in another unit with another zero point, its mean is converted as its values are, the variance is
multiplied by the square of the factor, the standard deviation by its size; a correlation stays if the factors are positive. Missing
results stay missing. -/
theorem C106_statistics (v w : ECol) (unb : Bool) (c d c' d' : ℝ) (rs rs' : List RRow) (h : Rescaled v c d rs rs')
    (h' : Rescaled w c' d' rs rs') :
    (∀ f, SLeaf.pandas (.mean v none) = some f → f rs' = (f rs).map fun m => c * m + d) ∧
    (∀ f, SLeaf.pandas (.variance v unb none) = some f → f rs' = (f rs).map fun s => c ^ 2 * s) ∧
    (∀ f, SLeaf.pandas (.sd v unb none) = some f → f rs' = (f rs).map fun s => |c| * s) ∧
    (0 < c → 0 < c' → ∀ f, SLeaf.pandas (.corr v w none) = some f → f rs' = f rs) ∧
    (0 < c → d = 0 → ∀ f, SLeaf.pandas (.cv v unb) = some f → f rs' = f rs) := by
  have hp := present_rescaled h
  refine ⟨?_, ?_, ?_, ?_, ?_⟩
  · rintro f ⟨⟩
    show pdMean (present v rs') = _
    rw [hp, pdMean_affine]
  · rintro f ⟨⟩
    show pdVar _ (present v rs') = _
    rw [hp, pdVar_affine]
  · rintro f ⟨⟩
    show (pdVar _ (present v rs')).map Real.sqrt = _
    rw [hp, pdVar_affine, Option.map_map, Option.map_map]
    congr 1
    funext s
    simp only [Function.comp]
    rw [Real.sqrt_mul (sq_nonneg c), Real.sqrt_sq_eq_abs]
  · rintro hc hc' f ⟨⟩
    show pdCorr (pairsOf v w rs') = _
    rw [pairs_rescaled h h', pdCorr_affine hc hc']
  · rintro hc hd f ⟨⟩
    subst hd
    show EOp.app .div ((pdVar _ (present v rs')).map Real.sqrt) (pdMean (present v rs')) = _
    rw [hp, pdVar_affine, pdMean_affine, Option.map_map]
    have : (Real.sqrt ∘ fun s => c ^ 2 * s) = fun s => c * Real.sqrt s := by
      funext s
      simp only [Function.comp]
      rw [Real.sqrt_mul (sq_nonneg c), Real.sqrt_sq hc.le]
    rw [this]
    cases h1 : pdVar (ddofOf unb) (present v rs) <;> cases h2 : pdMean (present v rs) <;> simp [EOp.app, h1, h2]
    exact rdiv_scaled hc _ _

/-- Degrees Fahrenheit for degrees Celsius, with a missing reading. -/
private noncomputable def exTemp (fahrenheit : Bool) : List RRow :=
  [some 10, none, some 20].map fun o => fun _ => o.map fun x => if fahrenheit then 9 / 5 * x + 32 else x

example : Rescaled (.base "t") (9 / 5) 32 (exTemp false) (exTemp true) ∧
    pdMean (present (.base "t") (exTemp false)) = some 15 ∧ pdMean (present (.base "t") (exTemp true)) = some 59 := by
  have h : Rescaled (.base "t") (9 / 5) 32 (exTemp false) (exTemp true) := by
    unfold Rescaled exTemp
    simp [ECol.eval]
  have hm : pdMean (present (.base "t") (exTemp false)) = some 15 := by
    simp [pdMean, present, exTemp, ECol.eval]
    norm_num
  refine ⟨h, hm, ?_⟩
  rw [present_rescaled h, pdMean_affine, hm]
  norm_num

end Verif
