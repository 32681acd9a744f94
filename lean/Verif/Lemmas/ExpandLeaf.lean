import Verif.Lemmas.ExpandCov

namespace Verif

theorem tbCov_self (rs : List RRow) (d : ℝ) (x : RRow → ℝ) :
    tbCov rs (fun _ => 1) (fun _ => 1) d x x = tbVariance rs (fun _ => 1) d x := by
  simp only [tbCov, tbVariance, mul_one, tot_one]
  by_cases h0 : 0 < nrows rs
  · rw [mul_div_assoc, div_self (ne_of_gt h0), mul_one]
  · rw [if_neg (fun h => h0 h.1), if_neg (fun h => h0 h.1)]

theorem tbVariance_nonneg {rs : List RRow} {w x : RRow → ℝ} {d y : ℝ}
    (hw : ∀ r ∈ rs, 0 ≤ w r) (h : tbVariance rs w d x = some y) : 0 ≤ y := by
  unfold tbVariance at h
  split at h
  · rename_i h1
    cases h
    exact div_nonneg (crossM_self_nonneg hw) (le_of_lt h1.2)
  · cases h

theorem wvar_equiv (sem : ESem) (rs : List RRow) (v w : ECol) (unb : Bool) (e : ET)
    (he : (SLeaf.variance v unb (some w)).equiv = some e) :
    e.val sem (textbook sem) rs = textbook sem (.variance v unb (some w)) rs := by
  have hsq : (tot rs fun r => (ECol.sq v).get r * w.get r)
      = tot rs fun r => w.get r * (v.get r * v.get r) :=
    tot_congr fun r _ => by rw [get_sq]; ring
  have hc : (tot rs fun r => v.get r * w.get r) = tot rs fun r => w.get r * v.get r :=
    tot_congr fun r _ => mul_comm _ _
  have hden : (if unb then esub (lf (.sum w)) (.const 1) else lf (.sum w)).val sem (textbook sem) rs
      = some (tot rs w.get - if unb then 1 else 0) := by
    cases unb with
    | false => simp [val_lf, textbook]
    | true => simp [esub, val_comp, val_lf, val_const, textbook, EOp.app]
  simp only [SLeaf.equiv, Option.some.injEq] at he
  rw [← he, ediv, val_comp, val_sqrtSq, hden, esub, val_comp, val_lf, ediv, val_comp, val_lf, epow,
    val_comp, val_lf, val_const]
  simp only [textbook, EOp.app, Option.bind_some, rpow?_two, rdiv, tbVariance, hsq, hc, show wt? (some w) = w.get from rfl]
  generalize hdd : (if unb then (1 : ℝ) else 0) = d
  have hd0 : 0 ≤ d := by rw [← hdd]; split <;> norm_num
  by_cases h0 : tot rs w.get = 0
  · have h1 : ¬ (0 < tot rs w.get ∧ 0 < tot rs w.get - d) := by rw [h0]; simp
    rw [if_neg h1]
    simp [h0]
  · simp only [if_neg h0, Option.bind_some]
    have hcm := crossM_eq rs w.get v.get v.get h0
    by_cases h2 : tot rs w.get - d < 0
    · rw [if_neg (c := _ ∧ _) (fun h => absurd h.2 (not_lt.2 (le_of_lt h2)))]
      simp [h2]
    · rw [if_neg h2]
      simp only [Option.bind_some]
      by_cases h3 : tot rs w.get - d = 0
      · rw [if_pos h3, if_neg]
        rintro ⟨_, h⟩
        rw [h3] at h
        exact lt_irrefl _ h
      · have h4 : 0 < tot rs w.get - d := lt_of_le_of_ne (not_lt.1 h2) (Ne.symm h3)
        rw [if_neg h3, if_pos ⟨by linarith, h4⟩, hcm]
        congr 2
        ring

theorem sd_equiv (sem : ESem) (rs : List RRow) (v : ECol) (w : Option ECol) (unb : Bool)
    (hw : ∀ c ∈ w.toList, ∀ r ∈ rs, 0 ≤ c.get r) :
    (epow (lf (.variance v unb w)) (1/2)).val sem (textbook sem) rs
      = textbook sem (.sd v unb w) rs := by
  have hw' : ∀ r ∈ rs, 0 ≤ wt? w r := by
    intro r hr
    cases w with
    | none => simp [wt?]
    | some c => exact hw c (by simp) r hr
  rw [epow, val_comp, val_lf, val_const]
  simp only [textbook, tbSD]
  cases h : tbVariance rs (wt? w) (if unb then 1 else 0) v.get with
  | none => simp [EOp.app]
  | some y =>
    have := tbVariance_nonneg hw' h
    simp only [EOp.app, Option.bind_some, rpow?_half, if_neg (not_lt.2 this), Option.map_some]

theorem tbSD_ne {rs : List RRow} {w x : RRow → ℝ} {d : ℝ} {s : ℝ} (h : tbSD rs w d x = some s) :
    0 < tot rs w := by
  unfold tbSD tbVariance at h
  split at h
  · rename_i h1; exact h1.1
  · cases h

theorem cv_equiv (sem : ESem) (rs : List RRow) (v : ECol) (unb : Bool) :
    (ediv (lf (.sd v unb none)) (lf (.mean v none))).val sem (textbook sem) rs
      = textbook sem (.cv v unb) rs := by
  rw [ediv, val_comp, val_lf, val_lf]
  simp only [textbook]
  have hw : (wt? none) = fun _ => (1 : ℝ) := funext fun _ => rfl
  rw [hw]
  cases h : tbSD rs (fun _ => 1) (if unb then 1 else 0) v.get with
  | none => simp [EOp.app]
  | some s =>
    have hn := tbSD_ne h
    rw [tot_one] at hn
    have hr : rs ≠ [] := nrows_pos.2 hn
    simp only [EOp.app, Option.bind_some, if_neg hr, rdiv, Option.bind_eq_bind]
    by_cases h0 : tot rs v.get = 0
    · simp [h0]
    · rw [if_neg (div_ne_zero h0 (ne_of_gt hn)), if_neg h0]

theorem corr_equiv (sem : ESem) (rs : List RRow) (v w : ECol) (wt : Option ECol)
    (hw : ∀ c ∈ wt.toList, ∀ r ∈ rs, 0 ≤ c.get r) :
    (ediv (ediv (lf (.cov v w true none wt none)) (lf (.sd v false wt))) (lf (.sd w false wt))).val sem
      (textbook sem) rs = textbook sem (.corr v w wt) rs := by
  have hw' : ∀ r ∈ rs, 0 ≤ wt? wt r := by
    intro r hr
    cases wt with
    | none => simp [wt?]
    | some c => exact hw c (by simp) r hr
  have h1 : (fun r => wt? none r * wt? wt r) = wt? wt := funext fun r => by simp [wt?]
  rw [ediv, val_comp, ediv, val_comp, val_lf, val_lf, val_lf]
  simp only [textbook, Option.getD_none, if_true, tbCov, h1, tbCorr, tbSD, tbVariance]
  simp only [Int.cast_zero, zero_mul, zero_div, sub_zero, and_self, Bool.false_eq_true, if_false]
  by_cases h0 : 0 < tot rs (wt? wt)
  · simp only [if_pos h0, Option.map_some, EOp.app, Option.bind_some, rdiv]
    have hx := crossM_self_nonneg (x := v.get) hw'
    have hy := crossM_self_nonneg (x := w.get) hw'
    set S := tot rs (wt? wt)
    set X := crossM rs (wt? wt) v.get v.get
    set Y := crossM rs (wt? wt) w.get w.get
    set C := crossM rs (wt? wt) v.get w.get
    have key : ∀ Z : ℝ, 0 ≤ Z → (Real.sqrt (Z / S) = 0 ↔ Z = 0) := by
      intro Z hZ
      rw [Real.sqrt_eq_zero (div_nonneg hZ h0.le), div_eq_zero_iff]
      constructor
      · rintro (h | h)
        · exact h
        · exact absurd h (ne_of_gt h0)
      · exact Or.inl
    by_cases hX : X = 0
    · rw [if_pos ((key X hx).2 hX), if_neg (fun h => h.2.1 hX)]
      rfl
    · rw [if_neg (fun h => hX ((key X hx).1 h))]
      simp only [Option.bind_some]
      by_cases hY : Y = 0
      · rw [if_pos ((key Y hy).2 hY), if_neg (fun h => h.2.2 hY)]
      · rw [if_neg (fun h => hY ((key Y hy).1 h)), if_pos ⟨h0, hX, hY⟩]
        congr 1
        have hX0 : 0 < X := lt_of_le_of_ne hx (Ne.symm hX)
        have hY0 : 0 < Y := lt_of_le_of_ne hy (Ne.symm hY)
        rw [Real.sqrt_div hx, Real.sqrt_div hy]
        have e1 := Real.sqrt_pos.2 hX0
        have e2 := Real.sqrt_pos.2 hY0
        have e3 := Real.sqrt_pos.2 h0
        have e4 : Real.sqrt S ^ 2 = S := Real.sq_sqrt h0.le
        field_simp
        rw [e4]
  · rw [if_neg (c := _ ∧ _ ∧ _) (fun h => h0 h.1)]
    simp [h0, EOp.app]


/-- Each equivalent has the textbook value of its original, if the weights are not negative. -/
theorem equiv_sound (sem : ESem) (k : SLeaf) (e : ET) (he : k.equiv = some e) (rs : List RRow)
    (hw : ∀ c ∈ k.weights, ∀ r ∈ rs, 0 ≤ c.get r) :
    e.val sem (textbook sem) rs = textbook sem k rs := by
  cases k with
  | sum v => cases he
  | count v d => cases he
  | max v => cases he
  | min v => cases he
  | other i => cases he
  | dot v w n => exact dot_equiv sem v w n e rs he
  | mean v w => exact mean_equiv sem v w e rs he
  | variance v unb w =>
    cases w with
    | none =>
      simp only [SLeaf.equiv, Option.some.injEq] at he
      rw [← he, val_lf]
      simp only [textbook, Option.getD_some]
      have hw : (wt? none) = fun _ => (1 : ℝ) := funext fun _ => rfl
      rw [hw, tbCov_self]
      cases unb <;> simp
    | some w => exact wvar_equiv sem rs v w unb e he
  | sd v unb w =>
    simp only [SLeaf.equiv, Option.some.injEq] at he
    rw [← he]
    exact sd_equiv sem rs v w unb hw
  | cv v unb =>
    simp only [SLeaf.equiv, Option.some.injEq] at he
    rw [← he]
    exact cv_equiv sem rs v unb
  | corr v w wt =>
    simp only [SLeaf.equiv, Option.some.injEq] at he
    rw [← he]
    exact corr_equiv sem rs v w wt hw
  | cov v w bias ddof wt fw =>
    simp only [SLeaf.equiv, Option.some.injEq] at he
    rw [← he]
    exact cov_equiv sem v w bias ddof wt fw rs hw

end Verif
