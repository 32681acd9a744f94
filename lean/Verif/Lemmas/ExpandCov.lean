import Verif.Lemmas.Expand

namespace Verif

theorem covCore (rs : List RRow) (w x y : RRow → ℝ) (h : tot rs w ≠ 0) :
    tot rs (fun r => w r * (x r * y r)) / tot rs w - wavg rs w x * wavg rs w y
      = crossM rs w x y / tot rs w := by
  rw [crossM_eq rs w x y h]
  unfold wavg
  field_simp

/-- Dividing by `((1 - K/S) ** 0.5) ** 2` corrects the degrees of freedom. -/
theorem finish_pos {S K C : ℝ} (hS : 0 < S) (z : ℝ) (hz : z = 1 - K / S) :
    ((if z < 0 then none else some z : Option ℝ).bind fun z => rdiv (C / S) z)
      = if 0 < S ∧ 0 < S - K then some (C / (S - K)) else none := by
  have hz' : z * S = S - K := by rw [hz]; field_simp
  by_cases h1 : z < 0
  · rw [if_pos h1, if_neg]
    · rfl
    · rintro ⟨_, h⟩
      rw [← hz'] at h
      have := mul_neg_of_neg_of_pos h1 hS
      linarith
  · rw [if_neg h1]
    simp only [Option.bind_some, rdiv]
    by_cases h2 : z = 0
    · rw [if_pos h2, if_neg]
      rintro ⟨_, h⟩
      rw [← hz', h2] at h
      simp at h
    · have h3 : 0 < z := lt_of_le_of_ne (not_lt.1 h1) (Ne.symm h2)
      rw [if_neg h2, if_pos ⟨hS, by rw [← hz']; exact mul_pos h3 hS⟩, ← hz']
      congr 1
      field_simp

theorem wmean_mul (rs : List RRow) (v w f : ECol) :
    wavg rs f.get (ECol.mul v w).get = tot rs (fun r => f.get r * (v.get r * w.get r)) / tot rs f.get := by
  unfold wavg
  congr 1
  exact tot_congr fun r _ => by rw [get_mul]

theorem crossM_congr {rs : List RRow} {w w' x y : RRow → ℝ} (h : ∀ r ∈ rs, w r = w' r) :
    crossM rs w x y = crossM rs w' x y := by
  have h1 : ∀ g : RRow → ℝ, wavg rs w g = wavg rs w' g := by
    intro g
    unfold wavg
    rw [tot_congr h, tot_congr (f := fun r => w r * g r) (g := fun r => w' r * g r)
      (fun r hr => by rw [h r hr])]
  unfold crossM
  rw [h1, h1]
  exact tot_congr fun r hr => by rw [h r hr]

theorem nrows_nil : nrows [] = 0 := by simp [nrows]

/-- The last step of the covariance with frequency weights or none. -/
theorem finishTree (sem lv) (rs : List RRow) (res v1 : ET) (d : ℤ) (S C : ℝ) (hS : 0 ≤ S)
    (hres : res.val sem lv rs = if S = 0 then none else some (C / S))
    (hv1 : v1.val sem lv rs = some S) :
    (if d = 0 then res else ediv res (sqrtSq (esub (.const 1) (ediv (.const d) v1)))).val sem lv rs
      = if 0 < S ∧ 0 < S - d then some (C / (S - d)) else none := by
  rcases eq_or_lt_of_le hS with h0 | h0
  · rw [if_neg (c := _ ∧ _) (fun h => absurd h.1 (by rw [← h0]; simp))]
    rw [if_pos h0.symm] at hres
    split
    · exact hres
    · rw [ediv, val_comp, hres]; simp [EOp.app]
  · rw [if_neg (ne_of_gt h0)] at hres
    split
    · rename_i hd
      subst hd
      rw [hres, if_pos (by simpa using h0)]
      simp
    · rw [ediv, val_comp, hres, val_sqrtSq, esub, val_comp, val_const, ediv, val_comp, val_const, hv1,
        ← finish_pos h0 (1 - (d : ℝ) / S) rfl]
      simp only [EOp.app, Option.bind_some, rdiv, if_neg (ne_of_gt h0)]
      norm_num

/-- The last step of the covariance with observation weights. -/
theorem finishTreeA (sem lv) (rs : List RRow) (res v1 v2 : ET) (d : ℤ) (S C V2 : ℝ) (hS : 0 ≤ S)
    (hres : res.val sem lv rs = if S = 0 then none else some (C / S))
    (hv1 : v1.val sem lv rs = some S) (hv2 : v2.val sem lv rs = some V2) :
    (if d = 0 then res
      else ediv res (sqrtSq (esub (.const 1) (ediv (emul (.const d) v2) (epow v1 2))))).val sem lv rs
      = if 0 < S ∧ 0 < S - d * V2 / S then some (C / (S - d * V2 / S)) else none := by
  rcases eq_or_lt_of_le hS with h0 | h0
  · rw [if_neg (c := _ ∧ _) (fun h => absurd h.1 (by rw [← h0]; simp))]
    rw [if_pos h0.symm] at hres
    split
    · exact hres
    · rw [ediv, val_comp, hres]; simp [EOp.app]
  · rw [if_neg (ne_of_gt h0)] at hres
    split
    · rename_i hd
      subst hd
      rw [hres, if_pos (by simpa using h0)]
      simp
    · rw [ediv, val_comp, hres, val_sqrtSq, esub, val_comp, val_const, ediv, val_comp, emul, val_comp,
        epow, val_comp, val_const, hv1, hv2, val_const,
        ← finish_pos h0 (1 - (d : ℝ) * V2 / S ^ 2) (by field_simp)]
      simp only [EOp.app, Option.bind_some, rdiv, rpow?_two, if_neg (ne_of_gt (pow_pos h0 2))]
      norm_num

/-- The first part of the weighted covariance. -/
theorem resW (sem : ESem) (rs : List RRow) (v w f : ECol) :
    (esub (lf (.mean (.mul v w) (some f)))
        (emul (lf (.mean v (some f))) (lf (.mean w (some f))))).val sem (textbook sem) rs
      = if tot rs f.get = 0 then none else some (crossM rs f.get v.get w.get / tot rs f.get) := by
  rw [esub, val_comp, val_lf, emul, val_comp, val_lf, val_lf]
  simp only [textbook]
  by_cases h0 : tot rs f.get = 0
  · simp [h0, EOp.app]
  · simp only [if_neg h0, EOp.app, Option.bind_some]
    rw [wmean_mul, covCore rs _ _ _ h0]

theorem cov_equiv (sem : ESem) (v w : ECol) (bias : Bool) (ddof : Option ℤ) (wt fw : Option ECol)
    (rs : List RRow) (hwt : ∀ c ∈ wt.toList ++ fw.toList, ∀ r ∈ rs, 0 ≤ c.get r) :
    (covEquiv v w bias ddof wt fw).val sem (textbook sem) rs
      = textbook sem (.cov v w bias ddof wt fw) rs := by
  have hd : ddof.getD (if bias then 0 else 1) = covDdof bias ddof := by
    cases ddof <;> rfl
  have h1 : tot rs (fun _ => 1) = nrows rs := tot_one rs
  simp only [textbook, hd, tbCov]
  unfold covEquiv
  generalize covDdof bias ddof = d
  cases wt with
  | none =>
    cases fw with
    | none =>
      have := finishTree sem (textbook sem) rs
        (esub (lf (.dot v w true)) (emul (lf (.mean v none)) (lf (.mean w none))))
        (lf (.count v false)) d (nrows rs) (crossM rs (fun _ => 1) v.get w.get)
        (by rw [← h1]; exact tot_nonneg fun _ _ => zero_le_one) (by
          rw [esub, val_comp, val_lf, emul, val_comp, val_lf, val_lf]
          simp only [textbook]
          by_cases h0 : rs = []
          · simp [h0, EOp.app, nrows_nil]
          · have hn := ne_of_gt (nrows_pos.1 h0)
            simp only [if_neg h0, EOp.app, Option.bind_some, if_neg hn]
            have := covCore rs (fun _ => 1) v.get w.get (by rw [h1]; exact hn)
            simp only [one_mul, h1, wavg] at this
            rw [this]) (by rw [val_lf]; simp only [textbook])
      rw [this]
      simp only [wt?, mul_one, h1]
      by_cases h0 : 0 < nrows rs
      · rw [mul_div_assoc, div_self (ne_of_gt h0), mul_one]
      · rw [if_neg (fun h => h0 h.1), if_neg (fun h => h0 h.1)]
    | some f =>
      have := finishTree sem (textbook sem) rs _ (lf (.sum f)) d (tot rs f.get)
        (crossM rs f.get v.get w.get)
        (tot_nonneg fun r hr => hwt f (by simp) r hr) (resW sem rs v w f)
        (by rw [val_lf]; simp only [textbook])
      rw [this]
      simp only [wt?, mul_one]
      by_cases h0 : 0 < tot rs f.get
      · rw [mul_div_assoc, div_self (ne_of_gt h0), mul_one]
      · rw [if_neg (fun h => h0 h.1), if_neg (fun h => h0 h.1)]
  | some a =>
    cases fw with
    | none =>
      have := finishTreeA sem (textbook sem) rs _ (lf (.sum a)) (lf (.dot a a false)) d (tot rs a.get)
        (crossM rs a.get v.get w.get) (tot rs fun r => a.get r * a.get r)
        (tot_nonneg fun r hr => hwt a (by simp) r hr) (resW sem rs v w a)
        (by rw [val_lf]; simp only [textbook]) (by rw [val_lf]; simp only [textbook])
      rw [this]
      simp only [wt?, one_mul]
    | some f =>
      have hfa : ∀ r, (ECol.mul f a).get r = f.get r * a.get r := fun r => get_mul f a r
      have h0 : tot rs (ECol.mul f a).get = tot rs fun r => f.get r * a.get r :=
        tot_congr fun r _ => hfa r
      have := finishTreeA sem (textbook sem) rs _ (lf (.dot a f false)) (lf (.dot (ECol.mul f a) a false)) d
        (tot rs (ECol.mul f a).get)
        (crossM rs (ECol.mul f a).get v.get w.get) (tot rs fun r => f.get r * a.get r * a.get r)
        (tot_nonneg fun r hr => by
          rw [hfa]; exact mul_nonneg (hwt f (by simp) r hr) (hwt a (by simp) r hr))
        (resW sem rs v w (ECol.mul f a))
        (by
          rw [val_lf]
          simp only [textbook, h0]
          congr 1
          exact tot_congr fun r _ => mul_comm _ _)
        (by
          rw [val_lf]
          simp only [textbook]
          congr 1
          exact tot_congr fun r _ => by rw [hfa])
      simp only [wt?]
      rw [this, h0, crossM_congr (fun r _ => hfa r)]
      congr

end Verif
