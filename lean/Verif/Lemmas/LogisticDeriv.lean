import Verif.Spec.Logistic
import Verif.Lemmas.Logistic
import Verif.Lemmas.Regress
import Verif.Lemmas.Fista
import Mathlib.Analysis.SpecialFunctions.ExpDeriv
import Mathlib.Analysis.SpecialFunctions.Log.Deriv
import Mathlib.Analysis.Convex.SpecificFunctions.Basic

/-!
# Derivatives of the logistic loss
-/

namespace Verif

open Finset

theorem logistic_pos (z : ℝ) : 0 < logistic z := by unfold logistic; positivity

theorem one_sub_logistic (z : ℝ) : 1 - logistic z = Real.exp (-z) / (1 + Real.exp (-z)) := by
  have : 1 + Real.exp (-z) ≠ 0 := by positivity
  unfold logistic; field_simp; ring

theorem logistic_lt_one (z : ℝ) : logistic z < 1 := by
  have : 0 < 1 - logistic z := by rw [one_sub_logistic]; positivity
  linarith

theorem logistic_neg_form (z : ℝ) : logistic z = Real.exp z / (1 + Real.exp z) := by
  have h1 : 1 + Real.exp (-z) ≠ 0 := by positivity
  have h2 : 1 + Real.exp z ≠ 0 := by positivity
  have h3 : Real.exp z * Real.exp (-z) = 1 := by rw [← Real.exp_add]; simp
  unfold logistic
  rw [div_eq_div_iff h1 h2]
  linear_combination -h3

theorem sigMinusB_eq (z b : ℝ) : sigMinusB z b = logistic z - b := by
  unfold sigMinusB
  split
  · rw [logistic_neg_form]
    have h2 : 1 + Real.exp z ≠ 0 := by positivity
    field_simp; ring
  · have h1 : 1 + Real.exp (-z) ≠ 0 := by positivity
    unfold logistic
    field_simp; ring

theorem sigZ_eq (z : ℝ) : sigZ z = logistic z := by
  unfold sigZ
  split
  · rw [logistic_neg_form]
  · rfl

theorem sigW_eq (z : ℝ) : sigW z = logistic z * (1 - logistic z) := by
  unfold sigW; rw [sigZ_eq, sigMinusB_eq]; ring

theorem xent_eq (y z : ℝ) : xent y z = Real.log (1 + Real.exp (-z)) + (1 - y) * z := by
  have h1 : 0 < 1 + Real.exp (-z) := by positivity
  have e1 : Real.log (logistic z) = -Real.log (1 + Real.exp (-z)) := by
    rw [logistic, one_div, Real.log_inv]
  have e2 : Real.log (1 - logistic z) = -z - Real.log (1 + Real.exp (-z)) := by
    rw [one_sub_logistic, Real.log_div (Real.exp_pos _).ne' h1.ne', Real.log_exp]
  rw [xent, e1, e2]; ring

theorem hasDerivAt_logistic (z : ℝ) : HasDerivAt logistic (logistic z * (1 - logistic z)) z := by
  have h1 : 1 + Real.exp (-z) ≠ 0 := by positivity
  have h : HasDerivAt (fun z : ℝ => 1 + Real.exp (-z)) (-Real.exp (-z)) z := by
    have := ((hasDerivAt_id z).neg.exp).const_add 1
    simpa using this
  have := h.inv h1
  rw [one_sub_logistic]
  unfold logistic
  simp only [one_div]
  refine this.congr_deriv ?_
  field_simp

theorem hasDerivAt_xent (y z : ℝ) : HasDerivAt (xent y) (logistic z - y) z := by
  have h1 : 1 + Real.exp (-z) ≠ 0 := by positivity
  have h : HasDerivAt (fun z : ℝ => 1 + Real.exp (-z)) (-Real.exp (-z)) z := by
    have := ((hasDerivAt_id z).neg.exp).const_add 1
    simpa using this
  have h2 := (h.log h1).add ((hasDerivAt_id z).const_mul (1 - y))
  have e : xent y = fun z => Real.log (1 + Real.exp (-z)) + (1 - y) * z := funext (xent_eq y)
  rw [e]
  refine h2.congr_deriv ?_
  have : logistic z = 1 - Real.exp (-z) / (1 + Real.exp (-z)) := by rw [← one_sub_logistic]; ring
  rw [this]
  field_simp; ring

/-- The loss lies above its tangents. -/
theorem xent_tangent (y z z' : ℝ) : xent y z + (logistic z - y) * (z' - z) ≤ xent y z' := by
  have h1 : 0 < 1 + Real.exp (-z) := by positivity
  have h2 : 0 < 1 + Real.exp (-z') := by positivity
  have hc := convexOn_exp.2 (Set.mem_univ 0) (Set.mem_univ (-(z' - z))) (logistic_pos z).le (sub_nonneg.2 (logistic_lt_one z).le) (by ring)
  simp only [smul_eq_mul, mul_zero, zero_add, Real.exp_zero, mul_one] at hc
  have e : logistic z + (1 - logistic z) * Real.exp (-(z' - z)) = (1 + Real.exp (-z')) / (1 + Real.exp (-z)) := by
    rw [one_sub_logistic, logistic]
    have : Real.exp (-z) * Real.exp (-(z' - z)) = Real.exp (-z') := by rw [← Real.exp_add]; congr 1; ring
    rw [div_mul_eq_mul_div, this, ← add_div]
  rw [e] at hc
  have hl := Real.log_le_log (Real.exp_pos _) hc
  rw [Real.log_exp, Real.log_div h2.ne' h1.ne'] at hl
  rw [xent_eq, xent_eq]
  linarith

/-! ## The coefficients in the linear predictor -/

theorem z_eq_predict (m : LogitCfg) (c : ℕ → ℝ) (r : RegRow) : m.z c r = predict m.k (lastIntercept m.k m.fit c) c r := by
  unfold LogitCfg.z LogitCfg.n predict lastIntercept
  rw [listsum_range]
  have hx : ∀ i ∈ range m.k, c i * m.xs r i = c i * r.x i := by
    intro i hi; rw [LogitCfg.xs, if_pos (mem_range.1 hi)]
  cases m.fit
  · simp only [Bool.false_eq_true, if_false, zero_add]
    exact Finset.sum_congr rfl hx
  · simp only [if_true]
    rw [Finset.sum_range_succ, Finset.sum_congr rfl hx, LogitCfg.xs, if_neg (by omega)]
    ring

theorem z_sub (m : LogitCfg) (c c' : ℕ → ℝ) (r : RegRow) :
    m.z c' r - m.z c r = ∑ i ∈ range m.n, (c' i - c i) * m.xs r i := by
  unfold LogitCfg.z
  rw [listsum_range, listsum_range, ← Finset.sum_sub_distrib]
  apply Finset.sum_congr rfl; intro i _; ring

theorem z_update (m : LogitCfg) (c : ℕ → ℝ) (i : ℕ) (hi : i < m.n) (t : ℝ) (r : RegRow) :
    m.z (Function.update c i t) r = m.z c r + (t - c i) * m.xs r i := by
  have := z_sub m c (Function.update c i t) r
  rw [Finset.sum_eq_single i] at this
  · rw [Function.update_self] at this; linarith
  · intro j _ hj; rw [Function.update_of_ne hj]; ring
  · intro h; exact absurd (mem_range.2 hi) h

theorem hasDerivAt_z (m : LogitCfg) (c : ℕ → ℝ) (i : ℕ) (hi : i < m.n) (r : RegRow) :
    HasDerivAt (fun t => m.z (Function.update c i t) r) (m.xs r i) (c i) := by
  have e : (fun t => m.z (Function.update c i t) r) = fun t => m.z c r + (t - c i) * m.xs r i := funext fun t => z_update m c i hi t r
  rw [e]
  have := (((hasDerivAt_id (c i)).sub_const (c i)).mul_const (m.xs r i)).const_add (m.z c r)
  simpa using this

theorem hasDerivAt_list_sum {α : Type} (l : List α) (f : α → ℝ → ℝ) (f' : α → ℝ) (x : ℝ) (h : ∀ a ∈ l, HasDerivAt (f a) (f' a) x) :
    HasDerivAt (fun t => (l.map fun a => f a t).sum) ((l.map f').sum) x := by
  induction l with
  | nil => simpa using hasDerivAt_const x (0 : ℝ)
  | cons a l ih =>
    simp only [List.map_cons, List.sum_cons]
    exact (h a (by simp)).add (ih fun b hb => h b (by simp [hb]))

theorem hasDerivAt_sumsq (k : ℕ) (c : ℕ → ℝ) (i : ℕ) :
    HasDerivAt (fun t => ∑ j ∈ range k, (Function.update c i t) j ^ 2) (if i < k then 2 * c i else 0) (c i) := by
  induction k with
  | zero => simpa using hasDerivAt_const (c i) (0 : ℝ)
  | succ k ih =>
    simp only [Finset.sum_range_succ]
    have hk : HasDerivAt (fun t => (Function.update c i t) k ^ 2) (if i = k then 2 * c i else 0) (c i) := by
      by_cases h : i = k
      · subst h
        simp only [Function.update_self, if_true]
        simpa using hasDerivAt_pow 2 (c i)
      · have e : (fun t => (Function.update c i t) k ^ 2) = fun _ => c k ^ 2 := by
          funext t; rw [Function.update_of_ne (Ne.symm h)]
        rw [e, if_neg h]
        exact hasDerivAt_const _ _
    refine (ih.add hk).congr_deriv ?_
    by_cases h1 : i < k
    · rw [if_pos h1, if_neg (by omega), if_pos (by omega)]; ring
    · by_cases h2 : i = k
      · rw [if_neg h1, if_pos h2, if_pos (by omega)]; ring
      · rw [if_neg h1, if_neg h2, if_neg (by omega)]; ring

/-! ## The columns -/

/-- What the penalty adds to an entry of the gradient. -/
noncomputable def LogitCfg.gradPen (m : LogitCfg) (nRows : ℝ) (c : ℕ → ℝ) (i : ℕ) : ℝ := match m.l2C with
  | some C => if i < m.k then c i / nRows / C else 0
  | none => 0

/-- What the penalty adds to an entry of the Hessian. -/
noncomputable def LogitCfg.hessPen (m : LogitCfg) (nRows : ℝ) (i j : ℕ) : ℝ := match m.l2C with
  | some C => if i = j ∧ i < m.k then 1 / (nRows * C) else 0
  | none => 0

theorem gradCols_getD (m : LogitCfg) (rows : List RegRow) (c : ℕ → ℝ) (i : ℕ) (hi : i < m.n) :
    (m.gradCols rows c).getD i 0 = avg rows (fun r => m.xs r i * (logistic (m.z c r) - r.y)) + m.gradPen rows.length c i := by
  simp [LogitCfg.gradCols, LogitCfg.gradPen, sigMinusB_eq, List.getD, hi]
  cases m.l2C <;> rfl

theorem cumsumNat_add (a b : ℕ) (l : List ℕ) : cumsumNat (a + b) l = (cumsumNat b l).map (a + ·) := by
  induction l generalizing b with
  | nil => rfl
  | cons x l ih =>
    simp only [cumsumNat, List.map_cons]
    rw [add_assoc, ih]

theorem arangeDown_succ (a b : ℕ) (h : b ≤ a) : arangeDown (a + 1) b = (a + 1) :: arangeDown a b := by
  unfold arangeDown
  rw [show a + 1 - b = (a - b) + 1 by omega, List.range_succ_eq_map]
  simp [Function.comp_def]

theorem diagIdx_one (n : ℕ) : diagIdx (n + 1) 1 = [0] := by
  simp [diagIdx, arangeDown, cumsumNat]

theorem diagIdx_succ (n k : ℕ) (h1 : 1 ≤ k) (h2 : k ≤ n) : diagIdx (n + 1) (k + 1) = 0 :: (diagIdx n k).map (n + 1 + ·) := by
  unfold diagIdx
  rw [show n + 1 - (k + 1) + 1 = n - k + 1 by omega, arangeDown_succ n (n - k + 1) (by omega), cumsumNat]
  have := cumsumNat_add (n + 1) 0 (arangeDown n (n - k + 1))
  rw [add_zero] at this
  rw [zero_add, this]
  simp

theorem triu_split (n : ℕ) : triu (n + 1) = ((List.range (n + 1)).map fun j => (0, j)) ++ (triu n).map fun p => (p.1 + 1, p.2 + 1) := by
  unfold triu
  rw [List.range_succ_eq_map (n := n), List.flatMap_cons, List.flatMap_map, List.map_flatMap, ← List.range_succ_eq_map]
  congr 1
  · simp
  · apply List.flatMap_congr
    intro i _
    simp [Function.comp_def, Nat.add_right_comm]

/-- The positions that the code gives the penalty are those of the first `k` entries of the diagonal. -/
theorem mem_diagIdx (n k : ℕ) (h1 : 1 ≤ k) (h2 : k ≤ n) (t : ℕ) (ht : t < (triu n).length) :
    t ∈ diagIdx n k ↔ (triu n)[t].1 = (triu n)[t].2 ∧ (triu n)[t].1 < k := by
  induction n generalizing k t with
  | zero => omega
  | succ n ih =>
    have hlen : ((List.range (n + 1)).map fun j => ((0, j) : ℕ × ℕ)).length = n + 1 := by simp
    by_cases htn : t < n + 1
    · have e : (triu (n + 1))[t] = (0, t) := by
        simp only [triu_split]
        rw [List.getElem_append_left (by simpa using htn)]
        simp
      rw [e]
      by_cases h0 : t = 0
      · subst h0; simp [diagIdx]; omega
      · constructor
        · intro hm
          exfalso
          obtain ⟨k', rfl⟩ : ∃ k', k = k' + 1 := ⟨k - 1, by omega⟩
          by_cases hk : k' = 0
          · subst hk; rw [diagIdx_one] at hm; simp at hm; exact h0 hm
          · rw [diagIdx_succ n k' (by omega) (by omega)] at hm
            simp at hm
            rcases hm with h | ⟨a, _, ha⟩
            · exact h0 h
            · omega
        · rintro ⟨h, _⟩; simp at h; omega
    · have ht' : t - (n + 1) < (triu n).length := by
        rw [triu_split, List.length_append, hlen, List.length_map] at ht; omega
      have e : (triu (n + 1))[t] = ((triu n)[t - (n + 1)].1 + 1, (triu n)[t - (n + 1)].2 + 1) := by
        simp only [triu_split]
        rw [List.getElem_append_right (by simpa using htn)]
        simp
      rw [e]
      obtain ⟨k', rfl⟩ : ∃ k', k = k' + 1 := ⟨k - 1, by omega⟩
      by_cases hk : k' = 0
      · subst hk; rw [diagIdx_one]; simp; omega
      · rw [diagIdx_succ n k' (by omega) (by omega)]
        have := ih k' (by omega) (by omega) (t - (n + 1)) ht'
        simp only [List.mem_cons, List.mem_map]
        constructor
        · rintro (h | ⟨a, ha, rfl⟩)
          · omega
          · have := this.1 (by simpa using ha)
            simpa using this
        · intro h
          right
          exact ⟨t - (n + 1), this.2 (by simpa using h), by omega⟩

theorem addAt_triu (n k : ℕ) (h1 : 1 ≤ k) (h2 : k ≤ n) (f : ℕ → ℕ → ℝ) (c : ℝ) :
    addAt ((triu n).map fun p => f p.1 p.2) (diagIdx n k) c = (triu n).map fun p => f p.1 p.2 + if p.1 = p.2 ∧ p.1 < k then c else 0 := by
  apply List.ext_getElem
  · simp [addAt]
  · intro t ht1 ht2
    have ht : t < (triu n).length := by simpa using ht2
    have := mem_diagIdx n k h1 h2 t ht
    simp only [addAt, List.getElem_map, List.getElem_zipIdx, zero_add]
    by_cases h : t ∈ diagIdx n k
    · rw [if_pos h, if_pos (this.1 h)]
    · rw [if_neg h, if_neg fun h' => h (this.2 h'), add_zero]

/-- The Hessian columns. -/
theorem hessCols_eq (m : LogitCfg) (hk : 0 < m.k) (rows : List RegRow) (c : ℕ → ℝ) :
    m.hessCols rows c = (triu m.n).map fun p =>
      avg rows (fun r => m.xs r p.1 * m.xs r p.2 * (logistic (m.z c r) * (1 - logistic (m.z c r)))) + m.hessPen rows.length p.1 p.2 := by
  have hkn : m.k ≤ m.n := by unfold LogitCfg.n; split <;> omega
  unfold LogitCfg.hessCols LogitCfg.hessPen
  simp only [sigW_eq]
  cases m.l2C with
  | none => simp
  | some C =>
    simp only
    exact addAt_triu m.n m.k hk hkn
      (fun i j => avg rows (fun r => m.xs r i * m.xs r j * (logistic (m.z c r) * (1 - logistic (m.z c r))))) _

theorem rows_mul_avg {rows : List RegRow} (h : rows ≠ []) (f : RegRow → ℝ) : (rows.length : ℝ) * avg rows f = (rows.map f).sum := by
  have : (rows.length : ℝ) ≠ 0 := by
    have := List.length_pos_iff.2 h
    positivity
  rw [avg]; field_simp

end Verif
