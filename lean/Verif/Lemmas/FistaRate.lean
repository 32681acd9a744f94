import Verif.Lemmas.Fista
import Verif.Lemmas.LogisticDeriv
import Verif.Spec.ElasticNet

/-!
# How fast the proximal iterations approach the minimum
-/

namespace Verif

open Finset

section
variable {K : Type} [Field K] [LinearOrder K] [IsStrictOrderedRing K]

/-- The square of the distance of two rows of coefficients. -/
def dist2 (n : ℕ) (u v : ℕ → K) : K := ∑ j ∈ range n, (u j - v j) ^ 2

theorem dist2_nonneg (n : ℕ) (u v : ℕ → K) : 0 ≤ dist2 n u v := Finset.sum_nonneg fun _ _ => sq_nonneg _

/-- The point that the speed of the iteration is measured from. -/
def ahead (i : ℕ) (x d : ℕ → K) (j : ℕ) : K := x j + ((i : K) - 1) / 2 * d j

/-- One step of an iteration with momentum: `x'` is what a step from the extrapolated point `y` gives, `p` what it is compared to. -/
theorem potential_step (n i : ℕ) (s f f' fp : K) (hs : 0 < s) (x d x' p : ℕ → K)
    (hx : 2 * s * (f' - f) ≤ dist2 n x (fistaPoint i x d) - dist2 n x x')
    (hp : 2 * s * (f' - fp) ≤ dist2 n p (fistaPoint i x d) - dist2 n p x') :
    ((i : K) + 2) ^ 2 / 4 * (2 * s * (f' - fp)) + dist2 n (ahead (i + 1) x' fun j => x' j - x j) p ≤
      (i : K) * (i + 2) / 4 * (2 * s * (f - fp)) + dist2 n (ahead i x d) p := by
  have hi : (0 : K) ≤ i := Nat.cast_nonneg i
  have key : ((i : K) + 2) / 2 * ((i : K) / 2 * (dist2 n x (fistaPoint i x d) - dist2 n x x') + (dist2 n p (fistaPoint i x d) - dist2 n p x')) =
      dist2 n (ahead i x d) p - dist2 n (ahead (i + 1) x' fun j => x' j - x j) p := by
    unfold dist2
    rw [← Finset.sum_sub_distrib, ← Finset.sum_sub_distrib, ← Finset.sum_sub_distrib, Finset.mul_sum, ← Finset.sum_add_distrib, Finset.mul_sum]
    apply Finset.sum_congr rfl
    intro j _
    unfold ahead fistaPoint
    have h2 : (i : K) + 2 ≠ 0 := by positivity
    push_cast
    field_simp
    ring
  have h1 := mul_le_mul_of_nonneg_left hx (by positivity : 0 ≤ ((i : K) + 2) / 2 * ((i : K) / 2))
  have h2 := mul_le_mul_of_nonneg_left hp (by positivity : 0 ≤ ((i : K) + 2) / 2)
  nlinarith [key, h1, h2]

/-- A quadratic form lies below its tangents plus its largest curvature. -/
theorem quad_upper (n : ℕ) (A : ℕ → ℕ → K) (hsym : ∀ i j, i < n → j < n → A i j = A j i) (lam : K) (hb : FormBound n A lam) (v c : ℕ → K) :
    (∑ i ∈ range n, ∑ j ∈ range n, A i j * c i * c j) / 2 ≤
      (∑ i ∈ range n, ∑ j ∈ range n, A i j * v i * v j) / 2 + ∑ i ∈ range n, (∑ j ∈ range n, A i j * v j) * (c i - v i) +
        lam / 2 * dist2 n c v := by
  have hdiag : ∀ u w : ℕ → K, ∑ i ∈ range n, ∑ j ∈ range n, (if i = j then lam else 0) * u i * w j = lam * ∑ i ∈ range n, u i * w i := by
    intro u w
    rw [Finset.mul_sum]
    apply Finset.sum_congr rfl; intro i hi
    rw [Finset.sum_eq_single i]
    · rw [if_pos rfl]; ring
    · intro j _ hj; rw [if_neg (Ne.symm hj)]; ring
    · intro h; exact absurd hi h
  have hsub : ∀ u w : ℕ → K, ∑ i ∈ range n, ∑ j ∈ range n, ((if i = j then lam else 0) - A i j) * u i * w j =
      lam * ∑ i ∈ range n, u i * w i - ∑ i ∈ range n, ∑ j ∈ range n, A i j * u i * w j := by
    intro u w
    rw [← hdiag, ← Finset.sum_sub_distrib]
    apply Finset.sum_congr rfl; intro i _
    rw [← Finset.sum_sub_distrib]
    apply Finset.sum_congr rfl; intro j _; ring
  have h := quad_convex n (fun i j => (if i = j then lam else 0) - A i j)
    (fun i j hi hj => by rw [hsym i j hi hj]; simp only [eq_comm])
    (fun d => by
      rw [hsub]
      have := hb d
      have e : ∑ i ∈ range n, d i * d i = ∑ i ∈ range n, d i ^ 2 := Finset.sum_congr rfl fun i _ => by ring
      rw [e]
      linarith) v c
  rw [hsub, hsub] at h
  have hlin : ∑ i ∈ range n, (∑ j ∈ range n, ((if i = j then lam else 0) - A i j) * v j) * (c i - v i) =
      lam * ∑ i ∈ range n, v i * (c i - v i) - ∑ i ∈ range n, (∑ j ∈ range n, A i j * v j) * (c i - v i) := by
    rw [Finset.mul_sum, ← Finset.sum_sub_distrib]
    apply Finset.sum_congr rfl; intro i hi
    have : ∑ j ∈ range n, ((if i = j then lam else 0) - A i j) * v j = lam * v i - ∑ j ∈ range n, A i j * v j := by
      simp only [sub_mul, Finset.sum_sub_distrib]
      congr 1
      rw [Finset.sum_eq_single i]
      · rw [if_pos rfl]
      · intro j _ hj; rw [if_neg (Ne.symm hj)]; ring
      · intro h; exact absurd hi h
    rw [this]; ring
  rw [hlin] at h
  have hd : lam / 2 * dist2 n c v = lam * ∑ i ∈ range n, c i * c i / 2 - lam * ∑ i ∈ range n, v i * v i / 2 - lam * ∑ i ∈ range n, v i * (c i - v i) := by
    unfold dist2
    rw [Finset.mul_sum, Finset.mul_sum, Finset.mul_sum, Finset.mul_sum, ← Finset.sum_sub_distrib, ← Finset.sum_sub_distrib]
    apply Finset.sum_congr rfl; intro i _; ring
  have hc2 : ∑ i ∈ range n, c i * c i / 2 = (∑ i ∈ range n, c i * c i) / 2 := by
    simp only [div_eq_mul_inv, Finset.sum_mul]
  have hv2 : ∑ i ∈ range n, v i * v i / 2 = (∑ i ∈ range n, v i * v i) / 2 := by
    simp only [div_eq_mul_inv, Finset.sum_mul]
  rw [hd, hc2, hv2]
  linarith

theorem prox_identity (n : ℕ) (s : K) (hs : 0 < s) (v c x y G : ℕ → K) :
    s * ∑ j ∈ range n, ((v j - c j) / s - (G j - y j)) * (x j - c j) = (dist2 n x c - dist2 n x v + dist2 n c v) / 2 -
      s * (∑ j ∈ range n, G j * (x j - v j) - ∑ j ∈ range n, G j * (c j - v j) - (∑ j ∈ range n, y j * x j - ∑ j ∈ range n, y j * c j)) := by
  unfold dist2
  simp only [← Finset.sum_sub_distrib, ← Finset.sum_add_distrib, div_eq_mul_inv, Finset.sum_mul, Finset.mul_sum]
  apply Finset.sum_congr rfl; intro j _
  field_simp
  ring

/-- What one step of the iteration gives is at least as good as anything else, up to the distances of the two from the point the
step was made from. -/
theorem enet_step (a : FistaArgs K) (hs : 0 < a.step) (h1 : 0 ≤ a.l1) (h2 : 0 ≤ a.l2) (lam : K) (hb : FormBound a.n a.xtx lam)
    (hlam : a.step * lam ≤ 1) (hA : PSD a.n a.xtx) (v x : ℕ → K) :
    2 * a.step * (a.obj (a.prox v) - a.obj x) ≤ dist2 a.n x v - dist2 a.n x (a.prox v) := by
  set c := a.prox v with hc
  have hlo := quad_convex a.n a.xtx hA.1 hA.2 v x
  have hup := quad_upper a.n a.xtx hA.1 lam hb v c
  have hp : ∑ j ∈ range a.n, (a.pen j (c j) + ((v j - c j) / a.step - a.grad v j) * (x j - c j)) ≤ ∑ j ∈ range a.n, a.pen j (x j) :=
    Finset.sum_le_sum fun j _ => prox_subgradient a hs h1 h2 v j (x j)
  rw [Finset.sum_add_distrib] at hp
  have hcomb : a.step * ∑ j ∈ range a.n, ((v j - c j) / a.step - a.grad v j) * (x j - c j) =
      (dist2 a.n x c - dist2 a.n x v + dist2 a.n c v) / 2 -
        a.step * (∑ j ∈ range a.n, (∑ t ∈ range a.n, a.xtx j t * v t) * (x j - v j) - ∑ j ∈ range a.n, (∑ t ∈ range a.n, a.xtx j t * v t) * (c j - v j)
          - (∑ j ∈ range a.n, a.xty j * x j - ∑ j ∈ range a.n, a.xty j * c j)) := by
    exact prox_identity a.n a.step hs v c x a.xty fun j => ∑ t ∈ range a.n, a.xtx j t * v t
  have hd := dist2_nonneg a.n c v
  have hl : a.step * (lam / 2 * dist2 a.n c v) ≤ dist2 a.n c v / 2 := by
    have := mul_le_mul_of_nonneg_right hlam hd
    linarith
  unfold FistaArgs.obj
  have m1 := mul_le_mul_of_nonneg_left hlo hs.le
  have m2 := mul_le_mul_of_nonneg_left hup hs.le
  have m3 := mul_le_mul_of_nonneg_left hp hs.le
  rw [mul_add, hcomb] at m3
  linarith

/-- The iteration with momentum approaches the minimum like the inverse square of the number of iterations. -/
theorem run_rate (a : FistaArgs K) (hs : 0 < a.step)
    (hstep : ∀ v x, 2 * a.step * (a.obj (a.prox v) - a.obj x) ≤ dist2 a.n x v - dist2 a.n x (a.prox v))
    (p : ℕ → K) (hp : ∀ x, a.obj p ≤ a.obj x) (f i : ℕ) (coef delta : ℕ → K) :
    ∃ T, i < T ∧ T ≤ i + f + 1 ∧ ((a.run (f + 1) i coef delta).2 = false ∨ a.tol ≤ 0 → T = i + f + 1) ∧
      ((T : K) + 1) ^ 2 / 4 * (2 * a.step * (a.obj (a.run (f + 1) i coef delta).1 - a.obj p)) ≤
        (i : K) * (i + 2) / 4 * (2 * a.step * (a.obj coef - a.obj p)) + dist2 a.n (ahead i coef delta) p := by
  induction f generalizing i coef delta with
  | zero =>
    refine ⟨i + 1, by omega, by omega, fun _ => by omega, ?_⟩
    have h := potential_step a.n i a.step _ _ _ hs coef delta _ p (hstep (fistaPoint i coef delta) coef) (hstep (fistaPoint i coef delta) p)
    have h0 := dist2_nonneg a.n (ahead (i + 1) (a.prox (fistaPoint i coef delta)) fun j => a.prox (fistaPoint i coef delta) j - coef j) p
    have e0 : (a.run (0 + 1) i coef delta).1 = a.prox (fistaPoint i coef delta) := by
      simp only [FistaArgs.run]; split <;> rfl
    rw [e0]
    push_cast
    have e : ((i : K) + 1 + 1) = i + 2 := by ring
    rw [e]
    linarith
  | succ f ih =>
    have h := potential_step a.n i a.step _ _ _ hs coef delta _ p (hstep (fistaPoint i coef delta) coef) (hstep (fistaPoint i coef delta) p)
    rw [FistaArgs.run]
    set c := a.prox (fistaPoint i coef delta) with hc
    simp only
    split
    · rename_i hlt
      refine ⟨i + 1, by omega, by omega, ?_, ?_⟩
      · rintro (h | htol)
        · cases h
        · have : 0 ≤ ((List.range a.n).map fun j => |c j - coef j|).sum := by
            rw [listsum_range]; exact Finset.sum_nonneg fun _ _ => abs_nonneg _
          linarith
      · have h0 := dist2_nonneg a.n (ahead (i + 1) c fun j => c j - coef j) p
        push_cast
        have e : ((i : K) + 1 + 1) = i + 2 := by ring
        rw [e]
        linarith
    · obtain ⟨T, t1, t2, t3, t4⟩ := ih (i + 1) c (fun j => c j - coef j)
      refine ⟨T, by omega, by omega, fun h => by have := t3 h; omega, t4.trans ?_⟩
      push_cast
      have hi : (0 : K) ≤ i := Nat.cast_nonneg i
      have hsq : ((i : K) + 1) * (i + 1 + 2) / 4 ≤ (i + 2) ^ 2 / 4 := by nlinarith
      have hgap : 0 ≤ 2 * a.step * (a.obj c - a.obj p) := mul_nonneg (by linarith) (sub_nonneg.2 (hp _))
      have := mul_le_mul_of_nonneg_right hsq hgap
      linarith

end

/-! ## The curvature of the logistic loss -/

theorem logistic_lipschitz : Monotone fun u : ℝ => u / 4 - logistic u := by
  have hd : ∀ u : ℝ, HasDerivAt (fun u : ℝ => u / 4 - logistic u) (1 / 4 - logistic u * (1 - logistic u)) u := by
    intro u
    exact ((hasDerivAt_id u).div_const 4).sub (hasDerivAt_logistic u)
  apply monotone_of_deriv_nonneg (fun u => (hd u).differentiableAt)
  intro u
  rw [(hd u).deriv]
  nlinarith [sq_nonneg (logistic u - 1 / 2)]

theorem xent_upper (y z z' : ℝ) : xent y z' ≤ xent y z + (logistic z - y) * (z' - z) + (z' - z) ^ 2 / 8 := by
  set h : ℝ → ℝ := fun u => (logistic z - y) * (u - z) + (u - z) ^ 2 / 8 - xent y u with hh
  have hd : ∀ u : ℝ, HasDerivAt h ((u / 4 - logistic u) - (z / 4 - logistic z)) u := by
    intro u
    have h1 : HasDerivAt (fun u : ℝ => (logistic z - y) * (u - z)) ((logistic z - y) * 1) u := ((hasDerivAt_id u).sub_const z).const_mul _
    have h2 : HasDerivAt (fun u : ℝ => (u - z) ^ 2 / 8) (2 * (u - z) ^ (2 - 1) * 1 / 8) u :=
      (((hasDerivAt_id u).sub_const z).pow 2).div_const 8
    refine ((h1.add h2).sub (hasDerivAt_xent y u)).congr_deriv ?_
    norm_num
    ring
  have hc : Continuous h := continuous_iff_continuousAt.2 fun u => (hd u).continuousAt
  have hz : h z = -xent y z := by simp [hh]
  suffices h z ≤ h z' by
    rw [hz] at this
    simp only [hh] at this
    linarith
  rcases le_total z z' with hle | hle
  · have hm : MonotoneOn h (Set.Ici z) := by
      apply monotoneOn_of_deriv_nonneg (convex_Ici z) hc.continuousOn (fun u _ => (hd u).differentiableAt.differentiableWithinAt)
      intro u hu
      rw [interior_Ici, Set.mem_Ioi] at hu
      rw [(hd u).deriv]
      have : z / 4 - logistic z ≤ u / 4 - logistic u := logistic_lipschitz hu.le
      linarith
    exact hm (Set.mem_Ici.2 le_rfl) hle hle
  · have hm : AntitoneOn h (Set.Iic z) := by
      apply antitoneOn_of_deriv_nonpos (convex_Iic z) hc.continuousOn (fun u _ => (hd u).differentiableAt.differentiableWithinAt)
      intro u hu
      rw [interior_Iic, Set.mem_Iio] at hu
      rw [(hd u).deriv]
      have : u / 4 - logistic u ≤ z / 4 - logistic z := logistic_lipschitz hu.le
      linarith
    exact hm hle (Set.mem_Iic.2 le_rfl) hle

/-! ## One step of the method for logistic regression -/

/-- The gradient of the loss in the rows, times a move, in terms of the linear predictors. -/
theorem grad_move (m : LogitCfg) (hl2 : m.l2C = none) {rows : List RegRow} (hrows : rows ≠ []) (c c' : ℕ → ℝ) :
    (rows.length : ℝ) * ∑ j ∈ range m.n, (m.gradCols rows c).getD j 0 * (c' j - c j) =
      (rows.map fun r => (logistic (m.z c r) - r.y) * (m.z c' r - m.z c r)).sum := by
  rw [Finset.mul_sum]
  have hg : ∀ j ∈ range m.n, (rows.length : ℝ) * ((m.gradCols rows c).getD j 0 * (c' j - c j)) =
      (rows.map fun r => m.xs r j * (logistic (m.z c r) - r.y)).sum * (c' j - c j) := by
    intro j hj
    have hp : m.gradPen rows.length c j = 0 := by unfold LogitCfg.gradPen; rw [hl2]
    rw [gradCols_getD m rows c j (mem_range.1 hj), hp, add_zero, ← mul_assoc, rows_mul_avg hrows]
  rw [Finset.sum_congr rfl hg]
  clear hg hrows
  induction rows with
  | nil => simp
  | cons r rows ih =>
    simp only [List.map_cons, List.sum_cons, add_mul, Finset.sum_add_distrib, ih]
    congr 1
    rw [z_sub, Finset.mul_sum]
    apply Finset.sum_congr rfl; intro j _; ring

/-- sklearn's objective of the coefficients as the code stores them. -/
noncomputable def LogitCfg.penObj (m : LogitCfg) (L1 L2 : ℝ) (rows : List RegRow) (c : ℕ → ℝ) : ℝ :=
  logitObjective m.k L1 L2 rows (lastIntercept m.k m.fit c) c

theorem penObj_eq (m : LogitCfg) (L1 L2 : ℝ) (rows : List RegRow) (c : ℕ → ℝ) :
    m.penObj L1 L2 rows c = (rows.map fun r => xent r.y (m.z c r)).sum +
      ∑ j ∈ range m.n, if j < m.k then L1 * |c j| + L2 / 2 * c j ^ 2 else 0 := by
  unfold LogitCfg.penObj logitObjective
  have hkn : m.k ≤ m.n := by unfold LogitCfg.n; split <;> omega
  have e : ∑ j ∈ range m.n, (if j < m.k then L1 * |c j| + L2 / 2 * c j ^ 2 else 0) = ∑ j ∈ range m.k, (L1 * |c j| + L2 / 2 * c j ^ 2) := by
    rw [← Finset.sum_subset (Finset.range_mono hkn)]
    · exact Finset.sum_congr rfl fun j hj => if_pos (mem_range.1 hj)
    · intro j _ hj; exact if_neg (by simpa using hj)
  rw [e, Finset.sum_add_distrib, ← Finset.mul_sum, ← Finset.mul_sum]
  simp only [← z_eq_predict]
  ring

theorem list_sum_div8 {α : Type} (l : List α) (f : α → ℝ) : (l.map f).sum / 8 = (l.map fun a => f a / 8).sum := by
  induction l with
  | nil => simp
  | cons a l ih => simp only [List.map_cons, List.sum_cons, add_div, ih]

/-- What one step of the proximal method gives is at least as good as any other row of coefficients, up to the distances of the
two from the point the step was made from. -/
theorem logit_step (m : LogitCfg) (hl2 : m.l2C = none) (L1 L2 : ℝ) (hL1 : 0 ≤ L1) (hL2 : 0 ≤ L2) (rows : List RegRow) (hrows : rows ≠ [])
    (step : ℝ) (hs : 0 < step)
    (hcurv : ∀ d : ℕ → ℝ, step * (rows.map fun r => (∑ j ∈ range m.n, d j * m.xs r j) ^ 2).sum ≤ 4 * (rows.length * ∑ j ∈ range m.n, d j ^ 2))
    (st : FistaSlice) (hconv : st.conv = false) (x : ℕ → ℝ) :
    2 * (step / rows.length) * (m.penObj L1 L2 rows (m.fistaUpdate ⟨step, L1 / rows.length, L2 / rows.length⟩ (m.gradCols rows st.v) st).coef -
      m.penObj L1 L2 rows x) ≤
      dist2 m.n x st.v - dist2 m.n x (m.fistaUpdate ⟨step, L1 / rows.length, L2 / rows.length⟩ (m.gradCols rows st.v) st).coef := by
  have hN : 0 < (rows.length : ℝ) := by
    have := List.length_pos_iff.2 hrows
    positivity
  set a : FistaConst := ⟨step, L1 / rows.length, L2 / rows.length⟩ with ha
  set v := st.v with hv
  set q := (m.fistaUpdate a (m.gradCols rows v) st).coef with hq
  set g := fun j => (m.gradCols rows v).getD j 0 with hg
  have hkk' : a.kk = L2 / rows.length * step + 1 := rfl
  have hth' : a.threshold = L1 / rows.length * step / a.kk := rfl
  have hkk : 0 < a.kk := by
    have h0 : 0 ≤ L2 / rows.length * step := by positivity
    linarith
  have hth : 0 ≤ a.threshold := by rw [hth']; positivity
  -- one entry
  have hentry : ∀ j ∈ range m.n, step / rows.length * (if j < m.k then L1 * |q j| + L2 / 2 * q j ^ 2 else 0) +
      (v j - step * g j - q j) * (x j - q j) ≤ step / rows.length * (if j < m.k then L1 * |x j| + L2 / 2 * x j ^ 2 else 0) := by
    intro j hj
    have hjn := mem_range.1 hj
    have hqj : q j = if m.fit ∧ j = m.n - 1 then v j - step * g j else softT ((v j - step * g j) / a.kk) a.threshold := by
      rw [hq, LogitCfg.fistaUpdate, if_neg (by simp [hconv])]
    by_cases hjk : j < m.k
    · have hnot : ¬ (m.fit = true ∧ j = m.n - 1) := by
        rintro ⟨hf, hj'⟩
        unfold LogitCfg.n at hj'
        rw [hf] at hj'
        simp at hj'; omega
      rw [if_neg hnot] at hqj
      rw [if_pos hjk, if_pos hjk]
      have hsub := softT_subgradient ((v j - step * g j) / a.kk) a.threshold hth (x j)
      rw [← hqj] at hsub
      have hmul := mul_le_mul_of_nonneg_left hsub hkk.le
      have x1 : a.kk * (a.threshold * |q j| + ((v j - step * g j) / a.kk - q j) * (x j - q j)) =
          L1 / rows.length * step * |q j| + (v j - step * g j - a.kk * q j) * (x j - q j) := by
        rw [hth']; field_simp
      have x2 : a.kk * (a.threshold * |x j|) = L1 / rows.length * step * |x j| := by rw [hth']; field_simp
      rw [x1, x2, hkk'] at hmul
      have hsq : 0 ≤ L2 / rows.length * step / 2 * (x j - q j) ^ 2 := by positivity
      have y1 : step / rows.length * (L1 * |q j| + L2 / 2 * q j ^ 2) = L1 / rows.length * step * |q j| + L2 / rows.length * step / 2 * q j ^ 2 := by
        field_simp
      have y2 : step / rows.length * (L1 * |x j| + L2 / 2 * x j ^ 2) = L1 / rows.length * step * |x j| + L2 / rows.length * step / 2 * x j ^ 2 := by
        field_simp
      rw [y1, y2]
      nlinarith
    · have hf : m.fit = true := by
        by_contra h
        unfold LogitCfg.n at hjn
        simp [h] at hjn; omega
      have hj0 : j = m.n - 1 := by
        unfold LogitCfg.n at hjn ⊢
        rw [hf] at hjn ⊢
        simp at hjn ⊢; omega
      rw [if_pos ⟨hf, hj0⟩] at hqj
      rw [if_neg hjk, if_neg hjk, hqj]
      simp
  have hpen := Finset.sum_le_sum hentry
  rw [Finset.sum_add_distrib, ← Finset.mul_sum, ← Finset.mul_sum] at hpen
  -- the loss
  have hup : (rows.map fun r => xent r.y (m.z q r)).sum ≤ (rows.map fun r => xent r.y (m.z v r)).sum +
      (rows.length : ℝ) * ∑ j ∈ range m.n, g j * (q j - v j) + (rows.map fun r => (m.z q r - m.z v r) ^ 2).sum / 8 := by
    rw [hg, grad_move m hl2 hrows v q]
    have : (rows.map fun r => (m.z q r - m.z v r) ^ 2).sum / 8 = (rows.map fun r => (m.z q r - m.z v r) ^ 2 / 8).sum := by
      exact list_sum_div8 rows fun r => (m.z q r - m.z v r) ^ 2
    rw [this, ← List.sum_map_add, ← List.sum_map_add]
    exact List.sum_le_sum fun r _ => xent_upper r.y (m.z v r) (m.z q r)
  have hlo : (rows.map fun r => xent r.y (m.z v r)).sum + (rows.length : ℝ) * ∑ j ∈ range m.n, g j * (x j - v j) ≤
      (rows.map fun r => xent r.y (m.z x r)).sum := by
    rw [hg, grad_move m hl2 hrows v x, ← List.sum_map_add]
    exact List.sum_le_sum fun r _ => xent_tangent r.y (m.z v r) (m.z x r)
  have hcv := hcurv fun j => q j - v j
  simp only [← z_sub m v q] at hcv
  rw [penObj_eq, penObj_eq]
  have hcomb : ∑ j ∈ range m.n, (v j - step * g j - q j) * (x j - q j) =
      (dist2 m.n x q - dist2 m.n x v + dist2 m.n q v) / 2 - step * (∑ j ∈ range m.n, g j * (x j - v j) - ∑ j ∈ range m.n, g j * (q j - v j)) := by
    unfold dist2
    rw [← Finset.sum_sub_distrib, ← Finset.sum_sub_distrib, ← Finset.sum_add_distrib, div_eq_inv_mul,
      Finset.mul_sum, Finset.mul_sum, ← Finset.sum_sub_distrib]
    apply Finset.sum_congr rfl; intro j _; ring
  rw [hcomb] at hpen
  have hd : dist2 m.n q v = ∑ j ∈ range m.n, (q j - v j) ^ 2 := rfl
  rw [← hd] at hcv
  set Sq := (rows.map fun r => xent r.y (m.z q r)).sum
  set Sv := (rows.map fun r => xent r.y (m.z v r)).sum
  set Sx := (rows.map fun r => xent r.y (m.z x r)).sum
  set Pq := ∑ j ∈ range m.n, if j < m.k then L1 * |q j| + L2 / 2 * q j ^ 2 else 0
  set Px := ∑ j ∈ range m.n, if j < m.k then L1 * |x j| + L2 / 2 * x j ^ 2 else 0
  set Q := (rows.map fun r => (m.z q r - m.z v r) ^ 2).sum
  set Gq := ∑ j ∈ range m.n, g j * (q j - v j)
  set Gx := ∑ j ∈ range m.n, g j * (x j - v j)
  set N : ℝ := (rows.length : ℝ)
  set D1 := dist2 m.n x q
  set D2 := dist2 m.n x v
  set D3 := dist2 m.n q v
  -- the loss divided by the number of rows and times the step
  have hloss : step / N * (Sq - Sx) ≤ step * (Gq - Gx) + D3 / 2 := by
    have h1 : Sq - Sx ≤ N * (Gq - Gx) + Q / 8 := by linarith
    have h2 := mul_le_mul_of_nonneg_left h1 (by positivity : 0 ≤ step / N)
    have h3 : step / N * (N * (Gq - Gx) + Q / 8) = step * (Gq - Gx) + step * Q / (8 * N) := by field_simp
    have h4 : step * Q / (8 * N) ≤ D3 / 2 := by
      rw [div_le_iff₀ (by positivity)]
      linarith
    linarith
  have e : 2 * (step / N) * (Sq + Pq - (Sx + Px)) = 2 * (step / N * (Sq - Sx)) + 2 * (step / N * Pq - step / N * Px) := by ring
  rw [e]
  linarith

end Verif
