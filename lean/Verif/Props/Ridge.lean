import Verif.Lemmas.Regress
import Verif.Props.Suff

/-!
# C48: the coefficients from sufficient statistics solve the ridge problem

/repo/models.py:112-130, 257-265, 486-547.
-/

namespace Verif

open Finset

/-- The penalty of each entry of the row of results. -/
noncomputable def penalty (fit : Bool) (alpha : ℝ) (i : ℕ) : ℝ := if fit ∧ i = 0 then 0 else alpha

noncomputable def pairs (fit : Bool) (rows : List RegRow) : List (ℝ × (ℕ → ℝ)) := rows.map fun r => (r.y, designRow fit r)

theorem quad_ridge_true (k : ℕ) (alpha : ℝ) (rows : List RegRow) (c : ℕ → ℝ) :
    quad (k + 1) (penalty true alpha) (pairs true rows) c = ridgeLoss k alpha rows (c 0) fun i => c (i + 1) := by
  simp only [quad, ridgeLoss, pairs, List.map_map, Function.comp_def, lin, Finset.sum_range_succ', designRow, predict, penalty]
  simp [Finset.mul_sum, add_comm]

theorem quad_ridge_false (k : ℕ) (alpha : ℝ) (rows : List RegRow) (c : ℕ → ℝ) :
    quad k (penalty false alpha) (pairs false rows) c = ridgeLoss k alpha rows 0 c := by
  simp [quad, ridgeLoss, pairs, List.map_map, Function.comp_def, lin, designRow, predict, penalty, Finset.mul_sum]

theorem quad_ridge (k : ℕ) (alpha : ℝ) (fit : Bool) (rows : List RegRow) (c : ℕ → ℝ) :
    quad (if fit then k + 1 else k) (penalty fit alpha) (pairs fit rows) c
      = ridgeLoss k alpha rows (interceptOf fit c) (slopesOf fit c) := by
  cases fit
  · exact quad_ridge_false k alpha rows c
  · exact quad_ridge_true k alpha rows c

theorem mul_avg {rows : List RegRow} (h : rows ≠ []) (f : RegRow → ℝ) : (rows.length : ℝ) * avg rows f = (rows.map f).sum := by
  have : (rows.length : ℝ) ≠ 0 := by
    have := List.length_pos_iff.2 h
    positivity
  rw [avg]; field_simp

/-- The system `compute_ridge_coefs` solves. -/
theorem ridgePlain_eq {pre : Series ℝ} {k : ℕ} (hk : 0 < k) {fit : Bool} {rows : List RegRow} (hrows : rows ≠ [])
    (hpre : NoClash pre k fit true rows) (alpha : ℝ) :
    ∃ A : ℕ → ℕ → ℝ, ridgePlain (pre ++ suffStats k fit true rows) alpha fit =
        npSolve (if fit then k + 1 else k) A
          ((List.range (if fit then k + 1 else k)).map fun i => avg rows fun r => designRow fit r i * r.y) ∧
      ∀ d : ℕ → ℝ, ∀ i < (if fit then k + 1 else k),
        rows.length * ∑ j ∈ range (if fit then k + 1 else k), A i j * d j =
          (∑ j ∈ range (if fit then k + 1 else k), ((pairs fit rows).map fun r => r.2 i * r.2 j).sum * d j)
            + penalty fit alpha i * d i := by
  obtain ⟨M, hM, hent⟩ := C47_matrices pre k hk fit true rows hrows hpre
  have hn : Series.loc (pre ++ suffStats k fit true rows) [nmN] = some [(rows.length : ℝ)] := by
    have hm : ∀ s ∈ [SN.n], s ∈ suffSN k fit true := by simp [suffSN]
    have := loc_suff pre (nodup_suffSN k fit true) (SN.val rows) [SN.n] hm (fun s hs => hpre.sn s (hm s hs))
    rw [suffStats_eq]
    simpa [SN.text, SN.val] using this
  refine ⟨_, by rw [ridgePlain, hM, hn], ?_⟩
  have hN : (rows.length : ℝ) ≠ 0 := by
    have := List.length_pos_iff.2 hrows
    positivity
  set n := (if fit then k + 1 else k) with hnn
  intro d i hi
  have h1 : ∀ j ∈ range n, (M i j + alpha / rows.length * (if i = j then (if fit = true ∧ i = 0 then 0 else 1) else 0)) * d j =
      (rows.length : ℝ)⁻¹ * (((pairs fit rows).map fun r => r.2 i * r.2 j).sum * d j)
        + (if i = j then (rows.length : ℝ)⁻¹ * (penalty fit alpha i * d i) else 0) := by
    intro j hj
    rw [hent i j hi (mem_range.1 hj), avg, pairs, List.map_map]
    simp only [Function.comp_def]
    by_cases hij : i = j
    · subst hij
      by_cases h0 : fit = true ∧ i = 0
      · simp only [penalty, h0, and_self, if_true]; field_simp; ring
      · simp only [penalty, h0, if_false, if_true]; field_simp
    · simp only [hij, if_false]; field_simp; ring
  rw [Finset.sum_congr rfl h1, Finset.sum_add_distrib, Finset.sum_ite_eq, if_pos (mem_range.2 hi), ← Finset.mul_sum]
  field_simp

/-- **C48.** Without normalisation, whatever rows the slice has: if coefficients are computed, they minimise the ridge
objective on the rows themselves, the intercept not being penalised, and no other coefficients do. -/
theorem C48_ridge (pre : Series ℝ) (k : ℕ) (hk : 0 < k) (alpha : ℝ) (halpha : 0 ≤ alpha) (fit normalize : Bool)
    (hnorm : (fit && normalize) = false) (rows : List RegRow) (hrows : rows ≠ []) (hpre : NoClash pre k fit true rows) (c : ℕ → ℝ)
    (h : ridgeSql pre k alpha fit normalize rows = some c) (b : ℝ) (w : ℕ → ℝ) (hb : fit = false → b = 0) :
    ridgeLoss k alpha rows (interceptOf fit c) (slopesOf fit c) ≤ ridgeLoss k alpha rows b w ∧
    (ridgeLoss k alpha rows b w ≤ ridgeLoss k alpha rows (interceptOf fit c) (slopesOf fit c) →
      b = interceptOf fit c ∧ ∀ i < k, w i = slopesOf fit c i) := by
  rw [ridgeSql, ridgeCoefs, hnorm, if_neg (by simp)] at h
  obtain ⟨A, hA, hAe⟩ := ridgePlain_eq hk hrows hpre alpha
  rw [hA] at h
  obtain ⟨_, hs, hu⟩ := npSolve_spec h
  have hN : (rows.length : ℝ) ≠ 0 := by
    have := List.length_pos_iff.2 hrows
    positivity
  have hne : NormalEq (if fit then k + 1 else k) (penalty fit alpha) (pairs fit rows) c := by
    intro i hi
    rw [← hAe c i hi, hs i hi]
    have : ((List.range (if fit then k + 1 else k)).map fun i => avg rows fun r => designRow fit r i * r.y).getD i 0
        = avg rows fun r => designRow fit r i * r.y := by
      simp [List.getD, List.getElem?_map, List.getElem?_range hi]
    rw [this, mul_avg hrows, pairs, List.map_map]
    rfl
  have hP : ∀ j < (if fit then k + 1 else k), 0 ≤ penalty fit alpha j := by
    intro j _
    rw [penalty]; split
    · exact le_rfl
    · exact halpha
  -- the row that the other coefficients form
  set c' : ℕ → ℝ := fun j => if fit then (if j = 0 then b else w (j - 1)) else w j with hc'
  have hi' : interceptOf fit c' = b := by
    cases fit
    · simp [interceptOf, hb]
    · simp [interceptOf, hc']
  have hs' : slopesOf fit c' = w := by
    funext i
    cases fit <;> simp [slopesOf, hc']
  have hq := quad_ridge k alpha fit rows c'
  rw [hi', hs'] at hq
  rw [← hq, ← quad_ridge]
  refine ⟨quad_min hP hne c', fun hle => ?_⟩
  have hz := quad_unique_aux hP hne c' hle
  have hd := hu (fun j => c' j - c j) (by
    intro i hi
    have := hAe (fun j => c' j - c j) i hi
    rw [hz i hi] at this
    rcases mul_eq_zero.1 this with h | h
    · exact absurd h hN
    · exact h)
  constructor
  · rw [← hi']
    cases fit
    · rfl
    · simp only [interceptOf, if_true]
      have := hd 0 (by simp)
      linarith
  · intro i hik
    rw [← hs']
    cases fit
    · have := hd i (by simpa using hik)
      simp only [slopesOf, Bool.false_eq_true, if_false]; linarith
    · have := hd (i + 1) (by simpa using hik)
      simp only [slopesOf, if_true]; linarith

/-- With a positive penalty only 0 solves the homogeneous equations. -/
theorem homogeneous_zero (k : ℕ) (alpha : ℝ) (halpha : 0 < alpha) (fit : Bool) (rows : List RegRow) (hrows : rows ≠ []) (d : ℕ → ℝ)
    (hz : ∀ i < (if fit then k + 1 else k), (∑ j ∈ range (if fit then k + 1 else k),
      ((pairs fit rows).map fun r => r.2 i * r.2 j).sum * d j) + penalty fit alpha i * d i = 0) :
    ∀ j < (if fit then k + 1 else k), d j = 0 := by
  set n := (if fit then k + 1 else k) with hn
  -- `d` solves the normal equations of the problem with all targets 0
  have hne : NormalEq n (penalty fit alpha) ((pairs fit rows).map fun r => (0, r.2)) d := by
    intro i hi
    simp only [List.map_map, Function.comp_def, mul_zero]
    rw [hz i hi]
    simp
  have hq := quad_eq hne (fun _ => 0)
  have hq0 : quad n (penalty fit alpha) ((pairs fit rows).map fun r => (0, r.2)) (fun _ => 0) = 0 := by
    simp [quad, lin, Function.comp_def]
  have hP : ∀ j < n, 0 ≤ penalty fit alpha j := by
    intro j _
    rw [penalty]; split
    · exact le_rfl
    · exact halpha.le
  have h1 : 0 ≤ quad n (penalty fit alpha) ((pairs fit rows).map fun r => (0, r.2)) d :=
    add_nonneg (list_sum_sq_nonneg _ _) (Finset.sum_nonneg fun j hj => mul_nonneg (hP j (mem_range.1 hj)) (sq_nonneg _))
  have h2 := list_sum_sq_nonneg ((pairs fit rows).map fun r => ((0 : ℝ), r.2)) (fun r => lin n (fun j => 0 - d j) r.2)
  have h3 : 0 ≤ ∑ j ∈ range n, penalty fit alpha j * (0 - d j) ^ 2 :=
    Finset.sum_nonneg fun j hj => mul_nonneg (hP j (mem_range.1 hj)) (sq_nonneg _)
  rw [hq0] at hq
  have z2 : ∀ j ∈ range n, penalty fit alpha j * (0 - d j) ^ 2 = 0 := by
    apply (Finset.sum_eq_zero_iff_of_nonneg fun j hj => mul_nonneg (hP j (mem_range.1 hj)) (sq_nonneg _)).1
    linarith
  have z1 := list_sum_sq_zero ((pairs fit rows).map fun r => ((0 : ℝ), r.2)) (fun r => lin n (fun j => 0 - d j) r.2) (by linarith)
  have hpos : ∀ j < n, ¬ (fit = true ∧ j = 0) → d j = 0 := by
    intro j hj hnz
    have := z2 j (mem_range.2 hj)
    rw [penalty, if_neg hnz] at this
    rcases mul_eq_zero.1 this with h | h
    · linarith
    · rw [pow_eq_zero_iff (by norm_num)] at h; linarith
  intro j hj
  by_cases hnz : fit = true ∧ j = 0
  · obtain ⟨rfl, rfl⟩ := hnz
    obtain ⟨r, hr⟩ := List.exists_mem_of_ne_nil rows hrows
    have := z1 (0, designRow true r) (by simp only [pairs, List.map_map, List.mem_map]; exact ⟨r, hr, rfl⟩)
    simp only [lin] at this
    rw [hn, if_pos rfl, Finset.sum_range_succ', Finset.sum_eq_zero] at this
    · simp [designRow] at this; exact this
    · intro i hi
      rw [hpos (i + 1) (by rw [hn, if_pos rfl]; simpa using hi) (by simp)]
      ring
  · exact hpos j hj hnz

/-- **C48.** With a positive penalty coefficients are always computed. -/
theorem C48_ridge_computed (pre : Series ℝ) (k : ℕ) (hk : 0 < k) (alpha : ℝ) (halpha : 0 < alpha) (fit normalize : Bool)
    (hnorm : (fit && normalize) = false) (rows : List RegRow) (hrows : rows ≠ []) (hpre : NoClash pre k fit true rows) :
    ∃ c, ridgeSql pre k alpha fit normalize rows = some c := by
  rw [ridgeSql, ridgeCoefs, hnorm, if_neg (by simp)]
  obtain ⟨A, hA, hAe⟩ := ridgePlain_eq hk hrows hpre alpha
  rw [hA]
  apply npSolve_isSome (by simp)
  intro d hd
  apply homogeneous_zero k alpha halpha fit rows hrows d
  intro i hi
  rw [← hAe d i hi, hd i hi, mul_zero]

/-! ## With normalisation -/

theorem list_range_sum (k : ℕ) (f : ℕ → ℝ) : ((List.range k).map f).sum = ∑ i ∈ range k, f i := by
  induction k with
  | zero => simp
  | succ k ih => rw [List.range_succ, Finset.sum_range_succ, ← ih]; simp

theorem mapM_some {α β : Type} (g : α → Option β) (f : α → β) : ∀ l : List α, (∀ a ∈ l, g a = some (f a)) →
    l.mapM g = some (l.map f)
  | [], _ => rfl
  | a :: l, h => by
    rw [List.mapM_cons, h a (by simp), mapM_some g f l fun b hb => h b (by simp [hb])]
    rfl

theorem at1_suff {pre : Series ℝ} {k : ℕ} {fit nobs : Bool} {rows : List RegRow} (hpre : NoClash pre k fit nobs rows) {s : SN}
    (hs : s ∈ suffSN k fit nobs) : Series.at1 (pre ++ suffStats k fit nobs rows) s.text = some (s.val rows) := by
  have := loc_suff pre (nodup_suffSN k fit nobs) (SN.val rows) [s] (by simpa using hs) (by simpa using hpre.sn s hs)
  rw [Series.at1, suffStats_eq]
  simp only [List.map_cons, List.map_nil] at this
  rw [this]

/-- The covariance the code forms from the statistics. -/
noncomputable def cov (rows : List RegRow) (i j : ℕ) : ℝ :=
  avg rows (fun r => r.x i * r.x j) - avg rows (fun r => r.x i) * avg rows (fun r => r.x j)

theorem sum_centered (rows : List RegRow) (f g : RegRow → ℝ) (a b : ℝ) :
    (rows.map fun r => (f r - a) * (g r - b)).sum =
      (rows.map fun r => f r * g r).sum - a * (rows.map g).sum - b * (rows.map f).sum + rows.length * (a * b) := by
  induction rows with
  | nil => simp
  | cons r rows ih =>
    simp only [List.map_cons, List.sum_cons, ih, List.length_cons]
    push_cast; ring

theorem sum_cov {rows : List RegRow} (hrows : rows ≠ []) (i j : ℕ) :
    (rows.map fun r => (r.x i - colMean rows i) * (r.x j - colMean rows j)).sum = rows.length * cov rows i j := by
  rw [sum_centered, cov, mul_sub, mul_avg hrows]
  have h1 := mul_avg hrows fun r => r.x i
  have h2 := mul_avg hrows fun r => r.x j
  rw [← h1, ← h2, colMean, colMean]; ring

theorem sum_cov_y {rows : List RegRow} (hrows : rows ≠ []) (i : ℕ) :
    (rows.map fun r => (r.x i - colMean rows i) * r.y).sum =
      rows.length * (avg rows (fun r => r.x i * r.y) - avg rows (fun r => r.x i) * avg rows (fun r => r.y)) := by
  have := sum_centered rows (fun r => r.x i) (fun r => r.y) (colMean rows i) 0
  simp only [sub_zero, mul_zero, zero_mul, add_zero] at this
  rw [this, mul_sub, mul_avg hrows]
  have h2 := mul_avg hrows fun r => r.y
  rw [← h2, colMean]; ring

theorem sum_center_zero {rows : List RegRow} (hrows : rows ≠ []) (i : ℕ) : (rows.map fun r => r.x i - colMean rows i).sum = 0 := by
  have := sum_centered rows (fun r => r.x i) (fun _ => 1) (colMean rows i) 0
  simp only [sub_zero, mul_one, mul_zero, zero_mul, add_zero, List.map_const', List.sum_replicate, nsmul_eq_mul] at this
  rw [this, colMean, mul_comm, mul_avg hrows]; ring

theorem sq_norm {rows : List RegRow} (hrows : rows ≠ []) (i : ℕ) : colNorm rows i ^ 2 = rows.length * cov rows i i := by
  rw [colNorm, Real.sq_sqrt (list_sum_sq_nonneg _ _), ← sum_cov hrows]
  simp only [sq]

/-- The system `compute_coef_for_normalize_ridge` solves, and what it makes of the solution. -/
theorem ridgeNormalized_eq {pre : Series ℝ} {k : ℕ} {rows : List RegRow} (hpre : NoClash pre k true true rows) (alpha : ℝ) :
    ∃ xtx : ℕ → ℕ → ℝ, (∀ i j, i < k → j < k → xtx i j = cov rows i j) ∧
      ridgeNormalized (pre ++ suffStats k true true rows) k alpha =
        (npSolve k (fun i j => xtx i j + alpha * (if i = j then xtx i i else 0))
          ((List.range k).map fun i => avg rows (fun r => r.x i * r.y) - avg rows (fun r => r.x i) * avg rows (fun r => r.y))).map
          fun coef j => if j = 0 then avg rows (fun r => r.y) - ∑ i ∈ range k, coef i * colMean rows i else coef (j - 1) := by
  have hx : ∀ i < k, SN.x i ∈ suffSN k true true := fun i hi => by simp [suffSN, hi]
  have hxy : ∀ i < k, SN.xy i ∈ suffSN k true true := fun i hi => by simp [suffSN, hi]
  have hy : SN.y ∈ suffSN k true true := by simp [suffSN]
  have hxx : ∀ p ∈ triu k, SN.xx p.1 p.2 ∈ suffSN k true true := by
    intro p hp
    simp only [suffSN, List.mem_append, List.mem_map]
    exact Or.inl (Or.inl (Or.inl (Or.inr ⟨p, hp, rfl⟩)))
  set s := pre ++ suffStats k true true rows with hs
  have ax : ∀ i < k, s.at1 (nmX i) = some (avg rows fun r => r.x i) := fun i hi => at1_suff hpre (hx i hi)
  have axy : ∀ i < k, s.at1 (nmXY i) = some (avg rows fun r => r.x i * r.y) := fun i hi => at1_suff hpre (hxy i hi)
  have ay : s.at1 nmY = some (avg rows fun r => r.y) := at1_suff hpre hy
  have axx : ∀ p ∈ triu k, s.at1 (nmXX p.1 p.2) = some (avg rows fun r => r.x p.1 * r.x p.2) := fun p hp => at1_suff hpre (hxx p hp)
  obtain ⟨xtx, hM, hf⟩ := symmetrize_triu k (cov rows)
  refine ⟨xtx, ?_, ?_⟩
  · intro i j hi hj
    rcases le_total i j with h | h
    · exact (hf i j h hj).1
    · rw [(hf j i h hi).2]
      simp only [cov, mul_comm]
  · have e1 : ((List.range k).mapM fun i => do
        return (← s.at1 (nmXY i)) - (← s.at1 (nmX i)) * (← s.at1 nmY)) = some ((List.range k).map fun i =>
          avg rows (fun r => r.x i * r.y) - avg rows (fun r => r.x i) * avg rows (fun r => r.y)) := by
      apply mapM_some
      intro i hi
      rw [List.mem_range] at hi
      rw [ax i hi, axy i hi, ay]; rfl
    have e2 : ((triu k).mapM fun p => do
        return (← s.at1 (nmXX p.1 p.2)) - (← s.at1 (nmX p.1)) * (← s.at1 (nmX p.2))) =
        some ((triu k).map fun p => cov rows p.1 p.2) := by
      apply mapM_some
      rintro ⟨i, j⟩ hp
      have hm := mem_triu.1 hp
      have hi : i < k := lt_of_le_of_lt hm.1 hm.2
      have := axx _ hp
      simp only at this ⊢
      rw [this, ax i hi, ax j hm.2]; rfl
    have e3 : ((List.range k).mapM fun i => s.at1 (nmX i)) = some ((List.range k).map fun i => avg rows fun r => r.x i) := by
      apply mapM_some
      intro i hi
      rw [List.mem_range] at hi
      rw [ax i hi]
    rw [ridgeNormalized, e1, e2, e3, ay]
    simp only [hM, Option.bind_eq_bind, Option.bind_some, Option.pure_def]
    have e4 : ∀ coef : ℕ → ℝ, ((List.range k).map fun i => coef i * ((List.range k).map fun i => avg rows fun r => r.x i).getD i 0).sum =
        ∑ i ∈ range k, coef i * colMean rows i := by
      intro coef
      rw [← list_range_sum]
      congr 1
      apply List.map_congr_left
      intro i hi
      rw [List.mem_range] at hi
      simp [List.getD, hi, colMean]
    simp only [e4]
    cases npSolve k (fun i j => xtx i j + alpha * (if i = j then xtx i i else 0))
      ((List.range k).map fun i => avg rows (fun r => r.x i * r.y) - avg rows (fun r => r.x i) * avg rows (fun r => r.y)) <;> rfl

/-- A row as the fit sees it under normalisation: each feature minus its mean, over its norm. -/
noncomputable def normRow (rows : List RegRow) (r : RegRow) : RegRow := ⟨r.y, fun i => (r.x i - colMean rows i) / colNorm rows i⟩

theorem normRows_eq (rows : List RegRow) : normRows rows = rows.map (normRow rows) := rfl

/-- The equations on the normalised design in terms of the system the code solves. -/
theorem norm_system {k : ℕ} {rows : List RegRow} (hrows : rows ≠ []) (hnorm : ∀ i < k, colNorm rows i ≠ 0) (alpha : ℝ)
    {xtx : ℕ → ℕ → ℝ} (hxtx : ∀ i j, i < k → j < k → xtx i j = cov rows i j) (d : ℕ → ℝ) :
    ((∑ j ∈ range (k + 1), ((pairs true (normRows rows)).map fun r => r.2 0 * r.2 j).sum * d j) + penalty true alpha 0 * d 0
      = rows.length * d 0) ∧
    ∀ i < k, (∑ j ∈ range (k + 1), ((pairs true (normRows rows)).map fun r => r.2 (i + 1) * r.2 j).sum * d j)
        + penalty true alpha (i + 1) * d (i + 1) =
      rows.length / colNorm rows i *
        ∑ j ∈ range k, (xtx i j + alpha * (if i = j then xtx i i else 0)) * (d (j + 1) / colNorm rows j) := by
  have hent : ∀ a b : ℕ, ((pairs true (normRows rows)).map fun r => r.2 a * r.2 b).sum =
      (rows.map fun r => designRow true (normRow rows r) a * designRow true (normRow rows r) b).sum := by
    intro a b
    rw [pairs, normRows_eq]; simp only [List.map_map, Function.comp_def]
  have h00 : ((pairs true (normRows rows)).map fun r => r.2 0 * r.2 0).sum = rows.length := by
    rw [hent]; simp [designRow]
  have h0j : ∀ j, ((pairs true (normRows rows)).map fun r => r.2 0 * r.2 (j + 1)).sum = 0 := by
    intro j
    rw [hent]
    have : (rows.map fun r => designRow true (normRow rows r) 0 * designRow true (normRow rows r) (j + 1)) =
        rows.map fun r => (r.x j - colMean rows j) * (colNorm rows j)⁻¹ := by
      apply List.map_congr_left; intro r _; simp [designRow, normRow, div_eq_mul_inv]
    rw [this, List.sum_map_mul_right, sum_center_zero hrows, zero_mul]
  have hi0 : ∀ i, ((pairs true (normRows rows)).map fun r => r.2 (i + 1) * r.2 0).sum = 0 := by
    intro i
    rw [← h0j i]; simp only [mul_comm]
  have hij : ∀ i j, i < k → j < k → ((pairs true (normRows rows)).map fun r => r.2 (i + 1) * r.2 (j + 1)).sum =
      rows.length * xtx i j / (colNorm rows i * colNorm rows j) := by
    intro i j hi hj
    rw [hent]
    have : (rows.map fun r => designRow true (normRow rows r) (i + 1) * designRow true (normRow rows r) (j + 1)) =
        rows.map fun r => ((r.x i - colMean rows i) * (r.x j - colMean rows j)) * (colNorm rows i * colNorm rows j)⁻¹ := by
      apply List.map_congr_left; intro r _; simp [designRow, normRow, div_eq_mul_inv]; ring
    rw [this, List.sum_map_mul_right, sum_cov hrows, hxtx i j hi hj, div_eq_mul_inv]
  constructor
  · rw [Finset.sum_range_succ', h00]
    simp [h0j, penalty]
  · intro i hi
    rw [Finset.sum_range_succ', hi0, Finset.mul_sum]
    have hsq := sq_norm hrows i
    rw [← hxtx i i hi hi] at hsq
    have hni := hnorm i hi
    have e : ∀ j ∈ range k, (rows.length : ℝ) / colNorm rows i *
        ((xtx i j + alpha * (if i = j then xtx i i else 0)) * (d (j + 1) / colNorm rows j)) =
        ((pairs true (normRows rows)).map fun r => r.2 (i + 1) * r.2 (j + 1)).sum * d (j + 1)
          + if i = j then alpha * d (i + 1) else 0 := by
      intro j hj
      have hj' := mem_range.1 hj
      have hnj := hnorm j hj'
      rw [hij i j hi hj']
      by_cases h : i = j
      · subst h
        simp only [if_true]
        have hx : xtx i i = colNorm rows i ^ 2 / rows.length := by
          have : (rows.length : ℝ) ≠ 0 := by
            have := List.length_pos_iff.2 hrows
            positivity
          rw [hsq]; field_simp
        have : (rows.length : ℝ) ≠ 0 := by
          have := List.length_pos_iff.2 hrows
          positivity
        rw [hx]; field_simp
      · simp only [h, if_false]; field_simp; ring
    rw [Finset.sum_congr rfl e, Finset.sum_add_distrib, Finset.sum_ite_eq, if_pos (mem_range.2 hi)]
    simp [penalty]

/-- **C48.** With normalisation, whatever rows the slice has: if coefficients are computed, then no feature is constant, and
on the centred and scaled features the coefficients times the norms, with the mean prediction as intercept, give the same
predictions, minimise the ridge objective, and nothing else does. -/
theorem C48_normalized (pre : Series ℝ) (k : ℕ) (alpha : ℝ) (halpha : 0 ≤ alpha) (rows : List RegRow)
    (hrows : rows ≠ []) (hpre : NoClash pre k true true rows) (c : ℕ → ℝ) (h : ridgeSql pre k alpha true true rows = some c) :
    let b₀ := c 0 + ∑ i ∈ range k, c (i + 1) * colMean rows i
    let u := fun i => c (i + 1) * colNorm rows i
    (∀ i < k, colNorm rows i ≠ 0) ∧
    (∀ r, predict k b₀ u (normRow rows r) = predict k (c 0) (fun i => c (i + 1)) r) ∧
    ∀ b w, ridgeLoss k alpha (normRows rows) b₀ u ≤ ridgeLoss k alpha (normRows rows) b w ∧
      (ridgeLoss k alpha (normRows rows) b w ≤ ridgeLoss k alpha (normRows rows) b₀ u → b = b₀ ∧ ∀ i < k, w i = u i) := by
  intro b₀ u
  obtain ⟨xtx, hxtx, he⟩ := ridgeNormalized_eq hpre alpha
  rw [ridgeSql, ridgeCoefs, if_pos (by simp), he, Option.map_eq_some_iff] at h
  obtain ⟨coef, hsolve, hc⟩ := h
  obtain ⟨_, hs, hu⟩ := npSolve_spec hsolve
  have hN : (rows.length : ℝ) ≠ 0 := by
    have := List.length_pos_iff.2 hrows
    positivity
  have hc0 : c 0 = avg rows (fun r => r.y) - ∑ i ∈ range k, coef i * colMean rows i := by rw [← hc]; simp
  have hcs : ∀ i, c (i + 1) = coef i := by intro i; rw [← hc]; simp
  have hb₀ : b₀ = avg rows fun r => r.y := by
    simp only [b₀, hc0, hcs]; ring
  have hnorm : ∀ i < k, colNorm rows i ≠ 0 := by
    intro i hi h0
    have hsq := sq_norm hrows i
    rw [h0] at hsq
    have hsum : (rows.map fun r => (r.x i - colMean rows i) ^ 2).sum ≤ 0 := by
      have := sum_cov hrows i i
      rw [← hsq] at this
      simp only [sq]; rw [this]; simp
    have hz := list_sum_sq_zero rows (fun r => r.x i - colMean rows i) hsum
    have hcov : ∀ m < k, cov rows m i = 0 := by
      intro m _
      have := sum_cov hrows m i
      have h2 : (rows.map fun r => (r.x m - colMean rows m) * (r.x i - colMean rows i)).sum = 0 := by
        apply List.sum_eq_zero
        simp only [List.mem_map]
        rintro x ⟨r, hr, rfl⟩
        rw [hz r hr, mul_zero]
      rw [h2] at this
      rcases mul_eq_zero.1 this.symm with h | h
      · exact absurd h hN
      · exact h
    have := hu (fun j => if j = i then 1 else 0) (by
      intro m hm
      rw [Finset.sum_eq_single i]
      · rw [hxtx m i hm hi, hcov m hm]
        by_cases hmi : m = i
        · subst hmi; rw [hxtx m m hm hm, hcov m hm]; simp
        · simp [hmi]
      · intro j _ hj; simp [hj]
      · intro hh; exact absurd (mem_range.2 hi) hh) i hi
    simp at this
  refine ⟨hnorm, ?_, ?_⟩
  · intro r
    simp only [predict, normRow, u, b₀]
    rw [add_assoc, ← Finset.sum_add_distrib]
    congr 1
    apply Finset.sum_congr rfl
    intro i hi
    have := hnorm i (mem_range.1 hi)
    field_simp; ring
  · set ct : ℕ → ℝ := fun j => if j = 0 then b₀ else u (j - 1) with hct
    have hne : NormalEq (k + 1) (penalty true alpha) (pairs true (normRows rows)) ct := by
      have hsys := norm_system hrows hnorm alpha hxtx ct
      intro i hi
      cases i with
      | zero =>
        rw [hsys.1]
        simp only [hct, if_true]
        rw [hb₀, mul_avg hrows, pairs, normRows_eq, List.map_map, List.map_map]
        simp [Function.comp_def, designRow, normRow]
      | succ i =>
        have hik : i < k := by omega
        have hni := hnorm i hik
        rw [hsys.2 i hik]
        have e1 : ∑ j ∈ range k, (xtx i j + alpha * (if i = j then xtx i i else 0)) * (ct (j + 1) / colNorm rows j) =
            ∑ j ∈ range k, (xtx i j + alpha * (if i = j then xtx i i else 0)) * coef j := by
          apply Finset.sum_congr rfl
          intro j hj
          have := hnorm j (mem_range.1 hj)
          simp only [hct, Nat.add_eq_zero_iff, one_ne_zero, and_false, if_false, Nat.add_sub_cancel, u, hcs]
          field_simp
        rw [e1, hs i hik]
        have e2 : ((List.range k).map fun i => avg rows (fun r => r.x i * r.y) - avg rows (fun r => r.x i) * avg rows (fun r => r.y)).getD i 0
            = avg rows (fun r => r.x i * r.y) - avg rows (fun r => r.x i) * avg rows (fun r => r.y) := by
          simp [List.getD, hik]
        rw [e2]
        have e3 : ((pairs true (normRows rows)).map fun r => r.2 (i + 1) * r.1).sum =
            (rows.map fun r => ((r.x i - colMean rows i) * r.y) * (colNorm rows i)⁻¹).sum := by
          rw [pairs, normRows_eq, List.map_map, List.map_map]
          congr 1
          apply List.map_congr_left
          intro r _
          simp [designRow, normRow, div_eq_mul_inv]; ring
        rw [e3, List.sum_map_mul_right, sum_cov_y hrows]
        field_simp
    have hP : ∀ j < k + 1, 0 ≤ penalty true alpha j := by
      intro j _
      rw [penalty]; split
      · exact le_rfl
      · exact halpha
    intro b w
    have hq1 := quad_ridge_true k alpha (normRows rows) ct
    have hq2 := quad_ridge_true k alpha (normRows rows) (fun j => if j = 0 then b else w (j - 1))
    simp only [hct, if_true, Nat.add_eq_zero_iff, one_ne_zero, and_false, if_false, Nat.add_sub_cancel] at hq1 hq2
    rw [← hq1, ← hq2]
    refine ⟨quad_min hP hne _, fun hle => ?_⟩
    have hz := quad_unique_aux hP hne _ hle
    have hsys := norm_system hrows hnorm alpha hxtx (fun j => (if j = 0 then b else w (j - 1)) - ct j)
    have h0 : b - b₀ = 0 := by
      have h1 := hz 0 (by omega)
      rw [hsys.1] at h1
      rcases mul_eq_zero.1 h1 with h | h
      · exact absurd h hN
      · simpa [hct] using h
    refine ⟨by linarith, ?_⟩
    have hd := hu (fun j => (w j - u j) / colNorm rows j) (by
      intro i hi
      have h1 := hz (i + 1) (by omega)
      rw [hsys.2 i hi] at h1
      have hni := hnorm i hi
      rcases mul_eq_zero.1 h1 with h | h
      · exact absurd h (div_ne_zero hN hni)
      · simpa [hct] using h)
    intro i hi
    rcases div_eq_zero_iff.1 (hd i hi) with h | h
    · linarith
    · exact absurd h (hnorm i hi)

/-- **C48.** With normalisation, a positive penalty and no constant feature, coefficients are always computed. -/
theorem C48_normalized_computed (pre : Series ℝ) (k : ℕ) (alpha : ℝ) (halpha : 0 < alpha) (rows : List RegRow)
    (hrows : rows ≠ []) (hpre : NoClash pre k true true rows) (hnorm : ∀ i < k, colNorm rows i ≠ 0) :
    ∃ c, ridgeSql pre k alpha true true rows = some c := by
  obtain ⟨xtx, hxtx, he⟩ := ridgeNormalized_eq hpre alpha
  rw [ridgeSql, ridgeCoefs, if_pos (by simp), he]
  suffices h : ∃ coef, npSolve k (fun i j => xtx i j + alpha * (if i = j then xtx i i else 0))
      ((List.range k).map fun i => avg rows (fun r => r.x i * r.y) - avg rows (fun r => r.x i) * avg rows (fun r => r.y)) = some coef by
    obtain ⟨coef, h⟩ := h
    rw [h]; exact ⟨_, rfl⟩
  apply npSolve_isSome (by simp)
  intro d hd
  have hr' : normRows rows ≠ [] := by simpa [normRows] using hrows
  have hsys := norm_system hrows hnorm alpha hxtx (fun j => if j = 0 then 0 else d (j - 1) * colNorm rows (j - 1))
  have hz := homogeneous_zero k alpha halpha true (normRows rows) hr'
    (fun j => if j = 0 then 0 else d (j - 1) * colNorm rows (j - 1)) (by
      intro i hi
      simp only [if_true] at hi ⊢
      cases i with
      | zero => rw [hsys.1]; simp
      | succ i =>
        have hik : i < k := by omega
        rw [hsys.2 i hik]
        have : ∑ j ∈ range k, (xtx i j + alpha * (if i = j then xtx i i else 0)) *
            ((if j + 1 = 0 then 0 else d (j + 1 - 1) * colNorm rows (j + 1 - 1)) / colNorm rows j) =
            ∑ j ∈ range k, (xtx i j + alpha * (if i = j then xtx i i else 0)) * d j := by
          apply Finset.sum_congr rfl
          intro j hj
          have := hnorm j (mem_range.1 hj)
          simp only [Nat.add_eq_zero_iff, one_ne_zero, and_false, if_false, Nat.add_sub_cancel]
          field_simp
        rw [this, hd i hik, mul_zero])
  intro j hj
  have := hz (j + 1) (by simpa using hj)
  simp only [Nat.add_eq_zero_iff, one_ne_zero, and_false, if_false, Nat.add_sub_cancel] at this
  rcases mul_eq_zero.1 this with h | h
  · exact h
  · exact absurd h (hnorm j hj)

/-- **C48.** The SQL route agrees with the pandas route: whatever solver sklearn uses, as long as it finds a minimiser of the
ridge objective, `Model.compute` on the rows gives the coefficients that come from the sufficient statistics. -/
theorem C48_same_as_pandas (pre : Series ℝ) (k : ℕ) (hk : 0 < k) (alpha : ℝ) (halpha : 0 ≤ alpha) (fit normalize : Bool)
    (rows : List RegRow) (hrows : rows ≠ []) (hpre : NoClash pre k fit true rows) (c : ℕ → ℝ)
    (h : ridgeSql pre k alpha fit normalize rows = some c) (fitted : List RegRow → ℝ × (ℕ → ℝ)) (hfit : RidgeFit k alpha fit fitted) :
    ∀ j < (if fit then k + 1 else k), modelCompute fitted k fit normalize rows j = c j := by
  by_cases hn : (fit && normalize) = true
  · obtain ⟨rfl, rfl⟩ : fit = true ∧ normalize = true := by simpa using hn
    obtain ⟨hnorm, _, hmin⟩ := C48_normalized pre k alpha halpha rows hrows hpre c h
    have hle := (hfit (normRows rows)).2
    obtain ⟨hb, hw⟩ := (hmin (fitted (normRows rows)).1 (fitted (normRows rows)).2).2 (hle _ _ (by simp))
    have hcoef : ∀ i < k, (fitted (normRows rows)).2 i / colNorm rows i = c (i + 1) := by
      intro i hi
      rw [hw i hi]
      have := hnorm i hi
      field_simp
    have hc0 : c 0 = avg rows (fun r => r.y) - ∑ i ∈ range k, c (i + 1) * colMean rows i := by
      obtain ⟨xtx, hxtx, he⟩ := ridgeNormalized_eq hpre alpha
      rw [ridgeSql, ridgeCoefs, if_pos (by simp), he, Option.map_eq_some_iff] at h
      obtain ⟨coef, _, hc⟩ := h
      rw [← hc]; simp
    intro j hj
    rw [modelCompute, if_pos hn]
    simp only [if_true] at hj
    by_cases h0 : j = 0
    · subst h0
      simp only [if_true]
      rw [hc0, list_range_sum]
      congr 1
      apply Finset.sum_congr rfl
      intro i hi
      rw [hcoef i (mem_range.1 hi), mul_comm]
    · simp only [h0, if_false]
      rw [hcoef (j - 1) (by omega)]
      congr 1; omega
  · have hn' : (fit && normalize) = false := by simpa using hn
    have hle := (hfit rows).2 (interceptOf fit c) (slopesOf fit c) (by rintro rfl; rfl)
    obtain ⟨hb, hw⟩ := (C48_ridge pre k hk alpha halpha fit normalize hn' rows hrows hpre c h (fitted rows).1 (fitted rows).2
      (hfit rows).1).2 hle
    intro j hj
    rw [modelCompute, if_neg hn]
    cases fit
    · simp only [Bool.false_eq_true, if_false] at hj ⊢
      exact hw j hj
    · simp only [if_true] at hj ⊢
      by_cases h0 : j = 0
      · subst h0; simpa [interceptOf] using hb
      · simp only [h0, if_false]
        rw [hw (j - 1) (by omega), slopesOf, if_pos rfl]
        congr 1; omega

/-- **C48, where it stops.** When two features agree on all rows, ordinary least squares (a penalty of 0) is refused on SQL,
although it has minimisers, one of which the pandas route returns. -/
theorem C48_violation_collinear (fit : Bool) (rows : List RegRow) (hrows : rows ≠ []) (hx : ∀ r ∈ rows, r.x 0 = r.x 1) :
    ridgeSql [] 2 0 fit false rows = none := by
  cases h : ridgeSql [] 2 0 fit false rows with
  | none => rfl
  | some c =>
    exfalso
    have hpre : NoClash [] 2 fit true rows := by intro p hp; simp at hp
    have hle : ridgeLoss 2 0 rows (interceptOf fit c) (fun i => slopesOf fit c i + if i = 0 then 1 else -1) ≤
        ridgeLoss 2 0 rows (interceptOf fit c) (slopesOf fit c) := by
      apply le_of_eq
      simp only [ridgeLoss, zero_mul, add_zero]
      congr 1
      apply List.map_congr_left
      intro r hr
      simp only [predict, Finset.sum_range_succ, Finset.sum_range_zero]
      rw [hx r hr]; simp; ring
    have := ((C48_ridge [] 2 (by norm_num) 0 le_rfl fit false (by simp) rows hrows hpre c h _ _ (by rintro rfl; rfl)).2 hle).2 0
      (by norm_num)
    simp at this

/-! ## The hypotheses can be met -/

/-- A solver that keeps sklearn's promise, for any positive penalty. -/
example (k : ℕ) (hk : 0 < k) (alpha : ℝ) (halpha : 0 < alpha) (fit : Bool) : ∃ fitted, RidgeFit k alpha fit fitted := by
  classical
  have hpre : ∀ rows, NoClash [] k fit true rows := fun rows p hp => by simp at hp
  have hex : ∀ rows : List RegRow, ∃ p : ℝ × (ℕ → ℝ), (fit = false → p.1 = 0) ∧
      ∀ b w, (fit = false → b = 0) → ridgeLoss k alpha rows p.1 p.2 ≤ ridgeLoss k alpha rows b w := by
    intro rows
    by_cases hr : rows = []
    · refine ⟨(0, fun _ => 0), fun _ => rfl, fun b w _ => ?_⟩
      subst hr
      simp only [ridgeLoss, List.map_nil, List.sum_nil, zero_add]
      have : 0 ≤ ∑ i ∈ range k, w i ^ 2 := Finset.sum_nonneg fun i _ => sq_nonneg _
      simp only [ne_eq, OfNat.ofNat_ne_zero, not_false_eq_true, zero_pow, Finset.sum_const_zero, mul_zero]
      positivity
    · obtain ⟨c, hc⟩ := C48_ridge_computed [] k hk alpha halpha fit false (by simp) rows hr (hpre rows)
      exact ⟨(interceptOf fit c, slopesOf fit c), by rintro rfl; rfl,
        fun b w hb => (C48_ridge [] k hk alpha halpha.le fit false (by simp) rows hr (hpre rows) c hc b w hb).1⟩
  choose f hf using hex
  exact ⟨f, hf⟩

/-- Ridge with an intercept and normalisation on two rows computes coefficients. -/
example : ∃ c, ridgeSql [] 1 1 true true [⟨1, fun _ => 0⟩, ⟨3, fun _ => 1⟩] = some c := by
  apply C48_normalized_computed [] 1 1 one_pos _ (by simp) (fun p hp => by simp at hp)
  intro i hi
  simp only [colNorm, colMean, avg, List.map_cons, List.map_nil, List.sum_cons, List.sum_nil, List.length_cons, List.length_nil]
  rw [Real.sqrt_ne_zero'] ; norm_num

/-- Least squares with an intercept on two rows computes coefficients. -/
example : ∃ c, ridgeSql [] 1 0 true false [⟨1, fun _ => 0⟩, ⟨3, fun _ => 1⟩] = some c := by
  have hpre : NoClash [] 1 true true [⟨1, fun _ => 0⟩, ⟨3, fun _ => 1⟩] := by intro p hp; simp at hp
  obtain ⟨A, hA, hAe⟩ := ridgePlain_eq (by norm_num) (by simp) hpre 0
  rw [ridgeSql, ridgeCoefs, if_neg (by simp), hA]
  apply npSolve_isSome (by simp)
  intro d hd
  have h0 := hAe d 0 (by norm_num)
  have h1 := hAe d 1 (by norm_num)
  rw [hd 0 (by norm_num)] at h0
  rw [hd 1 (by norm_num)] at h1
  simp [pairs, designRow, Finset.sum_range_succ, penalty] at h0 h1
  intro j hj
  have hj' : j < 2 := by simpa using hj
  interval_cases j <;> linarith

end Verif
