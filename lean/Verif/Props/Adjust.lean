import Verif.Lemmas.Adjust
import Mathlib.Algebra.BigOperators.Field

/-!
# C36: CUPED and PrePostChange
-/

namespace Verif

section
variable {S D K : Type} [DecidableEq S] [DecidableEq D] [Field K] [LinearOrder K] [IsStrictOrderedRing K]

/-- Centring undoes a shift. -/
theorem center_shift (δ : S → K) (t : ATab S D K) : centerX (shiftX δ t) = centerX t := by
  have hs : ∀ s, sliceXY (shiftX δ t) s = (sliceXY t s).map fun p => (p.1, p.2 + δ s) := by
    intro s
    have := sliceXY_map t s (fun s => - δ s)
    simp only [sub_neg_eq_add] at this
    exact this
  unfold centerX
  rw [show (shiftX δ t).map (fun r => (r.1, (r.2.1, r.2.2 - avgL ((sliceXY (shiftX δ t) r.1.1).map (·.2)))))
    = t.map fun r => (r.1, (r.2.1, r.2.2 + δ r.1.1 - avgL ((sliceXY (shiftX δ t) r.1.1).map (·.2)))) by
      unfold shiftX; rw [List.map_map]; rfl]
  apply List.map_congr_left
  intro r hr
  rw [hs, List.map_map]
  have hne := slice_ne_nil (t := t) (k := r.1) (List.mem_map.2 ⟨r, hr, rfl⟩)
  have h2 : avgL ((sliceXY t r.1.1).map ((fun x : K × K => x.2) ∘ fun p => (p.1, p.2 + δ r.1.1)))
      = avgL ((sliceXY t r.1.1).map (·.2)) + δ r.1.1 := avgL_add _ hne (·.2) _
  rw [h2]
  congr 2
  ring

theorem shift_keys (δ : S → K) (t : ATab S D K) : (shiftX δ t).map (·.1) = t.map (·.1) := by
  unfold shiftX; rw [List.map_map]; rfl

/-- **C36** Adding a constant to the covariate (in each slice its own) does not change the results. -/
theorem C36_shift (δ : S → K) (b : D) (incl : Bool) (t : ATab S D K) :
    pyCuped b incl (shiftX δ t) = pyCuped b incl t ∧ pyPrePost b incl (shiftX δ t) = pyPrePost b incl t ∧
    sqlPrePost b incl (shiftX δ t) = sqlPrePost b incl t := by
  unfold pyCuped pyPrePost sqlPrePost pyCupedAdj pyPrePostAdj sqlPrePostAdj
  rw [center_shift]
  exact ⟨rfl, rfl, rfl⟩

/-- The value that the query of CUPED has for a key. -/
def sqlCupedVal (t : ATab S D K) (k : S × D) : Option K :=
  (thetaOf (sliceXY t k.1)).map fun th => avgL ((cellXY t k).map (·.1)) - th * avgL ((cellXY t k).map (·.2))

theorem sqlCupedAdj_eq (t : ATab S D K) : sqlCupedAdj t = (cellKeys t).map fun k => (k, sqlCupedVal t k) := by
  unfold sqlCupedAdj sqlCupedVal
  apply List.map_congr_left
  intro k hk
  rw [mem_cellKeys] at hk
  have h1 : k.1 ∈ (t.map (·.1.1)).dedup := by
    rw [List.mem_dedup]
    obtain ⟨r, hr, rfl⟩ := List.mem_map.1 hk
    exact List.mem_map.2 ⟨r, hr, rfl⟩
  rw [lookup_keyed, if_pos h1]
  simp only [Option.bind_some, id]
  congr 2
  funext th
  rw [avgL_mul]

/-- The value that `compute_on` has for a key. -/
def pyCupedVal (t : ATab S D K) (k : S × D) : Option K :=
  (thetaOf (sliceXY t k.1)).map fun th =>
    avgL ((cellXY t k).map (·.1)) - (avgL ((cellXY t k).map (·.2)) - muX t k.1) * th

theorem pyCupedAdj_eq (t : ATab S D K) : pyCupedAdj t = (cellKeys t).map fun k => (k, pyCupedVal t k) := by
  unfold pyCupedAdj pyCupedVal
  simp only [cellKeys_center]
  apply List.map_congr_left
  intro k hk
  rw [mem_cellKeys] at hk
  rw [centerX_eq, sliceXY_map, cellXY_map, thetaOf_shift, List.map_map, List.map_map]
  have h2 : avgL ((cellXY t k).map ((fun x : K × K => x.2) ∘ fun p => (p.1, p.2 - muX t k.1)))
      = avgL ((cellXY t k).map (·.2)) - muX t k.1 := avgL_sub _ (cell_ne_nil hk) (·.2) _
  rw [h2]
  rfl

/-- The two differ by a number that depends on the slice only. -/
theorem cuped_vals (t : ATab S D K) (k : S × D) :
    pyCupedVal t k = (sqlCupedVal t k).map (· + muX t k.1 * (thetaOf (sliceXY t k.1)).getD 0) := by
  unfold pyCupedVal sqlCupedVal
  cases thetaOf (sliceXY t k.1) with
  | none => rfl
  | some th => simp only [Option.map_some, Option.getD_some]; congr 1; ring

/-- **C36** The query of CUPED, which does not centre the covariate, returns what `compute_on` returns, for the slices
that have the baseline. -/
theorem C36_cuped_sql_agrees (b : D) (incl : Bool) (t : ATab S D K) (res : DTab S D K)
    (h : pyCuped b incl t = some res) :
    sqlCuped b incl t = res.filter fun r => decide ((r.1.1, b) ∈ t.map (·.1)) := by
  unfold pyCuped at h
  rw [pyCupedAdj_eq, pyChange_keyed] at h
  split at h
  · cases h
  · rw [Option.some.injEq] at h
    unfold sqlCuped
    rw [sqlCupedAdj_eq, sqlChange_keyed optSub b incl (cellKeys t) (List.nodup_dedup _), ← h]
    simp only [mem_cellKeys]
    congr 2
    apply List.map_congr_left
    intro k hk
    have := optSub_shift (cellKeys t) (pyCupedVal t) (sqlCupedVal t)
      (fun s => muX t s * (thetaOf (sliceXY t s)).getD 0) (fun k _ => cuped_vals t k) b k hk
    simp only [mem_cellKeys] at this
    rw [this]

/-- **C36** So a constant does not matter for the query either. -/
theorem C36_shift_sql (δ : S → K) (b : D) (incl : Bool) (t : ATab S D K) (hb : ∃ k ∈ t.map (·.1), k.2 = b) :
    sqlCuped b incl (shiftX δ t) = sqlCuped b incl t := by
  cases hp : pyCuped b incl t with
  | none =>
    exfalso
    unfold pyCuped at hp
    rw [pyCupedAdj_eq, pyChange_keyed] at hp
    split at hp
    · rename_i hall
      obtain ⟨k, hk, hkb⟩ := hb
      exact hall k ((mem_cellKeys t k).2 hk) hkb
    · cases hp
  | some res =>
    have hp' : pyCuped b incl (shiftX δ t) = some res := by rw [(C36_shift δ b incl t).1, hp]
    rw [C36_cuped_sql_agrees b incl t res hp, C36_cuped_sql_agrees b incl _ res hp', shift_keys]

omit [IsStrictOrderedRing K] in
theorem prepost_adj_eq (t : ATab S D K) : sqlPrePostAdj t = pyPrePostAdj t := by
  unfold sqlPrePostAdj pyPrePostAdj
  apply List.map_congr_left
  intro k _
  congr 1
  unfold thetaOf
  cases covSamp (cellXY (centerX t) k) with
  | none => cases varSampX (cellXY (centerX t) k) <;> rfl
  | some c =>
    cases varSampX (cellXY (centerX t) k) with
    | none => rfl
    | some v =>
      simp only [optMul, nanDiv]
      by_cases h : v = 0
      · simp [h, optSub]
      · simp only [h, if_false, Option.map_some, optSub]
        congr 1
        ring

omit [IsStrictOrderedRing K] in
/-- **C36** The query of PrePostChange returns what `compute_on` returns, for the slices that have the baseline. -/
theorem C36_prepost_sql_agrees (b : D) (incl : Bool) (t : ATab S D K) (res : DTab S D K)
    (h : pyPrePost b incl t = some res) :
    sqlPrePost b incl t = res.filter fun r => decide ((r.1.1, b) ∈ t.map (·.1)) := by
  unfold sqlPrePost
  rw [prepost_adj_eq]
  unfold pyPrePost at h
  have hkeys : (pyPrePostAdj t).map (·.1) = cellKeys t := by
    unfold pyPrePostAdj
    rw [List.map_map, cellKeys_center]
    exact List.map_id _
  have hn : ((pyPrePostAdj t).map (·.1)).Nodup := by rw [hkeys]; exact List.nodup_dedup _
  rw [(C34_sql_agrees_partial b incl _ hn res).1 h]
  apply List.filter_congr
  intro r _
  have : ((pyPrePostAdj t).lookup (r.1.1, b)).isSome ↔ (r.1.1, b) ∈ t.map (·.1) := by
    rw [← mem_cellKeys]
    unfold pyPrePostAdj
    simp only [cellKeys_center]
    rw [lookup_keyed (fun k : S × D => (thetaOf (cellXY (centerX t) k)).map fun th =>
      avgL ((cellXY (centerX t) k).map (·.1)) - avgL ((cellXY (centerX t) k).map (·.2)) * th)]
    by_cases hm : (r.1.1, b) ∈ cellKeys t <;> simp [hm]
  by_cases hm : (r.1.1, b) ∈ t.map (·.1)
  · rw [decide_eq_true hm, this.2 hm]
  · rw [decide_eq_false hm]
    by_contra hc
    exact hm (this.1 (by simpa using hc))

/-- In a balanced table the slice has the average of its cells. -/
theorem balanced_mu {t : ATab S D K} {m : S → K} (hm : ∀ k ∈ t.map (·.1), avgL ((cellXY t k).map (·.2)) = m k.1)
    {k : S × D} (hk : k ∈ t.map (·.1)) : muX t k.1 = m k.1 := by
  have hsum : (((t.filter fun r => decide (r.1.1 = k.1))).map fun r => r.2.2 - m k.1).sum = 0 := by
    apply sum_groups_zero (fun r : (S × D) × (K × K) => r.1) _ _ _ le_rfl
    intro k' hk'
    obtain ⟨r, hr, rfl⟩ := List.mem_map.1 hk'
    rw [List.mem_filter] at hr
    have hs : r.1.1 = k.1 := by simpa using hr.2
    have hmem : r.1 ∈ t.map (·.1) := List.mem_map.2 ⟨r, hr.1, rfl⟩
    have hc := hm r.1 hmem
    have hf : (t.filter fun r => decide (r.1.1 = k.1)).filter (fun a => decide (a.1 = r.1))
        = t.filter fun a => decide (a.1 = r.1) := by
      rw [List.filter_filter]
      apply List.filter_congr
      intro a _
      by_cases ha : a.1 = r.1
      · simp [ha, hs]
      · simp [ha]
    rw [hf]
    have hne : t.filter (fun a => decide (a.1 = r.1)) ≠ [] := by
      intro h0; exact cell_ne_nil hmem (by unfold cellXY; rw [h0]; rfl)
    have h1 := avgL_sub (t.filter (fun a => decide (a.1 = r.1))) hne (fun a => a.2.2) (m k.1)
    have h2 : avgL ((t.filter (fun a => decide (a.1 = r.1))).map fun a => a.2.2) = m k.1 := by
      rw [← hs, ← hc]; unfold cellXY; rw [List.map_map]; rfl
    rw [h2, sub_self] at h1
    unfold avgL at h1
    rw [div_eq_zero_iff] at h1
    rcases h1 with h1 | h1
    · exact h1
    · exfalso
      rw [List.length_map] at h1
      have := List.length_pos_iff.2 hne
      exact this.ne' (by exact_mod_cast h1)
  have hne := slice_ne_nil hk
  have hne' : t.filter (fun r => decide (r.1.1 = k.1)) ≠ [] := by
    intro h0; exact hne (by unfold sliceXY; rw [h0]; rfl)
  have h1 := avgL_sub _ hne' (fun a => a.2.2) (m k.1)
  unfold avgL at h1
  rw [hsum, zero_div] at h1
  unfold muX sliceXY avgL
  rw [List.map_map]
  exact sub_eq_zero.1 h1.symm

theorem plainAvg_keys (t : ATab S D K) : (plainAvg t).map (·.1) = cellKeys t := by
  unfold plainAvg; rw [List.map_map]; exact List.map_id _

/-- **C36** With the same average of the covariate under all conditions, CUPED is the plain absolute change, provided
that the covariate varies in each slice (see the violation below). -/
theorem C36_cuped_balanced_partial (b : D) (incl : Bool) (t : ATab S D K) (hbal : Balanced t)
    (hth : ∀ k ∈ t.map (·.1), (thetaOf (sliceXY t k.1)).isSome) :
    pyCuped b incl t = pyChange optSub b incl (plainAvg t) := by
  obtain ⟨m, hm⟩ := hbal
  unfold pyCuped plainAvg
  rw [pyCupedAdj_eq, pyChange_keyed, pyChange_keyed]
  congr 3
  apply List.map_congr_left
  intro k hk
  rw [optSub_shift (cellKeys t) (pyCupedVal t) (fun k => some (avgL ((cellXY t k).map (·.1))))
    (fun _ => 0) _ b k hk]
  intro k hk
  rw [mem_cellKeys] at hk
  unfold pyCupedVal
  rw [balanced_mu hm hk, hm k hk]
  obtain ⟨th, hth⟩ := Option.isSome_iff_exists.1 (hth k hk)
  rw [hth]
  simp

/-- **C36** The same for PrePostChange and the percent change, provided that the covariate varies in each slice and
condition. -/
theorem C36_prepost_balanced_partial (b : D) (incl : Bool) (t : ATab S D K) (hbal : Balanced t)
    (hth : ∀ k ∈ t.map (·.1), (thetaOf (cellXY t k)).isSome) :
    pyPrePost b incl t = pyChange pyPct b incl (plainAvg t) := by
  obtain ⟨m, hm⟩ := hbal
  unfold pyPrePost plainAvg pyPrePostAdj
  simp only [cellKeys_center]
  congr 1
  apply List.map_congr_left
  intro k hk
  rw [mem_cellKeys] at hk
  rw [centerX_eq, cellXY_map, thetaOf_shift, List.map_map, List.map_map]
  have h2 : avgL ((cellXY t k).map ((fun x : K × K => x.2) ∘ fun p => (p.1, p.2 - muX t k.1)))
      = avgL ((cellXY t k).map (·.2)) - muX t k.1 := avgL_sub _ (cell_ne_nil hk) (·.2) _
  obtain ⟨th, hth⟩ := Option.isSome_iff_exists.1 (hth k hk)
  rw [h2, balanced_mu hm hk, hm k hk, hth]
  simp
  rfl

/-- **C36** Violation: a covariate that does not vary at all is perfectly balanced, and both adjusted changes are
missing although the plain change is not (`theta` is 0 / 0). -/
theorem C36_violation_constant :
    let t : ATab Nat Nat ℚ := [((0, 0), (1, 5)), ((0, 0), (2, 5)), ((0, 1), (3, 5)), ((0, 1), (5, 5))]
    Balanced t ∧ pyCuped 0 false t = some [((0, 1), none)] ∧ pyPrePost 0 false t = some [((0, 1), none)] ∧
    pyChange optSub 0 false (plainAvg t) = some [((0, 1), some (5 / 2))] := by
  refine ⟨⟨fun _ => 5, ?_⟩, by decide +kernel, by decide +kernel, by decide +kernel⟩
  decide +kernel

/-- The hypotheses are met: balanced, with a covariate that varies. -/
example :
    let t : ATab Nat Nat ℚ := [((0, 0), (1, 4)), ((0, 0), (2, 6)), ((0, 1), (3, 3)), ((0, 1), (5, 7))]
    (∀ k ∈ t.map (·.1), avgL ((cellXY t k).map (·.2)) = (fun _ => 5) k.1) ∧
    (∀ k ∈ t.map (·.1), (thetaOf (sliceXY t k.1)).isSome) ∧ (∀ k ∈ t.map (·.1), (thetaOf (cellXY t k)).isSome) ∧
    pyCuped 0 false t = some [((0, 1), some (5 / 2))] := by
  decide +kernel

/-- An unbalanced table, on which the adjustment matters and both paths agree. -/
example :
    let t : ATab Nat Nat ℚ := [((0, 0), (1, 4)), ((0, 0), (2, 6)), ((0, 1), (3, 3)), ((0, 1), (5, 8))]
    pyCuped 0 false t = some [((0, 1), some (133 / 59))] ∧ sqlCuped 0 false t = [((0, 1), some (133 / 59))] ∧
    pyChange optSub 0 false (plainAvg t) = some [((0, 1), some (5 / 2))] := by
  decide +kernel

/-! ## Several covariates -/

theorem center_shiftM {p : Nat} (δ : S → Fin p → K) (t : MTab S D K p) : centerM (shiftM δ t) = centerM t := by
  have hs : ∀ s, sliceM (shiftM δ t) s = (sliceM t s).map fun r => (r.1, fun j => r.2 j + δ s j) := by
    intro s
    unfold sliceM shiftM
    rw [List.filter_map, List.map_map, List.map_map]
    apply List.map_congr_left
    intro r hr
    have := (List.mem_filter.1 hr).2
    simp only [Function.comp_apply, decide_eq_true_eq] at this
    simp only [Function.comp_apply, this]
  unfold centerM
  rw [show (shiftM δ t).map (fun r => (r.1, (r.2.1, fun j => r.2.2 j - avgX (sliceM (shiftM δ t) r.1.1) j)))
    = t.map fun r => (r.1, (r.2.1, fun j => r.2.2 j + δ r.1.1 j - avgX (sliceM (shiftM δ t) r.1.1) j)) by
      unfold shiftM; rw [List.map_map]; rfl]
  apply List.map_congr_left
  intro r hr
  congr 2
  funext j
  rw [hs]
  have hne : sliceM t r.1.1 ≠ [] := by
    intro h0
    unfold sliceM at h0
    rw [List.map_eq_nil_iff, List.filter_eq_nil_iff] at h0
    exact h0 r hr (by simp)
  unfold avgX
  rw [List.map_map]
  have := avgL_add (sliceM t r.1.1) hne (fun q => q.2 j) (δ r.1.1 j)
  have h6 : avgL (List.map ((fun q : K × (Fin p → K) => q.2 j) ∘ fun q : K × (Fin p → K) =>
      (q.1, fun j => q.2 j + δ r.1.1 j)) (sliceM t r.1.1))
      = avgL (List.map (fun q => q.2 j) (sliceM t r.1.1)) + δ r.1.1 j := this
  rw [h6]
  ring

/-- **C36** With any number of covariates and whatever the regression returns, adding constants to the covariates does
not change the results. -/
theorem C36_shift_multi {p : Nat} (fit : Fit K p) (δ : S → Fin p → K) (b : D) (incl : Bool) (t : MTab S D K p) :
    pyChange optSub b incl (pyCupedAdjM fit (shiftM δ t)) = pyChange optSub b incl (pyCupedAdjM fit t) ∧
    pyChange pyPct b incl (pyPrePostAdjM fit (shiftM δ t)) = pyChange pyPct b incl (pyPrePostAdjM fit t) := by
  unfold pyCupedAdjM pyPrePostAdjM
  rw [center_shiftM]
  exact ⟨rfl, rfl⟩

/-- The intercept of a least squares fit. -/
theorem ls_intercept {p : Nat} {fit : Fit K p} (hfit : LeastSquares fit) (l : List (K × (Fin p → K))) (hl : l ≠ []) :
    (fit l).2 = avgL (l.map (·.1)) - dotP (fit l).1 (avgX l) := by
  set th := (fit l).1 with hth
  set e : K × (Fin p → K) → K := fun r => r.1 - ∑ j, th j * r.2 j with he
  have hn : (l.length : K) ≠ 0 := by
    have := List.length_pos_iff.2 hl
    exact_mod_cast this.ne'
  have hnpos : (0 : K) < l.length := by exact_mod_cast List.length_pos_iff.2 hl
  have hsum : ∀ c, sqLoss th c l = sqLoss th (avgL (l.map e)) l + l.length * (c - avgL (l.map e)) ^ 2 := by
    intro c
    have key : ∀ (l' : List (K × (Fin p → K))) (a : K), sqLoss th c l'
        = sqLoss th a l' + 2 * (a - c) * ((l'.map e).sum - l'.length * a) + l'.length * (c - a) ^ 2 := by
      intro l' a
      induction l' with
      | nil => simp [sqLoss]
      | cons r l' ih =>
        unfold sqLoss at ih ⊢
        simp only [List.map_cons, List.sum_cons, List.length_cons, ih, he]
        push_cast
        ring
    rw [key l (avgL (l.map e))]
    have : (l.map e).sum - l.length * avgL (l.map e) = 0 := by
      unfold avgL
      rw [List.length_map]
      field_simp
      ring
    rw [this]
    ring
  have h1 := hfit l hl th (avgL (l.map e))
  rw [hsum (fit l).2] at h1
  have h2 : ((fit l).2 - avgL (l.map e)) ^ 2 = 0 := by
    have h3 := sq_nonneg ((fit l).2 - avgL (l.map e))
    nlinarith
  have h4 : (fit l).2 = avgL (l.map e) := sub_eq_zero.1 (pow_eq_zero_iff (by norm_num) |>.1 h2)
  rw [h4]
  unfold avgL dotP avgX
  have h5 : (l.map e).sum = (l.map (·.1)).sum - ∑ j, th j * (l.map fun r => r.2 j).sum := by
    clear h4 h2 h1 hsum hn hnpos hl hth
    clear_value th
    induction l with
    | nil => simp
    | cons r l ih =>
      rw [List.map_cons, List.sum_cons, ih, he]
      simp only [List.map_cons, List.sum_cons, mul_add, Finset.sum_add_distrib]
      ring
  rw [h5, List.length_map, List.length_map, sub_div, Finset.sum_div]
  congr 1
  apply Finset.sum_congr rfl
  intro j _
  unfold avgL
  rw [List.length_map, mul_div_assoc]

/-- The average of covariate `j` in a slice. -/
theorem center_cellM {p : Nat} (t : MTab S D K p) (k : S × D) :
    cellM (centerM t) k = (cellM t k).map fun r => (r.1, fun j => r.2 j - avgX (sliceM t k.1) j) := by
  unfold cellM centerM
  rw [List.filter_map, List.map_map, List.map_map]
  apply List.map_congr_left
  intro r hr
  have := (List.mem_filter.1 hr).2
  simp only [Function.comp_apply, decide_eq_true_eq] at this
  simp only [Function.comp_apply, this]

/-- One covariate of a table with several. -/
def projM {p : Nat} (j : Fin p) (t : MTab S D K p) : ATab S D K := t.map fun r => (r.1, (r.2.1, r.2.2 j))

theorem projM_cell {p : Nat} (j : Fin p) (t : MTab S D K p) (k : S × D) :
    (cellXY (projM j t) k).map (·.2) = (cellM t k).map fun r => r.2 j := by
  unfold cellXY projM cellM
  rw [List.filter_map, List.map_map, List.map_map, List.map_map]
  rfl

theorem projM_slice {p : Nat} (j : Fin p) (t : MTab S D K p) (s : S) :
    (sliceXY (projM j t) s).map (·.2) = (sliceM t s).map fun r => r.2 j := by
  unfold sliceXY projM sliceM
  rw [List.filter_map, List.map_map, List.map_map, List.map_map]
  rfl

theorem projM_keys {p : Nat} (j : Fin p) (t : MTab S D K p) : (projM j t).map (·.1) = t.map (·.1) := by
  unfold projM; rw [List.map_map]; rfl

theorem balanced_muM {p : Nat} {t : MTab S D K p} {m : S → Fin p → K}
    (hm : ∀ k ∈ t.map (·.1), avgX (cellM t k) = m k.1) {k : S × D} (hk : k ∈ t.map (·.1)) :
    avgX (sliceM t k.1) = m k.1 := by
  funext j
  have h1 := balanced_mu (t := projM j t) (m := fun s => m s j) (by
    intro k' hk'
    rw [projM_keys] at hk'
    rw [projM_cell]
    exact congrFun (hm k' hk') j) (k := k) (by rw [projM_keys]; exact hk)
  unfold muX at h1
  rw [projM_slice] at h1
  exact h1

theorem cellM_ne_nil {p : Nat} {t : MTab S D K p} {k : S × D} (h : k ∈ t.map (·.1)) : cellM t k ≠ [] := by
  obtain ⟨r, hr, rfl⟩ := List.mem_map.1 h
  intro h0
  unfold cellM at h0
  rw [List.map_eq_nil_iff, List.filter_eq_nil_iff] at h0
  exact h0 r hr (by simp)

/-- The centred averages of a balanced table are zero. -/
theorem center_avg_zero {p : Nat} {t : MTab S D K p} (hbal : BalancedM t) {k : S × D} (hk : k ∈ t.map (·.1)) :
    avgX (cellM (centerM t) k) = fun _ => 0 := by
  obtain ⟨m, hm⟩ := hbal
  rw [center_cellM, balanced_muM hm hk, ← hm k hk]
  funext j
  unfold avgX
  rw [List.map_map]
  have := avgL_sub (cellM t k) (cellM_ne_nil hk) (fun q => q.2 j) (avgL ((cellM t k).map fun r => r.2 j))
  rw [sub_self] at this
  exact this

theorem center_keysM {p : Nat} (t : MTab S D K p) : (centerM t).map (·.1) = t.map (·.1) := by
  unfold centerM; rw [List.map_map]; rfl

theorem center_ysM {p : Nat} (t : MTab S D K p) (k : S × D) :
    (cellM (centerM t) k).map (·.1) = (cellM t k).map (·.1) := by
  rw [center_cellM, List.map_map]; rfl

/-- **C36** With any number of covariates, all balanced: CUPED is the plain absolute change whatever coefficients the
regression finds, and PrePostChange is the plain percent change if the regression minimises the squared loss. -/
theorem C36_balanced_multi {p : Nat} (fit : Fit K p) (b : D) (incl : Bool) (t : MTab S D K p) (hbal : BalancedM t) :
    pyChange optSub b incl (pyCupedAdjM fit t) = pyChange optSub b incl (plainAvgM t) ∧
    (LeastSquares fit → pyChange pyPct b incl (pyPrePostAdjM fit t) = pyChange pyPct b incl (plainAvgM t)) := by
  constructor
  · congr 1
    unfold pyCupedAdjM plainAvgM
    simp only [center_keysM]
    apply List.map_congr_left
    intro k hk
    rw [List.mem_dedup] at hk
    rw [center_avg_zero hbal hk, center_ysM]
    simp [dotP]
  · intro hfit
    congr 1
    unfold pyPrePostAdjM plainAvgM
    simp only [center_keysM]
    apply List.map_congr_left
    intro k hk
    rw [List.mem_dedup] at hk
    have hne : cellM (centerM t) k ≠ [] := cellM_ne_nil (by rw [center_keysM]; exact hk)
    rw [ls_intercept hfit _ hne, center_avg_zero hbal hk, center_ysM]
    simp [dotP]

/-- A fit that minimises the squared loss exists: with no covariates, the average. -/
example : LeastSquares (K := ℚ) (p := 0) fun l => (fun _ => 0, avgL (l.map (·.1))) := by
  intro l hl th c
  have hn : (0 : ℚ) < l.length := by exact_mod_cast List.length_pos_iff.2 hl
  have key : ∀ (l' : List (ℚ × (Fin 0 → ℚ))) (a : ℚ), sqLoss th c l'
      = sqLoss (fun _ => 0) a l' + 2 * (a - c) * ((l'.map (·.1)).sum - l'.length * a) + l'.length * (c - a) ^ 2 := by
    intro l' a
    induction l' with
    | nil => simp [sqLoss]
    | cons r l' ih =>
      unfold sqLoss at ih ⊢
      rw [List.map_cons, List.sum_cons, ih]
      simp only [List.map_cons, List.sum_cons, List.length_cons, Finset.univ_eq_empty, Finset.sum_empty]
      push_cast
      ring
  rw [key l (avgL (l.map (·.1)))]
  have : (l.map (·.1)).sum - l.length * avgL (l.map (·.1)) = 0 := by
    unfold avgL
    rw [List.length_map]
    field_simp
    ring
  rw [this]
  have := mul_nonneg hn.le (sq_nonneg (c - avgL (l.map (·.1))))
  simp only
  linarith

end
end Verif
