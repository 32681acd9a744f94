import Verif.Props.AdjustValue
import Verif.Model.AdjustCols
import Verif.Lemmas.LeastSquares

/-!
# C93: CUPED and PrePostChange of several metrics
-/

namespace Verif

section
variable {S D K : Type} [DecidableEq S] [DecidableEq D] [Field K] [LinearOrder K]

omit [Field K] [LinearOrder K] in
theorem colLoop_aux {m : ℕ} (f : Fin m → Option K → Option K) (cs : List (Fin m)) (hn : cs.Nodup) (row : Fin m → Option K) (c : Fin m) :
    cs.foldl (fun row c => Function.update row c (f c (row c))) row c = if c ∈ cs then f c (row c) else row c := by
  induction cs generalizing row with
  | nil => simp
  | cons a cs ih =>
    rw [List.nodup_cons] at hn
    rw [List.foldl_cons, ih hn.2]
    by_cases h : c = a
    · subst h
      rw [if_neg hn.1, if_pos List.mem_cons_self, Function.update_self]
    · rw [Function.update_of_ne h]
      by_cases hc : c ∈ cs
      · rw [if_pos hc, if_pos (List.mem_cons_of_mem _ hc)]
      · rw [if_neg hc, if_neg (by simp [h, hc])]

omit [Field K] [LinearOrder K] in
theorem colLoop_eq {m : ℕ} (f : Fin m → Option K → Option K) (row : Fin m → Option K) (c : Fin m) : colLoop f row c = f c (row c) := by
  unfold colLoop
  rw [colLoop_aux f _ (List.nodup_finRange m), if_pos (List.mem_finRange c)]

omit [LinearOrder K] in
theorem center_wCol {m p : ℕ} (t : WTab S D K m p) (c : Fin m) : wCol (centerW t) c = centerM (wCol t c) := by
  unfold wCol centerW centerM avgX sliceM
  rw [List.map_map, List.map_map]
  apply List.map_congr_left
  intro r _
  simp only [Function.comp, List.filter_map, List.map_map]
  rfl

omit [LinearOrder K] in
theorem center_wCol1 {m : ℕ} (t : WTab S D K m 1) (c : Fin m) : wCol1 (centerW t) c = centerX (wCol1 t c) := by
  unfold wCol1 centerW centerX sliceXY
  rw [List.map_map, List.map_map]
  apply List.map_congr_left
  intro r _
  simp only [Function.comp, List.filter_map, List.map_map]
  rfl

omit [Field K] [LinearOrder K] in
theorem keys_wCol {m p : ℕ} (t : WTab S D K m p) (c : Fin m) : (wCol t c).map (·.1) = t.map (·.1) := by
  unfold wCol; rw [List.map_map]; rfl

omit [LinearOrder K] in
theorem keys_wCol1 {m p : ℕ} (t : WTab S D K m p) (c : Fin m) : (wCol1 t c).map (·.1) = t.map (·.1) := by
  unfold wCol1; rw [List.map_map]; rfl

omit [Field K] [LinearOrder K] in
theorem cell_wCol {m p : ℕ} (t : WTab S D K m p) (c : Fin m) (k : S × D) : cellM (wCol t c) k = (cellW t k).map fun p => (p.1 c, p.2) := by
  unfold cellM cellW wCol
  rw [List.filter_map, List.map_map, List.map_map]
  rfl

omit [LinearOrder K] in
theorem cell_wCol1 {m p : ℕ} (t : WTab S D K m p) (c : Fin m) (k : S × D) :
    cellXY (wCol1 t c) k = (cellW t k).map fun p => (p.1 c, firstCov p.2) := by
  unfold cellXY cellW wCol1
  rw [List.filter_map, List.map_map, List.map_map]
  rfl

/-- **C93** On a DataFrame the column of each metric is what `CUPED` gives for this metric alone, with one covariate. -/
theorem C93_cuped_one {m : ℕ} (fit : Fit K 1) (b : D) (incl : Bool) (t : WTab S D K m 1) (c : Fin m) :
    pyChange optSub b incl (resCol (pyCupedW fit t) c) = pyCuped b incl (wCol1 t c) := by
  unfold pyCuped
  congr 1
  unfold resCol pyCupedW pyCupedAdj cellKeys
  rw [List.map_map, ← center_wCol1]
  dsimp only
  rw [keys_wCol1]
  apply List.map_congr_left
  intro k _
  simp only [Function.comp, le_refl, if_true, colLoop_eq]
  congr 1
  unfold meansW lessTheta
  rw [cell_wCol1, List.map_map, List.map_map]
  cases thetaOf (sliceXY (wCol1 (centerW t) c) k.1) <;> rfl

/-- **C93** The same for several covariates. -/
theorem C93_cuped_several {m p : ℕ} (hp : 1 < p) (fit : Fit K p) (b : D) (incl : Bool) (t : WTab S D K m p) (c : Fin m) :
    pyChange optSub b incl (resCol (pyCupedW fit t) c) = pyChange optSub b incl (pyCupedAdjM fit (wCol t c)) := by
  congr 1
  unfold resCol pyCupedW pyCupedAdjM
  rw [List.map_map, ← center_wCol]
  dsimp only
  rw [keys_wCol]
  apply List.map_congr_left
  intro k _
  simp only [Function.comp, if_neg (not_le.2 hp), colLoop_eq]
  congr 1
  unfold meansW
  rw [cell_wCol, List.map_map]
  rfl

/-- **C93** The same for `PrePostChange`. -/
theorem C93_prepost_one {m : ℕ} (fit : Fit K 1) (b : D) (incl : Bool) (t : WTab S D K m 1) (c : Fin m) :
    pyChange pyPct b incl (resCol (pyPrePostW fit t) c) = pyPrePost b incl (wCol1 t c) := by
  unfold pyPrePost
  congr 1
  unfold resCol pyPrePostW pyPrePostAdj cellKeys
  rw [List.map_map, ← center_wCol1]
  dsimp only
  rw [keys_wCol1]
  apply List.map_congr_left
  intro k _
  simp only [Function.comp, le_refl, if_true, colLoop_eq]
  congr 1
  unfold meansW lessTheta
  rw [cell_wCol1, List.map_map, List.map_map]
  cases thetaOf ((cellW (centerW t) k).map fun p => (p.1 c, firstCov p.2)) <;> rfl

theorem C93_prepost_several {m p : ℕ} (hp : 1 < p) (fit : Fit K p) (b : D) (incl : Bool) (t : WTab S D K m p) (c : Fin m) :
    pyChange pyPct b incl (resCol (pyPrePostW fit t) c) = pyChange pyPct b incl (pyPrePostAdjM fit (wCol t c)) := by
  congr 1
  unfold resCol pyPrePostW pyPrePostAdjM
  rw [List.map_map, ← center_wCol]
  dsimp only
  rw [keys_wCol]
  apply List.map_congr_left
  intro k _
  simp only [Function.comp, if_neg (not_le.2 hp)]

/-- **C93** The queries too. -/
theorem C93_sql {m : ℕ} (b : D) (incl : Bool) (t : WTab S D K m 1) (c : Fin m) :
    sqlChange optSub b incl (resCol (sqlCupedW t) c) = sqlCuped b incl (wCol1 t c) ∧
    sqlChange sqlPct b incl (resCol (sqlPrePostW t) c) = sqlPrePost b incl (wCol1 t c) := by
  constructor
  · unfold sqlCuped
    congr 1
    unfold resCol sqlCupedW sqlCupedAdj cellKeys
    rw [List.map_map, keys_wCol1]
    apply List.map_congr_left
    intro k hk
    have hs : (wCol1 t c).map (·.1.1) = t.map (·.1.1) := by unfold wCol1; rw [List.map_map]; rfl
    have hm : k.1 ∈ (t.map (·.1.1)).dedup := by
      rw [List.mem_dedup] at hk ⊢
      obtain ⟨r, hr, rfl⟩ := List.mem_map.1 hk
      exact List.mem_map.2 ⟨r, hr, rfl⟩
    simp only [Function.comp, hs]
    rw [lookup_keyed, if_pos hm, lookup_keyed, if_pos hm, cell_wCol1]
    simp only [List.map_map, Option.bind_some, id]
    rfl
  · unfold sqlPrePost
    congr 1
    unfold resCol sqlPrePostW sqlPrePostAdj cellKeys
    rw [List.map_map, ← center_wCol1]
    dsimp only
    rw [keys_wCol1]
    apply List.map_congr_left
    intro k _
    simp only [Function.comp]
    rw [cell_wCol1, List.map_map, List.map_map]
    rfl

omit [Field K] [LinearOrder K] in
/-- **C93** Where the children are computed by queries and adjusted in Python, one metric is adjusted with its covariates. Missing for the
full claim: several metrics (`C93_mixed_violation`). -/
theorem C93_mixed_partial {q : ℕ} (t : WTab S D K 1 (q + 1)) :
    mixedTab (n := 1 + q) (joinCols (m := 1) (p := q + 1) t) = t.map fun r => (r.1, (r.2.1, fun j => r.2.2 (Fin.cast (Nat.add_comm 1 q) j))) := by
  unfold mixedTab joinCols
  rw [List.map_map]
  apply List.map_congr_left
  intro r _
  simp only [Function.comp]
  congr 2
  · funext j
    have : j = 0 := Subsingleton.elim _ _
    subst this
    exact Fin.append_left r.2.1 r.2.2 0
  · funext j
    have : j.succ = Fin.natAdd 1 (Fin.cast (Nat.add_comm 1 q) j) := by
      apply Fin.ext
      simp [Fin.natAdd, Nat.add_comm]
    rw [this]
    exact Fin.append_right r.2.1 r.2.2 _

end

/-- Two metrics with the same values and a covariate; two strata per condition. -/
def exTwo : WTab Unit Nat ℚ 2 1 :=
  [(((), 0), (fun _ => 0, fun _ => 0)), (((), 0), (fun _ => 2, fun _ => 2)), (((), 1), (fun _ => 4, fun _ => 0)), (((), 1), (fun _ => 6, fun _ => 2))]

/-- **C93** violated: there, of two metrics only the first has a result, and the second is used as a covariate for it. On a DataFrame, and in one
query, both metrics have the change 4; adjusted for the second metric, the first has the change 0, whatever solver the regression uses. -/
theorem C93_mixed_violation (fit : Fit ℚ 2) (hfit : LeastSquares fit) (fit1 : Fit ℚ 1) :
    (∀ c, pyChange optSub 0 false (resCol (pyCupedW fit1 exTwo) c) = some [(((), 1), some 4)]) ∧
    (∀ c, sqlChange optSub 0 false (resCol (sqlCupedW exTwo) c) = [(((), 1), some 4)]) ∧
    pyChange optSub 0 false (resCol (pyCupedW fit (mixedTab (joinCols exTwo))) 0) = some [(((), 1), some 0)] := by
  refine ⟨fun c => ?_, fun c => ?_, ?_⟩
  · rw [C93_cuped_one]
    fin_cases c <;> decide +kernel
  · rw [(C93_sql 0 false exTwo c).1]
    fin_cases c <;> decide +kernel
  · rw [C93_cuped_several (by decide) fit]
    have hL : sliceM (centerM (wCol (mixedTab (n := 2) (joinCols exTwo)) 0)) () =
        [(0, ![-3, -1]), (2, ![-1, 1]), (4, ![1, -1]), (6, ![3, 1])] := by decide +kernel
    have hk : (((centerM (wCol (mixedTab (n := 2) (joinCols exTwo)) 0)).map (·.1)).dedup) = [((), 0), ((), 1)] := by decide +kernel
    have h0 : avgL ((cellM (centerM (wCol (mixedTab (n := 2) (joinCols exTwo)) 0)) ((), 0)).map (·.1)) = 1 ∧
        avgX (cellM (centerM (wCol (mixedTab (n := 2) (joinCols exTwo)) 0)) ((), 0)) = ![-2, 0] := by decide +kernel
    have h1 : avgL ((cellM (centerM (wCol (mixedTab (n := 2) (joinCols exTwo)) 0)) ((), 1)).map (·.1)) = 5 ∧
        avgX (cellM (centerM (wCol (mixedTab (n := 2) (joinCols exTwo)) 0)) ((), 1)) = ![2, 0] := by decide +kernel
    have hls := hfit [(0, ![-3, -1]), (2, ![-1, 1]), (4, ![1, -1]), (6, ![3, 1])] (by simp) ![1, 0] 3
    have hth : (fit [(0, ![-3, -1]), (2, ![-1, 1]), (4, ![1, -1]), (6, ![3, 1])]).1 0 = 1 := by
      revert hls
      generalize (fit [(0, ![-3, -1]), (2, ![-1, 1]), (4, ![1, -1]), (6, ![3, 1])]).1 = th
      generalize (fit [(0, ![-3, -1]), (2, ![-1, 1]), (4, ![1, -1]), (6, ![3, 1])]).2 = c
      intro hls
      simp [sqLoss, Fin.sum_univ_two] at hls
      nlinarith [sq_nonneg (th 0 - 1), sq_nonneg (th 1), sq_nonneg (c - 3)]
    unfold pyCupedAdjM
    dsimp only
    rw [hk]
    simp only [List.map_cons, List.map_nil, hL, h0.1, h0.2, h1.1, h1.2, dotP, Fin.sum_univ_two, hth]
    simp
    decide +kernel

/-- The hypothesis is met: there is such a solver, here and for any number of covariates (as for C36 and C66). -/
example : ∃ fit : Fit ℚ 2, LeastSquares fit := exists_leastSquares 2

end Verif
