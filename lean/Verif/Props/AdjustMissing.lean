import Verif.Props.AdjustValue
import Verif.Spec.AdjustMissing

/-!
# C36, C66: CUPED and PrePostChange where values are missing
-/

namespace Verif

section
variable {S D K : Type} [DecidableEq S] [DecidableEq D] [Field K] [LinearOrder K]

omit [Field K] [LinearOrder K] in
theorem present_map {L : Type} (f : K → L) (l : List (Option K)) : presentO (l.map (Option.map f)) = (presentO l).map f := by
  unfold presentO
  induction l with
  | nil => rfl
  | cons a l ih => cases a <;> simp_all

theorem meanO_sub [IsStrictOrderedRing K] (l : List (Option K)) (c : K) : meanO (l.map (Option.map (· - c))) = (meanO l).map (· - c) := by
  unfold meanO
  rw [present_map]
  by_cases h : presentO l = []
  · simp [h]
  · rw [if_neg (by simpa using h), if_neg h, Option.map_some]
    have := avgL_sub (presentO l) h id c
    simp only [List.map_id] at this
    simp only [id] at this
    rw [this]

theorem meanO_mul (l : List (Option K)) (c : K) : meanO (l.map (Option.map (c * ·))) = (meanO l).map (c * ·) := by
  unfold meanO
  rw [present_map]
  by_cases h : presentO l = []
  · simp [h]
  · rw [if_neg (by simpa using h), if_neg h, Option.map_some]
    have := avgL_mul (presentO l) id c
    simp only [List.map_id] at this
    simp only [id] at this
    rw [this]

/-- The average of the covariate in a slice, if there is one. -/
def muO (t : OTab S D K) (s : S) : K := avgL (presentO ((sliceO t s).map (·.2)))

theorem meanO_slice {t : OTab S D K} {r : (S × D) × (Option K × Option K)} (hr : r ∈ t) {x : K} (hx : r.2.2 = some x) :
    meanO ((sliceO t r.1.1).map (·.2)) = some (muO t r.1.1) := by
  unfold meanO muO
  rw [if_neg]
  intro h0
  have : x ∈ presentO ((sliceO t r.1.1).map (·.2)) := by
    unfold presentO sliceO
    rw [List.mem_filterMap]
    refine ⟨some x, ?_, rfl⟩
    rw [List.map_map, List.mem_map]
    exact ⟨r, List.mem_filter.2 ⟨hr, by simp⟩, hx⟩
  rw [h0] at this
  simp at this

theorem centerO_eq (t : OTab S D K) : centerO t = t.map fun r => (r.1, (r.2.1, r.2.2.map (· - muO t r.1.1))) := by
  unfold centerO
  apply List.map_congr_left
  intro r hr
  congr 2
  cases hx : r.2.2 with
  | none => rfl
  | some x => rw [meanO_slice hr hx]; rfl

omit [LinearOrder K] [Field K] [DecidableEq D] in
theorem sliceO_map (t : OTab S D K) (s : S) (g : S → Option K × Option K → Option K × Option K) :
    sliceO (t.map fun r => (r.1, g r.1.1 r.2)) s = (sliceO t s).map (g s) := by
  unfold sliceO
  rw [List.filter_map, List.map_map, List.map_map]
  apply List.map_congr_left
  intro r hr
  have : r.1.1 = s := by simpa using (List.mem_filter.1 hr).2
  simp [this]

omit [LinearOrder K] [Field K] in
theorem cellO_map (t : OTab S D K) (k : S × D) (g : S → Option K × Option K → Option K × Option K) :
    cellO (t.map fun r => (r.1, g r.1.1 r.2)) k = (cellO t k).map (g k.1) := by
  unfold cellO
  rw [List.filter_map, List.map_map, List.map_map]
  apply List.map_congr_left
  intro r hr
  have : r.1 = k := by simpa using (List.mem_filter.1 hr).2
  simp [this]

omit [LinearOrder K] [Field K] in
theorem cellKeysO_map (t : OTab S D K) (g : S → Option K × Option K → Option K × Option K) :
    cellKeysO (t.map fun r => (r.1, g r.1.1 r.2)) = cellKeysO t := by
  unfold cellKeysO
  rw [List.map_map]
  rfl

/-- Centring, as a map. -/
theorem centerO_eq' (t : OTab S D K) : centerO t = t.map fun r => (r.1, (fun s p => (p.1, p.2.map (· - muO t s))) r.1.1 r.2) := centerO_eq t

theorem slice_centerO (t : OTab S D K) (s : S) : sliceO (centerO t) s = (sliceO t s).map fun p => (p.1, p.2.map (· - muO t s)) := by
  rw [centerO_eq']
  exact sliceO_map t s fun s p => (p.1, p.2.map (· - muO t s))

theorem cell_centerO (t : OTab S D K) (k : S × D) : cellO (centerO t) k = (cellO t k).map fun p => (p.1, p.2.map (· - muO t k.1)) := by
  rw [centerO_eq']
  exact cellO_map t k fun s p => (p.1, p.2.map (· - muO t s))

theorem keys_centerO (t : OTab S D K) : cellKeysO (centerO t) = cellKeysO t := by
  rw [centerO_eq']
  exact cellKeysO_map t fun s p => (p.1, p.2.map (· - muO t s))

/-- Centring undoes a shift. -/
theorem center_shiftO [IsStrictOrderedRing K] (δ : S → K) (t : OTab S D K) : centerO (shiftXO δ t) = centerO t := by
  rw [centerO_eq, centerO_eq]
  unfold shiftXO
  rw [List.map_map]
  apply List.map_congr_left
  intro r hr
  simp only [Function.comp]
  cases hx : r.2.2 with
  | none => rfl
  | some x =>
    have hs : sliceO (t.map fun r => (r.1, (r.2.1, r.2.2.map (· + δ r.1.1)))) r.1.1
        = (sliceO t r.1.1).map fun p => (p.1, p.2.map (· + δ r.1.1)) := by
      have := sliceO_map t r.1.1 (fun s p => (p.1, p.2.map (· + δ s)))
      exact this
    have hne : presentO ((sliceO t r.1.1).map (·.2)) ≠ [] := by
      have := meanO_slice hr hx
      unfold meanO at this
      intro h0
      rw [if_pos h0] at this
      cases this
    have hm : muO (t.map fun r => (r.1, (r.2.1, r.2.2.map (· + δ r.1.1)))) r.1.1 = muO t r.1.1 + δ r.1.1 := by
      unfold muO
      rw [hs, List.map_map]
      have : ((fun x : Option K × Option K => x.2) ∘ fun p => (p.1, p.2.map (· + δ r.1.1)))
          = (Option.map (· + δ r.1.1)) ∘ fun p : Option K × Option K => p.2 := rfl
      rw [this, ← List.map_map, present_map]
      have := avgL_add (presentO ((sliceO t r.1.1).map (·.2))) hne id (δ r.1.1)
      rw [List.map_id] at this
      exact this
    simp only [Option.map_some, hm]
    congr 3
    ring

/-! ## The slope -/

omit [Field K] [LinearOrder K] in
theorem pairs_map (l : List (Option K × Option K)) (f g : K → K) :
    pairsO (l.map fun p => (p.1.map f, p.2.map g)) = (pairsO l).map fun p => (f p.1, g p.2) := by
  unfold pairsO
  rw [List.filterMap_map, List.map_filterMap]
  apply List.filterMap_congr
  rintro ⟨y, x⟩ _
  cases y <;> cases x <;> rfl

theorem sqlThetaO_shift [IsStrictOrderedRing K] (l : List (Option K × Option K)) (c : K) :
    sqlThetaO (l.map fun p => (p.1, p.2.map (· - c))) = sqlThetaO l := by
  unfold sqlThetaO
  congr 1
  · unfold sqlCovO
    have h := pairs_map l id (· - c)
    simp only [Option.map_id, id] at h
    rw [h, covSamp_shift]
  · unfold varO
    have : (l.map fun p => (p.1, p.2.map (· - c))).map (·.2) = (l.map (·.2)).map (Option.map (· - c)) := by
      rw [List.map_map, List.map_map]; rfl
    rw [this, present_map]
    have h := varSampX_shift ((presentO (l.map (·.2))).map fun x => (x, x)) c
    unfold varSampX at h
    simpa [List.map_map, Function.comp_def] using h

omit [Field K] [LinearOrder K] in
theorem present_both {l : List (Option K × Option K)} (h : ∀ p ∈ l, p.1.isSome = p.2.isSome) :
    presentO (l.map (·.1)) = (pairsO l).map (·.1) ∧ presentO (l.map (·.2)) = (pairsO l).map (·.2) := by
  unfold presentO pairsO
  induction l with
  | nil => exact ⟨rfl, rfl⟩
  | cons p l ih =>
    obtain ⟨h1, h2⟩ := ih fun q hq => h q (List.mem_cons_of_mem _ hq)
    have hp := h p List.mem_cons_self
    obtain ⟨y, x⟩ := p
    cases y <;> cases x <;> simp_all

omit [LinearOrder K] in
theorem present_prod (l : List (Option K × Option K)) : presentO (l.map fun p => optMul p.1 p.2) = (pairsO l).map fun p => p.1 * p.2 := by
  unfold presentO pairsO
  induction l with
  | nil => rfl
  | cons p l ih =>
    obtain ⟨y, x⟩ := p
    cases y <;> cases x <;> simp_all [optMul]

/-- The formula of `metrics.Cov` is the sample covariance. -/
theorem covSamp_formula [IsStrictOrderedRing K] (l : List (K × K)) (hl : ¬ l.length ≤ 1) :
    (avgL (l.map fun p => p.1 * p.2) - avgL (l.map (·.1)) * avgL (l.map (·.2))) / (1 - 1 / (l.length : K)) =
      (l.map fun p => (p.1 - avgL (l.map (·.1))) * (p.2 - avgL (l.map (·.2)))).sum / ((l.length : K) - 1) := by
  have hn : (1 : K) < l.length := by exact_mod_cast (not_le.1 hl)
  have h0 : (l.length : K) ≠ 0 := by linarith
  have h1 : (l.length : K) - 1 ≠ 0 := by linarith
  have hsum : ∀ a b : K, (l.map fun p => (p.1 - a) * (p.2 - b)).sum =
      (l.map fun p => p.1 * p.2).sum - b * (l.map (·.1)).sum - a * (l.map (·.2)).sum + l.length * (a * b) := by
    intro a b
    clear hl hn h0 h1
    induction l with
    | nil => simp
    | cons p l ih => simp only [List.map_cons, List.sum_cons, ih, List.length_cons]; push_cast; ring
  rw [hsum]
  unfold avgL
  simp only [List.length_map]
  have : (1 : K) - 1 / l.length = (l.length - 1) / l.length := by field_simp
  rw [this]
  field_simp
  ring

theorem pyCovO_eq [IsStrictOrderedRing K] {l : List (Option K × Option K)} (h : ∀ p ∈ l, p.1.isSome = p.2.isSome) :
    pyCovO l = sqlCovO l := by
  obtain ⟨h1, h2⟩ := present_both h
  unfold pyCovO sqlCovO covSamp meanO
  simp only [present_prod, h1, h2, List.length_map]
  by_cases hl : (pairsO l).length ≤ 1
  · rw [if_pos hl, if_pos hl]
  · rw [if_neg hl, if_neg hl]
    have hne : pairsO l ≠ [] := by rintro h0; rw [h0] at hl; simp at hl
    rw [if_neg (by simpa using hne), if_neg (by simpa using hne), if_neg (by simpa using hne)]
    simp only [optMul, optSub, Option.map_some]
    rw [covSamp_formula _ hl]

theorem pyThetaO_eq [IsStrictOrderedRing K] {l : List (Option K × Option K)} (h : ∀ p ∈ l, p.1.isSome = p.2.isSome) :
    pyThetaO l = sqlThetaO l := by
  unfold pyThetaO sqlThetaO
  rw [pyCovO_eq h]

/-- Where every row has both values or neither, `theta` is the one of the rows that have them. -/
theorem sqlThetaO_eq {l : List (Option K × Option K)} (h : ∀ p ∈ l, p.1.isSome = p.2.isSome) : sqlThetaO l = thetaOf (pairsO l) := by
  unfold sqlThetaO thetaOf varSampX varO sqlCovO
  rw [(present_both h).2, List.map_map]
  rfl

end

section
variable {S D K : Type} [DecidableEq S] [DecidableEq D] [Field K] [LinearOrder K] [IsStrictOrderedRing K]

/-! ## Values of a key -/

def sqlCupedValO (t : OTab S D K) (k : S × D) : Option K :=
  optSub (meanO ((cellO t k).map (·.1))) (optMul (sqlThetaO (sliceO t k.1)) (meanO ((cellO t k).map (·.2))))

omit [IsStrictOrderedRing K] in
theorem sqlCupedAdjO_eq (t : OTab S D K) : sqlCupedAdjO t = (cellKeysO t).map fun k => (k, sqlCupedValO t k) := by
  unfold sqlCupedAdjO sqlCupedValO
  apply List.map_congr_left
  intro k hk
  have h1 : k.1 ∈ (t.map (·.1.1)).dedup := by
    unfold cellKeysO at hk
    rw [List.mem_dedup] at hk ⊢
    obtain ⟨r, hr, rfl⟩ := List.mem_map.1 hk
    exact List.mem_map.2 ⟨r, hr, rfl⟩
  rw [lookup_keyed, if_pos h1]
  simp only [Option.bind_some, id]
  congr 2
  cases sqlThetaO (sliceO t k.1) with
  | none =>
    unfold meanO
    rw [if_pos]
    · rfl
    · unfold presentO
      rw [List.filterMap_map]
      simp [optMul]
  | some th =>
    have : ((cellO t k).map fun p => optMul (some th) p.2) = ((cellO t k).map (·.2)).map (Option.map (th * ·)) := by
      rw [List.map_map]
      apply List.map_congr_left
      intro p _
      cases h : p.2 <;> simp [optMul, h]
    rw [this, meanO_mul]
    cases meanO ((cellO t k).map (·.2)) <;> rfl

/-- The value of `compute_on`, with any slope. -/
def pyCupedValO (t : OTab S D K) (k : S × D) : Option K :=
  optSub (meanO ((cellO t k).map (·.1))) (optMul ((meanO ((cellO t k).map (·.2))).map (· - muO t k.1)) (pyThetaO (sliceO (centerO t) k.1)))

theorem mean_cell_center (t : OTab S D K) (k : S × D) :
    meanO ((cellO (centerO t) k).map (·.1)) = meanO ((cellO t k).map (·.1)) ∧
    meanO ((cellO (centerO t) k).map (·.2)) = (meanO ((cellO t k).map (·.2))).map (· - muO t k.1) := by
  rw [cell_centerO, List.map_map, List.map_map]
  refine ⟨rfl, ?_⟩
  rw [← meanO_sub, List.map_map]
  rfl

theorem pyCupedAdjO_eq (t : OTab S D K) : pyCupedAdjO t = (cellKeysO t).map fun k => (k, pyCupedValO t k) := by
  unfold pyCupedAdjO pyCupedValO
  simp only [keys_centerO]
  apply List.map_congr_left
  intro k _
  rw [(mean_cell_center t k).1, (mean_cell_center t k).2]

/-- If the slopes agree, the values differ by a number that depends on the slice only. -/
theorem cuped_valsO (t : OTab S D K) (k : S × D) (hth : pyThetaO (sliceO (centerO t) k.1) = sqlThetaO (sliceO t k.1)) :
    pyCupedValO t k = (sqlCupedValO t k).map (· + muO t k.1 * (sqlThetaO (sliceO t k.1)).getD 0) := by
  unfold pyCupedValO sqlCupedValO
  rw [hth]
  cases meanO ((cellO t k).map (·.1)) <;> cases meanO ((cellO t k).map (·.2)) <;> cases sqlThetaO (sliceO t k.1) <;>
    simp only [Option.map_none, Option.map_some, optMul, optSub, Option.getD_some, Option.getD_none]
  congr 1
  ring

theorem both_slice {t : OTab S D K} (h : BothOrNeither t) (s : S) : ∀ p ∈ sliceO (centerO t) s, p.1.isSome = p.2.isSome := by
  rw [slice_centerO]
  intro p hp
  obtain ⟨q, hq, rfl⟩ := List.mem_map.1 hp
  unfold sliceO at hq
  obtain ⟨r, hr, rfl⟩ := List.mem_map.1 hq
  simpa using h r (List.mem_of_mem_filter hr)

theorem both_cell {t : OTab S D K} (h : BothOrNeither t) (k : S × D) : ∀ p ∈ cellO (centerO t) k, p.1.isSome = p.2.isSome := by
  rw [cell_centerO]
  intro p hp
  obtain ⟨q, hq, rfl⟩ := List.mem_map.1 hp
  unfold cellO at hq
  obtain ⟨r, hr, rfl⟩ := List.mem_map.1 hq
  simpa using h r (List.mem_of_mem_filter hr)

/-- **C36** Adding a constant to the covariate does not change what `compute_on` returns, nor the query of PrePostChange, whatever is
missing. -/
theorem C36_missing_shift (δ : S → K) (b : D) (incl : Bool) (t : OTab S D K) :
    pyCupedO b incl (shiftXO δ t) = pyCupedO b incl t ∧ pyPrePostO b incl (shiftXO δ t) = pyPrePostO b incl t ∧
    sqlPrePostO b incl (shiftXO δ t) = sqlPrePostO b incl t := by
  unfold pyCupedO pyPrePostO sqlPrePostO pyCupedAdjO pyPrePostAdjO sqlPrePostAdjO
  rw [center_shiftO]
  exact ⟨rfl, rfl, rfl⟩

/-- **C36** Nor the query of CUPED. -/
theorem C36_missing_shift_sql (δ : S → K) (b : D) (incl : Bool) (t : OTab S D K) :
    sqlCupedO b incl (shiftXO δ t) = sqlCupedO b incl t := by
  have hk : cellKeysO (shiftXO δ t) = cellKeysO t := cellKeysO_map t (fun s p => (p.1, p.2.map (· + δ s)))
  have hs : ∀ s, sliceO (shiftXO δ t) s = (sliceO t s).map fun p => (p.1, p.2.map (· - (- δ s))) := by
    intro s
    simp only [sub_neg_eq_add]
    exact sliceO_map t s (fun s p => (p.1, p.2.map (· + δ s)))
  have hc : ∀ k, cellO (shiftXO δ t) k = (cellO t k).map fun p => (p.1, p.2.map (· - (- δ k.1))) := by
    intro k
    simp only [sub_neg_eq_add]
    exact cellO_map t k (fun s p => (p.1, p.2.map (· + δ s)))
  unfold sqlCupedO
  rw [sqlCupedAdjO_eq, sqlCupedAdjO_eq, hk, sqlChange_keyed optSub b incl (cellKeysO t) (List.nodup_dedup _), sqlChange_keyed optSub b incl (cellKeysO t) (List.nodup_dedup _)]
  congr 2
  apply List.map_congr_left
  intro k hkm
  rw [optSub_shift (cellKeysO t) (sqlCupedValO (shiftXO δ t)) (sqlCupedValO t) (fun s => - ((sqlThetaO (sliceO t s)).getD 0 * δ s)) ?_ b k hkm]
  intro k' _
  unfold sqlCupedValO
  rw [hs, hc, sqlThetaO_shift, List.map_map, List.map_map]
  have h1 : (cellO t k').map ((fun x : Option K × Option K => x.1) ∘ fun p => (p.1, p.2.map (· - (- δ k'.1)))) = (cellO t k').map (·.1) := rfl
  have h2 : (cellO t k').map ((fun x : Option K × Option K => x.2) ∘ fun p => (p.1, p.2.map (· - (- δ k'.1))))
      = ((cellO t k').map (·.2)).map (Option.map (· - (- δ k'.1))) := by rw [List.map_map]; rfl
  rw [h1, h2, meanO_sub]
  cases meanO ((cellO t k').map (·.1)) <;> cases meanO ((cellO t k').map (·.2)) <;> cases sqlThetaO (sliceO t k'.1) <;>
    simp only [Option.map_none, Option.map_some, optMul, optSub, Option.getD_some, Option.getD_none]
  congr 1
  ring

/-- **C36** Where every stratum has the metric and the covariate or neither, the queries return what `compute_on` returns, for the slices that
have the baseline. Missing for the full claim: strata with one of the two (`C36_missing_violation`). -/
theorem C36_missing_agrees_partial (b : D) (incl : Bool) (t : OTab S D K) (h : BothOrNeither t) :
    (∀ res, pyCupedO b incl t = some res → sqlCupedO b incl t = res.filter fun r => decide ((r.1.1, b) ∈ t.map (·.1))) ∧
    ∀ res, pyPrePostO b incl t = some res → sqlPrePostO b incl t = res.filter fun r => decide ((r.1.1, b) ∈ t.map (·.1)) := by
  have hmem : ∀ k, k ∈ cellKeysO t ↔ k ∈ t.map (·.1) := fun k => List.mem_dedup
  constructor
  · intro res hp
    unfold pyCupedO at hp
    rw [pyCupedAdjO_eq, pyChange_keyed] at hp
    split at hp
    · cases hp
    · rw [Option.some.injEq] at hp
      unfold sqlCupedO
      rw [sqlCupedAdjO_eq, sqlChange_keyed optSub b incl (cellKeysO t) (List.nodup_dedup _), ← hp]
      simp only [hmem]
      congr 2
      apply List.map_congr_left
      intro k hk
      have := optSub_shift (cellKeysO t) (pyCupedValO t) (sqlCupedValO t)
        (fun s => muO t s * (sqlThetaO (sliceO t s)).getD 0) (fun k _ => cuped_valsO t k (by
          rw [pyThetaO_eq (both_slice h k.1), slice_centerO, sqlThetaO_shift])) b k hk
      simp only [hmem] at this
      rw [this]
  · intro res hp
    have he : sqlPrePostAdjO t = pyPrePostAdjO t := by
      unfold sqlPrePostAdjO pyPrePostAdjO
      apply List.map_congr_left
      intro k _
      congr 2
      rw [pyThetaO_eq (both_cell h k)]
      unfold sqlThetaO
      cases meanO ((cellO (centerO t) k).map (·.2)) <;> cases sqlCovO (cellO (centerO t) k) <;> cases varO (cellO (centerO t) k) <;>
        simp only [optMul, nanDiv]
      · split
        · rfl
        · show some _ = some _
          congr 1
          ring
    unfold sqlPrePostO
    rw [he]
    unfold pyPrePostO at hp
    have hkeys : (pyPrePostAdjO t).map (·.1) = cellKeysO t := by
      unfold pyPrePostAdjO
      rw [List.map_map, keys_centerO]
      exact List.map_id _
    have hn : ((pyPrePostAdjO t).map (·.1)).Nodup := by rw [hkeys]; exact List.nodup_dedup _
    have h3 := C34_sql_agrees_partial b incl _ hn res
    rw [h3.1 hp]
    apply List.filter_congr
    intro r _
    rw [Bool.eq_iff_iff, decide_eq_true_iff, ← hmem, ← hkeys]
    generalize pyPrePostAdjO t = u
    induction u with
    | nil => simp
    | cons a u ih =>
      rw [List.lookup_cons]
      by_cases h : (r.1.1, b) = a.1
      · simp [h]
      · rw [beq_eq_false_iff_ne.2 h, ih]
        simp [h]

omit [LinearOrder K] [IsStrictOrderedRing K] [DecidableEq D] in
theorem slice_complete (t : ATab S D K) (s : S) : sliceO (complete t) s = (sliceXY t s).map fun p => (some p.1, some p.2) := by
  unfold sliceO sliceXY complete
  rw [List.filter_map, List.map_map, List.map_map]
  rfl

omit [LinearOrder K] [IsStrictOrderedRing K] in
theorem cell_complete (t : ATab S D K) (k : S × D) : cellO (complete t) k = (cellXY t k).map fun p => (some p.1, some p.2) := by
  unfold cellO cellXY complete
  rw [List.filter_map, List.map_map, List.map_map]
  rfl

omit [Field K] [LinearOrder K] [IsStrictOrderedRing K] in
theorem pairs_some (l : List (K × K)) : pairsO (l.map fun p => (some p.1, some p.2)) = l := by
  unfold pairsO
  rw [List.filterMap_map]
  induction l with
  | nil => rfl
  | cons p l ih => simp_all

omit [IsStrictOrderedRing K] in
theorem meanO_some {α : Type} (l : List α) (hl : l ≠ []) (f : α → K) : meanO (l.map fun a => some (f a)) = some (avgL (l.map f)) := by
  have : presentO (l.map fun a => some (f a)) = l.map f := by
    unfold presentO
    rw [List.filterMap_map]
    induction l with
    | nil => rfl
    | cons p l ih => cases l <;> simp_all
  unfold meanO
  rw [this, if_neg (by simpa using hl)]

theorem center_complete (t : ATab S D K) : centerO (complete t) = complete (centerX t) := by
  unfold centerO
  unfold complete centerX
  rw [List.map_map, List.map_map]
  apply List.map_congr_left
  intro r hr
  have h := slice_complete t r.1.1
  unfold complete at h
  have hne := slice_ne_nil (t := t) (k := r.1) (List.mem_map.2 ⟨r, hr, rfl⟩)
  simp only [Function.comp]
  rw [h, List.map_map]
  have := meanO_some (sliceXY t r.1.1) hne (·.2)
  have h2 : ((fun x : Option K × Option K => x.2) ∘ fun p : K × K => (some p.1, some p.2)) = fun p => some p.2 := rfl
  rw [h2, this]
  rfl

omit [LinearOrder K] [IsStrictOrderedRing K] in
theorem keys_complete (t : ATab S D K) : cellKeysO (complete t) = cellKeys t := by
  unfold cellKeysO cellKeys complete
  rw [List.map_map]
  rfl

theorem both_some (l : List (K × K)) : ∀ p ∈ l.map (fun p => (some p.1, some p.2)), p.1.isSome = p.2.isSome := by
  intro p hp
  obtain ⟨q, _, rfl⟩ := List.mem_map.1 hp
  rfl

theorem theta_some (l : List (K × K)) :
    pyThetaO (l.map fun p => (some p.1, some p.2)) = thetaOf l ∧ sqlThetaO (l.map fun p => (some p.1, some p.2)) = thetaOf l := by
  rw [pyThetaO_eq (both_some l), sqlThetaO_eq (both_some l), pairs_some]
  exact ⟨rfl, rfl⟩

theorem means_complete (t : ATab S D K) {k : S × D} (hk : k ∈ t.map (·.1)) :
    meanO ((cellO (complete t) k).map (·.1)) = some (avgL ((cellXY t k).map (·.1))) ∧
    meanO ((cellO (complete t) k).map (·.2)) = some (avgL ((cellXY t k).map (·.2))) := by
  rw [cell_complete, List.map_map, List.map_map]
  exact ⟨meanO_some _ (cell_ne_nil hk) (·.1), meanO_some _ (cell_ne_nil hk) (·.2)⟩

/-- **C36** With nothing missing the tables are those of the other theorems, in which `metrics.Cov` is the sample covariance. -/
theorem C36_missing_complete (b : D) (incl : Bool) (t : ATab S D K) :
    pyCupedO b incl (complete t) = pyCuped b incl t ∧ sqlCupedO b incl (complete t) = sqlCuped b incl t ∧
    pyPrePostO b incl (complete t) = pyPrePost b incl t ∧ sqlPrePostO b incl (complete t) = sqlPrePost b incl t := by
  have hc : ∀ k, k ∈ cellKeys (centerX t) → k ∈ (centerX t).map (·.1) := fun k hk => List.mem_dedup.1 hk
  have h1 : pyCupedAdjO (complete t) = pyCupedAdj t := by
    unfold pyCupedAdjO pyCupedAdj
    simp only [center_complete, keys_complete]
    apply List.map_congr_left
    intro k hk
    rw [(means_complete _ (hc k hk)).1, (means_complete _ (hc k hk)).2, slice_complete, (theta_some _).1]
    cases thetaOf (sliceXY (centerX t) k.1) <;> rfl
  have h2 : sqlCupedAdjO (complete t) = sqlCupedAdj t := by
    rw [sqlCupedAdjO_eq, sqlCupedAdj_eq, keys_complete]
    apply List.map_congr_left
    intro k hk
    have hk' := (mem_cellKeys t k).1 hk
    unfold sqlCupedValO sqlCupedVal
    rw [(means_complete _ hk').1, (means_complete _ hk').2, slice_complete, (theta_some _).2]
    cases thetaOf (sliceXY t k.1) <;> rfl
  have h3 : pyPrePostAdjO (complete t) = pyPrePostAdj t := by
    unfold pyPrePostAdjO pyPrePostAdj
    simp only [center_complete, keys_complete]
    apply List.map_congr_left
    intro k hk
    rw [(means_complete _ (hc k hk)).1, (means_complete _ (hc k hk)).2, cell_complete, (theta_some _).1]
    cases thetaOf (cellXY (centerX t) k) <;> rfl
  have h4 : sqlPrePostAdjO (complete t) = sqlPrePostAdj t := by
    unfold sqlPrePostAdjO sqlPrePostAdj
    simp only [center_complete, keys_complete]
    apply List.map_congr_left
    intro k hk
    rw [(means_complete _ (hc k hk)).1, (means_complete _ (hc k hk)).2, cell_complete]
    have hv : varO ((cellXY (centerX t) k).map fun p => (some p.1, some p.2)) = varSampX (cellXY (centerX t) k) := by
      unfold varO varSampX
      rw [(present_both (both_some _)).2, pairs_some, List.map_map]
      rfl
    rw [hv]
    unfold sqlCovO
    rw [pairs_some]
  unfold pyCupedO sqlCupedO pyPrePostO sqlPrePostO pyCuped sqlCuped pyPrePost sqlPrePost
  rw [h1, h2, h3, h4]
  exact ⟨rfl, rfl, rfl, rfl⟩

/-- **C66** Where every stratum has both values or neither, the slope that CUPED uses in a slice and the one that PrePostChange uses in a slice
and condition are those of the least squares lines through the strata that have them, after centring. -/
theorem C66_missing_slope_partial (t : OTab S D K) (h : BothOrNeither t) :
    (∀ s th, pyThetaO (sliceO (centerO t) s) = some th → IsSlope th (pairsO (sliceO (centerO t) s))) ∧
    ∀ k th, pyThetaO (cellO (centerO t) k) = some th → IsSlope th (pairsO (cellO (centerO t) k)) := by
  constructor
  · intro s th hth
    rw [pyThetaO_eq (both_slice h s), sqlThetaO_eq (both_slice h s)] at hth
    exact C66_theta_is_slope hth
  · intro k th hth
    rw [pyThetaO_eq (both_cell h k), sqlThetaO_eq (both_cell h k)] at hth
    exact C66_theta_is_slope hth

theorem covSamp_shift_y (l : List (K × K)) (c : K) : covSamp (l.map fun p => (p.1 + c, p.2)) = covSamp l := by
  unfold covSamp
  by_cases h : l.length ≤ 1
  · simp [h]
  · have hl : l ≠ [] := by rintro rfl; simp at h
    rw [List.length_map, if_neg h, if_neg h, List.map_map, List.map_map, List.map_map]
    have h2 : avgL (l.map ((fun x : K × K => x.1) ∘ fun p => (p.1 + c, p.2))) = avgL (l.map (·.1)) + c := avgL_add l hl (·.1) c
    have h3 : l.map ((fun x : K × K => x.2) ∘ fun p => (p.1 + c, p.2)) = l.map (·.2) := rfl
    rw [h2, h3]
    congr 3
    apply List.map_congr_left
    intro p _
    simp only [Function.comp]
    ring

/-- **C66** In SQL the adjusted change of CUPED does not change when a constant is added to the metric, whatever is missing, as it must be for an
adjustment by a regression. `compute_on` violates this: `C66_missing_level_violation`. -/
theorem C66_missing_level_sql (c : K) (b : D) (incl : Bool) (t : OTab S D K) : sqlCupedO b incl (shiftYO c t) = sqlCupedO b incl t := by
  have hk : cellKeysO (shiftYO c t) = cellKeysO t := cellKeysO_map t (fun _ p => (p.1.map (· + c), p.2))
  have hs : ∀ s, sliceO (shiftYO c t) s = (sliceO t s).map fun p => (p.1.map (· + c), p.2) := fun s =>
    sliceO_map t s (fun _ p => (p.1.map (· + c), p.2))
  have hc : ∀ k, cellO (shiftYO c t) k = (cellO t k).map fun p => (p.1.map (· + c), p.2) := fun k =>
    cellO_map t k (fun _ p => (p.1.map (· + c), p.2))
  have hth : ∀ l : List (Option K × Option K), sqlThetaO (l.map fun p => (p.1.map (· + c), p.2)) = sqlThetaO l := by
    intro l
    unfold sqlThetaO sqlCovO varO
    have h := pairs_map l (· + c) id
    simp only [Option.map_id, id] at h
    rw [h, covSamp_shift_y, List.map_map]
    rfl
  unfold sqlCupedO
  rw [sqlCupedAdjO_eq, sqlCupedAdjO_eq, hk, sqlChange_keyed optSub b incl (cellKeysO t) (List.nodup_dedup _),
    sqlChange_keyed optSub b incl (cellKeysO t) (List.nodup_dedup _)]
  congr 2
  apply List.map_congr_left
  intro k hkm
  rw [optSub_shift (cellKeysO t) (sqlCupedValO (shiftYO c t)) (sqlCupedValO t) (fun _ => c) ?_ b k hkm]
  intro k' _
  unfold sqlCupedValO
  rw [hs, hc, hth, List.map_map, List.map_map]
  have h1 : (cellO t k').map ((fun x : Option K × Option K => x.1) ∘ fun p => (p.1.map (· + c), p.2))
      = ((cellO t k').map (·.1)).map (Option.map (· - (-c))) := by
    rw [List.map_map]
    simp only [sub_neg_eq_add]
    rfl
  have h2 : (cellO t k').map ((fun x : Option K × Option K => x.2) ∘ fun p => (p.1.map (· + c), p.2)) = (cellO t k').map (·.2) := rfl
  rw [h1, h2, meanO_sub]
  cases meanO ((cellO t k').map (·.1)) <;> cases meanO ((cellO t k').map (·.2)) <;> cases sqlThetaO (sliceO t k'.1) <;>
    simp only [Option.map_none, Option.map_some, optMul, optSub]
  congr 1
  ring

end

/-- Two strata per condition and one in which only the covariate is known, as for a user seen in the first period only. -/
def exMissing : OTab Unit Nat ℚ :=
  [(((), 0), (some 10, some 1)), (((), 0), (some 12, some 3)), (((), 0), (none, some 5)), (((), 1), (some 14, some 2)),
    (((), 1), (some 18, some 6))]

/-- **C36** violated: where a stratum has the covariate but not the metric, `compute_on` and SQL disagree, for CUPED and for PrePostChange:
`metrics.Cov` subtracts the product of the averages over all values present, `COVAR_SAMP` of those of the complete rows. -/
theorem C36_missing_violation :
    pyCupedO 0 false exMissing = some [(((), 1), some (661 / 129))] ∧ sqlCupedO 0 false exMissing = [(((), 1), some (445 / 129))] ∧
    pyPrePostO 0 false exMissing = some [(((), 1), some (640 / 9))] ∧ sqlPrePostO 0 false exMissing = [(((), 1), some (75 / 2))] := by
  refine ⟨by decide +kernel, by decide +kernel, by decide +kernel, by decide +kernel⟩

/-- Two strata per condition and one in which only the metric is known, as for a user seen in the second period only. -/
def exMissingX : OTab Unit Nat ℚ :=
  [(((), 0), (some 10, some 1)), (((), 0), (some 12, some 3)), (((), 0), (some 20, none)), (((), 1), (some 14, some 2)),
    (((), 1), (some 18, some 6))]

/-- **C36** violated likewise where a stratum has the metric but not the covariate: `metrics.Cov` divides by the number of metric values. -/
theorem C36_missing_covariate_violation :
    pyCupedO 0 false exMissingX = some [(((), 1), some (-19 / 28))] ∧ sqlCupedO 0 false exMissingX = [(((), 1), some (-6 / 7))] ∧
    pyPrePostO 0 false exMissingX = some [(((), 1), some (-200 / 17))] ∧ sqlPrePostO 0 false exMissingX = [(((), 1), some 0)] := by
  refine ⟨by decide +kernel, by decide +kernel, by decide +kernel, by decide +kernel⟩

/-- **C66** violated: there, the slope that `compute_on` uses is negative although the line through the strata with both values rises, and adding
100 to the metric everywhere moves the adjusted change from about 5 to about 18. -/
theorem C66_missing_level_violation :
    (∃ th, pyThetaO (sliceO (centerO exMissing) ()) = some th ∧ th < 0 ∧ ∀ th', IsSlope th' (pairsO (sliceO (centerO exMissing) ())) → 0 < th') ∧
    pyCupedO 0 false exMissing = some [(((), 1), some (661 / 129))] ∧
    pyCupedO 0 false (shiftYO 100 exMissing) = some [(((), 1), some (2261 / 129))] := by
  refine ⟨⟨-16 / 129, by decide +kernel, by norm_num, ?_⟩, by decide +kernel, by decide +kernel⟩
  intro th' h
  have hs : IsSlope (10 / 7 : ℚ) (pairsO (sliceO (centerO exMissing) ())) := C66_theta_is_slope (by decide +kernel)
  obtain ⟨c, hc⟩ := h.1
  rw [hs.2 th' c hc]
  norm_num

/-- The hypotheses are met: a condition with a stratum that has neither. -/
example : BothOrNeither ([(((), 0), (some 10, some 1)), (((), 0), (some 12, some 3)), (((), 0), (none, none)), (((), 1), (some 14, some 2)),
    (((), 1), (some 18, some 6))] : OTab Unit Nat ℚ) := by
  unfold BothOrNeither
  decide +kernel

end Verif
