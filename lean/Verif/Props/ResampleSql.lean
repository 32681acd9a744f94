import Verif.Model.Resample
import Verif.Spec.Resample
import Mathlib.Analysis.Complex.ExponentialBounds
import Mathlib.Analysis.SpecialFunctions.Exp
import Mathlib.Tactic.IntervalCases

/-!
# C55 to C59: resampling in SQL, the sample cache, names of preaggregated columns
-/

namespace Verif

/-! ## C55: what is hashed for the weights -/

theorem toDigits_inj {a b : Nat} (h : Nat.toDigits 10 a = Nat.toDigits 10 b) : a = b := by
  have ha := Nat.ofDigitChars_toDigits (b := 10) (n := a) (by decide) (by decide)
  have hb := Nat.ofDigitChars_toDigits (b := 10) (n := b) (by decide) (by decide)
  rw [← ha, h, hb]

theorem hashText_idx (slice : List Nat) (unit i j : Nat) (h : hashText slice unit i = hashText slice unit j) : i = j := by
  unfold hashText at h
  simp only [List.flatMap_append, List.flatMap_cons, List.flatMap_nil, List.append_nil] at h
  exact toDigits_inj (List.append_cancel_left (List.append_cancel_left h))

/-- Within one query, a unit's replicates have different texts. -/
theorem C55_within_batch_partial (slice : List Nat) (unit n bs : Nat) (hn : n ≤ bs) (hb : 0 < bs) :
    (hashTexts slice unit n bs).Nodup ∧ (hashTexts slice unit n bs).length = n := by
  have hone : ∀ m, ((replicateIdx m).map fun i => hashText slice unit i).Nodup := by
    intro m
    apply List.Nodup.map (fun i j h => hashText_idx slice unit i j h)
    exact List.Nodup.map (fun a b h => by simpa using h) List.nodup_range
  have hlen : ∀ m, ((replicateIdx m).map fun i => hashText slice unit i).length = m := by
    intro m; simp [replicateIdx]
  unfold hashTexts bsBatches
  rcases Nat.lt_or_eq_of_le hn with hlt | rfl
  · rw [Nat.div_eq_of_lt hlt, Nat.mod_eq_of_lt hlt]
    by_cases h0 : n = 0
    · subst h0; simp
    · rw [if_neg h0]
      simpa using ⟨by simpa using hone n, by simpa using hlen n⟩
  · rw [Nat.div_self hb, Nat.mod_self]
    simpa using ⟨by simpa using hone n, by simpa using hlen n⟩

/-- Across queries they repeat: whatever the unit, replicate `bs + i` of the second query has the text, and so the
weights, of replicate `i`. -/
theorem C55_violation_batches (slice : List Nat) (unit bs : Nat) (hb : 0 < bs) :
    ¬ (hashTexts slice unit (2 * bs) bs).Nodup ∧
    hashTexts slice unit (2 * bs) bs = hashTexts slice unit bs bs ++ hashTexts slice unit bs bs := by
  have h : hashTexts slice unit (2 * bs) bs = hashTexts slice unit bs bs ++ hashTexts slice unit bs bs := by
    unfold hashTexts bsBatches
    rw [Nat.mul_div_cancel _ hb, Nat.mul_mod_left, Nat.div_self hb, Nat.mod_self]
    simp [List.replicate_succ]
  refine ⟨?_, h⟩
  rw [h, List.nodup_append]
  rintro ⟨-, -, hd⟩
  have hl := (C55_within_batch_partial slice unit bs bs (le_refl _) hb).2
  cases hc : hashTexts slice unit bs bs with
  | nil => rw [hc] at hl; simp at hl; omega
  | cons a l =>
    rw [hc] at hd
    exact hd a List.mem_cons_self a List.mem_cons_self rfl

/-- Different units can share a text, already in one query: unit 1 in replicate 11 and unit 11 in replicate 1. -/
theorem C55_violation_units :
    hashText [] 1 11 = hashText [] 11 1 ∧ hashText [2] 34 5 = hashText [23] 4 5 := by
  constructor <;> decide +kernel

/-! ## C56: the weights are Poisson(1) -/

theorem caseWeight_spec (v : ℚ) (cs : List ℚ) (i : Nat) (hs : cs.Pairwise (· ≤ ·)) :
    i ≤ caseWeight v i cs ∧ caseWeight v i cs ≤ i + cs.length ∧
    (∀ j (h : j < cs.length), v ≤ cs[j] ↔ caseWeight v i cs ≤ i + j) := by
  induction cs generalizing i with
  | nil => exact ⟨le_refl _, le_refl _, fun j h => by simp at h⟩
  | cons c cs ih =>
    rw [List.pairwise_cons] at hs
    by_cases hv : v ≤ c
    · rw [caseWeight, if_pos hv]
      refine ⟨le_refl _, by simp, fun j hj => ⟨fun _ => by omega, fun _ => ?_⟩⟩
      cases j with
      | zero => exact hv
      | succ j =>
        rw [List.getElem_cons_succ]
        exact le_trans hv (hs.1 _ (List.getElem_mem _))
    · rw [caseWeight, if_neg hv]
      obtain ⟨h1, h2, h3⟩ := ih (i + 1) hs.2
      refine ⟨by omega, by simp only [List.length_cons]; omega, fun j hj => ?_⟩
      cases j with
      | zero =>
        rw [List.getElem_cons_zero]
        exact ⟨fun h => absurd h hv, fun h => by omega⟩
      | succ j =>
        rw [List.getElem_cons_succ, h3 j (by simpa using hj)]
        constructor <;> intro h <;> omega

theorem cutoffs_sorted : poissonCutoffs.Pairwise (· ≤ ·) := by
  unfold poissonCutoffs
  decide +kernel

/-- The weight is at most `k` exactly if the uniform variable is at most the `k`th cutoff. -/
theorem C56_case (v : ℚ) (k : Nat) (h : k < poissonCutoffs.length) :
    sqlPoissonWeight v ≤ k ↔ v ≤ poissonCutoffs[k] := by
  have hs := cutoffs_sorted
  unfold sqlPoissonWeight
  revert h hs
  generalize poissonCutoffs = cs
  intro h hs
  cases cs with
  | nil => simp at h
  | cons c0 cs =>
    rw [List.pairwise_cons] at hs
    dsimp only
    by_cases hv : v > c0
    · rw [if_pos hv]
      obtain ⟨h1, h2, h3⟩ := caseWeight_spec v cs 1 hs.2
      cases k with
      | zero =>
        rw [List.getElem_cons_zero]
        exact ⟨fun h => by omega, fun h => absurd h (not_le.2 hv)⟩
      | succ k =>
        rw [List.getElem_cons_succ, h3 k (by simpa using h)]
        constructor <;> intro h <;> omega
    · rw [if_neg hv]
      rw [not_lt] at hv
      refine ⟨fun _ => ?_, fun _ => Nat.zero_le _⟩
      cases k with
      | zero => exact hv
      | succ k => exact le_trans hv (hs.1 _ (List.getElem_mem _))

/-- The weight never exceeds 18. -/
theorem C56_max (v : ℚ) : sqlPoissonWeight v ≤ 18 := by
  unfold sqlPoissonWeight
  have hl : poissonCutoffs.length = 18 := rfl
  have hs := cutoffs_sorted
  revert hl hs
  generalize poissonCutoffs = cs
  intro hl hs
  cases cs with
  | nil => simp at hl
  | cons c0 cs =>
    rw [List.pairwise_cons] at hs
    dsimp only
    split
    · have := (caseWeight_spec v cs 1 hs.2).2.1
      simp at hl
      omega
    · omega

theorem exp_neg_one_bounds :
    |Real.exp (-1) - 36787944117144232159 / 10 ^ 20| ≤ 1 / 10 ^ 18 := by
  have h := Real.exp_bound (x := -1) (by norm_num) (n := 22) (by norm_num)
  rw [abs_le] at h ⊢
  simp only [Finset.sum_range_succ, Finset.sum_range_zero, Nat.factorial] at h
  norm_num at h ⊢
  constructor <;> linarith [h.1, h.2]

/-- Each cutoff is the probability that a Poisson(1) variable is at most `k`, to 15 decimals. -/
theorem C56_cutoffs (k : Nat) (h : k < poissonCutoffs.length) :
    |((poissonCutoffs[k] : ℚ) : ℝ) - poissonCdf k| ≤ 1 / 10 ^ 15 := by
  have hb := exp_neg_one_bounds
  have hl : poissonCutoffs.length = 18 := rfl
  rw [abs_le] at hb ⊢
  have hk : k < 18 := by rw [← hl]; exact h
  unfold poissonCdf
  norm_num at hb
  interval_cases k <;>
    simp only [poissonCutoffs, List.getElem_cons_zero, List.getElem_cons_succ, List.range_succ, List.range_zero,
      List.map_append, List.map_cons, List.map_nil, List.nil_append, List.sum_append, List.sum_cons, List.sum_nil,
      List.cons_append, Nat.factorial] <;>
    norm_num <;> constructor <;> linarith [hb.1, hb.2]

/-- The hashed variable lies in (-2^-64, 1): no hash is out of range. -/
theorem C56_uniform (h : ℤ) (h1 : -2 ^ 63 ≤ h) (h2 : h < 2 ^ 63) : -(1 / 2 ^ 64) < hashUniform h ∧ hashUniform h < 1 := by
  unfold hashUniform
  have e1 : (-2 ^ 63 : ℚ) ≤ (h : ℚ) := by exact_mod_cast h1
  have e2 : (h : ℚ) ≤ 2 ^ 63 - 1 := by
    have : h ≤ 2 ^ 63 - 1 := by omega
    exact_mod_cast this
  constructor
  · have : (-2 ^ 63 : ℚ) / (2 ^ 64 - 1) ≤ (h : ℚ) / (2 ^ 64 - 1) := by
      apply div_le_div_of_nonneg_right e1; norm_num
    have e3 : -(1 / 2 ^ 64 : ℚ) < (-2 ^ 63 : ℚ) / (2 ^ 64 - 1) + 1 / 2 := by norm_num
    linarith
  · have : (h : ℚ) / (2 ^ 64 - 1) ≤ (2 ^ 63 - 1 : ℚ) / (2 ^ 64 - 1) := by
      apply div_le_div_of_nonneg_right e2; norm_num
    have e3 : (2 ^ 63 - 1 : ℚ) / (2 ^ 64 - 1) + 1 / 2 < 1 := by norm_num
    linarith

example : sqlPoissonWeight (1 / 3) = 0 ∧ sqlPoissonWeight (1 / 2) = 1 ∧ sqlPoissonWeight (95 / 100) = 3 ∧
    sqlPoissonWeight 1 = 18 := by decide +kernel

/-! ## C57: size and members of a resample in SQL -/

theorem zipIdx_filter {α : Type} (l : List α) (k : Nat) (c : ℤ) (h1 : (k : ℤ) ≤ c) (h2 : c < k + l.length) :
    ∃ x ∈ l, ((l.zipIdx k).filterMap fun p => if (p.2 : ℤ) = c then some p.1 else none) = [x] := by
  induction l generalizing k with
  | nil => simp at h2; omega
  | cons a l ih =>
    rw [List.zipIdx_cons, List.filterMap_cons]
    by_cases hk : (k : ℤ) = c
    · refine ⟨a, List.mem_cons_self, ?_⟩
      have hrest : ((l.zipIdx (k + 1)).filterMap fun p => if (p.2 : ℤ) = c then some p.1 else none) = [] := by
        rw [List.filterMap_eq_nil_iff]
        rintro ⟨x, j⟩ hj
        have := List.le_snd_of_mem_zipIdx hj
        rw [if_neg]
        simp only at this ⊢
        omega
      simp [hk, hrest]
    · have : ((k + 1 : Nat) : ℤ) ≤ c := by push_cast; omega
      obtain ⟨x, hx, he⟩ := ih (k + 1) this (by simp at h2 ⊢; omega)
      refine ⟨x, List.mem_cons_of_mem _ hx, ?_⟩
      simp [hk, he]

theorem zipIdx_filter_none {α : Type} (l : List α) (k : Nat) (c : ℤ) (h : c < k) :
    ((l.zipIdx k).filterMap fun p => if (p.2 : ℤ) = c then some p.1 else none) = [] := by
  rw [List.filterMap_eq_nil_iff]
  rintro ⟨x, j⟩ hj
  have := List.le_snd_of_mem_zipIdx hj
  rw [if_neg]
  simp only at this ⊢
  omega

/-- If no draw of `RAND()` is exactly 0, a resample has as many rows as the data, each a row of the data. -/
theorem C57_size_partial {α : Type} (cands : List α) (rand : Nat → ℝ)
    (h : ∀ i < cands.length, 0 < rand i ∧ rand i ≤ 1) :
    (sqlDraw cands rand).length = cands.length ∧ ∀ x ∈ sqlDraw cands rand, x ∈ cands := by
  have key : ∀ i < cands.length, ∃ x ∈ cands,
      ((cands.zipIdx 1).filterMap fun p => if (p.2 : ℤ) = ⌈rand i * (cands.length : ℝ)⌉ then some p.1 else none) = [x] := by
    intro i hi
    have hn : (0 : ℝ) < cands.length := by exact_mod_cast Nat.lt_of_le_of_lt (Nat.zero_le _) hi
    apply zipIdx_filter
    · have : (0 : ℤ) < ⌈rand i * (cands.length : ℝ)⌉ := Int.ceil_pos.2 (mul_pos (h i hi).1 hn)
      push_cast; omega
    · have : ⌈rand i * (cands.length : ℝ)⌉ ≤ (cands.length : ℤ) := by
        rw [Int.ceil_le]
        push_cast
        have := mul_le_mul_of_nonneg_right (h i hi).2 hn.le
        linarith
      push_cast; omega
  constructor
  · unfold sqlDraw
    rw [List.length_flatMap]
    have : ((List.range cands.length).map fun i => ((cands.zipIdx 1).filterMap fun p =>
        if (p.2 : ℤ) = ⌈rand i * (cands.length : ℝ)⌉ then some p.1 else none).length)
        = (List.range cands.length).map fun _ => 1 := by
      apply List.map_congr_left
      intro i hi
      obtain ⟨x, _, hx⟩ := key i (List.mem_range.1 hi)
      rw [hx]; rfl
    rw [this]
    simp
  · intro x hx
    unfold sqlDraw at hx
    obtain ⟨i, hi, hx⟩ := List.mem_flatMap.1 hx
    obtain ⟨y, hy, he⟩ := key i (List.mem_range.1 hi)
    rw [he, List.mem_singleton] at hx
    rw [hx]; exact hy

/-- Every candidate can be drawn: candidate number `j` is drawn by row `i` exactly if `RAND()` falls in the `j`th of `n`
equal parts. -/
theorem C57_uniform {α : Type} (cands : List α) (r : ℝ) (j : Nat) :
    ((j + 1 : ℕ) : ℤ) = ⌈r * (cands.length : ℝ)⌉ ↔ (j : ℝ) < r * cands.length ∧ r * cands.length ≤ j + 1 := by
  rw [eq_comm, Int.ceil_eq_iff]
  push_cast
  constructor <;> rintro ⟨h1, h2⟩ <;> constructor <;> linarith

/-- BigQuery's `RAND()` can return 0. Then the draw is lost and the resample is too small. -/
theorem C57_violation_zero {α : Type} (cands : List α) (hne : cands ≠ []) (rand : Nat → ℝ)
    (h : ∀ i < cands.length, 0 ≤ rand i ∧ rand i ≤ 1) (h0 : rand 0 = 0) :
    (sqlDraw cands rand).length < cands.length := by
  have hpos : 0 < cands.length := List.length_pos_iff.2 hne
  have hle : ∀ i, ((cands.zipIdx 1).filterMap fun p =>
      if (p.2 : ℤ) = ⌈rand i * (cands.length : ℝ)⌉ then some p.1 else none).length ≤ 1 := by
    intro i
    by_cases hc : (1 : ℤ) ≤ ⌈rand i * (cands.length : ℝ)⌉ ∧ ⌈rand i * (cands.length : ℝ)⌉ < 1 + cands.length
    · obtain ⟨x, _, hx⟩ := zipIdx_filter cands 1 _ (by exact_mod_cast hc.1) (by exact_mod_cast hc.2)
      rw [hx]; simp
    · rw [(List.filterMap_eq_nil_iff).2]
      · simp
      · rintro ⟨x, k⟩ hk
        have g1 := List.le_snd_of_mem_zipIdx hk
        have g2 := List.snd_lt_of_mem_zipIdx hk
        rw [if_neg]
        intro he
        apply hc
        simp only at he g1 g2
        rw [← he]
        constructor
        · exact_mod_cast g1
        · push_cast; omega
  unfold sqlDraw
  rw [List.length_flatMap]
  obtain ⟨n, hn⟩ : ∃ n, cands.length = n + 1 := ⟨cands.length - 1, by omega⟩
  have hz : ((cands.zipIdx 1).filterMap fun p =>
      if (p.2 : ℤ) = ⌈rand 0 * (cands.length : ℝ)⌉ then some p.1 else none) = [] := by
    apply zipIdx_filter_none
    rw [h0]; simp
  have hsum : ∀ (l : List Nat) (f : Nat → Nat), (∀ i, f i ≤ 1) → (l.map f).sum ≤ l.length := by
    intro l f hf
    induction l with
    | nil => simp
    | cons a l ih => simp only [List.map_cons, List.sum_cons, List.length_cons]; have := hf a; omega
  have hr : List.range cands.length = 0 :: (List.range n).map Nat.succ := by
    rw [hn, List.range_succ_eq_map]
  rw [hr, List.map_cons, List.sum_cons, hz, List.length_nil, Nat.zero_add]
  refine lt_of_le_of_lt (hsum _ _ hle) ?_
  rw [List.length_map, List.length_range]
  omega

/-- By unit: without missing units both sides draw from the same units and a resample is the rows of the units drawn. -/
theorem C57_units_partial {U R : Type} [DecidableEq U] (unit : R → Option U) (t : List R)
    (h : ∀ r ∈ t, unit r ≠ none) :
    (∀ u, u ∈ sqlCandidates unit t ↔ ∃ x ∈ pyCandidates unit t, u = some x) ∧
    ∀ draws : List U, (∀ u ∈ draws, u ∈ pyCandidates unit t) →
      sqlBsRows unit t (draws.map some)
        = (draws.flatMap fun u => t.filter fun r => decide (unit r = some u)).map some := by
  constructor
  · intro u
    unfold sqlCandidates pyCandidates
    simp only [List.mem_dedup, List.mem_map, List.mem_filterMap]
    constructor
    · rintro ⟨r, hr, rfl⟩
      cases hu : unit r with
      | none => exact absurd hu (h r hr)
      | some x => exact ⟨x, ⟨r, hr, hu⟩, rfl⟩
    · rintro ⟨x, ⟨r, hr, hx⟩, rfl⟩
      exact ⟨r, hr, hx⟩
  · intro draws hd
    induction draws with
    | nil => rfl
    | cons u draws ih =>
      have h1 := ih fun v hv => hd v (List.mem_cons_of_mem _ hv)
      unfold sqlBsRows at h1 ⊢
      rw [List.map_cons, List.flatMap_cons, List.flatMap_cons, List.map_append, h1]
      congr 1
      dsimp only
      have hu := hd u List.mem_cons_self
      unfold pyCandidates at hu
      rw [List.mem_dedup, List.mem_filterMap] at hu
      obtain ⟨r, hr, hru⟩ := hu
      cases hc : t.filter fun r => decide (unit r = some u) with
      | nil =>
        rw [List.filter_eq_nil_iff] at hc
        exact absurd (by simpa using hru) (hc r hr)
      | cons a l => rfl

/-- A missing unit is a candidate in SQL and not in Python, and drawing it adds a row without values. -/
theorem C57_violation_null :
    ∃ (t : List (Option Nat × Nat)), none ∈ sqlCandidates (·.1) t ∧ (sqlCandidates (·.1) t).length ≠ (pyCandidates (·.1) t).length ∧
      none ∈ sqlBsRows (·.1) t [none, some 1] :=
  ⟨[(some 1, 5), (none, 7)], by decide +kernel⟩

/-! ## C58: the sample cache -/

theorem runSamples_sound {U X : Type} [DecidableEq U] (child : Drawn U → X) (col : Nat) (ds : List (Drawn U))
    (hcol : ∀ d ∈ ds, d.unitCol = col) (cache : List (List U × X))
    (hc : ∀ p ∈ cache, p.2 = child ⟨col, p.1⟩) :
    (runSamples child cache ds).1 = ds.map child := by
  induction ds generalizing cache with
  | nil => rfl
  | cons d ds ih =>
    have hd : d = ⟨col, d.draws⟩ := by
      obtain ⟨c, l⟩ := d
      have := hcol ⟨c, l⟩ List.mem_cons_self
      simp only at this
      rw [this]
    have hrest : ∀ d ∈ ds, d.unitCol = col := fun d h => hcol d (List.mem_cons_of_mem _ h)
    rw [runSamples]
    split
    · next x hx =>
      have hm : (d.draws, x) ∈ cache := by
        clear ih hc hcol hrest hd
        induction cache with
        | nil => simp at hx
        | cons p cache ih =>
          obtain ⟨k, y⟩ := p
          rw [List.lookup_cons] at hx
          by_cases hk : d.draws = k
          · subst hk
            simp at hx
            rw [hx]; exact List.mem_cons_self
          · have : (d.draws == k) = false := by simpa using hk
            rw [this] at hx
            exact List.mem_cons_of_mem _ (ih hx)
      have hx' := hc _ hm
      dsimp only at hx' ⊢
      rw [List.map_cons, ih hrest cache hc, hx', ← hd]
    · dsimp only
      rw [List.map_cons, ih hrest]
      intro p hp
      rcases List.mem_cons.1 hp with rfl | hp
      · dsimp only; rw [← hd]
      · exact hc p hp

/-- One resampler: every sample gets the child's value on that sample, cached or not. -/
theorem C58_one_unit_partial {U X : Type} [DecidableEq U] (child : Drawn U → X) (col : Nat) (ds : List (Drawn U))
    (h : ∀ d ∈ ds, d.unitCol = col) : (runSamples child [] ds).1 = ds.map child :=
  runSamples_sound child col ds h [] (fun p hp => by cases hp)

example : (runSamples (fun d : Drawn Nat => d.draws.sum) [] [⟨0, [1, 2]⟩, ⟨0, [1, 1]⟩, ⟨0, [1, 2]⟩]).1 = [3, 2, 3] := by
  decide +kernel

/-- Two resamplers with the same child but different unit columns, in one tree: the second gets the values of the
first. -/
theorem C58_violation_two_units :
    ∃ (child : Drawn Nat → Nat) (ds : List (Drawn Nat)), (runSamples child [] ds).1 ≠ ds.map child :=
  ⟨fun d => if d.unitCol = 0 then d.draws.sum else 10 * d.draws.sum, [⟨0, [1, 2]⟩, ⟨1, [1, 2]⟩], by decide +kernel⟩

/-! ## C59: columns of preaggregated data -/

/-- Two leaves over different columns get the same preaggregated column, so one reads the other's numbers. -/
theorem C59_violation_names :
    preaggVar "sum".toList "a b".toList none = preaggVar "sum".toList "a_b".toList none ∧
    preaggVar "sum".toList "a b".toList none ≠ none := by
  constructor <;> decide +kernel

/-- In SQL, a grouping column whose name starts like that of a sum is multiplied by the weights. -/
theorem C59_violation_sql_multiplied : "count_group" ∈ sqlMultiplied ["country"] ["country", "count_group", "unit", "sum_x"] := by
  decide +kernel

/-- If no grouping column is named like that, exactly the sums and counts are multiplied. -/
theorem C59_sql_multiplied_partial (splitBy group sums others : List String)
    (hg : ∀ c ∈ group, c ∈ splitBy ∨ (c.startsWith "sum_" = false ∧ c.startsWith "count_" = false))
    (hs : ∀ c ∈ sums, c ∉ splitBy ∧ (c.startsWith "sum_" = true ∨ c.startsWith "count_" = true))
    (ho : ∀ c ∈ others, c.startsWith "sum_" = false ∧ c.startsWith "count_" = false) :
    sqlMultiplied splitBy (group ++ sums ++ others) = sums := by
  unfold sqlMultiplied
  rw [List.filter_append, List.filter_append]
  have e1 : group.filter (fun c => !(decide (c ∈ splitBy)) && (c.startsWith "sum_" || c.startsWith "count_")) = [] := by
    rw [List.filter_eq_nil_iff]
    intro c hc
    rcases hg c hc with h | ⟨h1, h2⟩
    · simp [h]
    · simp [h1, h2]
  have e2 : sums.filter (fun c => !(decide (c ∈ splitBy)) && (c.startsWith "sum_" || c.startsWith "count_")) = sums := by
    rw [List.filter_eq_self]
    intro c hc
    obtain ⟨h1, h2⟩ := hs c hc
    rcases h2 with h2 | h2 <;> simp [h1, h2]
  have e3 : others.filter (fun c => !(decide (c ∈ splitBy)) && (c.startsWith "sum_" || c.startsWith "count_")) = [] := by
    rw [List.filter_eq_nil_iff]
    intro c hc
    obtain ⟨h1, h2⟩ := ho c hc
    simp [h1, h2]
  rw [e1, e2, e3]
  simp

example : sqlMultiplied ["country"] (["country", "grp", "unit"] ++ ["sum_x", "count_x"] ++ ["max_x"]) = ["sum_x", "count_x"] := by
  decide +kernel

end Verif
