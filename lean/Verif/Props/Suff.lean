import Verif.Lemmas.SuffNames

/-!
# C47: the matrices are rebuilt from the statistics

/repo/models.py:550-608.
-/

namespace Verif

/-- **C47.** Given the entries on and above the diagonal of a square matrix of any size, row by row, `symmetrize_triangular`
gives the matrix of that size which has these entries and is symmetric. -/
theorem C47_symmetrize {K : Type} [Ring K] (n : ℕ) (f : ℕ → ℕ → K) :
    ∃ M, symmetrize (upperTriangle n f) = some (n, M) ∧ ∀ i j, i ≤ j → j < n → M i j = f i j ∧ M j i = f i j := by
  rw [← triu_map]; exact symmetrize_triu n f

/-- Every list of triangular length is such a list of entries. -/
theorem exists_upperTriangle {K : Type} [Ring K] (l : List K) (n : ℕ) (h : 2 * l.length = n * (n + 1)) :
    ∃ f : ℕ → ℕ → K, l = upperTriangle n f := by
  have hlen : l.length = (triu n).length := by have := length_triu n; omega
  refine ⟨fun i j => l.getD ((triu n).idxOf (i, j)) 0, ?_⟩
  rw [← triu_map]
  apply List.ext_getElem (by simpa using hlen)
  intro t h1 h2
  have h3 : t < (triu n).length := by omega
  have : (triu n).idxOf ((triu n)[t]) = t := (nodup_triu n).idxOf_getElem t h3
  simp [this, h1]

/-- **C47.** A list is accepted exactly when its length is a triangular number; then the result is the symmetric matrix whose
upper triangle is the list. -/
theorem C47_iff {K : Type} [Ring K] (l : List K) :
    ((∃ n : ℕ, 2 * l.length = n * (n + 1)) ↔ symmetrize l ≠ none) ∧
    ∀ n M, symmetrize l = some (n, M) → 2 * l.length = n * (n + 1) ∧ (∀ i j, i < n → j < n → M i j = M j i) ∧
      upperTriangle n M = l := by
  constructor
  · constructor
    · rintro ⟨n, h⟩
      obtain ⟨f, rfl⟩ := exists_upperTriangle l n h
      obtain ⟨M, hM, _⟩ := C47_symmetrize n f
      simp [hM]
    · intro h
      by_contra hc
      push Not at hc
      apply h
      rw [symmetrize]
      simp only
      rw [if_pos]
      exact fun e => hc _ e.symm
  · intro n M h
    have h2 : 2 * l.length = n * (n + 1) := by
      rw [symmetrize] at h
      simp only at h
      split at h
      · exact absurd h (by simp)
      · rename_i hh
        push Not at hh
        simp only [Option.some.injEq, Prod.mk.injEq] at h
        rw [← h.1]; exact hh.symm
    obtain ⟨f, rfl⟩ := exists_upperTriangle l n h2
    obtain ⟨M', hM', hf⟩ := C47_symmetrize n f
    rw [hM'] at h
    simp only [Option.some.injEq, Prod.mk.injEq, true_and] at h
    subst h
    refine ⟨h2, fun i j hi hj => ?_, ?_⟩
    · rcases le_total i j with h | h
      · rw [(hf i j h hj).1, (hf i j h hj).2]
      · rw [(hf j i h hi).1, (hf j i h hi).2]
    · rw [← triu_map, ← triu_map]
      apply List.map_congr_left
      rintro ⟨i, j⟩ hp
      rw [mem_triu] at hp
      exact (hf i j hp.1 hp.2).1

example : symmetrize ([1, 2] : List ℚ) = none := by decide +kernel
example : (symmetrize ([1, 2, 3] : List ℚ)).map (fun p => (p.1, p.2 0 0, p.2 0 1, p.2 1 0, p.2 1 1)) = some (2, 1, 2, 2, 3) := by
  decide +kernel

/-! ## The matrices of the regression -/

theorem triu_succ (k : ℕ) : triu (k + 1) =
    (0, 0) :: ((List.range k).map (fun i => (0, i + 1)) ++ (triu k).map fun p => (p.1 + 1, p.2 + 1)) := by
  rw [triu, List.range_succ_eq_map, List.flatMap_cons, List.flatMap_map, Nat.sub_zero, List.range_succ_eq_map]
  simp only [List.map_cons, List.map_map, Nat.zero_add, List.cons_append, triu, List.map_flatMap, List.cons.injEq, true_and]
  congr 1
  apply List.flatMap_congr
  intro i _
  rw [Nat.succ_eq_add_one, Nat.add_sub_add_right]
  apply List.map_congr_left
  intro j _
  simp only [Function.comp, Prod.mk.injEq, true_and]
  omega

/-- The columns before the statistics, the split columns, do not have their names. -/
def NoClash (pre : Series ℝ) (k : ℕ) (fit nobs : Bool) (rows : List RegRow) : Prop :=
  ∀ p ∈ pre, p.1 ∉ (suffStats k fit nobs rows).map (·.1)

theorem NoClash.sn {pre : Series ℝ} {k : ℕ} {fit nobs : Bool} {rows : List RegRow} (h : NoClash pre k fit nobs rows) :
    ∀ s ∈ suffSN k fit nobs, s.text ∉ pre.map (·.1) := by
  intro s hs hp
  rw [List.mem_map] at hp
  obtain ⟨p, hp, e⟩ := hp
  apply h p hp
  rw [suffStats_eq, List.map_map, e]
  exact List.mem_map.2 ⟨s, hs, rfl⟩

theorem avg_one {rows : List RegRow} (h : rows ≠ []) : avg rows (fun _ => 1 * 1) = 1 := by
  have : (rows.length : ℝ) ≠ 0 := by
    have := List.length_pos_iff.2 h
    positivity
  simp [avg, this]

/-- The entries on and above the diagonal that the values of the statistics stand for. -/
def entryOf (g : SN → ℝ) (fit : Bool) (i j : ℕ) : ℝ :=
  if fit then (if j = 0 then 1 else if i = 0 then g (.x (j - 1)) else g (.xx (i - 1) (j - 1))) else g (.xx i j)

/-- The right hand side the values of the statistics stand for. -/
def rhsOf (g : SN → ℝ) (fit : Bool) (i : ℕ) : ℝ := if fit then (if i = 0 then g .y else g (.xy (i - 1))) else g (.xy i)

/-- `construct_matrix_from_elements` on statistics with any values: the columns before them do not matter. -/
theorem construct_main (pre : Series ℝ) (k' : ℕ) (fit nobs : Bool) (g : SN → ℝ)
    (hsn : ∀ s ∈ suffSN (k' + 1) fit nobs, s.text ∉ pre.map (·.1)) :
    constructMatrix (pre ++ (suffSN (k' + 1) fit nobs).map fun s => (s.text, g s)) fit =
      (symmetrize (if fit then 1 :: ((if fit then (List.range (k' + 1)).map (fun i => g (.x i)) else []) ++
        (triu (k' + 1)).map fun p => g (.xx p.1 p.2)) else
        ((if fit then (List.range (k' + 1)).map (fun i => g (.x i)) else []) ++
        (triu (k' + 1)).map fun p => g (.xx p.1 p.2)))).map fun m => (m,
          (if fit then [g .y] else []) ++ (List.range (k' + 1)).map fun i => g (.xy i)) := by
  have hnd := nodup_suffSN (k' + 1) fit nobs
  -- the label that gives the number of features
  have hlast : (let labels := (pre ++ (suffSN (k' + 1) fit nobs).map fun s => (s.text, g s)).map (·.1)
      if labels.getLast? = some nmN then labels.dropLast.getLast? else labels.getLast?) = some (nmXY k') := by
    have hne : ¬ nmXY k' = nmN := by simp [nmXY, nmN]
    cases nobs <;>
      simp [suffSN, List.range_succ, hne, ← List.append_assoc, SN.text]
  have hparse : parseInt (nmXY k').tail.dropLast = some k' := by
    simp [nmXY, parseInt_digits]
  have hxx : ∀ p ∈ triu (k' + 1), SN.xx p.1 p.2 ∈ suffSN (k' + 1) fit nobs := by
    intro p hp
    simp only [suffSN, List.mem_append, List.mem_map]
    exact Or.inl (Or.inl (Or.inl (Or.inr ⟨p, hp, rfl⟩)))
  have hxy : ∀ i < k' + 1, SN.xy i ∈ suffSN (k' + 1) fit nobs := by
    intro i hi
    simp only [suffSN, List.mem_append, List.mem_map]
    exact Or.inl (Or.inr ⟨i, List.mem_range.2 hi, rfl⟩)
  have hx : fit = true → ∀ i < k' + 1, SN.x i ∈ suffSN (k' + 1) fit nobs := by
    rintro rfl i hi
    simp only [suffSN, List.mem_append, List.mem_map, if_true]
    exact Or.inl (Or.inl (Or.inl (Or.inl ⟨i, List.mem_range.2 hi, rfl⟩)))
  have hy : fit = true → SN.y ∈ suffSN (k' + 1) fit nobs := by
    rintro rfl
    simp [suffSN]
  -- the two look-ups
  have e1 : Series.loc (pre ++ (suffSN (k' + 1) fit nobs).map fun s => (s.text, g s))
      ((if fit then (List.range (k' + 1)).map nmX else []) ++ (triu (k' + 1)).map fun p => nmXX p.1 p.2) =
      some ((if fit then (List.range (k' + 1)).map (fun i => g (.x i)) else []) ++
        (triu (k' + 1)).map fun p => g (.xx p.1 p.2)) := by
    have hm : ∀ s ∈ (if fit then (List.range (k' + 1)).map SN.x else []) ++ (triu (k' + 1)).map fun p => SN.xx p.1 p.2,
        s ∈ suffSN (k' + 1) fit nobs := by
      intro s hs
      rcases List.mem_append.1 hs with hs | hs
      · cases hfit : fit
        · simp [hfit] at hs
        · rw [hfit] at hs
          simp only [if_true, List.mem_map, List.mem_range] at hs
          obtain ⟨i, hi, rfl⟩ := hs
          exact hfit ▸ hx hfit i hi
      · obtain ⟨p, hp, rfl⟩ := List.mem_map.1 hs
        exact hxx p hp
    have := loc_suff pre hnd g _ hm (fun s hs => hsn s (hm s hs))
    cases fit <;> simpa [SN.text, Function.comp_def] using this
  have e2 : Series.loc (pre ++ (suffSN (k' + 1) fit nobs).map fun s => (s.text, g s))
      ((if fit then [nmY] else []) ++ (List.range (k' + 1)).map nmXY) =
      some ((if fit then [g .y] else []) ++ (List.range (k' + 1)).map fun i => g (.xy i)) := by
    have hm : ∀ s ∈ (if fit then [SN.y] else []) ++ (List.range (k' + 1)).map SN.xy, s ∈ suffSN (k' + 1) fit nobs := by
      intro s hs
      rcases List.mem_append.1 hs with hs | hs
      · cases hfit : fit
        · simp [hfit] at hs
        · rw [hfit] at hs
          simp only [if_true, List.mem_singleton] at hs
          rw [hs]; exact hfit ▸ hy hfit
      · obtain ⟨i, hi, rfl⟩ := List.mem_map.1 hs
        exact hxy i (List.mem_range.1 hi)
    have := loc_suff pre hnd g _ hm (fun s hs => hsn s (hm s hs))
    cases fit <;> simpa [SN.text, Function.comp_def] using this
  simp only at hlast
  rw [constructMatrix]
  simp only [hlast, hparse, e1, e2]

/-- `construct_matrix_from_elements` on statistics with any values. -/
theorem construct_general (pre : Series ℝ) (k : ℕ) (hk : 0 < k) (fit nobs : Bool) (g : SN → ℝ)
    (hsn : ∀ s ∈ suffSN k fit nobs, s.text ∉ pre.map (·.1)) :
    ∃ M, constructMatrix (pre ++ (suffSN k fit nobs).map fun s => (s.text, g s)) fit =
        some (((if fit then k + 1 else k), M), (List.range (if fit then k + 1 else k)).map (rhsOf g fit)) ∧
      ∀ i j, i ≤ j → j < (if fit then k + 1 else k) → M i j = entryOf g fit i j ∧ M j i = entryOf g fit i j := by
  obtain ⟨k', rfl⟩ : ∃ k', k = k' + 1 := ⟨k - 1, by omega⟩
  rw [construct_main pre k' fit nobs g hsn]
  cases fit
  · simp only [Bool.false_eq_true, if_false, List.nil_append]
    obtain ⟨M, hM, hf⟩ := symmetrize_triu (k' + 1) (entryOf g false)
    refine ⟨M, ?_, hf⟩
    simp only [entryOf, Bool.false_eq_true, if_false] at hM
    rw [hM]
    simp [rhsOf]
  · simp only [if_true]
    obtain ⟨M, hM, hf⟩ := symmetrize_triu (k' + 2) (entryOf g true)
    have hl : (triu (k' + 2)).map (fun p => entryOf g true p.1 p.2) =
        1 :: ((List.range (k' + 1)).map (fun i => g (.x i)) ++ (triu (k' + 1)).map fun p => g (.xx p.1 p.2)) := by
      rw [triu_succ]
      simp [entryOf, Function.comp_def]
    rw [← hl, hM]
    refine ⟨M, ?_, hf⟩
    rw [List.range_succ_eq_map (n := k' + 1)]
    simp [rhsOf, Function.comp_def]

/-- **C47.** From the statistics of a slice, `construct_matrix_from_elements` gives `X'X / n` and `X'y / n` of its design
matrix, which has a column of ones first when there is an intercept. Any columns may come before the statistics as long as
they have other names. -/
theorem C47_matrices (pre : Series ℝ) (k : ℕ) (hk : 0 < k) (fit nobs : Bool) (rows : List RegRow) (hrows : rows ≠ [])
    (hpre : NoClash pre k fit nobs rows) :
    ∃ M, constructMatrix (pre ++ suffStats k fit nobs rows) fit =
        some (((if fit then k + 1 else k), M),
          (List.range (if fit then k + 1 else k)).map fun i => avg rows fun r => designRow fit r i * r.y) ∧
      ∀ i j, i < (if fit then k + 1 else k) → j < (if fit then k + 1 else k) →
        M i j = avg rows fun r => designRow fit r i * designRow fit r j := by
  obtain ⟨M, hM, hent⟩ := construct_general pre k hk fit nobs (SN.val rows) hpre.sn
  have hrhs : ∀ i, rhsOf (SN.val rows) fit i = avg rows fun r => designRow fit r i * r.y := by
    intro i
    cases fit
    · simp [rhsOf, designRow, SN.val]
    · by_cases h : i = 0 <;> simp [rhsOf, designRow, SN.val, h]
  have hentry : ∀ i j, i ≤ j → entryOf (SN.val rows) fit i j = avg rows fun r => designRow fit r i * designRow fit r j := by
    intro i j hij
    cases fit
    · simp [entryOf, designRow, SN.val]
    · by_cases hj : j = 0
      · have hi : i = 0 := by omega
        subst hi; subst hj
        have := avg_one hrows
        simp only [entryOf, designRow, if_true]
        exact this.symm
      · by_cases hi : i = 0 <;> simp [entryOf, designRow, SN.val, hi, hj]
  refine ⟨M, by rw [suffStats_eq, hM, funext hrhs], fun i j hi hj => ?_⟩
  rcases le_total i j with h | h
  · rw [(hent i j h hj).1, hentry i j h]
  · rw [(hent j i h hi).2, hentry j i h]
    simp only [mul_comm]

/-- Two features, an intercept, a split column before the statistics. -/
example : ∃ (pre : Series ℝ) (rows : List RegRow), pre ≠ [] ∧ rows ≠ [] ∧ NoClash pre 2 true true rows := by
  refine ⟨[(['g'], 7)], [⟨1, fun i => i⟩], by simp, by simp, ?_⟩
  intro p hp
  simp only [List.mem_singleton] at hp
  subst hp
  simp [suffStats, nmX, nmXX, nmXY, nmY, nmN]

/-- A split column that is called `x0` makes the rebuilding fail: the label then has two values, and the list of entries has
no triangular length. -/
theorem C47_violation_split_name (v : ℝ) (rows : List RegRow) :
    constructMatrix ([(nmX 0, v)] ++ suffStats 1 true true rows) true = none := by
  have h0 : Nat.toDigits 10 0 = ['0'] := by decide
  simp [constructMatrix, suffStats, triu, nmX, nmXX, nmXY, nmY, nmN, h0, parseInt, Series.loc, Nat.ofDigitChars, symmetrize]
  decide +kernel

end Verif
