import Verif.Model.SuffMissing
import Verif.Props.Ridge

/-!
# C94: models on groups where a value is missing

/repo/models.py:112-130, 257-342, 486-511.
-/

namespace Verif

/-- The rows without missing values. -/
def fullRows (k : ℕ) (rows : List RegRowO) : List RegRow := rows.filterMap (RegRowO.full k)

theorem full_some {k : ℕ} {r : RegRowO} {s : RegRow} (h : r.full k = some s) : r.y = some s.y ∧ ∀ i < k, r.x i = some (s.x i) := by
  rw [RegRowO.full] at h
  split at h
  · rename_i y hy
    split at h
    · rename_i ha
      simp only [List.all_eq_true, List.mem_range] at ha
      obtain rfl := Option.some.inj h
      refine ⟨hy, fun i hi => ?_⟩
      obtain ⟨v, hv⟩ := Option.isSome_iff_exists.1 (ha i hi)
      simp [hv]
    · exact absurd h (by simp)
  · exact absurd h (by simp)

theorem avgNull_of {rows : List RegRowO} {f : RegRowO → Option ℝ} {l : List RegRow} {g : RegRow → ℝ} (h : rows.filterMap f = l.map g)
    (hl : l ≠ []) : avgNull rows f = some (avg l g) := by
  simp [avgNull, avg, h, hl]

/-- The statistics as numbers, when each of them is there. -/
theorem numbers_of (k : ℕ) (fit nobs : Bool) (rows : List RegRowO) (g : SN → ℝ)
    (hx : fit = true → ∀ i < k, avgNull rows (fun r => r.x i) = some (g (.x i)))
    (hxx : ∀ i < k, ∀ j < k, avgNull rows (fun r => nullMul (r.x i) (r.x j)) = some (g (.xx i j)))
    (hy : fit = true → avgNull rows (fun r => r.y) = some (g .y))
    (hxy : ∀ i < k, avgNull rows (fun r => nullMul (r.x i) r.y) = some (g (.xy i)))
    (hn : (rows.length : ℝ) = g .n) :
    numbers (suffStatsO k fit nobs rows) = some ((suffSN k fit nobs).map fun s => (s.text, g s)) := by
  have key : suffStatsO k fit nobs rows = (suffSN k fit nobs).map fun s => (s.text, some (g s)) := by
    have e1 : (List.range k).map (fun i => (nmXY i, avgNull rows fun r => nullMul (r.x i) r.y)) =
        (List.range k).map fun i => (nmXY i, some (g (.xy i))) :=
      List.map_congr_left fun i hi => by rw [hxy i (List.mem_range.1 hi)]
    have e2 : (triu k).map (fun p => (nmXX p.1 p.2, avgNull rows fun r => nullMul (r.x p.1) (r.x p.2))) =
        (triu k).map fun p => (nmXX p.1 p.2, some (g (.xx p.1 p.2))) :=
      List.map_congr_left fun p hp => by
        have := mem_triu.1 hp
        rw [hxx p.1 (by omega) p.2 (by omega)]
    have e3 : fit = true → (List.range k).map (fun i => (nmX i, avgNull rows fun r => r.x i)) =
        (List.range k).map fun i => (nmX i, some (g (.x i))) := fun hf =>
      List.map_congr_left fun i hi => by rw [hx hf i (List.mem_range.1 hi)]
    rw [suffStatsO, e1, e2]
    cases hf : fit <;> cases hb : nobs
    all_goals (try rw [e3 hf, hy hf])
    all_goals simp [suffSN, SN.text, Function.comp_def, hn]
  rw [key, numbers, List.mapM_map]
  simp only [Function.comp_def, Option.map_some]
  have : ∀ l : List SN, l.mapM (m := Option) (fun s => some (s.text, g s)) = some (l.map fun s => (s.text, g s)) := by
    intro l
    induction l with
    | nil => rfl
    | cons a l ih => simp [List.mapM_cons, ih]
  exact this _

theorem filterMap_full {k : ℕ} {rows : List RegRowO} (h : ∀ r ∈ rows, r.full k ≠ none) {f : RegRowO → Option ℝ} {g : RegRow → ℝ}
    (hfg : ∀ r s, r.full k = some s → f r = some (g s)) : rows.filterMap f = (fullRows k rows).map g := by
  induction rows with
  | nil => rfl
  | cons r rows ih =>
    obtain ⟨s, hs⟩ := Option.ne_none_iff_exists'.1 (h r (by simp))
    have := ih fun r hr => h r (by simp [hr])
    rw [fullRows, List.filterMap_cons_some (hfg r s hs), List.filterMap_cons_some hs, List.map_cons, this]
    rfl

theorem fullRows_ne {k : ℕ} {rows : List RegRowO} (hrows : rows ≠ []) (h : ∀ r ∈ rows, r.full k ≠ none) : fullRows k rows ≠ [] := by
  cases rows with
  | nil => exact absurd rfl hrows
  | cons r rows =>
    obtain ⟨s, hs⟩ := Option.ne_none_iff_exists'.1 (h r (by simp))
    simp [fullRows, List.filterMap_cons_some hs]

theorem fullRows_length {k : ℕ} {rows : List RegRowO} (h : ∀ r ∈ rows, r.full k ≠ none) : rows.length = (fullRows k rows).length := by
  have := congrArg List.length (filterMap_full (f := fun r => r.y) (g := fun s => s.y) h fun r s hs => (full_some hs).1)
  have h2 : (rows.filterMap fun r => r.y).length = rows.length := by
    rw [List.length_filterMap_eq_countP, List.countP_eq_length]
    intro r hr
    obtain ⟨s, hs⟩ := Option.ne_none_iff_exists'.1 (h r hr)
    simp [(full_some hs).1]
  rw [List.length_map] at this
  omega

/-- The statistics when no value is missing. -/
theorem numbers_complete (k : ℕ) (fit nobs : Bool) (rows : List RegRowO) (hrows : rows ≠ []) (h : ∀ r ∈ rows, r.full k ≠ none) :
    numbers (suffStatsO k fit nobs rows) = some (suffStats k fit nobs (fullRows k rows)) := by
  have hne := fullRows_ne hrows h
  rw [numbers_of k fit nobs rows (SN.val (fullRows k rows)), suffStats_eq]
  · exact fun _ i hi => avgNull_of (filterMap_full h fun r s hs => (full_some hs).2 i hi) hne
  · exact fun i hi j hj => avgNull_of (filterMap_full h fun r s hs => by
      simp [(full_some hs).2 i hi, (full_some hs).2 j hj, nullMul]) hne
  · exact fun _ => avgNull_of (filterMap_full h fun r s hs => (full_some hs).1) hne
  · exact fun i hi => avgNull_of (filterMap_full h fun r s hs => by
      simp [(full_some hs).2 i hi, (full_some hs).1, nullMul]) hne
  · rw [fullRows_length h]; rfl

/-- **C94.** When no value is missing, the result over SQL is the one of `ridgeSql` on the rows, which C48 is about. -/
theorem C94_complete (pre : Series ℝ) (k : ℕ) (alpha : ℝ) (fit normalize : Bool) (rows : List RegRowO) (hrows : rows ≠ [])
    (h : ∀ r ∈ rows, r.full k ≠ none) : ridgeSqlO pre k alpha fit normalize rows = ridgeSql pre k alpha fit normalize (fullRows k rows) := by
  rw [ridgeSqlO, numbers_complete k fit true rows hrows h, ridgeSql]
  rfl

/-- `construct_matrix_from_elements` and no penalty: the number of rows does not matter. -/
theorem ridgePlain_zero (pre : Series ℝ) (k : ℕ) (hk : 0 < k) (fit : Bool) (g : SN → ℝ)
    (hsn : ∀ s ∈ suffSN k fit true, s.text ∉ pre.map (·.1)) :
    ∃ M : ℕ → ℕ → ℝ, ridgePlain (pre ++ (suffSN k fit true).map fun s => (s.text, g s)) 0 fit =
        npSolve (if fit then k + 1 else k) M ((List.range (if fit then k + 1 else k)).map (rhsOf g fit)) ∧
      ∀ i j, i ≤ j → j < (if fit then k + 1 else k) → M i j = entryOf g fit i j ∧ M j i = entryOf g fit i j := by
  obtain ⟨M, hM, he⟩ := construct_general pre k hk fit true g hsn
  have hn : Series.loc (pre ++ (suffSN k fit true).map fun s => (s.text, g s)) [nmN] = some [g .n] := by
    have hm : ∀ s ∈ [SN.n], s ∈ suffSN k fit true := by simp [suffSN]
    have := loc_suff pre (nodup_suffSN k fit true) g [SN.n] hm (fun s hs => hsn s (hm s hs))
    simpa [SN.text] using this
  refine ⟨M, ?_, he⟩
  rw [ridgePlain, hM, hn]
  simp

theorem ridgePlain_n (pre : Series ℝ) (k : ℕ) (hk : 0 < k) (fit : Bool) (g : SN → ℝ) (n : ℝ)
    (hsn : ∀ s ∈ suffSN k fit true, s.text ∉ pre.map (·.1)) :
    ridgePlain (pre ++ (suffSN k fit true).map fun s => (s.text, (match s with | .n => n | s => g s))) 0 fit =
      ridgePlain (pre ++ (suffSN k fit true).map fun s => (s.text, g s)) 0 fit := by
  obtain ⟨k', rfl⟩ : ∃ k', k = k' + 1 := ⟨k - 1, by omega⟩
  have hl : ∀ g : SN → ℝ, Series.loc (pre ++ (suffSN (k' + 1) fit true).map fun s => (s.text, g s)) [nmN] = some [g .n] := by
    intro g
    have hm : ∀ s ∈ [SN.n], s ∈ suffSN (k' + 1) fit true := by simp [suffSN]
    have := loc_suff pre (nodup_suffSN (k' + 1) fit true) g [SN.n] hm (fun s hs => hsn s (hm s hs))
    simpa [SN.text] using this
  rw [ridgePlain, ridgePlain, hl, hl, construct_main pre k' fit true _ hsn, construct_main pre k' fit true _ hsn]
  simp only [zero_div, zero_mul, add_zero]
  cases symmetrize (K := ℝ) _ <;> rfl

/-- **C94.** Where only `y` is missing, without a penalty the result over SQL is the fit of the complete rows provided that the averages of the
features and of their products over the complete rows are those over all the rows, as when `y` is missing at random in a large table. Missing:
without that proviso it is false, see below. -/
theorem C94_balanced_partial (pre : Series ℝ) (k : ℕ) (hk : 0 < k) (fit : Bool) (rows : List RegRowO)
    (hpre : NoClash pre k fit true (fullRows k rows)) (hne : fullRows k rows ≠ []) (hx : ∀ r ∈ rows, ∀ i < k, r.x i ≠ none)
    (h1 : ∀ i < k, avgNull rows (fun r => r.x i) = some (avg (fullRows k rows) fun r => r.x i))
    (h2 : ∀ i < k, ∀ j < k, avgNull rows (fun r => nullMul (r.x i) (r.x j)) = some (avg (fullRows k rows) fun r => r.x i * r.x j)) :
    ridgeSqlO pre k 0 fit false rows = ridgeSql pre k 0 fit false (fullRows k rows) := by
  have hmiss : ∀ r ∈ rows, r.full k = none → r.y = none := by
    intro r hr hn
    rw [RegRowO.full] at hn
    split at hn
    · split at hn
      · exact absurd hn (by simp)
      · rename_i ha
        exact absurd (by simp only [List.all_eq_true, List.mem_range]; exact fun i hi => Option.isSome_iff_ne_none.2 (hx r hr i hi)) ha
    · assumption
  have hfm : ∀ (f : RegRowO → Option ℝ) (g : RegRow → ℝ), (∀ r s, r.full k = some s → f r = some (g s)) → (∀ r, r.y = none → f r = none) →
      rows.filterMap f = (fullRows k rows).map g := by
    intro f g hs hn
    clear hne hpre h1 h2
    induction rows with
    | nil => rfl
    | cons r rows ih =>
      have hi := ih (fun r hr => hx r (by simp [hr])) (fun r hr => hmiss r (by simp [hr]))
      cases e : r.full k with
      | none => rw [fullRows, List.filterMap_cons_none (hn r (hmiss r (by simp) e)), List.filterMap_cons_none e, hi]; rfl
      | some s => rw [fullRows, List.filterMap_cons_some (hs r s e), List.filterMap_cons_some e, List.map_cons, hi]; rfl
  rw [ridgeSqlO, numbers_of k fit true rows (fun s => match s with | .n => (rows.length : ℝ) | s => SN.val (fullRows k rows) s), ridgeSql,
    suffStats_eq]
  · simp only [Option.bind_some, ridgeCoefs, Bool.and_false, Bool.false_eq_true, if_false]
    exact ridgePlain_n pre k hk fit _ _ hpre.sn
  · exact fun _ => h1
  · exact h2
  · exact fun _ => avgNull_of (hfm _ (fun s => s.y) (fun r s hs => (full_some hs).1) fun r hr => hr) hne
  · exact fun i hi => avgNull_of (hfm _ (fun s => s.x i * s.y) (fun r s hs => by simp [(full_some hs).2 i hi, (full_some hs).1, nullMul])
      fun r hr => by rw [hr]; cases r.x i <;> rfl) hne
  · rfl

/-- **C94.** Over SQL there is no result when no group has the dependent variable. -/
theorem C94_nothing (pre : Series ℝ) (k : ℕ) (hk : 0 < k) (alpha : ℝ) (fit normalize : Bool) (rows : List RegRowO) (h : ∀ r ∈ rows, r.y = none) :
    ridgeSqlO pre k alpha fit normalize rows = none := by
  have hmem : (nmXY 0, none) ∈ suffStatsO k fit true rows := by
    have e : avgNull rows (fun r => nullMul (r.x 0) r.y) = none := by
      have : rows.filterMap (fun r => nullMul (r.x 0) r.y) = [] := by
        rw [List.filterMap_eq_nil_iff]
        intro r hr
        rw [h r hr]
        cases r.x 0 <;> rfl
      simp [avgNull, this]
    simp only [suffStatsO, List.mem_append, List.mem_map, List.mem_range]
    exact Or.inl (Or.inr ⟨0, hk, by rw [e]⟩)
  have hn : ∀ l : Series (Option ℝ), (nmXY 0, none) ∈ l → numbers l = none := by
    intro l
    induction l with
    | nil => intro h; simp at h
    | cons p l ih =>
      intro hp
      rw [numbers, List.mapM_cons]
      rcases List.mem_cons.1 hp with rfl | hp
      · rfl
      · have := ih hp
        rw [numbers] at this
        rw [this]
        cases p.2 <;> rfl
  rw [ridgeSqlO, hn _ hmem]
  rfl

example : ∃ rows : List RegRowO, rows ≠ [] ∧ (∀ r ∈ rows, r.y = none) ∧ ∀ r ∈ rows, r.x 0 ≠ none :=
  ⟨[⟨none, fun _ => some 1⟩], by simp, by simp, by simp⟩

/-- One feature: three groups, the `y` of the last one missing, the others on the line `y = x + t`. -/
def lineRows (t : ℝ) : List RegRowO := [⟨some t, fun _ => some 0⟩, ⟨some (1 + t), fun _ => some 1⟩, ⟨none, fun _ => some 2⟩]

theorem lineRows_full (t : ℝ) : fullRows 1 (lineRows t) = [⟨t, fun _ => 0⟩, ⟨1 + t, fun _ => 1⟩] := by
  simp [fullRows, lineRows, RegRowO.full]

/-- **C94, violated.** The groups that have both values lie exactly on a line with slope 1, but the linear regression over SQL gives the slope
`-3t/4`: it is 0 for `t = 0`, it depends on the level of `y`, and there is a level for each slope. The same regression in Python refuses the
table. -/
theorem C94_violation (t : ℝ) : (∀ r ∈ fullRows 1 (lineRows t), r.y = r.x 0 + t) ∧
    (∃ c, ridgeSqlO [] 1 0 true false (lineRows t) = some c ∧ c 1 = -3 * t / 4 ∧ c 0 = 1 / 2 + t + 3 * t / 4) ∧
    ∀ fitted, modelComputeO fitted 1 true false (lineRows t) = none := by
  refine ⟨by simp [lineRows_full, add_comm], ?_, fun fitted => by simp [modelComputeO, lineRows, RegRowO.full, List.mapM_cons]⟩
  set g : SN → ℝ := fun s => match s with | .x _ => 1 | .xx _ _ => 5 / 3 | .y => 1 / 2 + t | .xy _ => (1 + t) / 2 | .n => 3 with hg
  have hnum : numbers (suffStatsO 1 true true (lineRows t)) = some ((suffSN 1 true true).map fun s => (s.text, g s)) := by
    apply numbers_of
    · intro _ i _; simp [avgNull, lineRows, hg]; norm_num
    · intro i _ j _; simp [avgNull, lineRows, nullMul, hg]; norm_num
    · intro _; simp [avgNull, lineRows, hg]; ring
    · intro i _; simp [avgNull, lineRows, nullMul, hg]
    · simp [lineRows, hg]
  obtain ⟨M, hM, he⟩ := ridgePlain_zero [] 1 (by norm_num) true g (by simp)
  simp only [if_true] at hM he
  have m00 := (he 0 0 (by omega) (by omega)).1
  have m01 := (he 0 1 (by omega) (by omega))
  have m11 := (he 1 1 (by omega) (by omega)).1
  simp only [entryOf, hg, if_true, one_ne_zero, if_false] at m00 m01 m11
  have hsys : ∀ d : ℕ → ℝ, (∀ i < 1 + 1, ∑ j ∈ Finset.range (1 + 1), M i j * d j = 0) → ∀ j < 1 + 1, d j = 0 := by
    intro d hd j hj
    have h0 := hd 0 (by omega)
    have h1 := hd 1 (by omega)
    simp only [Finset.sum_range_succ, Finset.sum_range_zero, m00, m01.1, m01.2, m11] at h0 h1
    have hd1 : d 1 = 0 := by linarith
    have hd0 : d 0 = 0 := by linarith
    interval_cases j
    · exact hd0
    · exact hd1
  obtain ⟨c, hc⟩ := npSolve_isSome (b := (List.range (1 + 1)).map (rhsOf g true)) (by simp) hsys
  obtain ⟨-, hs, -⟩ := npSolve_spec hc
  have h0 := hs 0 (by omega)
  have h1 := hs 1 (by omega)
  simp only [Finset.sum_range_succ, Finset.sum_range_zero, m00, m01.1, m01.2, m11] at h0 h1
  simp [rhsOf, hg] at h0 h1
  refine ⟨c, ?_, by linarith, by linarith⟩
  rw [ridgeSqlO, hnum]
  simp only [Option.bind_some, ridgeCoefs, Bool.and_false, Bool.false_eq_true, if_false]
  rw [hM, hc]

/-- The hypotheses of `C94_balanced_partial` are met by a table with a missing `y`: the two groups with a `y` have the averages of all four. -/
example : ∃ rows : List RegRowO, (∃ r ∈ rows, r.y = none) ∧ NoClash [] 1 true true (fullRows 1 rows) ∧ fullRows 1 rows ≠ [] ∧
    (∀ r ∈ rows, ∀ i < 1, r.x i ≠ none) ∧
    (∀ i < 1, avgNull rows (fun r => r.x i) = some (avg (fullRows 1 rows) fun r => r.x i)) ∧
    (∀ i < 1, ∀ j < 1, avgNull rows (fun r => nullMul (r.x i) (r.x j)) = some (avg (fullRows 1 rows) fun r => r.x i * r.x j)) := by
  refine ⟨[⟨some 5, fun _ => some 0⟩, ⟨some 7, fun _ => some 2⟩, ⟨none, fun _ => some 0⟩, ⟨none, fun _ => some 2⟩], ?_, ?_, ?_, ?_, ?_, ?_⟩
  · exact ⟨⟨none, fun _ => some 0⟩, by simp, rfl⟩
  · simp [NoClash]
  · simp [fullRows, RegRowO.full]
  · simp
  · intro i _; simp [fullRows, RegRowO.full, avgNull, avg, List.filterMap_cons]; norm_num
  · intro i _ j _; simp [fullRows, RegRowO.full, avgNull, avg, nullMul, List.filterMap_cons]; norm_num

end Verif
