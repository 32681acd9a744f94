import Verif.Model.FailedSamples
import Verif.Props.CiTable

/-!
# C88: A resample that fails costs only itself
-/

namespace Verif

variable {κ ε : Type} [DecidableEq κ]

/-! ## Specification -/

/-- The metric has a value on every slice of the resample. -/
def allSlicesOk (s : SliceRuns κ ε) : Bool := s.all fun r => r.2.isOk

/-- What the metric `m` gives on slice `k` of a resample, if `m` fails on none of its slices. -/
def estimateOn (m : Txt) (k : RKey κ) (run : ResampleRun κ ε) : Option ℝ :=
  match run.find? fun p => decide (p.1 = m) with
  | none => none
  | some p =>
    if allSlicesOk p.2 then
      match p.2.find? fun r => decide (r.1 = k) with
      | some (_, .ok v) => v
      | _ => none
    else none

/-- Some metric fails on no slice of the resample. -/
def somethingOk (run : ResampleRun κ ε) : Bool := run.any fun p => allSlicesOk p.2

/-- The resamples, one after the other, and no exception by the iterator. -/
def genOf {α : Type} : List α → SampleGen ε α
  | [] => .done
  | s :: l => .yield s (genOf l)

/-- The iterator raises after these resamples. -/
def genRaise {α : Type} (e : ε) : List α → SampleGen ε α
  | [] => .raise e
  | s :: l => .yield s (genRaise e l)

/-! ## The table of standard errors for any tables -/

theorem concatRow_filterMap (reps : List (LongTab κ)) (i : Txt × RKey κ) :
    (concatRow reps i).filterMap id = reps.filterMap fun t => (t.lookup i).join := by
  unfold concatRow
  rw [List.filterMap_map]
  rfl

theorem dfSe_spec (jk : Bool) (pt : LongTab κ) (reps : List (LongTab κ)) :
    dfSe jk pt reps = pt.map fun r => (r.1, r.2, specSE jk (reps.filterMap fun t => (t.lookup r.1).join)) := by
  unfold dfSe
  refine List.map_congr_left fun r _ => ?_
  rw [stdTab_lookup, ← concatRow_filterMap]
  split
  · rw [Option.bind_some, getStderrs_spec]
  · rename_i h
    rw [concatRow_out reps r.1 h]
    simp [specSE]

theorem dfCi_spec (jk : Bool) (ppf : ℝ → ℤ → ℝ) (c : ℝ) (pt : LongTab κ) (reps : List (LongTab κ)) :
    dfCi jk ppf c pt reps = pt.map fun r => (r.1, specCi jk ppf c r.2 (reps.filterMap fun t => (t.lookup r.1).join)) := by
  unfold dfCi
  refine List.map_congr_left fun r _ => ?_
  rw [stdTab_lookup, ← concatRow_filterMap]
  have hh : ((if r.1 ∈ concatIndex reps then some (getStderrs jk (concatRow reps r.1)) else none).bind fun s => ciHalfWidth ppf c s.1 s.2)
      = ciHalfWidth ppf c (specSE jk ((concatRow reps r.1).filterMap id)) ((((concatRow reps r.1).filterMap id).length : ℤ) - 1) := by
    split
    · rw [Option.bind_some, getStderrs_spec]
    · rename_i h
      rw [concatRow_out reps r.1 h]
      simp [specSE, ciHalfWidth]
  rw [hh]
  generalize (concatRow reps r.1).filterMap id = xs
  unfold specCi
  cases r.2 with
  | none => cases specSE jk xs <;> simp [ciHalfWidth]
  | some v =>
    cases specSE jk xs with
    | none => simp [ciHalfWidth]
    | some s =>
      simp only [ciHalfWidth, Option.map_some, Option.bind_some, Prod.mk.injEq, Option.some.injEq, true_and]
      constructor <;> ring

/-! ## One metric, one list -/

theorem metricOnSample_ok (m : Txt) (s : SliceRuns κ ε) (h : allSlicesOk s = true) :
    ∃ t, metricOnSample m s = .ok t ∧ (∀ i v, (i, v) ∈ t ↔ i.1 = m ∧ (i.2, .ok v) ∈ s) ∧
      ∀ k, (t.lookup (m, k)).join = match s.find? fun r => decide (r.1 = k) with
        | some (_, .ok v) => v
        | _ => none := by
  induction s with
  | nil => exact ⟨[], rfl, by simp, fun k => rfl⟩
  | cons r s ih =>
    obtain ⟨k', r⟩ := r
    unfold allSlicesOk at h
    rw [List.all_cons, Bool.and_eq_true] at h
    obtain ⟨t, h1, h2, h3⟩ := ih h.2
    cases r with
    | error e => exact nomatch h.1
    | ok v =>
      refine ⟨((m, k'), v) :: t, by simp [metricOnSample, h1], ?_, ?_⟩
      · rintro ⟨m', k⟩ w
        rw [List.mem_cons, h2, List.mem_cons]
        constructor
        · rintro (h | h)
          · injection h with ha hb
            injection ha with ha hc
            subst ha hb hc
            exact ⟨rfl, Or.inl rfl⟩
          · exact ⟨h.1, Or.inr h.2⟩
        · rintro ⟨ha, hb | hb⟩
          · injection hb with hb hc
            injection hc with hc
            dsimp only at ha hb
            subst ha hb hc
            exact Or.inl rfl
          · exact Or.inr ⟨ha, hb⟩
      · intro k
        by_cases hk : k' = k
        · subst hk
          rw [List.lookup_cons, beq_self_eq_true, List.find?_cons_of_pos (by simp)]
          rfl
        · rw [List.lookup_cons, List.find?_cons_of_neg (by simpa using hk)]
          have : ((m, k) == (m, k')) = false := by
            simp only [beq_eq_false_iff_ne, ne_eq, Prod.mk.injEq, true_and]
            exact fun h => hk h.symm
          rw [this]
          exact h3 k

theorem metricOnSample_fails (m : Txt) (s : SliceRuns κ ε) (h : allSlicesOk s = false) : ∃ e, metricOnSample m s = .error e := by
  induction s with
  | nil => exact nomatch h
  | cons r s ih =>
    obtain ⟨k', r⟩ := r
    cases r with
    | error e => exact ⟨e, rfl⟩
    | ok v =>
      have : allSlicesOk s = false := by
        unfold allSlicesOk at h ⊢
        rw [List.all_cons] at h
        simpa [Except.isOk, Except.toBool] using h
      obtain ⟨e, he⟩ := ih this
      exact ⟨e, by simp [metricOnSample, he]⟩

theorem listColumns_nil (run : ResampleRun κ ε) : listColumns run = [] ↔ somethingOk run = false := by
  induction run with
  | nil => exact ⟨fun _ => rfl, fun _ => rfl⟩
  | cons p run ih =>
    obtain ⟨m, s⟩ := p
    unfold listColumns somethingOk
    rw [List.any_cons]
    cases h : allSlicesOk s with
    | true =>
      obtain ⟨t, ht, _⟩ := metricOnSample_ok m s h
      rw [ht]
      simp
    | false =>
      obtain ⟨e, he⟩ := metricOnSample_fails m s h
      rw [he]
      simp only [Bool.false_or]
      exact ih

theorem listColumns_mem (run : ResampleRun κ ε) (i : Txt × RKey κ) (v : Option ℝ) :
    (i, v) ∈ (listColumns run).flatten ↔ ∃ p ∈ run, allSlicesOk p.2 = true ∧ i.1 = p.1 ∧ (i.2, .ok v) ∈ p.2 := by
  induction run with
  | nil => simp [listColumns]
  | cons p run ih =>
    obtain ⟨m, s⟩ := p
    unfold listColumns
    cases h : allSlicesOk s with
    | true =>
      obtain ⟨t, ht, hm, _⟩ := metricOnSample_ok m s h
      rw [ht]
      dsimp only
      rw [List.flatten_cons, List.mem_append, hm, ih]
      simp only [List.exists_mem_cons_iff]
      constructor
      · rintro (h1 | h1)
        · exact Or.inl ⟨h, h1.1, h1.2⟩
        · exact Or.inr h1
      · rintro (h1 | h1)
        · exact Or.inl ⟨h1.2.1, h1.2.2⟩
        · exact Or.inr h1
    | false =>
      obtain ⟨e, he⟩ := metricOnSample_fails m s h
      rw [he]
      dsimp only
      rw [ih, List.exists_mem_cons_iff]
      simp only [h, Bool.false_eq_true, false_and, false_or]

theorem lookup_none_of_name {t : LongTab κ} {m : Txt} (k : RKey κ) (h : ∀ i v, (i, v) ∈ t → i.1 ≠ m) : t.lookup (m, k) = none := by
  rw [List.lookup_eq_none_iff]
  rintro ⟨i, v⟩ hp
  simp only [bne_iff_ne, ne_eq]
  intro e
  exact h i v hp (by rw [← e])

theorem lookup_append_left {α β : Type} [BEq α] [LawfulBEq α] (l₁ l₂ : List (α × β)) (a : α) (h : l₂.lookup a = none) :
    (l₁ ++ l₂).lookup a = l₁.lookup a := by
  induction l₁ with
  | nil => simpa using h
  | cons p l ih =>
    rw [List.cons_append, List.lookup_cons, List.lookup_cons, ih]

theorem lookup_append_right {α β : Type} [BEq α] [LawfulBEq α] (l₁ l₂ : List (α × β)) (a : α) (h : l₁.lookup a = none) :
    (l₁ ++ l₂).lookup a = l₂.lookup a := by
  induction l₁ with
  | nil => rfl
  | cons p l ih =>
    rw [List.lookup_cons] at h
    rw [List.cons_append, List.lookup_cons]
    cases hb : a == p.1 with
    | true => rw [hb] at h; cases h
    | false => rw [hb] at h; exact ih h

theorem listColumns_lookup (run : ResampleRun κ ε) (hn : (run.map Prod.fst).Nodup) (m : Txt) (k : RKey κ) :
    ((listColumns run).flatten.lookup (m, k)).join = estimateOn m k run := by
  induction run with
  | nil => rfl
  | cons p run ih =>
    obtain ⟨m', s⟩ := p
    rw [List.map_cons, List.nodup_cons] at hn
    have ih := ih hn.2
    have hrest : m = m' → (listColumns run).flatten.lookup (m, k) = none := by
      rintro rfl
      refine lookup_none_of_name k fun i v hi => ?_
      rw [listColumns_mem] at hi
      obtain ⟨p, hp, _, hpm, _⟩ := hi
      rintro rfl
      exact hn.1 (by rw [hpm]; exact List.mem_map_of_mem hp)
    unfold listColumns estimateOn
    by_cases hm : m' = m
    · subst hm
      rw [List.find?_cons_of_pos (by simp)]
      dsimp only
      cases h : allSlicesOk s with
      | true =>
        obtain ⟨t, ht, _, hl⟩ := metricOnSample_ok m' s h
        rw [ht]
        dsimp only
        rw [List.flatten_cons, lookup_append_left _ _ _ (hrest rfl), hl]
        rfl
      | false =>
        obtain ⟨e, he⟩ := metricOnSample_fails m' s h
        rw [he]
        dsimp only
        rw [hrest rfl]
        rfl
    · rw [List.find?_cons_of_neg (by simpa using hm)]
      have hgo : ((listColumns run).flatten.lookup (m, k)).join = estimateOn m k run := ih
      cases h : allSlicesOk s with
      | true =>
        obtain ⟨t, ht, hmem, _⟩ := metricOnSample_ok m' s h
        rw [ht]
        dsimp only
        rw [List.flatten_cons, lookup_append_right, hgo]
        · rfl
        · refine lookup_none_of_name k fun i v hi => ?_
          rw [((hmem i v).1 hi).1]
          exact hm
      | false =>
        obtain ⟨e, he⟩ := metricOnSample_fails m' s h
        rw [he]
        dsimp only
        rw [hgo]
        rfl

theorem estimateOn_fail (run : ResampleRun κ ε) (h : somethingOk run = false) (m : Txt) (k : RKey κ) : estimateOn m k run = none := by
  unfold estimateOn
  split
  · rfl
  · rename_i p hp
    unfold somethingOk at h
    rw [List.any_eq_false] at h
    have := h p (List.mem_of_find?_eq_some hp)
    rw [if_neg this]

theorem listOnSample_plain (ve : ε) (run : ResampleRun κ ε) :
    listOnSample ve [] run = if somethingOk run then .ok (listColumns run).flatten else .error ve := by
  unfold listOnSample
  cases h : somethingOk run with
  | true =>
    have : ¬ listColumns run = [] := by rw [listColumns_nil, h]; exact nofun
    simp [this]
  | false =>
    have : listColumns run = [] := (listColumns_nil run).2 h
    simp [this]

theorem onSamples_list (ve : ε) (runs : List (ResampleRun κ ε)) :
    onSamples (listOnSample ve []) (genOf runs : SampleGen ε _) =
      .ok ((runs.filter somethingOk).map (fun run => (listColumns run).flatten), List.replicate (runs.countP fun run => !somethingOk run) ve) := by
  induction runs with
  | nil => rfl
  | cons run runs ih =>
    unfold genOf onSamples
    rw [ih, listOnSample_plain]
    cases h : somethingOk run with
    | true => simp [h]
    | false => simp [h, List.replicate_succ]

theorem estimates_filter (runs : List (ResampleRun κ ε)) (hn : ∀ run ∈ runs, (run.map Prod.fst).Nodup) (i : Txt × RKey κ) :
    ((runs.filter somethingOk).map (fun run => (listColumns run).flatten)).filterMap (fun t => (t.lookup i).join)
      = runs.filterMap (estimateOn i.1 i.2) := by
  induction runs with
  | nil => rfl
  | cons run runs ih =>
    have ih := ih fun r hr => hn r (List.mem_cons_of_mem _ hr)
    cases h : somethingOk run with
    | true =>
      rw [List.filter_cons_of_pos h, List.map_cons, List.filterMap_cons, List.filterMap_cons, ih,
        listColumns_lookup run (hn run List.mem_cons_self) i.1 i.2]
    | false =>
      rw [List.filter_cons_of_neg (by simp [h]), List.filterMap_cons, estimateOn_fail run h, ih]

/-! ## Theorems -/

/-- **C88** (standard errors): when on some resample some metric does not fail and the data themselves give `data`, the result has one row
per metric that does not fail on the data, and slice, with the estimate on the data and the standard error of the estimates of this
metric and slice on all the resamples on which this metric does not fail, whatever the other metrics and resamples do. One warning is
printed per resample on which every metric fails. -/
theorem C88_se_partial (jk : Bool) (ve : ε) (runs : List (ResampleRun κ ε)) (data : ResampleRun κ ε)
    (hn : ∀ run ∈ runs, (run.map Prod.fst).Nodup) (hr : ∃ run ∈ runs, somethingOk run = true) (hd : somethingOk data = true) :
    ∃ rows, seOnSamples jk ve [] (genOf runs) data = .ok (rows, List.replicate (runs.countP fun run => !somethingOk run) ve) ∧
      ∀ m k v se, ((m, k), v, se) ∈ rows ↔
        (∃ p ∈ data, p.1 = m ∧ allSlicesOk p.2 = true ∧ (k, .ok v) ∈ p.2) ∧ se = specSE jk (runs.filterMap (estimateOn m k)) := by
  obtain ⟨run, hrun, hok⟩ := hr
  have hne : (runs.filter somethingOk).map (fun run => (listColumns run).flatten) ≠ [] := by
    intro h
    rw [List.map_eq_nil_iff, List.filter_eq_nil_iff] at h
    exact h run hrun hok
  refine ⟨(listColumns data).flatten.map fun r => (r.1, r.2,
    specSE jk (((runs.filter somethingOk).map (fun run => (listColumns run).flatten)).filterMap fun t => (t.lookup r.1).join)), ?_, ?_⟩
  · unfold seOnSamples
    rw [onSamples_list]
    obtain ⟨t, ts, hts⟩ := List.exists_cons_of_ne_nil hne
    rw [hts]
    dsimp only
    rw [listOnSample_plain, hd, ← hts, if_pos rfl]
    dsimp only
    rw [dfSe_spec]
  · intro m k v se
    rw [List.mem_map]
    constructor
    · rintro ⟨⟨⟨m', k'⟩, w⟩, h1, h2⟩
      rw [listColumns_mem] at h1
      obtain ⟨p, hp, h3, h4, h5⟩ := h1
      simp only [Prod.mk.injEq] at h2
      obtain ⟨⟨rfl, rfl⟩, rfl, rfl⟩ := h2
      exact ⟨⟨p, hp, h4.symm, h3, h5⟩, by rw [estimates_filter runs hn]⟩
    · rintro ⟨⟨p, hp, h3, h4, h5⟩, rfl⟩
      refine ⟨((m, k), v), ?_, ?_⟩
      · rw [listColumns_mem]
        exact ⟨p, hp, h4, h3.symm, h5⟩
      · rw [estimates_filter runs hn]

/-- **C88** (intervals). -/
theorem C88_ci_partial (jk : Bool) (ppf : ℝ → ℤ → ℝ) (c : ℝ) (ve : ε) (runs : List (ResampleRun κ ε)) (data : ResampleRun κ ε)
    (hn : ∀ run ∈ runs, (run.map Prod.fst).Nodup) (hr : ∃ run ∈ runs, somethingOk run = true) (hd : somethingOk data = true) :
    ∃ rows, ciOnSamples jk ppf c ve [] (genOf runs) data = .ok (rows, List.replicate (runs.countP fun run => !somethingOk run) ve) ∧
      ∀ m k ci, ((m, k), ci) ∈ rows ↔
        ∃ v, (∃ p ∈ data, p.1 = m ∧ allSlicesOk p.2 = true ∧ (k, .ok v) ∈ p.2) ∧ ci = specCi jk ppf c v (runs.filterMap (estimateOn m k)) := by
  obtain ⟨run, hrun, hok⟩ := hr
  have hne : (runs.filter somethingOk).map (fun run => (listColumns run).flatten) ≠ [] := by
    intro h
    rw [List.map_eq_nil_iff, List.filter_eq_nil_iff] at h
    exact h run hrun hok
  refine ⟨(listColumns data).flatten.map fun r => (r.1,
    specCi jk ppf c r.2 (((runs.filter somethingOk).map (fun run => (listColumns run).flatten)).filterMap fun t => (t.lookup r.1).join)), ?_, ?_⟩
  · unfold ciOnSamples
    rw [onSamples_list]
    obtain ⟨t, ts, hts⟩ := List.exists_cons_of_ne_nil hne
    rw [hts]
    dsimp only
    rw [listOnSample_plain, hd, ← hts, if_pos rfl]
    dsimp only
    rw [dfCi_spec]
  · intro m k ci
    rw [List.mem_map]
    constructor
    · rintro ⟨⟨⟨m', k'⟩, w⟩, h1, h2⟩
      rw [listColumns_mem] at h1
      obtain ⟨p, hp, h3, h4, h5⟩ := h1
      rw [Prod.mk.injEq, Prod.mk.injEq] at h2
      obtain ⟨⟨rfl, rfl⟩, rfl⟩ := h2
      exact ⟨w, ⟨p, hp, h4.symm, h3, h5⟩, by rw [estimates_filter runs hn]⟩
    · rintro ⟨v, ⟨p, hp, h3, h4, h5⟩, rfl⟩
      refine ⟨((m, k), v), ?_, ?_⟩
      · rw [listColumns_mem]
        exact ⟨p, hp, h4, h3.symm, h5⟩
      · rw [estimates_filter runs hn]

/-- When every metric fails on every resample, or there is none, or every metric fails on the data, a ValueError is raised. -/
theorem C88_all_fail (jk : Bool) (ve : ε) (runs : List (ResampleRun κ ε)) (data : ResampleRun κ ε)
    (h : (∀ run ∈ runs, somethingOk run = false) ∨ somethingOk data = false) : seOnSamples jk ve [] (genOf runs) data = .error ve := by
  unfold seOnSamples
  rw [onSamples_list]
  cases hl : (runs.filter somethingOk).map (fun run => (listColumns run).flatten) with
  | nil => rfl
  | cons t ts =>
    rcases h with h | h
    · have : runs.filter somethingOk = [] := by
        rw [List.filter_eq_nil_iff]
        intro r hr
        simp [h r hr]
      rw [this] at hl
      cases hl
    · dsimp only
      rw [listOnSample_plain, h]
      rfl

/-- An exception raised while the resamples are drawn is not swallowed. -/
theorem C88_iterator (jk : Bool) (ve e : ε) (columns : List Txt) (runs : List (ResampleRun κ ε)) (data : ResampleRun κ ε) :
    seOnSamples jk ve columns (genRaise e runs) data = .error e := by
  have : onSamples (listOnSample ve columns) (genRaise e runs) = .error e := by
    induction runs with
    | nil => rfl
    | cons run runs ih => unfold genRaise onSamples; rw [ih]
  unfold seOnSamples
  rw [this]

/-- Resamples on which every metric fails can be left out: only the warnings differ. -/
theorem C88_leave_out (jk : Bool) (ve : ε) (runs : List (ResampleRun κ ε)) (data : ResampleRun κ ε) :
    (seOnSamples jk ve [] (genOf runs) data).map Prod.fst = (seOnSamples jk ve [] (genOf (runs.filter somethingOk)) data).map Prod.fst := by
  unfold seOnSamples
  rw [onSamples_list, onSamples_list, List.filter_filter]
  simp only [Bool.and_self]
  cases (runs.filter somethingOk).map (fun run => (listColumns run).flatten) with
  | nil => rfl
  | cons t ts =>
    dsimp only
    cases listOnSample ve [] data <;> rfl

/-! ## Violations -/

/-- Three resamples of one metric on the slices 0 and 1; on the last resample the metric has a value on slice 0 and fails on slice 1. -/
def exSliceRuns : List (ResampleRun ℕ Unit) :=
  [[(['a'], [([some 0], .ok (some 1)), ([some 1], .ok (some 5))])], [(['a'], [([some 0], .ok (some 2)), ([some 1], .ok (some 7))])],
    [(['a'], [([some 0], .ok (some 6)), ([some 1], .error ())])]]

/-- The data of the example. -/
def exSliceData : ResampleRun ℕ Unit := [(['a'], [([some 0], .ok (some 3)), ([some 1], .ok (some 6))])]

theorem specSE_two : specSE false [1, 2] = some (Real.sqrt (1 / 2)) := by
  simp only [specSE, List.length_cons, List.length_nil, List.map_cons, List.map_nil, List.sum_cons, List.sum_nil]
  norm_num

theorem specSE_three : specSE false [1, 2, 6] = some (Real.sqrt 7) := by
  simp only [specSE, List.length_cons, List.length_nil, List.map_cons, List.map_nil, List.sum_cons, List.sum_nil]
  norm_num

/-- **C88 is violated** between slices: the metric fails on one slice of a resample, and the standard error of another slice, on which it has
the values 1, 2 and 6, is that of 1 and 2. -/
theorem C88_slice_violation :
    (∃ rows es, seOnSamples false () [] (genOf exSliceRuns) exSliceData = .ok (rows, es) ∧
      ((['a'], [some 0]), some 3, specSE false [1, 2]) ∈ rows ∧ ∀ x, ((['a'], [some 0]), some 3, x) ∈ rows → x = specSE false [1, 2]) ∧
    specSE false [1, 2] ≠ specSE false [1, 2, 6] := by
  have hest : exSliceRuns.filterMap (estimateOn ['a'] [some 0]) = [1, 2] := by
    simp [exSliceRuns, estimateOn, allSlicesOk, Except.isOk, Except.toBool]
  constructor
  · obtain ⟨rows, h1, h2⟩ := C88_se_partial false () exSliceRuns exSliceData (by simp [exSliceRuns])
      ⟨_, List.mem_cons_self, by simp [somethingOk, allSlicesOk, Except.isOk, Except.toBool]⟩
      (by simp [exSliceData, somethingOk, allSlicesOk, Except.isOk, Except.toBool])
    refine ⟨rows, _, h1, (h2 _ _ _ _).2 ⟨?_, by rw [hest]⟩, fun x hx => by rw [← hest]; exact ((h2 _ _ _ _).1 hx).2⟩
    exact ⟨_, List.mem_cons_self, rfl, by simp [allSlicesOk, Except.isOk, Except.toBool], by simp⟩
  · rw [specSE_two, specSE_three]
    intro h
    injection h with h
    have := Real.sqrt_lt_sqrt (by norm_num : (0 : ℝ) ≤ 1 / 2) (by norm_num : (1 / 2 : ℝ) < 7)
    rw [h] at this
    exact lt_irrefl _ this

/-- Two metrics; the second fails on the last resample. -/
def exRenameRuns : List (ResampleRun ℕ Unit) :=
  [[(['a'], [([], .ok (some 1))]), (['b'], [([], .ok (some 5))])], [(['a'], [([], .ok (some 2))]), (['b'], [([], .ok (some 7))])],
    [(['a'], [([], .ok (some 6))]), (['b'], [([], .error ())])]]

/-- The data of the example. -/
def exRenameData : ResampleRun ℕ Unit := [(['a'], [([], .ok (some 3))]), (['b'], [([], .ok (some 6))])]

/-- **C88 is violated** for a list whose columns are renamed: a metric that fails on a resample takes the other metrics with it. The metric
`x` has the values 1, 2 and 6; its standard error is that of 1 and 2. Without renaming it is that of 1, 2 and 6. -/
theorem C88_rename_violation :
    (∃ rest es, seOnSamples false () [['x'], ['y']] (genOf exRenameRuns) exRenameData = .ok (((['x'], []), some 3, specSE false [1, 2]) :: rest, es)) ∧
    ∃ rows es, seOnSamples false () [] (genOf exRenameRuns) exRenameData = .ok (rows, es) ∧ ((['a'], []), some 3, specSE false [1, 2, 6]) ∈ rows := by
  constructor
  · have h : onSamples (listOnSample () [['x'], ['y']]) (genOf exRenameRuns) =
        .ok ([[((['x'], []), some 1), ((['y'], []), some 5)], [((['x'], []), some 2), ((['y'], []), some 7)]], [()]) := by
      simp [exRenameRuns, genOf, onSamples, listOnSample, listColumns, metricOnSample]
    have hd : listOnSample () [['x'], ['y']] exRenameData = .ok [((['x'], []), some 3), ((['y'], []), some 6)] := by
      simp [exRenameData, listOnSample, listColumns, metricOnSample]
    unfold seOnSamples
    rw [h]
    dsimp only
    rw [hd]
    dsimp only
    rw [dfSe_spec]
    refine ⟨[((['y'], []), some 6, specSE false [5, 7])], [()], ?_⟩
    have hyx : (((['y'], []) : Txt × RKey ℕ) == (['x'], [])) = false := by decide
    simp only [List.map_cons, List.map_nil, List.filterMap_cons, List.filterMap_nil]
    simp [List.lookup, hyx]
  · have hest : exRenameRuns.filterMap (estimateOn ['a'] []) = [1, 2, 6] := by
      simp [exRenameRuns, estimateOn, allSlicesOk, Except.isOk, Except.toBool]
    obtain ⟨rows, h1, h2⟩ := C88_se_partial false () exRenameRuns exRenameData (by simp [exRenameRuns])
      ⟨_, List.mem_cons_self, by simp [somethingOk, allSlicesOk, Except.isOk, Except.toBool]⟩
      (by simp [exRenameData, somethingOk, allSlicesOk, Except.isOk, Except.toBool])
    refine ⟨rows, _, h1, (h2 _ _ _ _).2 ⟨?_, by rw [hest]⟩⟩
    exact ⟨_, List.mem_cons_self, rfl, by simp [allSlicesOk, Except.isOk, Except.toBool], by simp⟩

end Verif
