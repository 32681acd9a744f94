import Verif.Lemmas.Comparison

/-!
# C34 and C35: changes against a baseline, Mantel-Haenszel

`hk` in the theorems: a result has one row per slice and condition (and stratum).
-/

namespace Verif

section
variable {S D G K : Type} [DecidableEq S] [DecidableEq D] [DecidableEq G] [Field K] [LinearOrder K]

theorem pyPct_eq (v b : Option K) : pyPct v b = pctChangeOf v b := by
  cases v with
  | none => cases b <;> rfl
  | some v =>
    cases b with
    | none => rfl
    | some b =>
      unfold pyPct pctChangeOf nanDiv
      by_cases h : b = 0
      · simp [h]
      · simp only [h, if_false, Option.map_some, Option.some.injEq]
        congr 1
        field_simp

theorem sqlPct_eq (v b : Option K) : sqlPct v b = pctChangeOf v b := by
  rw [← pyPct_eq]
  unfold sqlPct pyPct
  congr 1
  funext x
  ring

theorem optSub_eq (v b : Option K) : optSub v b = absOf v b := by
  cases v <;> cases b <;> rfl

theorem pyChange_some {f : Option K → Option K → Option K} {b : D} {incl : Bool} {t res : DTab S D K}
    (h : pyChange f b incl t = some res) :
    res = (t.map fun r => (r.1, f r.2 (baseVal t b r.1.1))).filter fun r => incl || !decide (r.1.2 = b) := by
  unfold pyChange at h
  simp only at h
  split at h
  · cases h
  · rw [Option.some.injEq] at h
    subst h
    have : (fun r : (S × D) × Option K => (r.1, f r.2 (((baseRows b t).lookup r.1.1).bind id)))
        = fun r => (r.1, f r.2 (baseVal t b r.1.1)) := by
      funext r
      rw [baseRows_lookup]
      unfold baseVal
      cases t.lookup (r.1.1, b) <;> rfl
    rw [this]
    cases incl <;> simp

theorem change_mem (f : Option K → Option K → Option K) (b : D) (incl : Bool) (t res : DTab S D K)
    (h : pyChange f b incl t = some res) (s : S) (d : D) (x : Option K) :
    ((s, d), x) ∈ res ↔ (incl = true ∨ d ≠ b) ∧ ∃ v, ((s, d), v) ∈ t ∧ x = f v (baseVal t b s) := by
  rw [pyChange_some h, List.mem_filter, List.mem_map]
  constructor
  · rintro ⟨⟨r, hr, he⟩, hc⟩
    rw [Prod.mk.injEq] at he
    obtain ⟨rk, rv⟩ := r
    simp only at he
    obtain ⟨rfl, rfl⟩ := he
    exact ⟨by simpa using hc, rv, hr, rfl⟩
  · rintro ⟨hc, v, hv, rfl⟩
    exact ⟨⟨_, hv, rfl⟩, by simpa using hc⟩

/-- **C34** The rows of `PercentChange` are those of the child, the baseline's only with `include_base`; each has
`(value - base) / base * 100` with `base` the baseline's value in the same slice. -/
theorem C34_percent (b : D) (incl : Bool) (t res : DTab S D K) (h : pyChange pyPct b incl t = some res) (s : S) (d : D)
    (x : Option K) :
    ((s, d), x) ∈ res ↔ (incl = true ∨ d ≠ b) ∧ ∃ v, ((s, d), v) ∈ t ∧ x = pctChangeOf v (baseVal t b s) := by
  rw [change_mem pyPct b incl t res h]
  simp only [pyPct_eq]

/-- **C34** The same for `AbsoluteChange`, with `value - base`. -/
theorem C34_absolute (b : D) (incl : Bool) (t res : DTab S D K) (h : pyChange optSub b incl t = some res) (s : S) (d : D)
    (x : Option K) :
    ((s, d), x) ∈ res ↔ (incl = true ∨ d ≠ b) ∧ ∃ v, ((s, d), v) ∈ t ∧ x = absOf v (baseVal t b s) := by
  rw [change_mem optSub b incl t res h]
  simp only [optSub_eq]

/-- **C34** No row is lost, doubled or moved. -/
theorem C34_rows (f : Option K → Option K → Option K) (b : D) (incl : Bool) (t res : DTab S D K)
    (h : pyChange f b incl t = some res) :
    res.map (·.1) = (t.map (·.1)).filter fun k => incl || !decide (k.2 = b) := by
  rw [pyChange_some h, List.filter_map, List.map_map, List.filter_map]
  rfl

/-- **C34** It fails exactly when no row of the child belongs to the baseline. -/
theorem C34_keyerror (f : Option K → Option K → Option K) (b : D) (incl : Bool) (t : DTab S D K) :
    pyChange f b incl t = none ↔ ∀ r ∈ t, r.1.2 ≠ b := by
  unfold pyChange
  simp only
  rw [ite_eq_left_iff]
  simp only [reduceCtorEq, imp_false, not_not, List.isEmpty_iff]
  unfold baseRows
  rw [List.filterMap_eq_nil_iff]
  constructor
  · intro h r hr hb
    have := h r hr
    simp [hb] at this
  · intro h r hr
    rw [if_neg (h r hr)]

/-- **C34** With `include_base` the baseline's own row is 0, if its value is present and, for the percent change, not
zero. -/
theorem C34_base_row (b : D) (t res : DTab S D K) (hk : (t.map (·.1)).Nodup) (s : S) (v : K)
    (hv : ((s, b), some v) ∈ t) :
    (pyChange optSub b true t = some res → ((s, b), some 0) ∈ res) ∧
    (v ≠ 0 → pyChange pyPct b true t = some res → ((s, b), some 0) ∈ res) := by
  have hb : baseVal t b s = some v := by
    have := filter_key_eq t hk (s, b)
    have hm : ((s, b), some v) ∈ t.filter (fun q => decide (q.1 = (s, b))) := by simp [List.mem_filter, hv]
    rw [this] at hm
    unfold baseVal
    cases hl : t.lookup (s, b) with
    | none => rw [hl] at hm; simp at hm
    | some w =>
      rw [hl] at hm
      simp at hm
      rw [hm]; rfl
  constructor
  · intro h
    exact (C34_absolute b true t res h s b _).2 ⟨.inl rfl, _, hv, by rw [hb]; simp [absOf]⟩
  · intro h0 h
    exact (C34_percent b true t res h s b _).2 ⟨.inl rfl, _, hv, by rw [hb]; simp [pctChangeOf, h0]⟩

theorem sqlChange_eq (f : Option K → Option K → Option K) (b : D) (incl : Bool) (t : DTab S D K)
    (hk : (t.map (·.1)).Nodup) :
    sqlChange f b incl t = ((t.map fun r => (r.1, f r.2 (baseVal t b r.1.1))).filter
      fun r => incl || !decide (r.1.2 = b)).filter fun r => (t.lookup (r.1.1, b)).isSome := by
  have h1 : (t.flatMap fun r => ((baseRows b t).filter fun q => decide (q.1 = r.1.1)).map fun q => (r.1, f r.2 q.2))
      = (t.map fun r => (r.1, f r.2 (baseVal t b r.1.1))).filter fun r => (t.lookup (r.1.1, b)).isSome := by
    apply flatMap_guard
    intro r
    rw [baseRows_filter b t hk]
    unfold baseVal
    cases hl : t.lookup (r.1.1, b) <;> simp [hl]
  unfold sqlChange
  simp only [h1]
  rw [List.filter_comm]
  cases incl <;> simp

/-- **C34** The queries return the rows that `compute_on` returns, for the slices that have a row for the baseline. -/
theorem C34_sql_agrees_partial (b : D) (incl : Bool) (t : DTab S D K) (hk : (t.map (·.1)).Nodup) (res : DTab S D K) :
    (pyChange pyPct b incl t = some res →
      sqlChange sqlPct b incl t = res.filter fun r => (t.lookup (r.1.1, b)).isSome) ∧
    (pyChange optSub b incl t = some res →
      sqlChange optSub b incl t = res.filter fun r => (t.lookup (r.1.1, b)).isSome) := by
  constructor
  · intro h
    rw [sqlChange_eq _ _ _ _ hk, pyChange_some h]
    simp only [sqlPct_eq, pyPct_eq]
  · intro h
    rw [sqlChange_eq _ _ _ _ hk, pyChange_some h]

/-- **C34** In particular they agree on all rows if every slice has a row for the baseline. -/
theorem C34_sql_agrees (b : D) (incl : Bool) (t : DTab S D K) (hk : (t.map (·.1)).Nodup) (res : DTab S D K)
    (hb : ∀ r ∈ t, (t.lookup (r.1.1, b)).isSome) :
    (pyChange pyPct b incl t = some res → sqlChange sqlPct b incl t = res) ∧
    (pyChange optSub b incl t = some res → sqlChange optSub b incl t = res) := by
  have key : ∀ f, pyChange f b incl t = some res → (res.filter fun r => (t.lookup (r.1.1, b)).isSome) = res := by
    intro f h
    rw [List.filter_eq_self]
    intro r hr
    have : r.1 ∈ res.map (·.1) := List.mem_map.2 ⟨r, hr, rfl⟩
    rw [C34_rows f b incl t res h, List.mem_filter, List.mem_map] at this
    obtain ⟨⟨r', hr', he⟩, _⟩ := this
    rw [← he]
    exact hb r' hr'
  exact ⟨fun h => by rw [(C34_sql_agrees_partial b incl t hk res).1 h, key _ h],
    fun h => by rw [(C34_sql_agrees_partial b incl t hk res).2 h, key _ h]⟩

/-- **C34** Violation: a slice without the baseline stays in `compute_on`'s result as a missing value and is absent
from the query's. -/
theorem C34_violation_missing_base :
    let t : DTab Nat Nat ℚ := [((0, 0), some 2), ((0, 1), some 3), ((1, 1), some 5)]
    pyChange pyPct 0 false t = some [((0, 1), some 50), ((1, 1), none)] ∧
    sqlChange sqlPct 0 false t = [((0, 1), some 50)] := by
  decide +kernel

/-- The hypotheses are met. -/
example :
    let t : DTab Nat Nat ℚ := [((0, 0), some 2), ((0, 1), some 3), ((1, 0), some 4), ((1, 1), some 5)]
    (t.map (·.1)).Nodup ∧ (∀ r ∈ t, (t.lookup (r.1.1, 0)).isSome) ∧
    pyChange pyPct 0 true t = some [((0, 0), some 0), ((0, 1), some 50), ((1, 0), some 0), ((1, 1), some 25)] ∧
    pyChange optSub 0 false t = some [((0, 1), some 1), ((1, 1), some 1)] := by
  decide +kernel

/-! ## C35 -/

theorem mh_term_num (a b : Option K × Option K) :
    optMul (optMul a.1 b.2) (nanDiv (some 1) (optAdd a.2 b.2)) = nanDiv (optMul a.1 b.2) (optAdd b.2 a.2) := by
  obtain ⟨_ | a, _ | c⟩ := a <;> obtain ⟨_ | b, _ | d⟩ := b <;> try rfl
  all_goals
    simp only [optMul, nanDiv, optAdd, add_comm d c]
    by_cases h : c + d = 0
    · simp [h]
    · simp only [h, if_false, Option.some.injEq]
      field_simp

theorem mh_term_den (a b : Option K × Option K) :
    optMul (optMul b.1 a.2) (nanDiv (some 1) (optAdd a.2 b.2)) = nanDiv (optMul b.1 a.2) (optAdd b.2 a.2) := by
  obtain ⟨_ | a, _ | c⟩ := a <;> obtain ⟨_ | b, _ | d⟩ := b <;> try rfl
  all_goals
    simp only [optMul, nanDiv, optAdd, add_comm d c]
    by_cases h : c + d = 0
    · simp [h]
    · simp only [h, if_false, Option.some.injEq]
      field_simp

theorem group_filterMap {α κ X Y Z : Type} [DecidableEq κ] (key : α → κ) (A : α → X) (B : α → Y) (g : X → Y → Option Z)
    (k : κ) (l : List α) :
    (((l.map fun r => (key r, A r, B r)).filter fun r => decide (r.1 = k)).map fun r => g r.2.1 r.2.2).filterMap id
      = l.filterMap fun r => if key r = k then g (A r) (B r) else none := by
  induction l with
  | nil => rfl
  | cons a l ih =>
    rw [List.map_cons, List.filter_cons, List.filterMap_cons]
    by_cases h : key a = k
    · simp only [h, decide_true, if_true, List.map_cons]
      rw [List.filterMap_cons, ih]
      rfl
    · simp only [h, decide_false, Bool.false_eq_true, if_false, ih]

/-- The values that are added up for a key. -/
theorem mhJoin_group (b : D) (t : MHTab S D G K) (k : S × D)
    (g : (Option K × Option K) → (Option K × Option K) → Option K) :
    (((mhJoin b t).filter fun r => decide (r.1 = k)).map fun r => g r.2.1 r.2.2).filterMap id
      = t.filterMap fun r => if (r.1.1, r.1.2.1) = k then
          g r.2 ((t.lookup (r.1.1, b, r.1.2.2)).getD (none, none)) else none := by
  unfold mhJoin
  simp only [mhBase_lookup]
  exact group_filterMap (fun r : (S × D × G) × (Option K × Option K) => (r.1.1, r.1.2.1)) (fun r => r.2)
    (fun r => (t.lookup (r.1.1, b, r.1.2.2)).getD (none, none)) g k t

theorem lookup_some_mem {α β : Type} [BEq α] [LawfulBEq α] {l : List (α × β)} {a : α} {v : β}
    (h : l.lookup a = some v) : (a, v) ∈ l := by
  induction l with
  | nil => cases h
  | cons r l ih =>
    obtain ⟨x, w⟩ := r
    rw [List.lookup_cons] at h
    by_cases hx : a = x
    · subst hx; simp at h; simp [h]
    · rw [beq_false_of_ne hx] at h
      exact List.mem_cons_of_mem _ (ih h)

theorem mh_sum_num (b : D) (t : MHTab S D G K) (hv : ∀ r ∈ t, ∃ n m, r.2 = (some n, some m)) (s : S) (d : D) :
    (t.filterMap fun r => if (r.1.1, r.1.2.1) = (s, d) then
        nanDiv (optMul r.2.1 ((t.lookup (r.1.1, b, r.1.2.2)).getD (none, none)).2)
          (optAdd ((t.lookup (r.1.1, b, r.1.2.2)).getD (none, none)).2 r.2.2) else none)
      = (strataOf t b s d).map fun x => x.a * x.d / (x.c + x.d) := by
  unfold strataOf
  rw [List.map_filterMap]
  apply List.filterMap_congr
  intro r hr
  obtain ⟨n, m, hnm⟩ := hv r hr
  by_cases hk : r.1.1 = s ∧ r.1.2.1 = d
  · rw [if_pos hk, if_pos (by rw [hk.1, hk.2]), hnm, hk.1]
    cases hl : t.lookup (s, b, r.1.2.2) with
    | none => rfl
    | some w =>
      obtain ⟨n', m', hw⟩ := hv _ (lookup_some_mem hl)
      simp only at hw
      subst hw
      simp only [Option.getD_some, optMul, optAdd, nanDiv, add_comm m' m]
      by_cases h0 : m + m' = 0 <;> simp [h0]
  · rw [if_neg hk, if_neg (by rw [Prod.mk.injEq]; exact hk)]
    rfl

theorem mh_sum_den (b : D) (t : MHTab S D G K) (hv : ∀ r ∈ t, ∃ n m, r.2 = (some n, some m)) (s : S) (d : D) :
    (t.filterMap fun r => if (r.1.1, r.1.2.1) = (s, d) then
        nanDiv (optMul ((t.lookup (r.1.1, b, r.1.2.2)).getD (none, none)).1 r.2.2)
          (optAdd ((t.lookup (r.1.1, b, r.1.2.2)).getD (none, none)).2 r.2.2) else none)
      = (strataOf t b s d).map fun x => x.b * x.c / (x.c + x.d) := by
  unfold strataOf
  rw [List.map_filterMap]
  apply List.filterMap_congr
  intro r hr
  obtain ⟨n, m, hnm⟩ := hv r hr
  by_cases hk : r.1.1 = s ∧ r.1.2.1 = d
  · rw [if_pos hk, if_pos (by rw [hk.1, hk.2]), hnm, hk.1]
    cases hl : t.lookup (s, b, r.1.2.2) with
    | none => rfl
    | some w =>
      obtain ⟨n', m', hw⟩ := hv _ (lookup_some_mem hl)
      simp only at hw
      subst hw
      simp only [Option.getD_some, optMul, optAdd, nanDiv, add_comm m' m]
      by_cases h0 : m + m' = 0 <;> simp [h0]
  · rw [if_neg hk, if_neg (by rw [Prod.mk.injEq]; exact hk)]
    rfl

/-- What both paths compute for a key. -/
def mhCell (b : D) (t : MHTab S D G K) (k : S × D) : Option K :=
  (nanDiv
    (some (nanSum (((mhJoin b t).filter fun r => decide (r.1 = k)).map fun r =>
      nanDiv (optMul r.2.1.1 r.2.2.2) (optAdd r.2.2.2 r.2.1.2))))
    (some (nanSum (((mhJoin b t).filter fun r => decide (r.1 = k)).map fun r =>
      nanDiv (optMul r.2.2.1 r.2.1.2) (optAdd r.2.2.2 r.2.1.2))))).map fun x => (x - 1) * 100

theorem pyMH_some {b : D} {incl : Bool} {t : MHTab S D G K} {res : DTab S D K} (h : pyMH b incl t = some res) :
    res = ((((mhJoin b t).map (·.1)).dedup).filter fun k => incl || !decide (k.2 = b)).map fun k => (k, mhCell b t k) := by
  unfold pyMH at h
  simp only [mh_term_num, mh_term_den] at h
  split at h
  · cases h
  · rw [Option.some.injEq] at h
    subst h
    cases incl with
    | true => simp only [if_true, Bool.true_or, List.filter_true]; rfl
    | false =>
      simp only [Bool.false_eq_true, if_false, Bool.false_or]
      rw [List.filter_map]
      rfl

theorem coalesceSum_eq (vs : List (Option K)) : coalesceSum vs = nanSum vs := by
  unfold coalesceSum sqlSumN nanSum
  cases h : vs.filterMap id <;> simp

theorem sqlMH_eq (b : D) (incl : Bool) (t : MHTab S D G K) (hk : (t.map (·.1)).Nodup) :
    sqlMH b incl t
      = ((((mhJoin b t).map (·.1)).dedup).filter fun k => incl || !decide (k.2 = b)).map fun k => (k, mhCell b t k) := by
  unfold sqlMH
  simp only [mhLeftJoin_eq b t hk]
  have hkeys : (((mhJoin b t).filter fun r => incl || !decide (r.1.2 = b)).map (·.1)).dedup
      = (((mhJoin b t).map (·.1)).dedup).filter fun k => incl || !decide (k.2 = b) := by
    rw [← dedup_filter', List.filter_map]
    rfl
  rw [hkeys]
  apply List.map_congr_left
  intro k hk'
  rw [List.mem_filter] at hk'
  have hf : ((mhJoin b t).filter fun r => incl || !decide (r.1.2 = b)).filter (fun r => decide (r.1 = k))
      = (mhJoin b t).filter fun r => decide (r.1 = k) := by
    rw [List.filter_filter]
    apply List.filter_congr
    intro r _
    by_cases hr : r.1 = k
    · rw [hr]; simp only [decide_true, Bool.true_and]; exact hk'.2
    · simp [hr]
  rw [hf]
  unfold mhCell
  simp only [coalesceSum_eq]
  congr 2
  funext x
  ring

/-- **C35** The Mantel-Haenszel value of each slice and condition (any number of strata, strata without the baseline,
strata with denominators zero). -/
theorem C35_value (b : D) (incl : Bool) (t : MHTab S D G K) (hv : ∀ r ∈ t, ∃ n m, r.2 = (some n, some m))
    (res : DTab S D K) (h : pyMH b incl t = some res) (s : S) (d : D) (x : Option K) :
    ((s, d), x) ∈ res ↔ (incl = true ∨ d ≠ b) ∧ (∃ g v, ((s, d, g), v) ∈ t) ∧
      x = if ((strataOf t b s d).map fun y => y.b * y.c / (y.c + y.d)).sum = 0 then none
        else some (mhValue (strataOf t b s d)) := by
  have hcell : mhCell b t (s, d) = if ((strataOf t b s d).map fun y => y.b * y.c / (y.c + y.d)).sum = 0 then none
        else some (mhValue (strataOf t b s d)) := by
    unfold mhCell nanSum
    rw [mhJoin_group b t (s, d) (fun a b => nanDiv (optMul a.1 b.2) (optAdd b.2 a.2)),
      mhJoin_group b t (s, d) (fun a b => nanDiv (optMul b.1 a.2) (optAdd b.2 a.2)),
      mh_sum_num b t hv, mh_sum_den b t hv]
    unfold mhValue
    simp only [nanDiv]
    split <;> rfl
  have hmem : (s, d) ∈ (mhJoin b t).map (·.1) ↔ ∃ g v, ((s, d, g), v) ∈ t := by
    unfold mhJoin
    rw [List.map_map, List.mem_map]
    constructor
    · rintro ⟨⟨⟨s', d', g⟩, v⟩, hr, he⟩
      simp only [Function.comp_apply, Prod.mk.injEq] at he
      obtain ⟨rfl, rfl⟩ := he
      exact ⟨g, v, hr⟩
    · rintro ⟨g, v, hr⟩
      exact ⟨_, hr, rfl⟩
  rw [pyMH_some h, List.mem_map]
  constructor
  · rintro ⟨k, hk, he⟩
    rw [Prod.mk.injEq] at he
    obtain ⟨rfl, rfl⟩ := he
    rw [List.mem_filter, List.mem_dedup, hmem] at hk
    exact ⟨by simpa using hk.2, hk.1, hcell⟩
  · rintro ⟨hc, hg, rfl⟩
    refine ⟨(s, d), ?_, by rw [hcell]⟩
    rw [List.mem_filter, List.mem_dedup, hmem]
    exact ⟨hg, by simpa using hc⟩

/-- **C35** The query returns the same table whenever `compute_on` returns one (missing values and missing baselines
included). -/
theorem C35_sql_agrees (b : D) (incl : Bool) (t : MHTab S D G K) (hk : (t.map (·.1)).Nodup)
    (res : DTab S D K) (h : pyMH b incl t = some res) : sqlMH b incl t = res := by
  rw [sqlMH_eq b incl t hk, pyMH_some h]

/-- **C35** With a single stratum it is the percent change of the ratios. -/
theorem C35_single (x : Stratum K) (hc : x.c ≠ 0) (hd : x.d ≠ 0) (hb : x.b ≠ 0) (hcd : x.c + x.d ≠ 0) :
    mhValue [x] = (x.a / x.c / (x.b / x.d) - 1) * 100 := by
  unfold mhValue
  simp only [List.map_cons, List.map_nil, List.sum_cons, List.sum_nil, add_zero]
  congr 2
  field_simp

/-- **C35** If the ratios are the same in all strata, it is the percent change of those ratios. -/
theorem C35_same_ratios (l : List (Stratum K)) (r q : K) (hr : ∀ x ∈ l, x.a = r * x.c) (hq : ∀ x ∈ l, x.b = q * x.d)
    (hq0 : q ≠ 0) (h0 : (l.map fun x => x.c * x.d / (x.c + x.d)).sum ≠ 0) :
    mhValue l = (r / q - 1) * 100 := by
  have h1 : ∀ (u : K) (f : Stratum K → K), (l.map fun x => u * f x).sum = u * (l.map f).sum := by
    intro u f
    rw [List.sum_map_mul_left]
  have hn : (l.map fun x => x.a * x.d / (x.c + x.d)) = l.map fun x => r * (x.c * x.d / (x.c + x.d)) := by
    apply List.map_congr_left
    intro x hx
    rw [hr x hx]; ring
  have hd : (l.map fun x => x.b * x.c / (x.c + x.d)) = l.map fun x => q * (x.c * x.d / (x.c + x.d)) := by
    apply List.map_congr_left
    intro x hx
    rw [hq x hx]; ring
  unfold mhValue
  rw [hn, hd, h1, h1]
  congr 2
  field_simp

/-- The hypotheses are met: two slices, two strata, the second slice without the baseline in one of them. -/
example :
    let t : MHTab Nat Nat Nat ℚ := [((0, 0, 0), (some 1, some 4)), ((0, 0, 1), (some 1, some 2)),
      ((0, 1, 0), (some 3, some 4)), ((0, 1, 1), (some 2, some 2)), ((1, 0, 0), (some 1, some 2)),
      ((1, 1, 0), (some 2, some 2)), ((1, 1, 1), (some 7, some 2))]
    (t.map (·.1)).Nodup ∧ pyMH 0 false t = some [((0, 1), some (150)), ((1, 1), some 100)] ∧
    sqlMH 0 false t = [((0, 1), some (150)), ((1, 1), some 100)] ∧
    (strataOf t 0 0 1).length = 2 ∧ (strataOf t 0 1 1).length = 1 := by
  decide +kernel

example : ∀ r ∈ ([((0, 0, 0), (some 1, some 4)), ((0, 1, 0), (some 3, some 4))] : MHTab Nat Nat Nat ℚ),
    ∃ n m, r.2 = (some n, some m) := by simp

end
end Verif
