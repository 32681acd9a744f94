import Verif.Props.DisplayTable
import Mathlib.Data.List.Induction
import Mathlib.Tactic.FieldSimp
import Mathlib.Algebra.BigOperators.Group.List.Basic

/-!
# C62, C63, C64: which rows the display shows, and in which order

/repo/confidence_interval_display.py:106-285, 524-558.
-/

namespace Verif

section
variable {ε δ μ : Type} [DecidableEq ε] [DecidableEq δ] [DecidableEq μ]

omit [DecidableEq ε] [DecidableEq δ] [DecidableEq μ] in
theorem dispKey_iff (has u : Bool) (r : DispRow ε δ μ) (k : DispKey ε δ) :
    dispKey has u r = some k ↔ r.dims = k.dims.map some ∧ (if u then r.ctrl.isSome ∧ r.ctrl = k.ctrl else k.ctrl = none) ∧
      k.isCtrl = (has && r.isCtrl) ∧ k.exp = r.exp := by
  unfold dispKey
  obtain ⟨d, c, i, e⟩ := k
  cases u
  · simp only [Bool.false_eq_true, if_false, Option.bind_eq_bind, Option.bind_some, Option.bind_eq_some_iff, Option.pure_def, Option.some.injEq,
      DispKey.mk.injEq, mapM_id_iff]
    constructor
    · rintro ⟨d', hd, rfl, rfl, rfl, rfl⟩; exact ⟨hd, rfl, rfl, rfl⟩
    · rintro ⟨hd, rfl, rfl, rfl⟩; exact ⟨d, hd, rfl, rfl, rfl, rfl⟩
  · simp only [if_true, Option.bind_eq_bind, Option.bind_eq_some_iff, Option.pure_def, Option.some.injEq, DispKey.mk.injEq, mapM_id_iff,
      Option.map_eq_some_iff]
    constructor
    · rintro ⟨d', hd, c', ⟨a, ha, rfl⟩, rfl, rfl, rfl, rfl⟩; exact ⟨hd, ⟨by simp [ha], ha⟩, rfl, rfl⟩
    · rintro ⟨hd, ⟨hs, hc⟩, rfl, rfl⟩
      obtain ⟨a, ha⟩ := Option.isSome_iff_exists.1 hs
      exact ⟨d, hd, some a, ⟨a, ha, rfl⟩, rfl, by rw [← hc, ha], rfl, rfl⟩

theorem aggMean_singleton (x : Option ℚ) : aggMean [x] = x := by
  cases x <;> simp [aggMean, dispVals]

end

section
variable {ε δ μ : Type} [LinearOrder ε] [LinearOrder δ] [DecidableEq μ]

theorem mem_longToWide (has : Bool) (rows : List (DispRow ε δ μ)) (p : DispKey ε δ × (μ → WideCell)) :
    p ∈ longToWide has rows ↔ (∃ r ∈ rows, dispKey has (usesCtrl has rows) r = some p.1) ∧ p.2 = wideCell has (usesCtrl has rows) rows p.1 := by
  unfold longToWide
  simp only [List.mem_map, List.mem_mergeSort, List.mem_dedup, List.mem_filterMap]
  constructor
  · rintro ⟨k, hk, rfl⟩; exact ⟨hk, rfl⟩
  · rintro ⟨hk, h⟩; exact ⟨p.1, hk, Prod.ext rfl h.symm⟩

/-! ## C62 -/

/-- **C62, what is proved of it.** With `show_control=False`, and without `auto_decide_control_vals`, no control row is shown,
and no value is shown unless `show_metric_value_when_control_hidden`. -/
theorem C62_hidden_partial (o : DispOpts) (hs : o.showControl = false) (ha : o.autoDecide = false) (arg : CtrlArg ε) (has : Bool)
    (rows : List (DispRow ε δ μ)) :
    ∃ t, wideTable o arg has rows = some t ∧ ∀ p ∈ t, p.1.isCtrl = false ∧ (o.showValueHidden = false → ∀ m, (p.2 m).value = none) := by
  obtain ⟨h2, rows2, hrw⟩ : ∃ h2 rows2, addIsControl arg has rows = (h2, rows2) := ⟨_, _, rfl⟩
  refine ⟨_, by rw [wideTable, preAggregate, hrw]; simp only [hs, ha]; rfl, ?_⟩
  intro p hp
  simp only [Bool.false_eq_true, if_false] at hp
  obtain ⟨⟨r, hr, hk⟩, hc⟩ := (mem_longToWide _ _ p).1 hp
  rw [dispKey_iff] at hk
  constructor
  · rw [hk.2.2.1]
    cases h2
    · simp
    · simp only [if_true, List.mem_filter, Bool.not_eq_true'] at hr
      simp [hr.2]
  · intro hv m
    rw [hc]
    simp only [wideCell]
    have : ∀ x ∈ ((if h2 = true then
          (if o.showValueHidden = true then rows2 else rows2.map fun r => { r with value := none }).filter fun r => !r.isCtrl
        else if o.showValueHidden = true then rows2 else rows2.map fun r => { r with value := none })), x.value = none := by
      intro x hx
      simp only [hv, Bool.false_eq_true, if_false] at hx
      have hx' : x ∈ rows2.map fun r => ({ r with value := none } : DispRow ε δ μ) := by
        split at hx
        · exact (List.mem_filter.1 hx).1
        · exact hx
      obtain ⟨y, _, rfl⟩ := List.mem_map.1 hx'
      rfl
    unfold aggMean
    rw [if_pos]
    rw [List.isEmpty_iff]
    rw [List.eq_nil_iff_forall_not_mem]
    intro q hq
    rw [mem_dispVals, List.mem_map] at hq
    obtain ⟨x, hx, hxq⟩ := hq
    rw [this x (List.mem_filter.1 hx).1] at hxq
    exact absurd hxq (by simp)

/-- **C62, violated with `auto_decide_control_vals`.** The control rows that were dropped come back, with their values. -/
theorem C62_violation_auto_decide (v : ℚ) (r l u x : Option ℚ) :
    ∃ t, wideTable ⟨false, true, false⟩ (.single 0) false [(⟨1, [some 7], 3, x, r, l, u, some v, none, false⟩ : DispRow ℕ ℕ ℕ)] = some t ∧
      ∃ cell, (⟨[7], some 0, true, 0⟩, cell) ∈ t ∧ (cell 3).value = some v := by
  have hr : preAggregate ⟨false, true, false⟩ (.single 0) false [(⟨1, [some 7], 3, x, r, l, u, some v, none, false⟩ : DispRow ℕ ℕ ℕ)] =
      some (true, [⟨1, [some 7], 3, none, r, l, u, some v, some 0, false⟩, ⟨0, [some 7], 3, some v, none, none, none, none, some 0, true⟩]) := by
    simp [preAggregate, addIsControl, addControlRows, controlVals, ctrlGroup, aggMax, aggMin, dispVals, isValid, thresh_eq, newCtrlRow]
  refine ⟨_, by rw [wideTable, hr]; rfl, ?_⟩
  have hu : usesCtrl true [(⟨1, [some 7], 3, none, r, l, u, some v, some 0, false⟩ : DispRow ℕ ℕ ℕ),
      ⟨0, [some 7], 3, some v, none, none, none, none, some 0, true⟩] = true := by simp [usesCtrl]
  refine ⟨_, (mem_longToWide _ _ (_, _)).2 ⟨⟨⟨0, [some 7], 3, some v, none, none, none, none, some 0, true⟩, by simp, ?_⟩, Eq.refl (wideCell _ _ _ _)⟩, ?_⟩
  · rw [hu]; simp [dispKey]
  · rw [hu]; simp [wideCell, dispKey, aggMean, dispVals]

/-! ## C63 -/

/-- What the display shows for a row whose key is not null and which no other row shares. -/
theorem shown_of_unique (has : Bool) (l1 l2 : List (DispRow ε δ μ)) (r : DispRow ε δ μ) (k : DispKey ε δ)
    (hk : dispKey has (usesCtrl has (l1 ++ r :: l2)) r = some k)
    (hone : ∀ s ∈ l1 ++ l2, ¬ (s.exp = r.exp ∧ s.dims = r.dims ∧ s.metric = r.metric)) :
    ∃ cell, (k, cell) ∈ longToWide has (l1 ++ r :: l2) ∧ cell r.metric = ⟨r.value, r.ratio, r.lower, r.upper⟩ := by
  refine ⟨_, (mem_longToWide _ _ (k, _)).2 ⟨⟨r, by simp, hk⟩, Eq.refl (wideCell _ _ _ _)⟩, ?_⟩
  set u := usesCtrl has (l1 ++ r :: l2) with hu
  have hno : ∀ l : List (DispRow ε δ μ), (∀ s ∈ l, s ∈ l1 ++ l2) → l.filter (fun s => dispKey has u s = some k ∧ s.metric = r.metric) = [] := by
    intro l hl
    rw [List.filter_eq_nil_iff]
    intro s hs
    simp only [decide_eq_true_eq, not_and]
    intro h1 h2
    rw [dispKey_iff] at h1 hk
    exact hone s (hl s hs) ⟨by rw [← h1.2.2.2, hk.2.2.2], by rw [h1.1, hk.1], h2⟩
  have hf : (l1 ++ r :: l2).filter (fun s => dispKey has u s = some k ∧ s.metric = r.metric) = [r] := by
    rw [List.filter_append, List.filter_cons_of_pos (by simp [hk]), hno l1 (fun s hs => by simp [hs]), hno l2 (fun s hs => by simp [hs])]
    rfl
  simp only [wideCell, hf, List.map_cons, List.map_nil, aggMean_singleton]

/-- **C63, what is proved of it: one control.** With `ctrl_id` a single id and `show_control`, a row whose dimensions are not
null and that no other row shares is shown under its own slice, experiment and metric with its own numbers; the ratio of the
control is hidden. -/
theorem C63_single_partial (o : DispOpts) (hs : o.showControl = true) (ha : o.autoDecide = false) (c : ε) (has : Bool)
    (l1 l2 : List (DispRow ε δ μ)) (r : DispRow ε δ μ) (d : List δ) (hd : r.dims = d.map some)
    (hone : ∀ s ∈ l1 ++ l2, ¬ (s.exp = r.exp ∧ s.dims = r.dims ∧ s.metric = r.metric)) :
    ∃ t cell, wideTable o (.single c) has (l1 ++ r :: l2) = some t ∧ (⟨d, some c, decide (r.exp = c), r.exp⟩, cell) ∈ t ∧
      cell r.metric = ⟨r.value, if r.exp = c then none else r.ratio, r.lower, r.upper⟩ := by
  set g : DispRow ε δ μ → DispRow ε δ μ := fun s =>
    if s.exp = c then { s with isCtrl := true, ctrl := some c, ratio := none } else { s with isCtrl := false, ctrl := some c } with hg
  have hpre : preAggregate o (.single c) has (l1 ++ r :: l2) = some (true, l1.map g ++ g r :: l2.map g) := by
    unfold preAggregate addIsControl
    simp only [hs, ha, if_true, Bool.false_eq_true, if_false, List.map_map, Option.bind_eq_bind, Option.bind_some, Option.pure_def]
    rw [← List.map_cons, ← List.map_append]
    congr 2
    apply List.map_congr_left
    intro s _
    simp only [Function.comp, hg]
    by_cases h : s.exp = c <;> simp [h]
  have hexp : ∀ s, (g s).exp = s.exp := fun s => by simp only [hg]; split <;> rfl
  have hdims : ∀ s, (g s).dims = s.dims := fun s => by simp only [hg]; split <;> rfl
  have hmet : ∀ s, (g s).metric = s.metric := fun s => by simp only [hg]; split <;> rfl
  have hctrl : ∀ s, (g s).ctrl = some c := fun s => by simp only [hg]; split <;> rfl
  have hu : usesCtrl true (l1.map g ++ g r :: l2.map g) = true := by
    simp [usesCtrl, hctrl]
  obtain ⟨cell, hm, hc⟩ := shown_of_unique true (l1.map g) (l2.map g) (g r) ⟨d, some c, decide (r.exp = c), r.exp⟩
    (by
      rw [dispKey_iff, hu]
      refine ⟨by rw [hdims, hd], by simp [hctrl], ?_, (hexp r).symm⟩
      simp only [hg, Bool.true_and]
      by_cases h : r.exp = c <;> simp [h])
    (by
      intro s hs'
      rw [← List.map_append, List.mem_map] at hs'
      obtain ⟨s0, hs0, rfl⟩ := hs'
      rw [hexp, hexp, hdims, hdims, hmet, hmet]
      exact hone s0 hs0)
  refine ⟨_, cell, by rw [wideTable, hpre]; rfl, hm, ?_⟩
  rw [hmet] at hc
  rw [hc]
  simp only [hg]
  by_cases h : r.exp = c <;> simp [h]

omit [LinearOrder δ] [DecidableEq μ] in
theorem assocGet_foldl (c e : ε) (es : List ε) (acc : List (ε × ε)) :
    assocGet (es.foldl (fun acc x => (x, c) :: acc) acc) e = if e ∈ es then some c else assocGet acc e := by
  induction es generalizing acc with
  | nil => simp
  | cons x es ih =>
    rw [List.foldl_cons, ih]
    by_cases h : e ∈ es
    · simp [h]
    · simp only [h, if_false, List.mem_cons, or_false, assocGet, List.find?_cons]
      by_cases hx : x = e
      · subst hx; simp
      · simp [hx, Ne.symm hx]

omit [LinearOrder δ] [DecidableEq μ] in
theorem assocGet_snoc (d : List (ε × List ε)) (c : ε) (es : List ε) (e : ε) :
    assocGet (ctrlLookup (d ++ [(c, es)])) e = if e = c ∨ e ∈ es then some c else assocGet (ctrlLookup d) e := by
  unfold ctrlLookup
  rw [List.foldl_append, List.foldl_cons, List.foldl_nil]
  have := assocGet_foldl c e es (d.foldl (fun acc p => (p.1, p.1) :: (p.2.foldl (fun acc e => (e, p.1) :: acc) acc)) [])
  rw [assocGet, List.find?_cons]
  by_cases h : c = e
  · subst h; simp
  · simp only [h, decide_false]
    rw [← assocGet, this]
    have : ¬ e = c := fun h' => h h'.symm
    simp [this]

omit [LinearOrder δ] [DecidableEq μ] in
/-- The control of an experiment is the last one that mentions it. -/
theorem ctrlLookup_spec (d1 d2 : List (ε × List ε)) (c : ε) (es : List ε) (e : ε) (he : e = c ∨ e ∈ es)
    (hlast : ∀ p ∈ d2, e ≠ p.1 ∧ e ∉ p.2) : assocGet (ctrlLookup (d1 ++ (c, es) :: d2)) e = some c := by
  induction d2 using List.reverseRecOn with
  | nil => rw [assocGet_snoc, if_pos he]
  | append_singleton d2 p ih =>
    have h1 : d1 ++ (c, es) :: (d2 ++ [p]) = (d1 ++ (c, es) :: d2) ++ [(p.1, p.2)] := by simp
    have hp := hlast p (by simp)
    rw [h1, assocGet_snoc, if_neg (by rintro (h | h); exact hp.1 h; exact hp.2 h), ih fun q hq => hlast q (by simp [hq])]

omit [LinearOrder δ] [DecidableEq μ] in
theorem ctrlLookup_none (d : List (ε × List ε)) (e : ε) (h : ∀ p ∈ d, e ≠ p.1 ∧ e ∉ p.2) : assocGet (ctrlLookup d) e = none := by
  induction d using List.reverseRecOn with
  | nil => rfl
  | append_singleton d p ih =>
    have hp := h p (by simp)
    have := assocGet_snoc d p.1 p.2 e
    rw [Prod.mk.eta] at this
    rw [this, if_neg (by rintro (h | h); exact hp.1 h; exact hp.2 h), ih fun q hq => h q (by simp [hq])]

/-- **C63, what is proved of it: several controls.** With `ctrl_id` a dict, a row whose dimensions are not null, that no other
row shares, and whose experiment the dict mentions is shown under its own slice, experiment and metric with its own numbers,
and under the last control that mentions it. -/
theorem C63_dict_partial (o : DispOpts) (hs : o.showControl = true) (ha : o.autoDecide = false) (d1 d2 : List (ε × List ε)) (c : ε) (es : List ε)
    (has : Bool) (l1 l2 : List (DispRow ε δ μ)) (r : DispRow ε δ μ) (he : r.exp = c ∨ r.exp ∈ es)
    (hlast : ∀ p ∈ d2, r.exp ≠ p.1 ∧ r.exp ∉ p.2) (d : List δ) (hd : r.dims = d.map some)
    (hone : ∀ s ∈ l1 ++ l2, ¬ (s.exp = r.exp ∧ s.dims = r.dims ∧ s.metric = r.metric)) :
    ∃ t cell, wideTable o (.dict (d1 ++ (c, es) :: d2)) has (l1 ++ r :: l2) = some t ∧
      (⟨d, some c, decide (r.exp ∈ (d1 ++ (c, es) :: d2).map (·.1)), r.exp⟩, cell) ∈ t ∧
      cell r.metric = ⟨r.value, if r.exp ∈ (d1 ++ (c, es) :: d2).map (·.1) then none else r.ratio, r.lower, r.upper⟩ := by
  set D := d1 ++ (c, es) :: d2 with hD
  set g : DispRow ε δ μ → DispRow ε δ μ := fun s =>
    if s.exp ∈ D.map (·.1) then { s with isCtrl := true, ctrl := assocGet (ctrlLookup D) s.exp, ratio := none }
    else { s with isCtrl := false, ctrl := assocGet (ctrlLookup D) s.exp } with hg
  have hpre : preAggregate o (.dict D) has (l1 ++ r :: l2) = some (true, l1.map g ++ g r :: l2.map g) := by
    unfold preAggregate addIsControl
    simp only [hs, ha, if_true, Bool.false_eq_true, if_false, List.map_map, Option.bind_eq_bind, Option.bind_some, Option.pure_def]
    rw [← List.map_cons, ← List.map_append]
    congr 2
    apply List.map_congr_left
    intro s _
    simp only [Function.comp, hg]
    by_cases h : s.exp ∈ D.map (·.1) <;> simp only [h, decide_true, decide_false, if_true, if_false, Bool.false_eq_true]
  have hexp : ∀ s, (g s).exp = s.exp := fun s => by simp only [hg]; split <;> rfl
  have hdims : ∀ s, (g s).dims = s.dims := fun s => by simp only [hg]; split <;> rfl
  have hmet : ∀ s, (g s).metric = s.metric := fun s => by simp only [hg]; split <;> rfl
  have hctrl : (g r).ctrl = some c := by
    have : (g r).ctrl = assocGet (ctrlLookup D) r.exp := by simp only [hg]; split <;> rfl
    rw [this, hD, ctrlLookup_spec d1 d2 c es r.exp he hlast]
  have hu : usesCtrl true (l1.map g ++ g r :: l2.map g) = true := by
    simp [usesCtrl, hctrl]
  obtain ⟨cell, hm, hc⟩ := shown_of_unique true (l1.map g) (l2.map g) (g r) ⟨d, some c, decide (r.exp ∈ D.map (·.1)), r.exp⟩
    (by
      rw [dispKey_iff, hu]
      refine ⟨by rw [hdims, hd], by simp [hctrl], ?_, (hexp r).symm⟩
      simp only [hg, Bool.true_and]
      by_cases h : r.exp ∈ D.map (·.1) <;> simp only [h, decide_true, decide_false, if_true, if_false])
    (by
      intro s hs'
      rw [← List.map_append, List.mem_map] at hs'
      obtain ⟨s0, hs0, rfl⟩ := hs'
      rw [hexp, hexp, hdims, hdims, hmet, hmet]
      exact hone s0 hs0)
  refine ⟨_, cell, by rw [wideTable, hpre]; rfl, hm, ?_⟩
  rw [hmet] at hc
  rw [hc]
  simp only [hg]
  by_cases h : r.exp ∈ D.map (·.1) <;> simp only [h, if_true, if_false]

/-- **C63, violated for experiments that `ctrl_id` does not mention.** As soon as another experiment in the table is mentioned,
they disappear from the display without a word, whatever the switches are. -/
theorem C63_violation_unlisted (o : DispOpts) (ha : o.autoDecide = false) (hs : o.showControl = true) (d : List (ε × List ε)) (has : Bool)
    (rows : List (DispRow ε δ μ)) (e e' : ε) (he : ∀ p ∈ d, e ≠ p.1 ∧ e ∉ p.2) (he' : assocGet (ctrlLookup d) e' ≠ none)
    (hr : ∃ r ∈ rows, r.exp = e') :
    ∃ t, wideTable o (.dict d) has rows = some t ∧ ∀ p ∈ t, p.1.exp ≠ e := by
  set g : DispRow ε δ μ → DispRow ε δ μ := fun s =>
    if s.exp ∈ d.map (·.1) then { s with isCtrl := true, ctrl := assocGet (ctrlLookup d) s.exp, ratio := none }
    else { s with isCtrl := false, ctrl := assocGet (ctrlLookup d) s.exp } with hg
  have hpre : preAggregate o (.dict d) has rows = some (true, rows.map g) := by
    unfold preAggregate addIsControl
    simp only [hs, ha, if_true, Bool.false_eq_true, if_false, List.map_map, Option.bind_eq_bind, Option.bind_some, Option.pure_def]
    congr 2
    apply List.map_congr_left
    intro s _
    simp only [Function.comp, hg]
    by_cases h : s.exp ∈ d.map (·.1) <;> simp only [h, decide_true, decide_false, if_true, if_false, Bool.false_eq_true]
  have hexp : ∀ s, (g s).exp = s.exp := fun s => by simp only [hg]; split <;> rfl
  have hctrl : ∀ s, (g s).ctrl = assocGet (ctrlLookup d) s.exp := fun s => by simp only [hg]; split <;> rfl
  refine ⟨_, by rw [wideTable, hpre]; rfl, ?_⟩
  intro p hp hpe
  obtain ⟨⟨r, hr', hk⟩, _⟩ := (mem_longToWide _ _ p).1 hp
  obtain ⟨r0, hr0, rfl⟩ := List.mem_map.1 hr'
  have hu : usesCtrl true (rows.map g) = true := by
    obtain ⟨r1, hr1, hr1e⟩ := hr
    simp only [usesCtrl, Bool.true_and, Bool.not_eq_true', List.all_eq_false]
    refine ⟨g r1, List.mem_map.2 ⟨r1, hr1, rfl⟩, ?_⟩
    rw [hctrl, hr1e]
    simpa using he'
  rw [dispKey_iff, hu, if_pos rfl] at hk
  have : r0.exp = e := by rw [← hexp r0, ← hk.2.2.2, hpe]
  rw [hctrl, this, ctrlLookup_none d e he] at hk
  exact absurd hk.2.1.1 (by simp)

/-- **C63, violated for null dimensions.** A row with a null dimension is in no row of the display. -/
theorem C63_violation_null_dim (has : Bool) (rows : List (DispRow ε δ μ)) (e : ε) (h : ∀ r ∈ rows, r.exp = e → none ∈ r.dims) :
    ∀ p ∈ longToWide has rows, p.1.exp ≠ e := by
  intro p hp hpe
  obtain ⟨⟨r, hr, hk⟩, _⟩ := (mem_longToWide _ _ p).1 hp
  rw [dispKey_iff] at hk
  have := h r hr (by rw [← hk.2.2.2, hpe])
  rw [hk.1] at this
  simp at this

/-- The hypotheses are met: two controls with one experiment each, and experiment 9, which is not mentioned and not shown. -/
example : ∃ t, wideTable ⟨true, false, false⟩ (.dict [(0, [1]), (5, [6])]) false
    [(⟨0, [some 7], 3, some 1, some 2, none, none, none, none, false⟩ : DispRow ℕ ℕ ℕ),
     ⟨6, [some 7], 3, some 4, some 5, some 6, some 7, none, none, false⟩,
     ⟨9, [some 7], 3, some 4, some 5, some 6, some 7, none, none, false⟩] = some t ∧ ∀ p ∈ t, p.1.exp ≠ 9 :=
  C63_violation_unlisted _ rfl rfl _ _ _ 9 6 (by decide) (by decide) ⟨⟨6, [some 7], 3, some 4, some 5, some 6, some 7, none, none, false⟩, by simp, rfl⟩

/-- Experiment 6 in the same table. -/
example : ∃ t cell, wideTable ⟨true, false, false⟩ (.dict ([(0, [1])] ++ (5, [6]) :: [])) false
    ([(⟨0, [some 7], 3, some 1, some 2, none, none, none, none, false⟩ : DispRow ℕ ℕ ℕ)] ++
     ⟨6, [some 7], 3, some 4, some 5, some 6, some 7, none, none, false⟩ ::
     [⟨9, [some 7], 3, some 4, some 5, some 6, some 7, none, none, false⟩]) = some t ∧
     (⟨[7], some 5, false, 6⟩, cell) ∈ t ∧ cell 3 = ⟨some 4, some 5, some 6, some 7⟩ :=
  C63_dict_partial _ rfl rfl [(0, [1])] [] 5 [6] _ _ _ _ (Or.inr (by simp)) (by simp) [7] rfl (by simp)

/-- A row that is there twice. -/
example : wideCell false false [(⟨6, [some 7], 3, some 4, some 5, some 6, some 8, none, none, false⟩ : DispRow ℕ ℕ ℕ),
    ⟨6, [some 7], 3, some 4, some 5, some 6, some 8, none, none, false⟩] ⟨[7], none, false, 6⟩ 3 = ⟨some 4, some 5, some 6, some 8⟩ := by
  decide +kernel

/-! ## C64 -/

/-- The average of equal numbers. -/
theorem aggMean_replicate (l : List (Option ℚ)) (v : ℚ) (hne : l ≠ []) (h : ∀ x ∈ l, x = some v) : aggMean l = some v := by
  have hl : l = List.replicate l.length (some v) := List.eq_replicate_iff.2 ⟨rfl, h⟩
  have hn : (l.length : ℚ) ≠ 0 := by simpa using hne
  have hd : dispVals l = List.replicate l.length v := by
    rw [hl]; simp [dispVals]
  unfold aggMean
  have hv : (dispVals l).isEmpty = false := by rw [hd]; simpa using hne
  simp only [hv, Bool.false_eq_true, if_false]
  rw [hd]
  simp only [List.sum_replicate, List.length_replicate, nsmul_eq_mul]
  field_simp

/-- **C63.** A slice that is in the data more than once with the same numbers shows these numbers. -/
theorem C63_repeated (has u : Bool) (rows : List (DispRow ε δ μ)) (k : DispKey ε δ) (m : μ) (v r l up : ℚ)
    (hex : ∃ x ∈ rows, dispKey has u x = some k ∧ x.metric = m)
    (h : ∀ x ∈ rows, dispKey has u x = some k → x.metric = m → x.value = some v ∧ x.ratio = some r ∧ x.lower = some l ∧ x.upper = some up) :
    wideCell has u rows k m = ⟨some v, some r, some l, some up⟩ := by
  unfold wideCell
  have hne : ∀ f : DispRow ε δ μ → Option ℚ, ((rows.filter fun r => dispKey has u r = some k ∧ r.metric = m).map f) ≠ [] := by
    intro f hn
    obtain ⟨x, hx, h1, h2⟩ := hex
    have : x ∈ rows.filter fun r => dispKey has u r = some k ∧ r.metric = m := List.mem_filter.2 ⟨hx, by simp [h1, h2]⟩
    rw [List.map_eq_nil_iff] at hn
    rw [hn] at this
    simp at this
  have hall : ∀ (f : DispRow ε δ μ → Option ℚ) (q : ℚ), (∀ x ∈ rows, dispKey has u x = some k → x.metric = m → f x = some q) →
      aggMean ((rows.filter fun r => dispKey has u r = some k ∧ r.metric = m).map f) = some q := by
    intro f q hf
    apply aggMean_replicate _ _ (hne f)
    intro y hy
    obtain ⟨x, hx, rfl⟩ := List.mem_map.1 hy
    obtain ⟨hx1, hx2⟩ := List.mem_filter.1 hx
    simp only [decide_eq_true_eq] at hx2
    exact hf x hx1 hx2.1 hx2.2
  simp only
  rw [hall _ v fun x a b c => (h x a b c).1, hall _ r fun x a b c => (h x a b c).2.1, hall _ l fun x a b c => (h x a b c).2.2.1,
    hall _ up fun x a b c => (h x a b c).2.2.2]

/-- **C64.** Without `sort_by`, in every slice and for every control, the control's row comes before its experiments' rows; and
the slices come in their order. -/
theorem C64_control_first (o : DispOpts) (arg : CtrlArg ε) (has : Bool) (rows : List (DispRow ε δ μ))
    (t : List (DispKey ε δ × (μ → WideCell))) (h : wideTable o arg has rows = some t) :
    t.Pairwise fun p q => p.1.dims ≤ q.1.dims ∧
      (p.1.dims = q.1.dims → p.1.ctrl = q.1.ctrl → q.1.isCtrl = true → p.1.isCtrl = true) := by
  unfold wideTable at h
  rw [Option.map_eq_some_iff] at h
  obtain ⟨a, _, rfl⟩ := h
  unfold longToWide
  rw [List.pairwise_map]
  have hp : ((((a.2.filterMap (dispKey a.1 (usesCtrl a.1 a.2))).dedup)).mergeSort fun x y => decide (x.rank ≤ y.rank)).Pairwise
      fun x y => decide (x.rank ≤ y.rank) = true :=
    List.pairwise_mergeSort (fun x y z h1 h2 => by simp only [decide_eq_true_eq] at *; exact le_trans h1 h2)
      (fun x y => by simp only [Bool.or_eq_true, decide_eq_true_eq]; exact le_total _ _) _
  refine hp.imp ?_
  intro x y hxy
  replace hxy := of_decide_eq_true hxy
  unfold DispKey.rank at hxy
  rw [Prod.Lex.toLex_le_toLex] at hxy
  refine ⟨?_, ?_⟩
  · rcases hxy with h | ⟨h, _⟩
    · exact le_of_lt h
    · exact le_of_eq h
  · intro hd hc hq
    rcases hxy with h | ⟨_, h⟩
    · simp only at h; rw [hd] at h; exact absurd h (lt_irrefl _)
    · simp only at h
      rw [Prod.Lex.toLex_le_toLex] at h
      rcases h with h | ⟨_, h⟩
      · simp only at h; rw [hc] at h; exact absurd h (lt_irrefl _)
      · simp only at h
        rw [Prod.Lex.toLex_le_toLex] at h
        have hq' : y.isCtrl = true := hq
        rw [hq'] at h
        show x.isCtrl = true
        cases hx : x.isCtrl
        · rw [hx] at h
          rcases h with h | ⟨h, _⟩
          · simp at h; exact absurd h (by decide)
          · simp at h
        · rfl

end

end Verif
