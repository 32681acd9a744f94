import Verif.Model.Display
import Mathlib.Tactic.Linarith
import Mathlib.Tactic.NormNum

/-!
# C54, C62, C63, C64: the rows of the display

/repo/confidence_interval_display.py:106-285, 488-558.
-/

namespace Verif

section
variable {ε δ μ : Type} [DecidableEq ε] [DecidableEq δ] [DecidableEq μ]

theorem mapM_id_iff {α : Type} (l : List (Option α)) (d : List α) : l.mapM id = some d ↔ l = d.map some := by
  induction l generalizing d with
  | nil => cases d <;> simp
  | cons a l ih =>
    cases a with
    | none => cases d <;> simp [List.mapM_cons]
    | some a =>
      cases d with
      | nil => cases h : l.mapM id <;> simp [List.mapM_cons, h]
      | cons b d =>
        simp only [List.mapM_cons, id, Option.bind_eq_bind, Option.bind_some, Option.bind_eq_some_iff, Option.pure_def, Option.some.injEq,
          List.cons.injEq, List.map_cons, ih]
        constructor
        · rintro ⟨x, hx, rfl, rfl⟩; exact ⟨rfl, hx⟩
        · rintro ⟨rfl, h⟩; exact ⟨d, h, rfl, rfl⟩

/-- An experiment row of a metric, control and slice. -/
def ExpRow (r : DispRow ε δ μ) (k : μ × ε × List δ) : Prop :=
  r.isCtrl = false ∧ r.metric = k.1 ∧ r.ctrl = some k.2.1 ∧ r.dims = k.2.2.map some

/-- A control row of a metric, control and slice. -/
def CtrlRow (r : DispRow ε δ μ) (k : μ × ε × List δ) : Prop :=
  r.isCtrl = true ∧ r.metric = k.1 ∧ r.ctrl = some k.2.1 ∧ r.exp = k.2.1 ∧ r.dims = k.2.2.map some

instance (r : DispRow ε δ μ) (k : μ × ε × List δ) : Decidable (CtrlRow r k) := by unfold CtrlRow; infer_instance

omit [DecidableEq ε] [DecidableEq δ] [DecidableEq μ] in
theorem ctrlGroup_iff (r : DispRow ε δ μ) (k : μ × ε × List δ) :
    ctrlGroup r = some k ↔ r.metric = k.1 ∧ r.ctrl = some k.2.1 ∧ r.dims = k.2.2.map some := by
  unfold ctrlGroup
  obtain ⟨m, c, d⟩ := k
  simp only [Option.bind_eq_bind, Option.bind_eq_some_iff, Option.pure_def, Option.some.injEq, Prod.mk.injEq, mapM_id_iff]
  constructor
  · rintro ⟨c', hc, d', hd, rfl, rfl, rfl⟩; exact ⟨rfl, hc, hd⟩
  · rintro ⟨rfl, hc, hd⟩; exact ⟨c, hc, d, hd, rfl, rfl, rfl⟩

theorem thresh_eq : ctrlThresh = 1 := by unfold ctrlThresh; norm_num

theorem mem_dispVals (l : List (Option ℚ)) (q : ℚ) : q ∈ dispVals l ↔ some q ∈ l := by
  simp [dispVals]

theorem aggMax_iff (l : List (Option ℚ)) (a : ℚ) : aggMax l = some a ↔ some a ∈ l ∧ ∀ b, some b ∈ l → b ≤ a := by
  unfold aggMax
  rw [List.max?_eq_some_iff]
  simp only [mem_dispVals]

theorem aggMin_iff (l : List (Option ℚ)) (a : ℚ) : aggMin l = some a ↔ some a ∈ l ∧ ∀ b, some b ∈ l → a ≤ b := by
  unfold aggMin
  rw [List.min?_eq_some_iff]
  simp only [mem_dispVals]

theorem agg_some {l : List (Option ℚ)} {q : ℚ} (h : some q ∈ l) : ∃ a b, aggMax l = some a ∧ aggMin l = some b := by
  have hne : dispVals l ≠ [] := List.ne_nil_of_mem ((mem_dispVals l q).2 h)
  have h1 : (dispVals l).max?.isSome := by simp [hne]
  have h2 : (dispVals l).min?.isSome := by simp [hne]
  obtain ⟨a, ha⟩ := Option.isSome_iff_exists.1 h1
  obtain ⟨b, hb⟩ := Option.isSome_iff_exists.1 h2
  exact ⟨a, b, ha, hb⟩

theorem ambiguous_iff (l : List (Option ℚ)) : isAmbiguous (aggMax l, aggMin l) = true ↔ ∃ a b, some a ∈ l ∧ some b ∈ l ∧ 1 < a - b := by
  constructor
  · intro h
    cases ha : aggMax l with
    | none => simp [isAmbiguous, ha] at h
    | some a =>
      cases hb : aggMin l with
      | none => simp [isAmbiguous, ha, hb] at h
      | some b =>
        simp only [isAmbiguous, ha, hb, thresh_eq, decide_eq_true_eq] at h
        exact ⟨a, b, ((aggMax_iff l a).1 ha).1, ((aggMin_iff l b).1 hb).1, h⟩
  · rintro ⟨a, b, ha, hb, h⟩
    obtain ⟨x, y, hx, hy⟩ := agg_some ha
    simp only [isAmbiguous, hx, hy, thresh_eq, decide_eq_true_eq]
    have := ((aggMax_iff l x).1 hx).2 a ha
    have := ((aggMin_iff l y).1 hy).2 b hb
    linarith

/-- The control values of the experiment rows of a group. -/
theorem controlVals_mem (rows : List (DispRow ε δ μ)) (p : (μ × ε × List δ) × Option ℚ × Option ℚ) :
    p ∈ controlVals rows ↔ (∃ r ∈ rows, ctrlGroup r = some p.1) ∧
      p.2 = (aggMax ((rows.filter fun r => ctrlGroup r = some p.1).map (·.ctrlVal)),
        aggMin ((rows.filter fun r => ctrlGroup r = some p.1).map (·.ctrlVal))) := by
  unfold controlVals
  simp only [List.mem_map, List.mem_dedup, List.mem_filterMap]
  constructor
  · rintro ⟨k, hk, rfl⟩; exact ⟨hk, rfl⟩
  · rintro ⟨hk, h⟩; exact ⟨p.1, hk, Prod.ext rfl h.symm⟩

theorem nodup_controlVals (rows : List (DispRow ε δ μ)) : ((controlVals rows).map (·.1)).Nodup := by
  unfold controlVals
  rw [List.map_map]
  have : ((fun p : (μ × ε × List δ) × Option ℚ × Option ℚ => p.1) ∘ fun k =>
    let vals := (rows.filter fun r => ctrlGroup r = some k).map (·.ctrlVal)
    (k, aggMax vals, aggMin vals)) = id := rfl
  rw [this, List.map_id]
  exact List.nodup_dedup _

theorem mem_groupVals (rows : List (DispRow ε δ μ)) (k : μ × ε × List δ) (x : Option ℚ) :
    x ∈ ((rows.filter fun r => !r.isCtrl).filter fun r => ctrlGroup r = some k).map (·.ctrlVal) ↔ ∃ r ∈ rows, ExpRow r k ∧ r.ctrlVal = x := by
  simp only [List.mem_map, List.mem_filter, Bool.not_eq_true', decide_eq_true_eq, ctrlGroup_iff, ExpRow]
  constructor
  · rintro ⟨r, ⟨⟨h1, h2⟩, h3⟩, h4⟩; exact ⟨r, h1, ⟨h2, h3⟩, h4⟩
  · rintro ⟨r, h1, ⟨h2, h3⟩, h4⟩; exact ⟨r, ⟨⟨h1, h2⟩, h3⟩, h4⟩

/-- **C54, what is proved of it.** The display warns about a metric, control and slice exactly if two of its experiment rows
disagree about the control's value by more than 1. The full property has 0 (or a small tolerance) in place of 1. -/
theorem C54_warned_partial (rows : List (DispRow ε δ μ)) (w : List (μ × ε × List δ)) (out : List (DispRow ε δ μ))
    (h : addControlRows true rows = some (w, out)) (k : μ × ε × List δ) :
    k ∈ w ↔ ∃ r ∈ rows, ∃ s ∈ rows, ExpRow r k ∧ ExpRow s k ∧ ∃ a b, r.ctrlVal = some a ∧ s.ctrlVal = some b ∧ 1 < a - b := by
  unfold addControlRows at h
  simp only [Bool.not_true, Bool.false_eq_true, if_false] at h
  split at h
  · exact absurd h (by simp)
  simp only [Option.some.injEq, Prod.mk.injEq] at h
  rw [← h.1]
  simp only [List.mem_map, List.mem_filter]
  constructor
  · rintro ⟨p, ⟨hp, ha⟩, rfl⟩
    obtain ⟨_, hv⟩ := (controlVals_mem _ p).1 hp
    rw [hv] at ha
    obtain ⟨a, b, ha, hb, hab⟩ := (ambiguous_iff _).1 ha
    obtain ⟨r, hr, hr1, hr2⟩ := (mem_groupVals rows p.1 _).1 ha
    obtain ⟨s, hs, hs1, hs2⟩ := (mem_groupVals rows p.1 _).1 hb
    exact ⟨r, hr, s, hs, hr1, hs1, a, b, hr2, hs2, hab⟩
  · rintro ⟨r, hr, s, hs, hr1, hs1, a, b, ha, hb, hab⟩
    set L := ((rows.filter fun r => !r.isCtrl).filter fun r => ctrlGroup r = some k).map (·.ctrlVal) with hL
    refine ⟨(k, (aggMax L, aggMin L)), ⟨(controlVals_mem _ (k, (aggMax L, aggMin L))).2 ⟨⟨r, ?_, (ctrlGroup_iff r k).2 hr1.2⟩, rfl⟩, ?_⟩, rfl⟩
    · simp [hr, hr1.1]
    · exact (ambiguous_iff _).2 ⟨a, b, (mem_groupVals rows k _).2 ⟨r, hr, hr1, ha⟩, (mem_groupVals rows k _).2 ⟨s, hs, hs1, hb⟩, hab⟩

theorem filter_key {α β : Type} [DecidableEq α] {l : List (α × β)} (hn : (l.map (·.1)).Nodup) {k : α} {x : β} (h : (k, x) ∈ l) :
    l.filter (fun p => decide (p.1 = k)) = [(k, x)] := by
  induction l with
  | nil => simp at h
  | cons p l ih =>
    rw [List.map_cons, List.nodup_cons] at hn
    rcases List.mem_cons.1 h with rfl | h'
    · rw [List.filter_cons_of_pos (by simp), List.filter_eq_nil_iff.2]
      intro q hq
      simp only [decide_eq_true_eq]
      intro he
      exact hn.1 (List.mem_map.2 ⟨q, hq, he⟩)
    · rw [List.filter_cons_of_neg, ih hn.2 h']
      simp only [decide_eq_true_eq]
      intro he
      exact hn.1 (List.mem_map.2 ⟨(k, x), h', he.symm⟩)

theorem mergesWith_iff (r : DispRow ε δ μ) (k : μ × ε × List δ) :
    mergesWith r k = true ↔ r.exp = k.2.1 ∧ r.ctrl = some k.2.1 ∧ r.metric = k.1 ∧ r.dims = k.2.2.map some := by
  simp [mergesWith]

theorem mergesWith_inj (r : DispRow ε δ μ) {k k' : μ × ε × List δ} (h : mergesWith r k = true) (h' : mergesWith r k' = true) : k = k' := by
  rw [mergesWith_iff] at h h'
  obtain ⟨m, c, d⟩ := k
  obtain ⟨m', c', d'⟩ := k'
  obtain ⟨h1, _, h3, h4⟩ := h
  obtain ⟨h1', _, h3', h4'⟩ := h'
  simp only at h1 h3 h4 h1' h3' h4'
  rw [h1] at h1'; rw [h3] at h3'; rw [h4] at h4'
  have := List.map_injective_iff.2 (Option.some_injective δ) h4'
  rw [h1', h3', this]

theorem ctrlRow_eq_merges (r : DispRow ε δ μ) (k : μ × ε × List δ) (h : r.isCtrl = true) : decide (CtrlRow r k) = mergesWith r k := by
  rw [Bool.eq_iff_iff, mergesWith_iff, decide_eq_true_eq, CtrlRow]
  tauto

/-- **C54.** If the experiment rows of a metric, control and slice agree about the control's value `v`, there is no warning;
without a control row in the data the display shows exactly one, with the value `v`; with control rows in the data it shows
those, with their own values, and `v` where they have none. This is so for every table, whatever else is in it. -/
theorem C54_consistent (rows : List (DispRow ε δ μ)) (k : μ × ε × List δ) (v : ℚ) (hex : ∃ r ∈ rows, ExpRow r k)
    (hall : ∀ r ∈ rows, ExpRow r k → r.ctrlVal = some v) :
    ∃ w out, addControlRows true rows = some (w, out) ∧ k ∉ w ∧
      (out.filter fun r => CtrlRow r k).map (·.value) =
        if (rows.filter fun r => CtrlRow r k) = [] then [some v]
        else (rows.filter fun r => CtrlRow r k).map fun r => some (r.value.getD v) := by
  set expr := rows.filter (fun r => !r.isCtrl) with hexpr
  set curr := rows.filter (·.isCtrl) with hcurr
  set valid := ((controlVals expr).filter fun p => isValid p.2).map (fun p => (p.1, p.2.2)) with hvalid
  obtain ⟨r0, hr0, hr0k⟩ := hex
  have hvals : ∀ x ∈ (expr.filter fun r => ctrlGroup r = some k).map (·.ctrlVal), x = some v := by
    intro x hx
    obtain ⟨r, hr, hrk, rfl⟩ := (mem_groupVals rows k x).1 hx
    exact hall r hr hrk
  have hv0 : some v ∈ (expr.filter fun r => ctrlGroup r = some k).map (·.ctrlVal) :=
    (mem_groupVals rows k _).2 ⟨r0, hr0, hr0k, hall r0 hr0 hr0k⟩
  have hmax : aggMax ((expr.filter fun r => ctrlGroup r = some k).map (·.ctrlVal)) = some v :=
    (aggMax_iff _ _).2 ⟨hv0, fun b hb => by have := hvals _ hb; simp only [Option.some.injEq] at this; rw [this]⟩
  have hmin : aggMin ((expr.filter fun r => ctrlGroup r = some k).map (·.ctrlVal)) = some v :=
    (aggMin_iff _ _).2 ⟨hv0, fun b hb => by have := hvals _ hb; simp only [Option.some.injEq] at this; rw [this]⟩
  have hcv : (k, some v, some v) ∈ controlVals expr := by
    refine (controlVals_mem _ _).2 ⟨⟨r0, ?_, (ctrlGroup_iff r0 k).2 hr0k.2⟩, ?_⟩
    · rw [hexpr]; simp [hr0, hr0k.1]
    · rw [hmax, hmin]
  have hkv : (k, some v) ∈ valid := by
    rw [hvalid]
    exact List.mem_map.2 ⟨_, List.mem_filter.2 ⟨hcv, by simp [isValid, thresh_eq]⟩, rfl⟩
  have hnodup : (valid.map (·.1)).Nodup := by
    rw [hvalid, List.map_map]
    exact (nodup_controlVals expr).sublist (List.Sublist.map _ List.filter_sublist)
  have hne : valid.isEmpty = false := by
    cases hc : valid with
    | nil => rw [hc] at hkv; simp at hkv
    | cons _ _ => rfl
  have hres : ∃ w out, addControlRows true rows = some (w, out) := by
    unfold addControlRows
    simp only [Bool.not_true, Bool.false_eq_true, if_false]
    rw [← hexpr, ← hvalid, hne]
    exact ⟨_, _, rfl⟩
  obtain ⟨w, out, hwo⟩ := hres
  refine ⟨w, out, hwo, ?_, ?_⟩
  · rw [C54_warned_partial rows w out hwo k]
    rintro ⟨r, hr, s, hs, hrk, hsk, a, b, ha, hb, hab⟩
    rw [hall r hr hrk] at ha
    rw [hall s hs hsk] at hb
    simp only [Option.some.injEq] at ha hb
    subst ha; subst hb
    linarith
  · unfold addControlRows at hwo
    simp only [Bool.not_true, Bool.false_eq_true, if_false] at hwo
    rw [← hexpr, ← hvalid, ← hcurr, hne] at hwo
    simp only [Bool.false_eq_true, if_false, Option.some.injEq, Prod.mk.injEq] at hwo
    rw [← hwo.2, List.filter_append, List.filter_append]
    have e1 : expr.filter (fun r => CtrlRow r k) = [] := by
      rw [List.filter_eq_nil_iff]
      intro r hr
      have : r.isCtrl = false := by
        rw [hexpr, List.mem_filter] at hr
        simpa using hr.2
      simp [CtrlRow, this]
    have hcr : rows.filter (fun r => CtrlRow r k) = curr.filter fun r => mergesWith r k := by
      rw [hcurr, List.filter_filter]
      apply List.filter_congr
      intro r _
      cases hc : r.isCtrl
      · simp [CtrlRow, hc]
      · rw [ctrlRow_eq_merges r k hc]; simp
    rw [e1, List.nil_append, hcr, List.map_append]
    -- the rows that were there
    have e2 : ((curr.map (fillCtrlRow valid)).filter
        fun r => CtrlRow r k).map (·.value) = (curr.filter fun r => mergesWith r k).map fun r => some (r.value.getD v) := by
      rw [List.filter_map, List.map_map]
      have hf : curr.filter ((fun r => decide (CtrlRow r k)) ∘ fillCtrlRow valid) = curr.filter fun r => mergesWith r k := by
        apply List.filter_congr
        intro r _
        simp only [Function.comp]
        rw [ctrlRow_eq_merges (fillCtrlRow valid r) k rfl]
        rfl
      rw [hf]
      apply List.map_congr_left
      intro r hr
      have hm : mergesWith r k = true := (List.mem_filter.1 hr).2
      have hfind : (valid.find? fun p => mergesWith r p.1).bind (·.2) = some v := by
        cases hfd : valid.find? fun p => mergesWith r p.1 with
        | none =>
          have := List.find?_eq_none.1 hfd (k, some v) hkv
          exact absurd hm this
        | some p =>
          have hp := List.mem_of_find?_eq_some hfd
          have hpm := List.find?_some hfd
          have hpk : p.1 = k := mergesWith_inj r hpm hm
          have : p ∈ valid.filter fun p => decide (p.1 = k) := List.mem_filter.2 ⟨hp, by simpa using hpk⟩
          rw [filter_key hnodup hkv, List.mem_singleton] at this
          rw [this]; rfl
      simp only [Function.comp, fillCtrlRow, hfind]
      cases r.value <;> rfl
    rw [e2]
    -- the rows that are added
    have e3 : (((valid.filter fun p => !curr.any fun r => mergesWith r p.1).map newCtrlRow).filter fun r => CtrlRow r k).map (·.value) =
        if (curr.filter fun r => mergesWith r k) = [] then [some v] else [] := by
      rw [List.filter_map, List.map_map, List.filter_filter]
      have hf : valid.filter (fun p => ((fun r => decide (CtrlRow r k)) ∘ newCtrlRow) p && !curr.any fun r => mergesWith r p.1) =
          valid.filter (fun p => !curr.any (fun r => mergesWith r k) && decide (p.1 = k)) := by
        apply List.filter_congr
        intro p _
        have : (decide (CtrlRow (newCtrlRow p) k)) = decide (p.1 = k) := by
          apply decide_eq_decide.2
          simp only [CtrlRow, newCtrlRow, true_and]
          constructor
          · rintro ⟨h1, h2, _, h4⟩
            have := List.map_injective_iff.2 (Option.some_injective δ) h4
            exact Prod.ext h1 (Prod.ext (by simpa using h2) this)
          · rintro rfl; exact ⟨rfl, rfl, rfl, rfl⟩
        simp only [Function.comp, this]
        by_cases hp : p.1 = k
        · rw [hp]; simp
        · simp [hp]
      rw [hf, ← List.filter_filter, filter_key hnodup hkv]
      by_cases hc : (curr.filter fun r => mergesWith r k) = []
      · have : (curr.any fun r => mergesWith r k) = false := by
          rw [List.any_eq_false]
          intro r hr
          exact List.filter_eq_nil_iff.1 hc r hr
        rw [if_pos hc]
        simp [this, newCtrlRow]
      · have : (curr.any fun r => mergesWith r k) = true := by
          by_contra hcon
          apply hc
          rw [List.filter_eq_nil_iff]
          intro r hr
          exact List.any_eq_false.1 (by simpa using hcon) r hr
        rw [if_neg hc]
        simp [this]
    rw [e3]
    split
    · rename_i hc; rw [hc]; rfl
    · rw [List.append_nil]

/-- **C54, violated: nothing valid.** If the experiments disagree by 1 or more in every metric, control and slice, the display
raises instead of warning and going on. -/
theorem C54_violation_raises (rows : List (DispRow ε δ μ))
    (h : ∀ k, (∃ r ∈ rows, ExpRow r k) → ∃ r ∈ rows, ∃ s ∈ rows, ExpRow r k ∧ ExpRow s k ∧ ∃ a b, r.ctrlVal = some a ∧ s.ctrlVal = some b ∧ 1 ≤ a - b) :
    addControlRows true rows = none := by
  unfold addControlRows
  simp only [Bool.not_true, Bool.false_eq_true, if_false]
  rw [if_pos]
  rw [List.isEmpty_iff, List.map_eq_nil_iff, List.filter_eq_nil_iff]
  intro p hp
  obtain ⟨⟨r, hr, hrk⟩, hv⟩ := (controlVals_mem _ p).1 hp
  rw [List.mem_filter] at hr
  obtain ⟨r1, hr1, s1, hs1, hk1, hk2, a, b, ha, hb, hab⟩ := h p.1 ⟨r, hr.1, by simpa using hr.2, (ctrlGroup_iff r p.1).1 hrk⟩
  have ma := (mem_groupVals rows p.1 (some a)).2 ⟨r1, hr1, hk1, ha⟩
  have mb := (mem_groupVals rows p.1 (some b)).2 ⟨s1, hs1, hk2, hb⟩
  obtain ⟨x, y, hx, hy⟩ := agg_some ma
  rw [hv, hx, hy]
  simp only [isValid, thresh_eq, decide_eq_true_eq, not_lt]
  have := ((aggMax_iff _ x).1 hx).2 a ma
  have := ((aggMin_iff _ y).1 hy).2 b mb
  linarith

end

/-- Two experiments of control 0, with these values of the control. -/
def twoExps (a b : ℚ) : List (DispRow ℕ ℕ ℕ) :=
  [⟨1, [], 0, some 5, some 1, some 0, some 2, some a, some 0, false⟩, ⟨2, [], 0, some 6, some 1, some 0, some 2, some b, some 0, false⟩]

/-- **C54, violated: the tolerance is 1.** `1**-5` is 1, not 0.00001: experiments that disagree by less than 1, here 0.1 and
0.9, are not reported, and the smaller value is shown. -/
theorem C54_violation_tolerance : addControlRows true (twoExps (1 / 10) (9 / 10)) =
    some ([], twoExps (1 / 10) (9 / 10) ++ [⟨0, [], 0, some (1 / 10), none, none, none, none, some 0, true⟩]) := by
  decide +kernel

/-- A table of which `C54_consistent` speaks: two experiments that agree, no control row. -/
example : ∃ r ∈ twoExps 3 3, ExpRow r (0, 0, []) := ⟨⟨1, [], 0, some 5, some 1, some 0, some 2, some 3, some 0, false⟩, by simp [twoExps], rfl, rfl, rfl, rfl⟩

/-- And one of which `C54_violation_raises` speaks. -/
example : addControlRows true (twoExps 3 7) = none := by decide +kernel

end Verif
