import Verif.Props.ShowResult
import Verif.Props.DisplayCell

/-!
# C86: the colours of the table that `display()` shows
-/

namespace Verif

variable {ε δ : Type} [LinearOrder ε] [LinearOrder δ]

/-- **C86, C53** from the result of a change to the coloured table: the cell of an experiment is green exactly if its whole interval is on
the good side of zero and red exactly if it is on the bad side, whatever the value; the cell of the control has no colour; and no cell
fails to be formatted. -/
theorem C86_colour_partial (pyFormat : String → ℚ → String) (f : CellFormat) (o : ShowOpts) (ho : o.showControl ≠ some false)
    (expId : List CondVal → ε) (baseline : List CondVal) (base : List (BaseRow δ)) (res : List (ResultRow δ)) (t : NameTmpl) (ht : t.change)
    (hnames : ∀ b ∈ base, ∃ c, b.metric = t.format c)
    (hbase : (base.map BaseRow.index).Nodup) (hres : (res.map ResultRow.index).Nodup)
    (hid : ∀ x ∈ baseline :: base.map (·.cond), ∀ y ∈ baseline :: base.map (·.cond), expId x = expId y → x = y) :
    ∃ tab, displayChange o expId (expId baseline) base res = some tab ∧
      ∀ b ∈ base, ∀ c d, b.metric = t.format c → b.slice = d.map some →
        ∃ cell, (⟨d, some (expId baseline), decide (b.cond = baseline), expId b.cond⟩, cell) ∈ tab ∧
          ∃ h, formatCell pyFormat f (some (cell (t.pre ++ c)).toNums) = some h ∧
            (b.cond = baseline → h.cls = "ci-display-cell") ∧
            (b.cond ≠ baseline → ∀ r ∈ res, r.index = b.index → ∀ x l u, r.value = some x → r.lower = some l → r.upper = some u → l ≤ u →
              (h.cls = green ↔ if f.flip then AllNeg l u else AllPos l u) ∧
              (h.cls = red ↔ if f.flip then AllPos l u else AllNeg l u)) := by
  obtain ⟨tab, htab, hb⟩ := C86_shows_partial o ho expId baseline base res t ht hnames hbase hres hid
  refine ⟨tab, htab, ?_⟩
  intro b hbm c d hc hd
  obtain ⟨cell, hm, h1, h2⟩ := hb b hbm c d hc hd
  refine ⟨cell, hm, ?_⟩
  have hne : ∀ w : WideCell, f.valueForm = "percent" → w.toNums.1 ≠ .none := by
    intro w _
    cases hv : w.value <;> simp [WideCell.toNums, hv]
  obtain ⟨h, hh, hcls⟩ := formatCell_cls pyFormat f (cell (t.pre ++ c)).toNums.1 (cell (t.pre ++ c)).toNums.2.1
    (cell (t.pre ++ c)).toNums.2.2.1 (cell (t.pre ++ c)).toNums.2.2.2 (hne _)
  refine ⟨h, hh, ?_, ?_⟩
  · intro he
    have hr : (cell (t.pre ++ c)).ratio = none := by
      by_cases hex : ∃ r ∈ res, r.index = b.index
      · obtain ⟨r, hr, hi⟩ := hex
        rw [h1 r hr hi, if_pos he]
      · rw [h2 fun r hr hi => hex ⟨r, hr, hi⟩]
    rw [hcls, if_pos]
    simp [WideCell.toNums, hr, DNum.isnull]
  · intro he r hr hi x l u hx hl hu hlu
    have hcell := h1 r hr hi
    rw [if_neg he, hx, hl, hu] at hcell
    rw [hcell] at hh
    clear h1 h2 hb hid hres hbase hnames hcls hm
    cases hv : b.value with
    | some v =>
      obtain ⟨h', e, hg, hr'⟩ := C53_colour pyFormat f v x l u hlu
      rw [hv] at hh
      rw [show h = h' from Option.some.inj (hh.symm.trans e)]
      exact ⟨hg, hr'⟩
    | none =>
      obtain ⟨h', e, hg, hr'⟩ := C53_colour pyFormat f 0 x l u hlu
      rw [hv] at hh
      have := C53_value_irrelevant pyFormat f .nan (.num 0) (.num x) (.num l) (.num u) (fun h => nomatch h) (fun h => nomatch h)
      rw [show formatCell pyFormat f (some (.nan, .num x, .num l, .num u)) = some h from hh, e] at this
      rw [Option.some.inj this]
      exact ⟨hg, hr'⟩

/-- A treatment with a change of 50%, between 40% and 60%, is green, and red with flipped colours; the control is not coloured. -/
example (pyFormat : String → ℚ → String) : ∃ tab, displayChange ⟨none, false⟩ (fun c => c.length) 1
      ([⟨"x Percent Change".toList, [some 7], [.int 0], some 2⟩, ⟨"x Percent Change".toList, [some 7], [.int 1, .int 1], some 3⟩] : List (BaseRow ℕ))
      [⟨"x Percent Change".toList, [some 7], [.int 1, .int 1], some 50, some 40, some 60⟩] = some tab ∧
    (∃ cell h, (⟨[7], some 1, false, 2⟩, cell) ∈ tab ∧ formatCell pyFormat {} (some (cell ['x']).toNums) = some h ∧ h.cls = green) ∧
    (∃ cell h, (⟨[7], some 1, true, 1⟩, cell) ∈ tab ∧ formatCell pyFormat {} (some (cell ['x']).toNums) = some h ∧ h.cls = "ci-display-cell") := by
  obtain ⟨tab, h1, h2⟩ := C86_colour_partial pyFormat {} ⟨none, false⟩ (by simp) (fun c => c.length) [.int 0]
    ([⟨"x Percent Change".toList, [some 7], [.int 0], some 2⟩, ⟨"x Percent Change".toList, [some 7], [.int 1, .int 1], some 3⟩] : List (BaseRow ℕ))
    [⟨"x Percent Change".toList, [some 7], [.int 1, .int 1], some 50, some 40, some 60⟩] ⟨[], pctSuffix⟩ (Or.inr rfl)
    (by intro b hb; refine ⟨['x'], ?_⟩; revert b; decide) (by decide) (by decide) (by decide)
  refine ⟨tab, h1, ?_, ?_⟩
  · obtain ⟨cell, hm, h, hh, -, hc⟩ := h2 ⟨"x Percent Change".toList, [some 7], [.int 1, .int 1], some 3⟩ (by simp) ['x'] [7] (by decide) rfl
    refine ⟨cell, h, hm, hh, ?_⟩
    rw [(hc (by decide) _ (List.mem_singleton.2 rfl) rfl 50 40 60 rfl rfl rfl (by norm_num)).1]
    simp only [Bool.false_eq_true, if_false]
    rw [allPos_iff (by norm_num)]
    norm_num
  · obtain ⟨cell, hm, h, hh, hc, -⟩ := h2 ⟨"x Percent Change".toList, [some 7], [.int 0], some 2⟩ (by simp) ['x'] [7] (by decide) rfl
    exact ⟨cell, h, hm, hh, hc rfl⟩

end Verif
