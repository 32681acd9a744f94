import Verif.Model.Display
import Mathlib.Tactic.Linarith
import Mathlib.Tactic.NormNum

/-!
# C53 and C65: the cells of the display

/repo/confidence_interval_display.py:300-417, 452-485.
-/

namespace Verif

/-- Green: the class that the style sheet shows in green (/repo/confidence_interval_display.py:84-88). -/
def green : String := "ci-display-good-change ci-display-cell"
/-- Red: the class that the style sheet shows in red (/repo/confidence_interval_display.py:90-94). -/
def red : String := "ci-display-bad-change ci-display-cell"

/-- All numbers of the interval are positive. -/
def AllPos (l u : ℚ) : Prop := ∀ t, l ≤ t → t ≤ u → 0 < t
/-- All numbers of the interval are negative. -/
def AllNeg (l u : ℚ) : Prop := ∀ t, l ≤ t → t ≤ u → t < 0

theorem allPos_iff {l u : ℚ} (h : l ≤ u) : AllPos l u ↔ 0 < l :=
  ⟨fun H => H l le_rfl h, fun H t h1 _ => lt_of_lt_of_le H h1⟩

theorem allNeg_iff {l u : ℚ} (h : l ≤ u) : AllNeg l u ↔ u < 0 :=
  ⟨fun H => H u h le_rfl, fun H t _ h2 => lt_of_le_of_lt h2 H⟩

theorem green_ne_red : green ≠ red := by decide
theorem green_ne_plain : green ≠ "ci-display-cell" := by decide
theorem red_ne_plain : red ≠ "ci-display-cell" := by decide

/-- The colour of a cell, for all bounds. -/
theorem formatCell_cls (pyFormat : String → ℚ → String) (f : CellFormat) (v r l u : DNum) (hv : f.valueForm = "percent" → v ≠ .none) :
    ∃ h, formatCell pyFormat f (some (v, r, l, u)) = some h ∧
      h.cls = if r.isnull then "ci-display-cell"
        else if (l.gt0 && !f.flip) || (u.lt0 && f.flip) then green
        else if (u.lt0 && !f.flip) || (l.gt0 && f.flip) then red
        else "ci-display-cell" := by
  have h0 : ∃ v', shownValue f.valueForm v = some v' := by
    unfold shownValue
    split
    · rename_i hp
      cases v with
      | none => exact absurd rfl (hv hp)
      | nan => exact ⟨_, rfl⟩
      | num q => exact ⟨_, rfl⟩
    · exact ⟨_, rfl⟩
  obtain ⟨v', hv'⟩ := h0
  unfold formatCell
  simp only [hv', Option.bind_eq_bind, Option.bind_some, Option.pure_def]
  by_cases hr : r.isnull = true
  · simp only [hr, if_true]
    refine ⟨_, rfl, ?_⟩; rfl
  · simp only [hr, if_false, Bool.false_eq_true]
    by_cases h1 : ((l.gt0 && !f.flip) || (u.lt0 && f.flip)) = true
    · simp only [h1, if_true]; refine ⟨_, rfl, ?_⟩; rfl
    · simp only [h1, if_false, Bool.false_eq_true]
      by_cases h2 : ((u.lt0 && !f.flip) || (l.gt0 && f.flip)) = true
      · simp only [h2, if_true]; refine ⟨_, rfl, ?_⟩; rfl
      · simp only [h2, if_false, Bool.false_eq_true]; refine ⟨_, rfl, ?_⟩; rfl

/-- **C53.** For every interval and every ratio that is not null: the cell is green exactly if the whole interval is on the
good side of zero, and red exactly if it is on the bad side; the good side is the positive one unless the colours are
flipped. -/
theorem C53_colour (pyFormat : String → ℚ → String) (f : CellFormat) (v r l u : ℚ) (hlu : l ≤ u) :
    ∃ h, formatCell pyFormat f (some (.num v, .num r, .num l, .num u)) = some h ∧
      (h.cls = green ↔ if f.flip then AllNeg l u else AllPos l u) ∧
      (h.cls = red ↔ if f.flip then AllPos l u else AllNeg l u) := by
  obtain ⟨h, hh, hc⟩ := formatCell_cls pyFormat f (.num v) (.num r) (.num l) (.num u) (fun _ => by simp)
  refine ⟨h, hh, ?_⟩
  rw [hc]
  simp only [DNum.isnull, DNum.gt0, DNum.lt0, allPos_iff hlu, allNeg_iff hlu, Bool.false_eq_true, if_false]
  have := green_ne_red; have := green_ne_plain; have := red_ne_plain
  have hn : ¬ (0 < l ∧ u < 0) := fun h => by linarith [h.1, h.2]
  cases f.flip <;> by_cases h1 : 0 < l <;> by_cases h2 : u < 0 <;> simp_all [Ne.symm]

/-- **C53.** A cell whose value is not shown (NaN) has the colour of the cell in which it is. -/
theorem C53_value_irrelevant (pyFormat : String → ℚ → String) (f : CellFormat) (v v' r l u : DNum) (hv : v ≠ .none) (hv' : v' ≠ .none) :
    (formatCell pyFormat f (some (v, r, l, u))).map Html.cls = (formatCell pyFormat f (some (v', r, l, u))).map Html.cls := by
  obtain ⟨h, hh, hc⟩ := formatCell_cls pyFormat f v r l u (fun _ => hv)
  obtain ⟨h', hh', hc'⟩ := formatCell_cls pyFormat f v' r l u (fun _ => hv')
  rw [hh, hh', Option.map_some, Option.map_some, hc, hc']

/-- **C53.** Flipping the colours exchanges green and red and leaves the other cells alone, also for inverted intervals,
except those with a positive lower and a negative upper bound. -/
theorem C53_flip (pyFormat : String → ℚ → String) (f : CellFormat) (v r l u : DNum) (hv : f.valueForm = "percent" → v ≠ .none)
    (hn : ¬ (l.gt0 = true ∧ u.lt0 = true)) :
    ∃ h h', formatCell pyFormat f (some (v, r, l, u)) = some h ∧ formatCell pyFormat { f with flip := !f.flip } (some (v, r, l, u)) = some h' ∧
      (h.cls = green ↔ h'.cls = red) ∧ (h.cls = red ↔ h'.cls = green) := by
  obtain ⟨h, hh, hc⟩ := formatCell_cls pyFormat f v r l u hv
  obtain ⟨h', hh', hc'⟩ := formatCell_cls pyFormat { f with flip := !f.flip } v r l u hv
  refine ⟨h, h', hh, hh', ?_⟩
  rw [hc, hc']
  have := green_ne_red; have := green_ne_plain; have := red_ne_plain
  cases f.flip <;> cases r.isnull <;> cases h1 : l.gt0 <;> cases h2 : u.lt0 <;> simp_all [Ne.symm]

/-- **C53.** A missing bound (NaN or `None`) never colours a cell on its side. -/
theorem C53_missing_bounds (pyFormat : String → ℚ → String) (f : CellFormat) (v r l u : DNum) (hv : f.valueForm = "percent" → v ≠ .none)
    (hl : l.isnull = true) (hu : u.isnull = true) :
    ∃ h, formatCell pyFormat f (some (v, r, l, u)) = some h ∧ h.cls = "ci-display-cell" := by
  obtain ⟨h, hh, hc⟩ := formatCell_cls pyFormat f v r l u hv
  refine ⟨h, hh, ?_⟩
  rw [hc]
  cases l <;> cases u <;> simp_all [DNum.isnull, DNum.gt0, DNum.lt0]

/-- **C53, exception.** A cell whose ratio is null is never coloured, whatever its interval: this is how control cells are
shown. -/
theorem C53_null_ratio (pyFormat : String → ℚ → String) (f : CellFormat) (v r l u : DNum) (hv : f.valueForm = "percent" → v ≠ .none)
    (hr : r.isnull = true) : ∃ h, formatCell pyFormat f (some (v, r, l, u)) = some h ∧ h.cls = "ci-display-cell" := by
  obtain ⟨h, hh, hc⟩ := formatCell_cls pyFormat f v r l u hv
  exact ⟨h, hh, by rw [hc, if_pos hr]⟩

/-- A green cell, a red cell, a cell without a colour. -/
example : AllPos (1 / 2) 3 ∧ AllNeg (-3) (-1 / 2) ∧ ¬ AllPos (-1) 1 ∧ ¬ AllNeg (-1) 1 := by
  rw [allPos_iff (by norm_num), allNeg_iff (by norm_num), allPos_iff (by norm_num), allNeg_iff (by norm_num)]
  norm_num

/-! ## C65 -/

/-- **C65.** The columns of dimensions, experiment ids, descriptions and Is_Control are shown as they are. -/
theorem C65_plain (dims : List String) (col : String) (h : col ∈ dims ∨ col ∈ ["Experiment_Id", "Is_Control", "Description"]) :
    colFormat dims col = .plain := by
  unfold colFormat
  rw [if_pos (by rw [List.mem_append]; exact h)]

/-- **C65, violated.** With `display_expr_info` the column Control_Id stays in the table but is formatted as a metric: every id
is then shown as N/A. -/
theorem C65_violation_control_id (pyFormat : String → ℚ → String) (f : CellFormat) (dims : List String) (h : "Control_Id" ∉ dims) :
    colFormat dims "Control_Id" = .metric ∧ formatCell pyFormat f none = some (.div "" [.text "N/A"]) := by
  refine ⟨?_, rfl⟩
  unfold colFormat
  rw [if_neg (by simpa using h), if_neg (by decide)]

end Verif
