import Verif.Model.DisplayDims
import Verif.Spec.Display
import Mathlib.Tactic.Linarith
import Mathlib.Tactic.NormNum
import Mathlib.Tactic.Ring

/-!
# C67: what a cell of a metric shows

/repo/confidence_interval_display.py:254-256, 300-417.
-/

namespace Verif

theorem formatValue_num (pf : String → ℚ → String) (form : String) (q : ℚ) : formatValue pf (.num q) form = withUnit pf form q := by
  unfold formatValue withUnit digits formLookup unitLookup
  by_cases h1 : form = "percent"
  · subst h1; simp
  by_cases h2 : form = "pp"
  · subst h2; simp
  by_cases h3 : form = "absolute"
  · subst h3; simp
  simp only [h1, h2, h3, if_false, String.append_empty]

/-- A cell's number, or NaN. -/
def toDNum : Option ℚ → DNum
  | some q => .num q
  | none => .nan

theorem formatCI_eq (pf : String → ℚ → String) (form : String) (l u : Option ℚ) :
    formatCI pf (toDNum l) (toDNum u) form = intervalText pf form l u := by
  have e : ∀ x : Option ℚ, formatBound pf form (toDNum x) = (x.map (digits pf form)).getD "N/A" := by
    intro x
    cases x with
    | none => rfl
    | some q =>
      simp only [toDNum, formatBound, Option.map_some, Option.getD_some]
      unfold digits formLookup
      by_cases h1 : form = "percent"
      · subst h1; simp
      by_cases h2 : form = "pp"
      · subst h2; simp
      by_cases h3 : form = "absolute"
      · subst h3; simp
      simp only [h1, h2, h3, if_false]
  unfold formatCI intervalText
  simp only [e]
  unfold unitLookup
  by_cases h1 : form = "percent"
  · subst h1; simp
  by_cases h2 : form = "pp"
  · subst h2; simp
  simp only [h1, h2, if_false, if_true, String.append_empty]

theorem shownValue_num (pf : String → ℚ → String) (form : String) (q : ℚ) :
    ∃ q', shownValue form (.num q) = some (.num q') ∧ withUnit pf form q' = valueText pf form q := by
  unfold shownValue
  by_cases h : form = "percent"
  · subst h; exact ⟨q * 100, by simp [timesHundred], by simp [valueText]⟩
  · refine ⟨q, by simp [h], ?_⟩
    unfold valueText; simp only

/-- **C67.** For every formatter and every cell with all numbers: the cell shows the value, the ratio and the interval, one
after the other, in the forms that were asked for. -/
theorem C67_experiment (pf : String → ℚ → String) (f : CellFormat) (v r l u : ℚ) :
    (formatCell pf f (some (.num v, .num r, .num l, .num u))).map Html.texts =
      some [valueText pf f.valueForm v, withUnit pf f.ratioForm r, intervalText pf f.ratioForm (some l) (some u)] := by
  obtain ⟨q', h1, h2⟩ := shownValue_num pf f.valueForm v
  have hc := formatCI_eq pf f.ratioForm (some l) (some u)
  simp only [toDNum] at hc
  unfold formatCell
  simp only [h1, Option.bind_eq_bind, Option.bind_some, Option.pure_def, formatValue_num, h2, hc, DNum.isnull, Bool.false_eq_true,
    if_false]
  split
  · simp [Html.texts, Html.textsList]
  · split <;> simp [Html.texts, Html.textsList]

/-- **C67.** A row without a ratio, as that of a control, shows only its value. -/
theorem C67_control (pf : String → ℚ → String) (f : CellFormat) (v : ℚ) (l u : Option ℚ) :
    (formatCell pf f (some (.num v, .nan, toDNum l, toDNum u))).map Html.texts = some [valueText pf f.valueForm v] := by
  obtain ⟨q', h1, h2⟩ := shownValue_num pf f.valueForm v
  unfold formatCell
  simp [h1, DNum.isnull, formatValue_num, h2, Html.texts, Html.textsList]

/-- **C67.** Without a value the cell shows a dash, or nothing if that was asked for, then the ratio and the interval; a missing
bound is shown as N/A. -/
theorem C67_no_value (pf : String → ℚ → String) (f : CellFormat) (r : ℚ) (l u : Option ℚ) :
    (formatCell pf f (some (.nan, .num r, toDNum l, toDNum u))).map Html.texts =
      some ((if f.hideNullCtrl then [] else ["-"]) ++ [withUnit pf f.ratioForm r, intervalText pf f.ratioForm l u]) := by
  have h1 : shownValue f.valueForm .nan = some .nan := by unfold shownValue; split <;> rfl
  unfold formatCell
  simp only [h1, Option.bind_eq_bind, Option.bind_some, Option.pure_def, formatValue_num, formatCI_eq, DNum.isnull, Bool.false_eq_true,
    if_false, if_true]
  split <;> (try split) <;> cases f.hideNullCtrl <;> simp [Html.texts, Html.textsList]

/-- **C67.** A cell without a value and without a ratio, and a metric that the slice does not have, show N/A. -/
theorem C67_nothing (pf : String → ℚ → String) (f : CellFormat) (l u : Option ℚ) :
    (formatCell pf f (some (.nan, .nan, toDNum l, toDNum u))).map Html.texts = some ["N/A"] ∧
      (formatCell pf f none).map Html.texts = some ["N/A"] := by
  have h1 : shownValue f.valueForm .nan = some .nan := by unfold shownValue; split <;> rfl
  unfold formatCell
  simp [h1, DNum.isnull, formatValue, Html.texts, Html.textsList]

/-- **C67.** With CI_Range instead of the bounds, the interval is the one around the ratio that has this width. -/
theorem C67_range (r w : ℚ) : ∃ l u, fromRange (some r) (some w) = (some l, some u) ∧ u - l = w ∧ (l + u) / 2 = r := by
  refine ⟨r - w / 2, r + w / 2, rfl, by ring, by ring⟩

/-- **C67.** Without a ratio or without a range there is no interval. -/
theorem C67_range_missing (r w : Option ℚ) (h : r = none ∨ w = none) : fromRange r w = (none, none) := by
  rcases h with h | h <;> subst h
  · rfl
  · cases r <;> rfl

/-- **C67, violated.** The documentation says that the ratio is shown in percent by default; it is shown without a unit, with
four decimals. -/
theorem C67_violation_default_ratio (pf : String → ℚ → String) (v r l u : ℚ) :
    (formatCell pf {} (some (.num v, .num r, .num l, .num u))).map Html.texts =
      some [pf "{:.4f}" v, pf "{:.4f}" r, "[" ++ pf "{:.4f}" l ++ ", " ++ pf "{:.4f}" u ++ "]"] := by
  rw [C67_experiment]; rfl

/-- **C67, violated.** The documentation says that `'{:.2%}'` has the same effect as `'percent'`. It has for the value; a ratio is
a hundred times as large. For every rendering of numbers in which `'{:.2%}'` is a percentage. -/
theorem C67_violation_percent (pf : String → ℚ → String) (hp : ∀ q, pf "{:.2%}" q = pf "{:.2f}" (q * 100) ++ "%") (q : ℚ) :
    valueText pf "percent" q = valueText pf "{:.2%}" q ∧
      withUnit pf "percent" q = pf "{:.2f}" q ++ "%" ∧ withUnit pf "{:.2%}" q = pf "{:.2f}" (q * 100) ++ "%" := by
  refine ⟨?_, ?_, ?_⟩
  · simp [valueText, withUnit, digits, hp]
  · simp [withUnit, digits]
  · simp [withUnit, digits, hp]

/-- A rendering of numbers for the examples: the integer part, and the format. -/
def demoFormat (f : String) (q : ℚ) : String :=
  if f = "{:.2%}" then toString (q * 100).floor ++ ".00%" else if f = "{:.2f}" then toString q.floor ++ ".00" else toString q.floor ++ ".0000"

example : ∃ q, demoFormat "{:.2f}" q ≠ demoFormat "{:.2f}" (q * 100) := ⟨1, by decide +kernel⟩

example : ∀ q, demoFormat "{:.2%}" q = demoFormat "{:.2f}" (q * 100) ++ "%" := by
  intro q
  simp [demoFormat, String.append_assoc]

/-- A cell with a positive change in percent. -/
example : (formatCell demoFormat { valueForm := "percent", ratioForm := "pp" } (some (.num (1 / 2), .num 3, .num 1, .num 5))).map Html.texts =
    some ["50.00%", "3.00pp", "[1.00, 5.00] pp"] := by decide +kernel

end Verif
