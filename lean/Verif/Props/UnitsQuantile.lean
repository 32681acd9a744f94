import Verif.Model.Quantile
import Mathlib.Tactic.Ring
import Mathlib.Tactic.Linarith
import Mathlib.Tactic.NormNum

/-!
# C106: quantiles under a change of unit and zero point

/repo/metrics.py:2105-2143.
-/

namespace Verif

/-- Row by row the column `var` reads `c * x + d` where it read `x`, and the weight is the same. -/
def RescaledColumn (var weight : String) (c d : Rat) (rs rs' : List Row) : Prop :=
  List.Forall₂ (fun r r' => r' var = (r var).map (fun x => c * x + d) ∧ r' weight = r weight) rs rs'

theorem column_rescaled {var weight : String} {c d : Rat} {rs rs' : List Row} (h : RescaledColumn var weight c d rs rs') :
    (rs'.filterMap fun r => r var) = (rs.filterMap fun r => r var).map fun x => c * x + d := by
  induction h with
  | nil => rfl
  | @cons r r' rs rs' hr _ ih =>
    rw [List.filterMap_cons, List.filterMap_cons, hr.1]
    cases r var with
    | none => exact ih
    | some x => simp [ih]

theorem sort_rescaled {c : Rat} (hc : 0 < c) (d : Rat) (xs : List Rat) :
    (xs.map fun x => c * x + d).insertionSort (· ≤ ·) = (xs.insertionSort (· ≤ ·)).map fun x => c * x + d := by
  refine (List.map_insertionSort (· ≤ ·) (· ≤ ·) _ _ fun a _ b _ => ?_).symm
  constructor
  · intro h
    have := mul_le_mul_of_nonneg_left h hc.le
    linarith
  · intro h
    have : c * a ≤ c * b := by linarith
    exact le_of_mul_le_mul_left this hc

theorem interp_rescaled (c d q : Rat) : ∀ l : List (Rat × Rat), interp q (l.map fun p => (p.1, c * p.2 + d)) = (interp q l).map fun x => c * x + d
  | [] => rfl
  | [p] => rfl
  | (x0, v0) :: (x1, v1) :: t => by
    have ih := interp_rescaled c d q ((x1, v1) :: t)
    simp only [List.map_cons, interp] at ih ⊢
    split
    · rfl
    · split
      · simp only [Option.map_some, Option.some.injEq]; ring
      · exact ih

theorem weightsOf_rescaled {var weight : String} {c d : Rat} (hc : c ≠ 0) {rs rs' : List Row} (h : RescaledColumn var weight c d rs rs')
    (x : Rat) : weightsOf var weight (c * x + d) rs' = weightsOf var weight x rs := by
  unfold weightsOf
  induction h with
  | nil => rfl
  | @cons r r' rs rs' hr _ ih =>
    rw [List.filterMap_cons, List.filterMap_cons, hr.1, hr.2, ih]
    have : (Option.map (fun x => c * x + d) (r var) = some (c * x + d)) ↔ r var = some x := by
      cases r var with
      | none => simp
      | some y => simp [hc]
    simp only [this]

theorem aggPy_rescaled {var weight : String} {c d : Rat} (hc : 0 < c) {rs rs' : List Row} (h : RescaledColumn var weight c d rs rs') :
    aggPy var weight rs' = (aggPy var weight rs).map fun p => (c * p.1 + d, p.2) := by
  have hinj : Function.Injective fun x : Rat => c * x + d := fun a b hab => by
    have : c * a = c * b := by simpa using hab
    exact mul_left_cancel₀ hc.ne' this
  unfold aggPy
  rw [column_rescaled h, List.dedup_map_of_injective hinj, sort_rescaled hc, List.map_map, List.map_map]
  refine List.map_congr_left fun x _ => ?_
  simp only [Function.comp, weightsOf_rescaled hc.ne' h]

theorem positions_rescaled (c d t : Rat) (l : List (Rat × Rat)) : ∀ w,
    positions w t (l.map fun p => (c * p.1 + d, p.2)) = (positions w t l).map fun p => (p.1, c * p.2 + d) := by
  induction l with
  | nil => intro w; rfl
  | cons p l ih => intro w; simp only [List.map_cons, positions, ih]

/-- **C106.** Quantiles, weighted or not, are converted as the values are. -/
theorem C106_quantile (var weight : String) (q c d : Rat) (hc : 0 < c) (rs rs' : List Row) (h : RescaledColumn var weight c d rs rs') :
    pyQuantile var weight q rs' = (pyQuantile var weight q rs).map (fun x => c * x + d) ∧
    pdQuantile var q rs' = (pdQuantile var q rs).map (fun x => c * x + d) := by
  constructor
  · have ht : totalW (aggPy var weight rs') = totalW (aggPy var weight rs) := by
      rw [aggPy_rescaled hc h]
      simp [totalW, List.map_map, Function.comp_def]
    show interp q (positions 0 (totalW (aggPy var weight rs')) (aggPy var weight rs')) = _
    rw [ht, aggPy_rescaled hc h, positions_rescaled, interp_rescaled]
    rfl
  · simp only [pdQuantile, column_rescaled h, sort_rescaled hc, List.length_map, List.getElem?_map]
    generalize (rs.filterMap fun r => r var).insertionSort (· ≤ ·) = s
    generalize (q * ((s.length : Rat) - 1)).floor.toNat = i
    cases s[i]? with
    | none => rfl
    | some a =>
      cases s[i + 1]? with
      | none => rfl
      | some b =>
        simp only [Option.map_some, Option.some.injEq]
        ring

/-- Fahrenheit for Celsius, a missing reading and a weight. -/
example : RescaledColumn "t" "w" (9 / 5) 32
    ([some 10, none, some 20].map fun o v => if v = "t" then o else some 2)
    ([some 50, none, some 68].map fun o v => if v = "t" then o else some 2) := by
  unfold RescaledColumn
  simp
  norm_num

end Verif
