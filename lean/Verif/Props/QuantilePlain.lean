import Verif.Model.Quantile
import Mathlib.Data.Rat.Floor
import Mathlib.Algebra.Order.Field.Rat
import Mathlib.Tactic.Linarith
import Mathlib.Tactic.Positivity
import Mathlib.Tactic.NormNum

/-!
# C16: quantiles without a weight are ordered and bounded

/repo/metrics.py:2142-2143.
-/

namespace Verif

private theorem sorted_get {s : List Rat} (hs : s.Pairwise (· ≤ ·)) {i j : Nat} {a b : Rat} (ha : s[i]? = some a) (hb : s[j]? = some b)
    (hij : i ≤ j) : a ≤ b := by
  obtain ⟨hi, rfl⟩ := List.getElem?_eq_some_iff.1 ha
  obtain ⟨hj, rfl⟩ := List.getElem?_eq_some_iff.1 hb
  rcases Nat.lt_or_eq_of_le hij with h | rfl
  · exact List.pairwise_iff_getElem.1 hs i j hi hj h
  · exact le_refl _

/-- Position and fraction of the quantile. -/
private theorem pos_bounds {n : Nat} (hn : 0 < n) {q : Rat} (h0 : 0 ≤ q) (h1 : q ≤ 1) :
    (q * ((n : Rat) - 1)).floor.toNat < n ∧ ((q * ((n : Rat) - 1)).floor.toNat : Rat) ≤ q * ((n : Rat) - 1) ∧
      q * ((n : Rat) - 1) < ((q * ((n : Rat) - 1)).floor.toNat : Rat) + 1 := by
  have hn1 : (1 : Rat) ≤ n := by exact_mod_cast hn
  have hh0 : 0 ≤ q * ((n : Rat) - 1) := mul_nonneg h0 (by linarith)
  have hh1 : q * ((n : Rat) - 1) ≤ (n : Rat) - 1 := by nlinarith
  generalize q * ((n : Rat) - 1) = h at hh0 hh1
  have hf0 : 0 ≤ h.floor := by
    rw [Rat.le_floor_iff]; exact_mod_cast hh0
  have hc : ((h.floor.toNat : Rat)) = (h.floor : Rat) := by
    have : ((h.floor.toNat : Int)) = h.floor := Int.toNat_of_nonneg hf0
    exact_mod_cast congrArg (Int.cast : Int → Rat) this
  have hle : (h.floor : Rat) ≤ h := Rat.floor_le h
  have hlt : h < (h.floor : Rat) + 1 := by exact_mod_cast Rat.lt_floor_add_one h
  refine ⟨?_, by rw [hc]; exact hle, by rw [hc]; exact hlt⟩
  have : (h.floor.toNat : Rat) < n := by rw [hc]; linarith
  exact_mod_cast this

/-- **C16.** A quantile without a weight of a slice with values, for `q` from 0 to 1, is between any bounds of the values. -/
theorem C16_plain_bounded (var : String) (q : Rat) (h0 : 0 ≤ q) (h1 : q ≤ 1) (rs : List Row) (hsome : ∃ r ∈ rs, r var ≠ none) (lo hi : Rat)
    (hb : ∀ r ∈ rs, ∀ x, r var = some x → lo ≤ x ∧ x ≤ hi) : ∃ y, pdQuantile var q rs = some y ∧ lo ≤ y ∧ y ≤ hi := by
  have hmem : ∀ x, x ∈ (rs.filterMap fun r => r var).insertionSort (· ≤ ·) → lo ≤ x ∧ x ≤ hi := by
    intro x hx
    rw [(List.perm_insertionSort _ _).mem_iff, List.mem_filterMap] at hx
    obtain ⟨r, hr, hx⟩ := hx
    exact hb r hr x hx
  have hne : 0 < ((rs.filterMap fun r => r var).insertionSort (· ≤ ·)).length := by
    obtain ⟨r, hr, hv⟩ := hsome
    obtain ⟨x, hx⟩ := Option.ne_none_iff_exists'.1 hv
    have : x ∈ (rs.filterMap fun r => r var).insertionSort (· ≤ ·) := by
      rw [(List.perm_insertionSort _ _).mem_iff, List.mem_filterMap]
      exact ⟨r, hr, hx⟩
    exact List.length_pos_of_mem this
  unfold pdQuantile
  generalize (rs.filterMap fun r => r var).insertionSort (· ≤ ·) = s at hmem hne
  obtain ⟨p1, p2, p3⟩ := pos_bounds hne h0 h1
  simp only
  generalize q * ((s.length : Rat) - 1) = h at p1 p2 p3
  generalize h.floor.toNat = i at p1 p2 p3
  rw [List.getElem?_eq_getElem p1]
  obtain ⟨a1, a2⟩ := hmem _ (List.getElem_mem p1)
  cases hb' : s[i + 1]? with
  | none => exact ⟨_, rfl, a1, a2⟩
  | some b =>
    obtain ⟨b1, b2⟩ := hmem b (List.mem_of_getElem? hb')
    refine ⟨_, rfl, ?_, ?_⟩
    · nlinarith
    · nlinarith

/-- **C16.** The quantiles without a weight of a slice grow with `q`. -/
theorem C16_plain_monotone (var : String) (q q' : Rat) (h0 : 0 ≤ q) (hq : q ≤ q') (h1 : q' ≤ 1) (rs : List Row) (y y' : Rat)
    (hy : pdQuantile var q rs = some y) (hy' : pdQuantile var q' rs = some y') : y ≤ y' := by
  have hs : ((rs.filterMap fun r => r var).insertionSort (· ≤ ·)).Pairwise (· ≤ ·) := List.pairwise_insertionSort _ _
  unfold pdQuantile at hy hy'
  generalize (rs.filterMap fun r => r var).insertionSort (· ≤ ·) = s at hs hy hy'
  simp only at hy hy'
  have hne : 0 < s.length := by
    rcases Nat.eq_zero_or_pos s.length with h | h
    · rw [List.length_eq_zero_iff] at h
      subst h
      simp at hy
    · exact h
  have hn1 : (1 : Rat) ≤ s.length := by exact_mod_cast hne
  obtain ⟨p1, p2, p3⟩ := pos_bounds hne h0 (hq.trans h1)
  obtain ⟨p1', p2', p3'⟩ := pos_bounds hne (h0.trans hq) h1
  have hle : q * ((s.length : Rat) - 1) ≤ q' * ((s.length : Rat) - 1) := mul_le_mul_of_nonneg_right hq (by linarith)
  generalize q * ((s.length : Rat) - 1) = h at p1 p2 p3 hle hy
  generalize q' * ((s.length : Rat) - 1) = h' at p1' p2' p3' hle hy'
  generalize h.floor.toNat = i at p1 p2 p3 hy
  generalize h'.floor.toNat = i' at p1' p2' p3' hy'
  have hii : i ≤ i' := by
    have : (i : Rat) < (i' : Rat) + 1 := by linarith
    have : i < i' + 1 := by exact_mod_cast this
    omega
  have ga := List.getElem?_eq_getElem p1
  have ga' := List.getElem?_eq_getElem p1'
  rw [ga] at hy
  rw [ga'] at hy'
  have low : s[i'] ≤ y' := by
    cases hb : s[i' + 1]? with
    | none => rw [hb] at hy'; simp only [Option.some.injEq] at hy'; exact hy'.le
    | some b =>
      rw [hb] at hy'
      simp only [Option.some.injEq] at hy'
      have := sorted_get hs ga' hb (Nat.le_succ _)
      rw [← hy']
      nlinarith
  rcases Nat.lt_or_eq_of_le hii with hlt | heq
  · obtain ⟨b, hb⟩ : ∃ b, s[i + 1]? = some b := ⟨_, List.getElem?_eq_getElem (by omega)⟩
    rw [hb] at hy
    simp only [Option.some.injEq] at hy
    have h1 := sorted_get hs ga hb (Nat.le_succ _)
    have h2 := sorted_get hs hb ga' hlt
    refine le_trans ?_ (h2.trans low)
    rw [← hy]
    nlinarith
  · subst heq
    cases hb : s[i + 1]? with
    | none =>
      rw [hb] at hy
      simp only [Option.some.injEq] at hy
      rw [← hy]; exact low
    | some b =>
      rw [hb] at hy hy'
      simp only [Option.some.injEq] at hy hy'
      have := sorted_get hs ga hb (Nat.le_succ _)
      rw [← hy, ← hy']
      nlinarith

example : pdQuantile "x" (1 / 4) [fun _ => some 4, fun _ => none, fun _ => some 0] = some 1 ∧
    pdQuantile "x" (1 / 2) [fun _ => some 4, fun _ => none, fun _ => some 0] = some 2 := by
  constructor <;> decide +kernel

end Verif
