import Verif.Spec.Weights
import Verif.Lemmas.Quantile

/-!
# C100: weights of a quantile
-/

namespace Verif

section
variable {n : Row → ℕ} {rs : List Row} {var weight one : String}

theorem filterMap_replicate_sum (f : Row → Option Rat) (m : ℕ) (r : Row) :
    ((List.replicate m r).filterMap f).sum = (m : Rat) * (f r).getD 0 := by
  induction m with
  | zero => simp
  | succ m ih =>
    rw [List.replicate_succ, List.filterMap_cons]
    cases hf : f r with
    | none => rw [hf] at ih; simp only [ih]; simp
    | some a => rw [hf] at ih; simp only [List.sum_cons, ih, Option.getD_some]; push_cast; ring

theorem weightsOf_repeated (x : Rat) (hn : ∀ r ∈ rs, r weight = some (n r : Rat)) (h1 : ∀ r ∈ rs, r one = some 1) :
    (weightsOf var one x (repeated n rs)).sum = (weightsOf var weight x rs).sum := by
  unfold weightsOf repeated
  induction rs with
  | nil => rfl
  | cons r rs ih =>
    rw [List.flatMap_cons, List.filterMap_append, List.sum_append, filterMap_replicate_sum,
      ih (fun s hs => hn s (List.mem_cons_of_mem _ hs)) fun s hs => h1 s (List.mem_cons_of_mem _ hs), List.filterMap_cons]
    rw [hn r List.mem_cons_self, h1 r List.mem_cons_self]
    by_cases hx : r var = some x
    · simp [hx]
    · simp [hx]

theorem mem_repeated_iff {α : Type} {n : α → ℕ} {rs : List α} {r : α} : r ∈ repeated n rs ↔ r ∈ rs ∧ n r ≠ 0 := by
  unfold repeated
  simp only [List.mem_flatMap, List.mem_replicate]
  constructor
  · rintro ⟨s, hs, h0, rfl⟩
    exact ⟨hs, h0⟩
  · rintro ⟨hs, h0⟩
    exact ⟨r, hs, h0, rfl⟩

theorem sorted_ext {a b : List Rat} (ha : a.Nodup) (hb : b.Nodup) (h : ∀ x, x ∈ a ↔ x ∈ b) :
    a.insertionSort (· ≤ ·) = b.insertionSort (· ≤ ·) := by
  have hp : a.Perm b := (List.perm_ext_iff_of_nodup ha hb).2 h
  exact List.Perm.eq_of_pairwise' (List.pairwise_insertionSort _ _) (List.pairwise_insertionSort _ _)
    ((List.perm_insertionSort _ _).trans (hp.trans (List.perm_insertionSort _ _).symm))

theorem aggPy_repeated (hn : ∀ r ∈ rs, r weight = some (n r : Rat)) (h1 : ∀ r ∈ rs, r one = some 1) (h0 : ∀ r ∈ rs, n r ≠ 0) :
    aggPy var one (repeated n rs) = aggPy var weight rs := by
  unfold aggPy
  rw [sorted_ext (List.nodup_dedup _) (List.nodup_dedup _) (b := (rs.filterMap fun r => r var).dedup)]
  · apply List.map_congr_left
    intro x _
    rw [weightsOf_repeated x hn h1]
  · intro x
    simp only [List.mem_dedup, List.mem_filterMap, mem_repeated_iff]
    constructor
    · rintro ⟨r, ⟨hr, _⟩, hx⟩
      exact ⟨r, hr, hx⟩
    · rintro ⟨r, hr, hx⟩
      exact ⟨r, ⟨hr, h0 r hr⟩, hx⟩

theorem filter_repeated {α : Type} (p : α → Bool) (n : α → ℕ) (rs : List α) :
    (repeated n rs).filter p = repeated n (rs.filter p) := by
  unfold repeated
  induction rs with
  | nil => rfl
  | cons r rs ih =>
    rw [List.flatMap_cons, List.filter_append, ih, List.filter_cons]
    by_cases h : p r = true
    · rw [if_pos h, List.flatMap_cons, List.filter_replicate, if_pos h]
    · rw [if_neg h, List.filter_replicate, if_neg h, List.nil_append]

/-- **C100** (partial) A weighted quantile, of any values with missing ones among them: if the weights are positive numbers of rows, it is the
weighted quantile of the data in which every row is there as often as its weight says, with weight 1; on the
DataFrame and in the query. -/
theorem C100_quantile_partial (q : Rat) (hn : ∀ r ∈ rs, r weight = some (n r : Rat)) (h1 : ∀ r ∈ rs, r one = some 1)
    (h0 : ∀ r ∈ rs, n r ≠ 0) :
    pyQuantile var one q (repeated n rs) = pyQuantile var weight q rs ∧
    sqlQuantile var one q (repeated n rs) = sqlQuantile var weight q rs := by
  have hs : aggSql var one (repeated n rs) = aggSql var weight rs := by
    have e1 : ∀ l : List Row, (∀ r ∈ l, (r weight).isSome = true) →
        (l.filter fun r => (r var).isSome && (r weight).isSome) = l.filter fun r => (r var).isSome := by
      intro l hl
      exact List.filter_congr fun r hr => by simp [hl r hr]
    have e2 : ∀ l : List Row, (∀ r ∈ l, (r one).isSome = true) →
        (l.filter fun r => (r var).isSome && (r one).isSome) = l.filter fun r => (r var).isSome := by
      intro l hl
      exact List.filter_congr fun r hr => by simp [hl r hr]
    unfold aggSql
    rw [e1 rs fun r hr => by simp [hn r hr], e2 _ fun r hr => by simp [h1 r (mem_repeated_iff.1 hr).1], filter_repeated]
    exact aggPy_repeated (fun r hr => hn r (List.mem_of_mem_filter hr)) (fun r hr => h1 r (List.mem_of_mem_filter hr))
      fun r hr => h0 r (List.mem_of_mem_filter hr)
  simp only [pyQuantile, sqlQuantile, aggPy_repeated hn h1 h0, hs, and_self]
end

/-- A row with a value, a weight and a 1. -/
def qrow (x w : Rat) : Row := fun c => if c = "x" then some x else if c = "w" then some w else if c = "one" then some 1 else none

/-- **C100** (violated) The median of 0, 0 and 1 is 0; with weight 1 for each of them it is 1/3. -/
theorem C100_quantile_violation : ∃ rs : List Row, (∀ r ∈ rs, r "one" = some 1) ∧
    pdQuantile "x" (1 / 2) rs = some 0 ∧ pyQuantile "x" "one" (1 / 2) rs = some (1 / 3) :=
  ⟨[qrow 0 1, qrow 0 1, qrow 1 1], by decide +kernel, by decide +kernel, by decide +kernel⟩

/-- **C100** (violated) A value with weight 0 counts: the median of 0 and 6 with weight 1 is 3; with 5 and weight 0 among them it is 5. -/
theorem C100_zero_weight_violation : ∃ (rs : List Row) (n : Row → ℕ), (∀ r ∈ rs, r "w" = some (n r : Rat)) ∧
    (∀ r ∈ rs, r "one" = some 1) ∧ repeated n rs = [qrow 0 1, qrow 6 1] ∧
    pyQuantile "x" "one" (1 / 2) (repeated n rs) = some 3 ∧ pyQuantile "x" "w" (1 / 2) rs = some 5 := by
  refine ⟨[qrow 0 1, qrow 5 0, qrow 6 1], fun r => if r "w" = some 0 then 0 else 1, by decide +kernel, by decide +kernel, rfl, by decide +kernel, by decide +kernel⟩

/-- A case that meets the hypotheses of `C100_quantile_partial`. -/
example : (∀ r ∈ [qrow 1 2, qrow 4 3], r "w" = some (((fun r => if r "w" = some 2 then 2 else 3 : Row → ℕ) r : ℕ) : Rat)) ∧
    pyQuantile "x" "w" (1 / 2) [qrow 1 2, qrow 4 3] = some (14 / 5) := by
  constructor <;> decide +kernel

end Verif
