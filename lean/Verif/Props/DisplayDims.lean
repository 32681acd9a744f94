import Verif.Model.DisplayDims
import Verif.Spec.Display
import Mathlib.Data.List.Perm.Basic
import Mathlib.Data.List.Nodup
import Mathlib.Tactic.Linarith

/-!
# C68, C69 and C70: the column of dimensions, `sort_by`, and the order of the columns

/repo/confidence_interval_display.py:158-176, 420-448, 679-731.
-/

namespace Verif

/-! ## C68 -/

theorem joinStar_eq (l : List String) : joinStar l = String.intercalate " * " l := by
  induction l with
  | nil => rfl
  | cons a t ih =>
    cases t with
    | nil => simp [joinStar, String.intercalate_singleton]
    | cons b t => simp only [joinStar, String.intercalate_cons_cons, ih]

/-- The values of the dimensions under their numbers, from 1. -/
def numberedDims (vs : List DispVal) : List (ℕ × DispVal) := vs.zipIdx.map fun p => (p.2 + 1, p.1)

theorem sorted_numberedDims (vs : List DispVal) : (numberedDims vs).Pairwise fun a b => a.1 < b.1 := by
  unfold numberedDims
  rw [List.pairwise_map]
  have := List.pairwise_lt_range' (s := 0) (n := vs.length)
  have h2 : (vs.zipIdx.map Prod.snd).Pairwise (· < ·) := by
    rw [List.zipIdx_map_snd]; exact this
  rw [List.pairwise_map] at h2
  exact h2.imp fun h => by omega

theorem sort_dims (vs : List DispVal) (slices : List (ℕ × DispVal)) (h : slices.Perm (numberedDims vs)) :
    slices.mergeSort (fun a b => decide (a.1 ≤ b.1)) = numberedDims vs := by
  have hs := sorted_numberedDims vs
  have h1 : (slices.mergeSort (fun a b => decide (a.1 ≤ b.1))).Perm (numberedDims vs) := (List.mergeSort_perm _ _).trans h
  have h2 : (slices.mergeSort (fun a b => decide (a.1 ≤ b.1))).Pairwise fun a b => decide (a.1 ≤ b.1) = true :=
    List.pairwise_mergeSort (fun a b c => by simp only [decide_eq_true_eq]; omega)
      (fun a b => by simp only [Bool.or_eq_true, decide_eq_true_eq]; omega) slices
  refine List.Perm.eq_of_pairwise (le := fun a b => a.1 ≤ b.1) ?_ (h2.imp fun h => by simpa using h) (hs.imp fun h => le_of_lt h) h1
  intro a b ha hb hab hba
  have hb' := hb
  have ha' := h1.subset ha
  have hinj : ∀ {l : List (ℕ × DispVal)}, l.Pairwise (fun a b => a.1 < b.1) → ∀ a ∈ l, ∀ b ∈ l, a.1 = b.1 → a = b := by
    intro l hl
    induction hl with
    | nil => simp
    | @cons x l hx _ ih =>
      intro a ha b hb e
      rcases List.mem_cons.1 ha with ha | ha <;> rcases List.mem_cons.1 hb with hb | hb
      · rw [ha, hb]
      · have := hx b hb; rw [ha] at e; omega
      · have := hx a ha; rw [hb] at e; omega
      · exact ih a ha b hb e
  exact hinj hs a ha' b hb' (le_antisymm hab hba)

/-- What the user sees of a value: texts as they are, integers as rendered, a missing value as `None`. -/
def shownAs (pyInt : ℤ → String) (v : DispVal) : String :=
  match v with
  | .str s => s
  | .int n => pyInt n
  | .none => "None"

theorem pyStr_eq (pyInt : ℤ → String) : DispVal.pyStr pyInt = shownAs pyInt := by
  funext v
  cases v <;> rfl

/-- **C68.** For all dimensions in whatever order the cell holds them, all descriptions and experiment ids that are neither
empty nor 0: the cell shows the description, the id, and the values of the dimensions in the order of their numbers, with stars
between them. -/
theorem C68_cell_partial (pyInt : ℤ → String) (vs : List DispVal) (slices : List (ℕ × DispVal)) (hs : slices.Perm (numberedDims vs))
    (hne : String.intercalate " * " (vs.map (shownAs pyInt)) ≠ "") (desc id : DispVal) (hd : desc ∉ [.str "", .int 0, .none])
    (hi : id ∉ [.str "", .int 0, .none]) :
    (dimensionFormatter pyInt ⟨slices, some desc, some id⟩).texts =
      [shownAs pyInt desc, shownAs pyInt id, String.intercalate " * " (vs.map (shownAs pyInt))] := by
  rw [← pyStr_eq] at hne ⊢
  have ht : ∀ v : DispVal, v ∉ [.str "", .int 0, .none] → v.truthy = true := by
    intro v hv
    cases v with
    | str s => simp only [DispVal.truthy, decide_eq_true_eq]; rintro rfl; simp at hv
    | int n => simp only [DispVal.truthy, decide_eq_true_eq]; rintro rfl; simp at hv
    | none => simp at hv
  have e : (numberedDims vs).map (fun p => p.2.pyStr pyInt) = vs.map (DispVal.pyStr pyInt) := by
    unfold numberedDims
    rw [List.map_map]
    have : (fun p : ℕ × DispVal => p.2.pyStr pyInt) ∘ (fun p : DispVal × ℕ => (p.2 + 1, p.1)) = DispVal.pyStr pyInt ∘ Prod.fst := rfl
    rw [this, ← List.map_map, List.zipIdx_map_fst]
  unfold dimensionFormatter
  simp only [sort_dims vs slices hs, e, joinStar_eq, ht desc hd, ht id hi, if_true, hne, ne_eq, not_false_eq_true]
  simp [Html.texts, Html.textsList]

/-- **C68.** Without dimensions and description only the id is shown. -/
theorem C68_id_only (pyInt : ℤ → String) (id : DispVal) (hi : id ∉ [.str "", .int 0, .none]) (desc : Option DispVal)
    (hd : desc = none ∨ desc = some (.str "")) : (dimensionFormatter pyInt ⟨[], desc, some id⟩).texts = [shownAs pyInt id] := by
  rw [← pyStr_eq]
  have ht : id.truthy = true := by
    cases id with
    | str s => simp only [DispVal.truthy, decide_eq_true_eq]; rintro rfl; simp at hi
    | int n => simp only [DispVal.truthy, decide_eq_true_eq]; rintro rfl; simp at hi
    | none => simp at hi
  unfold dimensionFormatter
  rcases hd with h | h <;> subst h <;> simp [ht, joinStar, Html.texts, Html.textsList, show (DispVal.str "").truthy = false from rfl]

/-- **C68, violated.** The experiment ids 0 and '' are not shown, whatever the dimensions and the description are. -/
theorem C68_violation_falsy_id (pyInt : ℤ → String) (slices : List (ℕ × DispVal)) (desc : Option DispVal) :
    (dimensionFormatter pyInt ⟨slices, desc, some (.int 0)⟩).texts = (dimensionFormatter pyInt ⟨slices, desc, none⟩).texts ∧
      (dimensionFormatter pyInt ⟨slices, desc, some (.str "")⟩).texts = (dimensionFormatter pyInt ⟨slices, desc, none⟩).texts := by
  constructor <;> simp [dimensionFormatter, DispVal.truthy]

/-- Two dimensions, given the wrong way round. -/
example : (dimensionFormatter toString ⟨[(2, .str "US"), (1, .int 7)], some (.str "Control"), some (.str "foo")⟩).texts =
    ["Control", "foo", "7 * US"] :=
  C68_cell_partial toString [.int 7, .str "US"] _ (List.Perm.swap _ _ _) (by decide +kernel) _ _ (by decide) (by decide)

/-! ### The default dimensions -/

/-- The columns `Dim_1`, …, `Dim_n`. -/
def dimCols (n : ℕ) : List String := (List.range n).map dimName

theorem dimName_prefix (i : ℕ) : (dimName i).startsWith "Dim_" = true := by
  rw [String.startsWith_string_iff]
  unfold dimName
  rw [String.toList_append]
  exact List.prefix_append _ _

theorem sorted_dimCols : ∀ n ∈ List.range 10, ((dimCols n).Pairwise fun a b => a ≤ b) := by decide +kernel

/-- **C68.** Up to nine dimension columns are found, whatever the order of the columns of the data, and taken in the order of
their numbers. -/
theorem C68_default_dims_partial (n : ℕ) (hn : n ≤ 9) (cols : List String)
    (h : (cols.filter fun c => c.startsWith "Dim_").Perm (dimCols n)) : defaultDims cols = dimCols n := by
  unfold defaultDims
  have h1 := (List.mergeSort_perm (cols.filter fun c => c.startsWith "Dim_") (fun a b => decide (a ≤ b))).trans h
  have h2 : ((cols.filter fun c => c.startsWith "Dim_").mergeSort (fun a b => decide (a ≤ b))).Pairwise fun a b => decide (a ≤ b) = true :=
    List.pairwise_mergeSort (fun a b c => by simp only [decide_eq_true_eq]; exact String.le_trans)
      (fun a b => by simp only [Bool.or_eq_true, decide_eq_true_eq]; exact String.le_total a b) _
  exact List.Perm.eq_of_pairwise (le := (· ≤ ·)) (fun a b _ _ => String.le_antisymm) (h2.imp fun h => by simpa using h)
    (sorted_dimCols n (List.mem_range.2 (by omega))) h1

/-- **C68, violated.** With ten dimension columns the tenth is taken, and shown, before the second. -/
theorem C68_violation_ten_dims : (defaultDims (dimCols 10)).take 3 = ["Dim_1", "Dim_10", "Dim_2"] := by
  have hp : (defaultDims (dimCols 10)) = "Dim_1" :: "Dim_10" :: (dimCols 9).tail := by
    unfold defaultDims
    have hf : (dimCols 10).filter (fun c => c.startsWith "Dim_") = dimCols 10 := by
      rw [List.filter_eq_self]
      intro c hc
      obtain ⟨i, _, rfl⟩ := List.mem_map.1 hc
      exact dimName_prefix i
    rw [hf]
    have h1 := List.mergeSort_perm (dimCols 10) (fun a b => decide (a ≤ b))
    have h2 : ((dimCols 10).mergeSort (fun a b => decide (a ≤ b))).Pairwise fun a b => decide (a ≤ b) = true :=
      List.pairwise_mergeSort (fun a b c => by simp only [decide_eq_true_eq]; exact String.le_trans)
        (fun a b => by simp only [Bool.or_eq_true, decide_eq_true_eq]; exact String.le_total a b) _
    refine List.Perm.eq_of_pairwise (le := (· ≤ ·)) (fun a b _ _ => String.le_antisymm) (h2.imp fun h => by simpa using h)
      (by decide +kernel) (h1.trans (by decide +kernel))
  rw [hp]
  decide +kernel

example : defaultDims ["Value", "Dim_2", "Metric", "Dim_1"] = ["Dim_1", "Dim_2"] := by
  refine C68_default_dims_partial 2 (by norm_num) _ ?_
  decide +kernel

end Verif
