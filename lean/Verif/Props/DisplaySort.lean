import Verif.Model.DisplayDims
import Mathlib.Tactic.Linarith
import Mathlib.Data.List.Nodup

/-!
# C69 and C70: `sort_by` and the columns of the display

/repo/confidence_interval_display.py:158-182, 254-282, 679-731.
-/

namespace Verif

/-! ## C69: the order of the rows -/

section
variable {α β : Type} [DecidableEq β]

/-- By this column the first row belongs after the second: the second has a value and the first has none, or its value is larger
(smaller, if the column is sorted downwards). -/
def BelongsAfter (k : SortKey α) (a b : α) : Prop :=
  ∃ y, k.code b = some y ∧ ∀ x, k.code a = some x → if k.ascending then y < x else x < y

theorem le_iff_not_after (k : SortKey α) (a b : α) : k.le a b = true ↔ ¬ BelongsAfter k a b := by
  unfold SortKey.le BelongsAfter
  cases ha : k.code a with
  | none => cases hb : k.code b with
    | none => simp
    | some y => simp
  | some x => cases hb : k.code b with
    | none => simp
    | some y => cases k.ascending <;> simp

theorem SortKey.le_total (k : SortKey α) (a b : α) : k.le a b = true ∨ k.le b a = true := by
  unfold SortKey.le
  cases k.code a <;> cases k.code b <;> simp
  cases k.ascending <;> simp [_root_.le_total]

theorem SortKey.le_trans (k : SortKey α) (a b c : α) (h1 : k.le a b = true) (h2 : k.le b c = true) : k.le a c = true := by
  unfold SortKey.le at *
  cases ha : k.code a <;> cases hb : k.code b <;> cases hc : k.code c <;> simp only [ha, hb, hc] at * <;> try simp_all
  cases hk : k.ascending <;> simp only [hk, Bool.false_eq_true, if_false, if_true, decide_eq_true_eq] at * <;> linarith

theorem sortLe_total (ks : List (SortKey α)) (a b : α) : sortLe ks a b = true ∨ sortLe ks b a = true := by
  induction ks with
  | nil => simp [sortLe]
  | cons k ks ih =>
    simp only [sortLe]
    rcases k.le_total a b with h | h <;> cases h1 : k.le a b <;> cases h2 : k.le b a <;> simp_all

theorem sortLe_trans (ks : List (SortKey α)) (a b c : α) (h1 : sortLe ks a b = true) (h2 : sortLe ks b c = true) :
    sortLe ks a c = true := by
  induction ks with
  | nil => simp [sortLe]
  | cons k ks ih =>
    simp only [sortLe] at *
    have e1 : k.le a b = true := by by_contra h; simp [h] at h1
    have e2 : k.le b c = true := by by_contra h; simp [h] at h2
    have e3 := k.le_trans a b c e1 e2
    simp only [e1, if_true] at h1
    simp only [e2, if_true] at h2
    simp only [e3, if_true]
    by_cases e : k.le c a = true
    · have e4 := k.le_trans b c a e2 e
      have e5 := k.le_trans c a b e e1
      simp only [e4, if_true] at h1
      simp only [e5, if_true] at h2
      simp only [e, if_true]
      exact ih h1 h2
    · simp [e]

theorem sortLe_spec (ks : List (SortKey α)) (a b : α) (h : sortLe ks a b = true) (i : ℕ) (hi : i < ks.length)
    (ht : ∀ j (hj : j < i), (ks[j]'(by omega)).code a = (ks[j]'(by omega)).code b) : ¬ BelongsAfter ks[i] a b := by
  induction ks generalizing i with
  | nil => simp at hi
  | cons k ks ih =>
    simp only [sortLe] at h
    have e1 : k.le a b = true := by by_contra h'; simp [h'] at h
    cases i with
    | zero => exact (le_iff_not_after k a b).1 e1
    | succ i =>
      have h0 := ht 0 (by omega)
      simp only [List.getElem_cons_zero] at h0
      have e2 : k.le b a = true := by
        have : k.le b a = k.le a b := by unfold SortKey.le; rw [h0]
        rw [this]; exact e1
      simp only [e1, e2, if_true] at h
      simp only [List.getElem_cons_succ]
      exact ih h i (by simpa using hi) (fun j hj => by simpa using ht (j + 1) (by omega))

/-- **C69.** For every table and every `sort_by`: the same rows are shown, and of any two rows that agree on the first columns of
`sort_by`, the one that is shown first does not belong after the other by the next column. -/
theorem C69_sorted (keys : List (SortKey α)) (rows : List α) :
    (sortBy keys rows).Perm rows ∧ (sortBy keys rows).Pairwise fun a b => ∀ i (hi : i < keys.length),
      (∀ j (hj : j < i), (keys[j]'(by omega)).code a = (keys[j]'(by omega)).code b) → ¬ BelongsAfter keys[i] a b := by
  unfold sortBy
  split
  · rename_i h
    refine ⟨.refl _, ?_⟩
    have : keys = [] := by simpa using h
    subst this
    refine List.pairwise_of_forall ?_
    intro a b i hi
    simp at hi
  · refine ⟨List.mergeSort_perm _ _, ?_⟩
    refine (List.pairwise_mergeSort (fun a b c => sortLe_trans keys a b c)
      (fun a b => by simpa using sortLe_total keys a b) rows).imp ?_
    intro a b h i hi ht
    exact sortLe_spec keys a b h i hi ht

theorem sublist_or {l : List α} {a b : α} (ha : a ∈ l) (hb : b ∈ l) (hab : a ≠ b) : [a, b].Sublist l ∨ [b, a].Sublist l := by
  induction l with
  | nil => simp at ha
  | cons x l ih =>
    rcases List.mem_cons.1 ha with h1 | h1 <;> rcases List.mem_cons.1 hb with h2 | h2
    · exact absurd (h1.trans h2.symm) hab
    · left; subst h1; exact (List.singleton_sublist.2 h2).cons₂ a
    · right; subst h2; exact (List.singleton_sublist.2 h1).cons₂ b
    · rcases ih h1 h2 with h | h
      · exact .inl (h.cons x)
      · exact .inr (h.cons x)

/-- **C69.** `order` is followed: if two rows have values of the first column of `sort_by` that are in different places of its
`order`, they are shown in this order (downwards: in the opposite one). -/
theorem C69_order (f : α → β) (l1 l2 l3 : List β) (x y : β) (hn : (l1 ++ x :: l2 ++ y :: l3).Nodup) (asc : Bool)
    (rest : List (SortKey α)) (rows : List α) (a b : α) (ha : a ∈ rows) (hb : b ∈ rows) (fa : f a = x) (fb : f b = y) :
    (if asc then [a, b] else [b, a]).Sublist (sortBy (SortKey.ordered f (l1 ++ x :: l2 ++ y :: l3) asc :: rest) rows) := by
  set order := l1 ++ x :: l2 ++ y :: l3 with ho
  obtain ⟨hp, hs⟩ := C69_sorted (SortKey.ordered f order asc :: rest) rows
  have hxy : x ≠ y := by
    rintro rfl
    rw [ho] at hn
    have := (List.nodup_append.1 hn).2.2 x (by simp) x (by simp)
    exact this rfl
  have hab : a ≠ b := by rintro rfl; exact hxy (fa.symm.trans fb)
  have ix : order.idxOf x = l1.length := by
    have : x ∉ l1 := by
      intro h
      rw [ho, List.append_assoc] at hn
      exact (List.nodup_append.1 hn).2.2 x h x (by simp) rfl
    rw [ho, List.append_assoc, List.idxOf_append_of_notMem this]
    simp
  have iy : order.idxOf y = l1.length + (l2.length + 1) := by
    have : y ∉ l1 ++ x :: l2 := by
      intro h
      rw [ho] at hn
      exact (List.nodup_append.1 hn).2.2 y h y (by simp) rfl
    rw [ho, List.idxOf_append_of_notMem this]
    simp
  have hlt : ((order.idxOf x : ℕ) : ℚ) < (order.idxOf y : ℕ) := by
    rw [ix, iy]; push_cast; linarith [show (0 : ℚ) ≤ l2.length from Nat.cast_nonneg _]
  have mx : x ∈ order := by rw [ho]; simp
  have my : y ∈ order := by rw [ho]; simp
  have ca : (SortKey.ordered f order asc).code a = some (order.idxOf x : ℚ) := by simp [SortKey.ordered, fa, mx]
  have cb : (SortKey.ordered f order asc).code b = some (order.idxOf y : ℚ) := by simp [SortKey.ordered, fb, my]
  have key : ∀ c d, [c, d].Sublist (sortBy (SortKey.ordered f order asc :: rest) rows) → ¬ BelongsAfter (SortKey.ordered f order asc) c d := by
    intro c d h
    have := hs.sublist h
    rw [List.pairwise_cons] at this
    exact this.1 d (by simp) 0 (by simp) (fun j hj => by omega)
  have asc_eq : (SortKey.ordered f order asc).ascending = asc := rfl
  rcases sublist_or (hp.mem_iff.2 ha) (hp.mem_iff.2 hb) hab with h | h
  · cases asc with
    | true => simpa using h
    | false =>
      exfalso
      refine key a b h ⟨_, cb, fun z hz => ?_⟩
      rw [ca] at hz; cases hz; simpa [asc_eq] using hlt
  · cases asc with
    | false => simpa using h
    | true =>
      exfalso
      refine key b a h ⟨_, ca, fun z hz => ?_⟩
      rw [cb] at hz; cases hz; simpa [asc_eq] using hlt

/-- **C69.** Rows whose number is missing come last, upwards and downwards. -/
theorem C69_missing_last (f : α → Option ℚ) (asc : Bool) (rest : List (SortKey α)) (rows : List α) (a b : α) (ha : a ∈ rows) (hb : b ∈ rows)
    (fa : f a = none) (fb : f b ≠ none) : [b, a].Sublist (sortBy (SortKey.num f asc :: rest) rows) := by
  obtain ⟨hp, hs⟩ := C69_sorted (SortKey.num f asc :: rest) rows
  have hab : a ≠ b := by rintro rfl; exact fb fa
  rcases sublist_or (hp.mem_iff.2 ha) (hp.mem_iff.2 hb) hab with h | h
  · exfalso
    have := hs.sublist h
    rw [List.pairwise_cons] at this
    obtain ⟨y, hy⟩ := Option.ne_none_iff_exists'.1 fb
    refine this.1 b (by simp) 0 (by simp) (fun j hj => by omega) ⟨y, hy, fun x hx => ?_⟩
    have : (SortKey.num f asc).code a = none := fa
    simp [this] at hx
  · exact h

/-- **C69.** Rows whose value `order` does not list come behind those that it lists, upwards and downwards. -/
theorem C69_unlisted_last (f : α → β) (order : List β) (asc : Bool) (rest : List (SortKey α)) (rows : List α) (a b : α) (ha : a ∈ rows)
    (hb : b ∈ rows) (fa : f a ∉ order) (fb : f b ∈ order) : [b, a].Sublist (sortBy (SortKey.ordered f order asc :: rest) rows) := by
  obtain ⟨hp, hs⟩ := C69_sorted (SortKey.ordered f order asc :: rest) rows
  have hab : a ≠ b := by rintro rfl; exact fa fb
  rcases sublist_or (hp.mem_iff.2 ha) (hp.mem_iff.2 hb) hab with h | h
  · exfalso
    have := hs.sublist h
    rw [List.pairwise_cons] at this
    refine this.1 b (by simp) 0 (by simp) (fun j hj => by omega) ⟨_, if_pos fb, fun x hx => ?_⟩
    have : (SortKey.ordered f order asc).code a = none := if_neg fa
    simp [this] at hx
  · exact h

end

/-- Experiments sorted downwards by their ratio, and by the order of their names. -/
example : [("c", some (2 : ℚ)), ("b", none)].Sublist
    (sortBy [SortKey.num (fun p : String × Option ℚ => p.2) false] [("a", some 1), ("b", none), ("c", some 2)]) :=
  C69_missing_last (fun p : String × Option ℚ => p.2) false [] _ _ _ (by simp) (by simp) rfl (by simp)

example : [("b", (5 : ℚ)), ("z", 1)].Sublist
    (sortBy (SortKey.ordered (fun p : String × ℚ => p.1) ["c", "b"] false :: []) [("z", 1), ("b", 5)]) :=
  C69_unlisted_last (fun p : String × ℚ => p.1) ["c", "b"] false [] _ _ _ (by simp) (by simp) (by decide) (by decide)

example : [("a", (1 : ℚ)), ("b", 5)].Sublist
    (sortBy (SortKey.ordered (fun p : String × ℚ => p.1) (["c"] ++ "a" :: [] ++ "b" :: ["d"]) true :: []) [("b", 5), ("a", 1)]) :=
  C69_order (fun p : String × ℚ => p.1) ["c"] [] ["d"] "a" "b" (by decide) true [] _ _ _ (by simp) (by simp) rfl rfl

/-- **C69, violated.** Two different values of a dimension that `order` does not list are shown alike, as NaN. -/
theorem C69_violation_unlisted {β : Type} [DecidableEq β] (order : List β) (v w : β) (hv : v ∉ order) (hw : w ∉ order) :
    orderedShown order v = none ∧ orderedShown order v = orderedShown order w := by
  simp [orderedShown, hv, hw]

/-- **C69.** A value that is listed is shown as it is. -/
theorem C69_listed_shown {β : Type} [DecidableEq β] (order : List β) (v : β) (hv : v ∈ order) : orderedShown order v = some v := by
  simp [orderedShown, hv]

/-- **C69, violated.** If the column with an `order` is the only one that identifies the rows, the display has a further column
`level_0`. -/
theorem C69_violation_level_0 (col : String) : keyColumnsAfterOrder [col] col = ["level_0", col] := by simp [keyColumnsAfterOrder]

/-- **C69.** With at least two of these columns there is no further one. -/
theorem C69_columns_partial (keys : List String) (col : String) (hn : keys.Nodup) (hc : col ∈ keys) (h2 : 2 ≤ keys.length) :
    (keyColumnsAfterOrder keys col).Perm keys := by
  have h1 : keys ≠ [col] := by rintro rfl; simp at h2
  unfold keyColumnsAfterOrder
  rw [if_neg h1]
  have : (keys.filter fun c => c ≠ col) = keys.erase col := by rw [hn.erase_eq_filter]; congr 1; ext c; by_cases h : c = col <;> simp [h]
  rw [this]
  exact (List.perm_append_comm).trans (List.perm_cons_erase hc).symm

/-! ### The caller's `sort_by` -/

/-- The columns that are dimensions keep their order under the names `Dim_1`, `Dim_2`, …; the data of the column with such a name
after the renaming come from this column of the caller's table. -/
def columnOf (r : List (String × String)) (cols : List String) (c : String) : List String := cols.filter fun u => renamed r u = c

/-- **C69, violated.** The caller's `sort_by` is changed by a call, so that the same call a second time sorts by another column: with
the dimensions given as Dim_2 and Dim_1, the first call sorts by the caller's Dim_2 and the second one by Dim_1. -/
theorem C69_violation_second_call :
    let r := colRename [("Metric", "Metric"), ("Ratio", "Ratio"), ("Value", "Value")] true ["Dim_2", "Dim_1"]
    let first := sortByAfter r ["Dim_2"]
    let second := sortByAfter r first
    first.map (columnOf r ["Metric", "Dim_1", "Dim_2"]) = [["Dim_2"]] ∧
      second.map (columnOf r ["Metric", "Dim_1", "Dim_2"]) = [["Dim_1"]] := by decide +kernel

theorem dictGet_mem {l : List (String × String)} {k v : String} (h : dictGet l k = some v) : (k, v) ∈ l := by
  unfold dictGet at h
  obtain ⟨p, hp, rfl⟩ := Option.map_eq_some_iff.1 h
  have h1 := List.find?_some hp
  have h2 := List.mem_of_find?_eq_some hp
  simp only [decide_eq_true_eq] at h1
  rw [← h1]; exact List.mem_reverse.1 h2

/-- **C69.** If the columns that are not dimensions have their default names and no dimension is called `Dim_1`, `Dim_2`, …, the same
call a second time sorts by the same columns. -/
theorem C69_second_call_partial (fixed : List (String × String)) (hf : ∀ p ∈ fixed, p.1 = p.2) (aggregate : Bool) (dims : List String)
    (hd : ∀ i, dimName i ∉ dims) (cols : List String) :
    let r := colRename fixed aggregate dims
    sortByAfter r (sortByAfter r cols) = sortByAfter r cols := by
  intro r
  have hmem : ∀ k v, (k, v) ∈ r → v = k ∨ k ∈ dims ∧ ∃ i, v = dimName i := by
    intro k v h
    rcases List.mem_append.1 h with h | h
    · exact .inl (hf _ h).symm
    · right
      cases aggregate with
      | false => simp at h
      | true =>
        simp only [if_true, List.mem_map] at h
        obtain ⟨p, hp, he⟩ := h
        cases he
        exact ⟨List.fst_mem_of_mem_zipIdx hp, p.2, rfl⟩
  have hr : ∀ c, renamed r (renamed r c) = renamed r c := by
    intro c
    have key : ∀ k, (k = c ∧ renamed r c = c) ∨ (∃ i, k = dimName i) → renamed r k = k := by
      rintro k (⟨rfl, h⟩ | ⟨i, rfl⟩)
      · exact h
      · unfold renamed
        cases h : dictGet r (dimName i) with
        | none => rfl
        | some v =>
          rcases hmem _ _ (dictGet_mem h) with e | e
          · simp [e]
          · exact absurd e.1 (hd i)
    have : renamed r c = c ∨ ∃ i, renamed r c = dimName i := by
      unfold renamed
      cases h : dictGet r c with
      | none => exact .inl rfl
      | some v =>
        rcases hmem _ _ (dictGet_mem h) with e | ⟨_, i, e⟩
        · exact .inl (by simp [e])
        · exact .inr ⟨i, by simp [e]⟩
    rcases this with h | ⟨i, h⟩
    · rw [h, h]
    · exact key _ (.inr ⟨i, h⟩)
  unfold sortByAfter
  rw [List.map_map]
  exact List.map_congr_left fun c _ => hr c

example : ∀ i, dimName i ∉ ["country", "device"] := by
  intro i h
  have := (String.startsWith_string_iff (pat := "Dim_") (s := dimName i)).2 (by
    unfold dimName; rw [String.toList_append]; exact List.prefix_append _ _)
  simp only [List.mem_cons, List.not_mem_nil, or_false] at h
  rcases h with h | h <;> rw [h] at this <;> revert this <;> decide +kernel

/-! ## C70: the columns -/

/-- **C70.** With `metric_order`: the metrics that are listed and in the data are shown in this order, right of the dimensions. -/
theorem C70_metric_order_partial (info : Bool) (dims metrics keys order : List String) (hk : keys ≠ []) (ho : order ≠ [])
    (hm : ∀ m ∈ ["Dimensions", "Experiment_Id", "Is_Control", "Description"], m ∉ metrics) (hd : "Dimensions" ∉ order) :
    shownColumns true info dims (some order) (wideColumns true keys metrics) = "Dimensions" :: order.filter (· ∈ metrics) := by
  unfold shownColumns wideColumns
  have h1 : keys.isEmpty = false := by simpa using hk
  have h2 : order.isEmpty = false := by simpa using ho
  have e1 : "Experiment_Id" ∉ metrics := hm _ (by simp)
  have e2 : "Is_Control" ∉ metrics := hm _ (by simp)
  have e3 : "Description" ∉ metrics := hm _ (by simp)
  simp only [h1, h2, if_true, Bool.not_true, Bool.false_and, Bool.false_eq_true, if_false, List.filter_append]
  have : order.filter (fun c => decide (c ∈ "Dimensions" :: metrics)) = order.filter (fun c => decide (c ∈ metrics)) := by
    apply List.filter_congr
    intro c hc
    have : c ≠ "Dimensions" := by rintro rfl; exact hd hc
    simp [this]
  rw [this]
  simp [List.filter_cons, e1, e2, e3]

/-- **C70.** Without `metric_order` all metrics are shown. -/
theorem C70_no_order (info : Bool) (dims metrics keys : List String) (hk : keys ≠ []) :
    shownColumns true info dims none (wideColumns true keys metrics) = "Dimensions" :: metrics := by
  have h1 : keys.isEmpty = false := by simpa using hk
  simp [shownColumns, wideColumns, h1]

/-- **C70.** Without dimensions and experiments there is no column of dimensions, and the metrics are shown alone. -/
theorem C70_no_keys (info : Bool) (dims metrics : List String) :
    shownColumns true info dims none (wideColumns true [] metrics) = metrics := by
  simp [shownColumns, wideColumns]

/-- **C70, violated.** A metric that `metric_order` does not list is not shown at all. -/
theorem C70_violation_unlisted (aggregate info : Bool) (dims metrics keys order : List String) (ho : order ≠ []) (m : String) (hm : m ∉ order)
    (hmd : m ∉ dims ++ ["Dimensions", "Experiment_Id", "Is_Control", "Description"]) :
    m ∉ shownColumns aggregate info dims (some order) (wideColumns aggregate keys metrics) := by
  have h2 : order.isEmpty = false := by simpa using ho
  simp only [List.mem_append, List.mem_cons, List.not_mem_nil, or_false, not_or] at hmd
  intro h
  unfold shownColumns at h
  simp only [h2, Bool.false_eq_true, if_false] at h
  have h' : m ∈ (if aggregate = true then ["Dimensions"] else dims) ++ ["Experiment_Id", "Is_Control", "Description"] ++ order := by
    split at h
    · exact (List.mem_filter.1 (List.mem_filter.1 h).1).1
    · exact (List.mem_filter.1 h).1
  cases aggregate <;> simp [hmd, hm] at h'

example : shownColumns true false ["Dim_1"] (some ["clicks", "views", "absent"]) (wideColumns true ["Dim_1", "Experiment_Id"] ["clicks", "cost", "views"]) =
    ["Dimensions", "clicks", "views"] :=
  C70_metric_order_partial false ["Dim_1"] ["clicks", "cost", "views"] ["Dim_1", "Experiment_Id"] ["clicks", "views", "absent"] (by simp) (by simp)
    (by decide) (by decide)

/-- **C70.** Not aggregated: the columns of the experiment are shown or left out as asked for, those of the dimensions, the id and the
metrics are shown in any case. -/
theorem C70_spread (info : Bool) (dims metrics keys : List String) (c : String) (hc : c ∉ ["Control_Id", "Is_Control", "Description"] ∨ info = true) :
    c ∈ shownColumns false info dims none (wideColumns false keys metrics) ↔ c ∈ keys ∨ c ∈ metrics := by
  unfold shownColumns wideColumns
  cases info with
  | true => simp
  | false =>
    have hc : c ∉ ["Control_Id", "Is_Control", "Description"] := by simpa using hc
    simp only [Bool.not_false, Bool.and_true, Bool.and_self, if_true, Bool.false_eq_true, if_false, List.mem_filter, List.mem_append,
      decide_eq_true_eq, and_iff_left hc]

/-! ## The description -/

/-- **C63, violated.** A row whose description is NaN is in no group and is not shown, although only empty descriptions are to be
filled. -/
theorem C63_violation_nan_description (isCtrl : Bool) : descKey (fillDescription .nan isCtrl) = none := rfl

/-- **C63.** A description that is not NaN is shown; an empty one tells whether the row is a control. -/
theorem C63_description_partial (d : DescVal) (h : d ≠ .nan) (isCtrl : Bool) :
    descKey (fillDescription d isCtrl) = some (match d with
      | .str s => if s = "" then (if isCtrl then "Control" else "Not Control") else s
      | _ => if isCtrl then "Control" else "Not Control") := by
  cases d with
  | nan => exact absurd rfl h
  | none => simp [fillDescription, DescVal.truthy, descKey]
  | str s => by_cases hs : s = "" <;> simp [fillDescription, DescVal.truthy, descKey, hs]

end Verif
