import Verif.Model.MultiClass
import Mathlib.Data.List.Nodup
import Mathlib.Tactic.Ring

/-!
# C95: every coefficient of a logistic regression stands under its own name

/repo/models.py:1005-1029.
-/

namespace Verif

section
variable {K : Type}

theorem flatten_rows (classes names : List (List Char)) (rows : List (List K)) (hl : rows.length = classes.length)
    (hr : ∀ r ∈ rows, r.length = names.length) :
    (classLabels classes names).zip rows.flatten =
      (classes.zip rows).flatMap fun p => (names.zip p.2).map fun q => (classLabel q.1 p.1, q.2) := by
  induction classes generalizing rows with
  | nil =>
    have : rows = [] := List.length_eq_zero_iff.1 (by simpa using hl)
    simp [this, classLabels]
  | cons c classes ih =>
    match rows, hl with
    | r :: rows, hl =>
      have h1 := hr r (by simp)
      rw [classLabels, List.flatMap_cons, List.flatten_cons, List.zip_append (by simp [h1]), List.zip_cons_cons, List.flatMap_cons]
      have := ih rows (by simpa using hl) (fun r h => hr r (by simp [h]))
      rw [classLabels] at this
      rw [this, List.zip_map_left]
      simp [Prod.map, Function.comp_def]

theorem length_classLabels (classes names : List (List Char)) : (classLabels classes names).length = classes.length * names.length := by
  induction classes with
  | nil => simp [classLabels]
  | cons c classes ih =>
    rw [classLabels] at ih
    rw [classLabels, List.flatMap_cons, List.length_append, ih, List.length_map, List.length_cons]
    ring

theorem length_flatten_rows (n : ℕ) (rows : List (List K)) (hr : ∀ r ∈ rows, r.length = n) : rows.flatten.length = rows.length * n := by
  induction rows with
  | nil => simp
  | cons r rows ih =>
    rw [List.flatten_cons, List.length_append, ih fun r h => hr r (by simp [h]), hr r (by simp), List.length_cons]
    ring

/-- What sklearn gives for `k` features: a coefficient for each feature in every row, and either one row or one row for each class. -/
structure SkLogit.Fits (m : SkLogit K) (k : ℕ) : Prop where
  rows : m.coef.length = 1 ∨ m.coef.length = m.classes.length
  width : ∀ r ∈ m.coef, r.length = k
  intercepts : m.intercept.length = m.coef.length
  nonempty : m.coef ≠ []

/-- **C95, more than two classes.** The columns of the result are exactly the pairs of a class and a feature, or the intercept, and each has the
coefficient that sklearn has for them. -/
theorem C95_classes (features : List (List Char)) (m : SkLogit K) (h : m.Fits features.length) (h1 : m.coef.length ≠ 1) :
    logitCompute false features m =
      some ((m.classes.zip m.coef).flatMap fun p => (features.zip p.2).map fun q => (classLabel q.1 p.1, q.2)) ∧
    logitCompute true features m =
      some ((m.classes.zip (m.intercept.zip m.coef)).flatMap fun p =>
        (classLabel interceptName p.1, p.2.1) :: (features.zip p.2.2).map fun q => (classLabel q.1 p.1, q.2)) := by
  have hl : m.coef.length = m.classes.length := h.rows.resolve_left h1
  constructor
  · rw [logitCompute]
    split
    · rename_i row hrow
      rw [hrow] at h1
      exact absurd rfl h1
    · rw [if_neg (by simp), frameRow, if_pos, flatten_rows _ _ _ hl h.width]
      rw [length_classLabels, length_flatten_rows _ _ h.width, hl]
  · rw [logitCompute]
    split
    · rename_i row hrow
      rw [hrow] at h1
      exact absurd rfl h1
    · have hz : ∀ (a : List K) (l : List (List K)), List.zipWith (fun x1 x2 => x1 :: x2) a l = (a.zip l).map fun p => p.1 :: p.2 := by
        intro a l
        rw [List.zip, List.map_zipWith]
      have hlen : (List.zipWith (fun x1 x2 => x1 :: x2) m.intercept m.coef).length = m.classes.length := by
        rw [List.length_zipWith, h.intercepts, hl, Nat.min_self]
      have hw : ∀ r ∈ List.zipWith (fun x1 x2 => x1 :: x2) m.intercept m.coef, r.length = (interceptName :: features).length := by
        intro r hr
        rw [hz, List.mem_map] at hr
        obtain ⟨p, hp, rfl⟩ := hr
        have := h.width p.2 (List.of_mem_zip hp).2
        simp [this]
      rw [if_pos rfl, if_pos h.intercepts, frameRow, if_pos, flatten_rows _ _ _ hlen hw, hz, List.zip_map_right]
      · rw [List.flatMap_map]
        rfl
      · rw [length_classLabels, length_flatten_rows _ _ hw, hlen]

/-- **C95, two classes.** The row of sklearn, the intercept before it. -/
theorem C95_binary (features : List (List Char)) (classes : List (List Char)) (b : K) (row : List K) (h : row.length = features.length) :
    logitCompute false features ⟨classes, [b], [row]⟩ = some (features.zip row) ∧
    logitCompute true features ⟨classes, [b], [row]⟩ = some ((interceptName, b) :: features.zip row) := by
  simp [logitCompute, frameRow, h]

/-- Labels are told apart when the classes are written without a space, as numbers are. -/
theorem classLabel_inj {n n' c c' : List Char} (hc : ' ' ∉ c) (hc' : ' ' ∉ c') (h : classLabel n c = classLabel n' c') : n = n' ∧ c = c' := by
  have key : ∀ n c : List Char, ' ' ∉ c → (classLabel n c).reverse.takeWhile (· ≠ ' ') = c.reverse := by
    intro n c hc
    have e : (classLabel n c).reverse = c.reverse ++ ' ' :: (n ++ " for class".toList).reverse := by
      simp [classLabel]
    rw [e, List.takeWhile_append_of_pos]
    · simp
    · intro x hx
      rw [List.mem_reverse] at hx
      have : x ≠ ' ' := fun e => hc (e ▸ hx)
      simp [this]
  have h1 := key n c hc
  rw [h, key n' c' hc'] at h1
  have hcc : c = c' := (List.reverse_injective h1).symm
  subst hcc
  refine ⟨?_, rfl⟩
  rw [classLabel, classLabel] at h
  exact List.append_cancel_right (List.append_cancel_right h)

/-- **C95.** With classes written without a space and features with different names, none of them called `intercept`, no two columns of the
result have the same label, so that a label picks the coefficient of one feature and class. -/
theorem C95_labels_partial (fit : Bool) (features : List (List Char)) (m : SkLogit K) (res : List (List Char × K))
    (hf : features.Nodup) (hi : interceptName ∉ features) (hc : m.classes.Nodup) (hs : ∀ c ∈ m.classes, ' ' ∉ c)
    (h : logitCompute fit features m = some res) : (res.map (·.1)).Nodup := by
  have hnames : (interceptName :: features).Nodup := List.nodup_cons.2 ⟨hi, hf⟩
  have hmulti : ∀ names : List (List Char), names.Nodup → (classLabels m.classes names).Nodup := by
    intro names hn
    rw [classLabels, List.nodup_flatMap]
    refine ⟨fun c hcm => ?_, ?_⟩
    · exact hn.map_on fun a _ b _ e => (classLabel_inj (hs c hcm) (hs c hcm) e).1
    · refine hc.pairwise_of_forall_ne fun a ha b hb hab => ?_
      intro x hx hy
      obtain ⟨n, -, rfl⟩ := List.mem_map.1 hx
      obtain ⟨n', -, e⟩ := List.mem_map.1 hy
      exact hab (classLabel_inj (hs b hb) (hs a ha) e).2.symm
  have hframe : ∀ (labels : List (List Char)) (values : List K), labels.Nodup → frameRow labels values = some res → (res.map (·.1)).Nodup := by
    intro labels values hn hfr
    rw [frameRow] at hfr
    split at hfr
    · rename_i hlen
      obtain rfl := Option.some.inj hfr
      rw [List.map_fst_zip (by omega)]
      exact hn
    · exact absurd hfr (by simp)
  rw [logitCompute] at h
  split at h
  · split at h
    · split at h
      · exact absurd h (by simp)
      · exact hframe _ _ hnames h
    · exact hframe _ _ hf h
  · split at h
    · split at h
      · exact hframe _ _ (hmulti _ hnames) h
      · exact absurd h (by simp)
    · exact hframe _ _ (hmulti _ hf) h

/-- **C95, completeness.** A result has every coefficient that sklearn has: labels that are too few are refused, no coefficient is dropped. -/
theorem C95_complete (fit : Bool) (features : List (List Char)) (m : SkLogit K) (res : List (List Char × K))
    (h : logitCompute fit features m = some res) : ∀ row ∈ m.coef, ∀ a ∈ row, a ∈ res.map (·.2) := by
  have hframe : ∀ (labels : List (List Char)) (values : List K), frameRow labels values = some res → ∀ a ∈ values, a ∈ res.map (·.2) := by
    intro labels values hfr a ha
    rw [frameRow] at hfr
    split at hfr
    · rename_i hlen
      obtain rfl := Option.some.inj hfr
      rw [List.map_snd_zip (le_of_eq hlen.symm)]
      exact ha
    · exact absurd hfr (by simp)
  intro row hrow a ha
  rw [logitCompute] at h
  split at h
  · rename_i row' hc
    rw [hc, List.mem_singleton] at hrow
    subst hrow
    split at h
    · split at h
      · exact absurd h (by simp)
      · exact hframe _ _ h a (by simp [ha])
    · exact hframe _ _ h a ha
  · split at h
    · split at h
      · rename_i hlen
        refine hframe _ _ h a (List.mem_flatten.2 ?_)
        obtain ⟨i, hi, rfl⟩ := List.mem_iff_getElem.1 hrow
        refine ⟨(m.intercept[i]'(by omega)) :: m.coef[i], ?_, by simp [ha]⟩
        rw [List.mem_iff_getElem]
        exact ⟨i, by simp; omega, by simp⟩
      · exact absurd h (by simp)
    · exact hframe _ _ h a (List.mem_flatten.2 ⟨row, hrow, ha⟩)

/-- Non-vacuity: two features and three classes. -/
example : ∃ res, logitCompute true [['a'], ['b']] (⟨[['0'], ['1'], ['2']], [(1 : ℤ), 2, 3], [[4, 5], [6, 7], [8, 9]]⟩ : SkLogit ℤ) = some res ∧
    res.length = 9 := by decide

/-- **C95, violated.** A feature called `intercept`: two columns have its label, with different numbers. -/
theorem C95_intercept_violation : logitCompute true [interceptName, ['x']] (⟨[['0'], ['1']], [(5 : ℤ)], [[1, 2]]⟩ : SkLogit ℤ) =
    some [(interceptName, 5), (interceptName, 1), (['x'], 2)] := by decide

/-- **C95, violated.** Classes with spaces: the coefficients of two features for two classes have the same label. -/
theorem C95_class_violation : ∃ res, logitCompute false ["x".toList, "x for class a".toList]
      (⟨["a for class b".toList, "b".toList, "c".toList], [0, 0, 0], [[1, 2], [3, 4], [5, 6]]⟩ : SkLogit ℤ) = some res ∧
    ("x for class a for class b".toList, 1) ∈ res ∧ ("x for class a for class b".toList, 4) ∈ res := by
  refine ⟨_, rfl, ?_, ?_⟩ <;> decide

/-- The hypotheses are met by three classes and two features. -/
example : (⟨[['0'], ['1'], ['2']], [7, 8, 9], [[1, 2], [3, 4], [5, 6]]⟩ : SkLogit ℤ).Fits [['x'], ['y']].length :=
  ⟨Or.inr rfl, by decide, rfl, by decide⟩

end
end Verif
