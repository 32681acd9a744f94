import Verif.Spec.Width

/-!
# C43: the number of columns
-/

namespace Verif

theorem combineCols_length (fmt : String → String → String) (a b : List String)
    (h : a.length = b.length ∨ a.length = 1 ∨ b.length = 1) (ha : a ≠ []) (hb : b ≠ []) :
    (combineCols fmt a b).length = Nat.max a.length b.length := by
  have ha' : 0 < a.length := List.length_pos_iff.2 ha
  have hb' : 0 < b.length := List.length_pos_iff.2 hb
  have hm : Nat.max a.length b.length = max a.length b.length := rfl
  unfold combineCols
  split
  · rfl
  · rw [hm]; simp only [List.length_map, List.length_singleton]; omega
  · rw [hm]; simp only [List.length_map, List.length_singleton]; omega
  · next h1 h2 h3 =>
    split
    · next he => rw [hm, List.length_zipWith]; omega
    · next hne =>
      exfalso
      rcases h with h | h | h
      · exact hne h
      · obtain ⟨x, rfl⟩ := List.length_eq_one_iff.1 h
        simp_all
      · obtain ⟨y, rfl⟩ := List.length_eq_one_iff.1 h
        simp_all

mutual
theorem width_main (fmt : String → String → String) : ∀ t : WT, t.regular fmt →
    t.countF = (t.cols fmt).length ∧ t.cols fmt ≠ []
  | .leaf n, _ => by simp [WT.countF, WT.cols]
  | .quantiles ns, h => ⟨rfl, h⟩
  | .list [], h => absurd rfl h.1
  | .list (c :: cs), h => by
      have h1 := width_main fmt c h.2.1
      have h2 := width_mainL fmt cs h.2.2
      refine ⟨?_, ?_⟩
      · simp only [WT.countF, WT.countFL, WT.cols, WT.colsL, List.length_append, h1.1, h2]
      · simp [WT.cols, WT.colsL, h1.2]
  | .comp (.num z) r, h => by
      have hr : r.regular fmt := by
        cases r <;> simpa [WT.regular] using h
      have h1 := width_main fmt r hr
      have hlen := combineCols_length fmt [""] (r.cols fmt) (Or.inr (Or.inl rfl)) (by simp) h1.2
      have hpos : 0 < (r.cols fmt).length := List.length_pos_iff.2 h1.2
      have he : WT.countF (.comp (.num z) r) = (WT.cols fmt (.comp (.num z) r)).length := by
        simp only [WT.countF, WT.cols, hlen, h1.1]
        have hm : ∀ a b : Nat, Nat.max a b = max a b := fun _ _ => rfl
        rw [hm, hm, List.length_singleton]
        split <;> omega
      refine ⟨he, ?_⟩
      intro hnil
      rw [hnil, List.length_nil] at he
      simp only [WT.countF] at he
      have hm : ∀ a b : Nat, Nat.max a b = max a b := fun _ _ => rfl
      rw [hm, h1.1] at he
      omega
  | .comp l (.num z), h => by
      have hl : l.regular fmt ∨ ∃ z', l = .num z' := by
        cases l with
        | num z' => exact Or.inr ⟨z', rfl⟩
        | _ => exact Or.inl (by simpa [WT.regular] using h)
      rcases hl with hl | ⟨z', rfl⟩
      · have h1 := width_main fmt l hl
        have hlen := combineCols_length fmt (l.cols fmt) [""] (Or.inr (Or.inr rfl)) h1.2 (by simp)
        have hpos : 0 < (l.cols fmt).length := List.length_pos_iff.2 h1.2
        have hm : ∀ a b : Nat, Nat.max a b = max a b := fun _ _ => rfl
        have he : WT.countF (.comp l (.num z)) = (WT.cols fmt (.comp l (.num z))).length := by
          simp only [WT.countF, WT.cols, hlen, h1.1]
          rw [hm, hm, List.length_singleton]
          split <;> omega
        refine ⟨he, ?_⟩
        intro hnil
        rw [hnil, List.length_nil] at he
        simp only [WT.countF] at he
        rw [hm, h1.1] at he
        omega
      · simp [WT.regular] at h
  | .comp l r, h => by
      by_cases hl : ∃ z, l = .num z
      · obtain ⟨z, rfl⟩ := hl
        have hr : r.regular fmt := by
          cases r <;> simpa [WT.regular] using h
        have h1 := width_main fmt r hr
        have hlen := combineCols_length fmt [""] (r.cols fmt) (Or.inr (Or.inl rfl)) (by simp) h1.2
        have hpos : 0 < (r.cols fmt).length := List.length_pos_iff.2 h1.2
        have hm : ∀ a b : Nat, Nat.max a b = max a b := fun _ _ => rfl
        have he : WT.countF (.comp (.num z) r) = (WT.cols fmt (.comp (.num z) r)).length := by
          simp only [WT.countF, WT.cols, hlen, h1.1]
          rw [hm, hm, List.length_singleton]
          split <;> omega
        refine ⟨he, ?_⟩
        intro hnil
        rw [hnil, List.length_nil] at he
        simp only [WT.countF] at he
        rw [hm, h1.1] at he
        omega
      · by_cases hr : ∃ z, r = .num z
        · obtain ⟨z, rfl⟩ := hr
          have hl' : l.regular fmt := by
            cases l with
            | num z' => exact absurd ⟨z', rfl⟩ hl
            | _ => simpa [WT.regular] using h
          have h1 := width_main fmt l hl'
          have hlen := combineCols_length fmt (l.cols fmt) [""] (Or.inr (Or.inr rfl)) h1.2 (by simp)
          have hpos : 0 < (l.cols fmt).length := List.length_pos_iff.2 h1.2
          have hm : ∀ a b : Nat, Nat.max a b = max a b := fun _ _ => rfl
          have he : WT.countF (.comp l (.num z)) = (WT.cols fmt (.comp l (.num z))).length := by
            simp only [WT.countF, WT.cols, hlen, h1.1]
            rw [hm, hm, List.length_singleton]
            split <;> omega
          refine ⟨he, ?_⟩
          intro hnil
          rw [hnil, List.length_nil] at he
          simp only [WT.countF] at he
          rw [hm, h1.1] at he
          omega
        · have hh : l.regular fmt ∧ r.regular fmt ∧
              ((l.cols fmt).length = (r.cols fmt).length ∨ (l.cols fmt).length = 1 ∨ (r.cols fmt).length = 1) := by
            cases l <;> cases r <;> first | (exact absurd ⟨_, rfl⟩ hl) | (exact absurd ⟨_, rfl⟩ hr) | simpa [WT.regular] using h
          have h1 := width_main fmt l hh.1
          have h2 := width_main fmt r hh.2.1
          have hlen := combineCols_length fmt (l.cols fmt) (r.cols fmt) hh.2.2 h1.2 h2.2
          have hpos : 0 < (l.cols fmt).length := List.length_pos_iff.2 h1.2
          have he : WT.countF (.comp l r) = (WT.cols fmt (.comp l r)).length := by
            simp only [WT.countF, WT.cols, hlen, h1.1, h2.1]
          refine ⟨he, ?_⟩
          intro hnil
          rw [hnil, List.length_nil] at he
          simp only [WT.countF] at he
          have hm : ∀ a b : Nat, Nat.max a b = max a b := fun _ _ => rfl
          rw [hm, h1.1] at he
          omega
  | .num _, h => absurd h (by simp [WT.regular])
  | .op c, h => width_main fmt c h
  | .adjust m cs, h => width_main fmt m h
  | .ci conf c, h => by
      have h1 := width_main fmt c h
      have hl : ∀ (n : Nat) (f : String → List String) (l : List String), (∀ x, (f x).length = n) →
          (l.flatMap f).length = l.length * n := by
        intro n f l hf
        induction l with
        | nil => simp
        | cons a l ih => rw [List.flatMap_cons, List.length_append, ih, hf, List.length_cons, Nat.succ_mul, Nat.add_comm]
      cases conf
      · refine ⟨?_, ?_⟩
        · simp only [WT.countF, WT.cols, h1.1]
          rw [hl 2]
          · rfl
          · intro x; rfl
        · simp only [WT.cols]
          intro hnil
          have := congrArg List.length hnil
          rw [hl 2 _ _ (fun x => rfl), List.length_nil] at this
          have hpos : 0 < (c.cols fmt).length := List.length_pos_iff.2 h1.2
          omega
      · refine ⟨?_, ?_⟩
        · simp only [WT.countF, WT.cols, h1.1]
          rw [hl 3]
          · rfl
          · intro x; rfl
        · simp only [WT.cols]
          intro hnil
          have := congrArg List.length hnil
          rw [hl 3 _ _ (fun x => rfl), List.length_nil] at this
          have hpos : 0 < (c.cols fmt).length := List.length_pos_iff.2 h1.2
          omega
  | .model ic y x, h => by
      simp only [WT.regular] at h
      obtain ⟨rfl, hy, hy1, hx⟩ := h
      have h1 := width_main fmt y hy
      have h2 := width_main fmt x hx
      refine ⟨?_, by simp [WT.cols]⟩
      simp only [WT.countF, WT.cols, if_true, List.length_cons, h1.1, h2.1, hy1]
      omega
theorem width_mainL (fmt : String → String → String) : ∀ cs : List WT, WT.regularL fmt cs →
    WT.countFL cs = (WT.colsL fmt cs).length
  | [], _ => rfl
  | c :: cs, h => by
      have h1 := width_main fmt c h.1
      have h2 := width_mainL fmt cs h.2
      simp only [WT.countFL, WT.colsL, List.length_append, h1.1, h2]
end

/-- `count_features` is the number of columns, for the trees it is meant for. -/
theorem C43_partial (fmt : String → String → String) (t : WT) (h : t.regular fmt) : t.countF = (t.cols fmt).length :=
  (width_main fmt t h).1

def wEx : WT := .ci true (.comp (.list [.leaf "a", .quantiles ["p", "q"]]) (.comp (.leaf "b") (.num true)))

example : wEx.regular (fun a b => a ++ b) ∧ wEx.countF = 9 := by
  refine ⟨?_, by decide⟩
  simp [wEx, WT.regular, WT.regularL, WT.cols, WT.colsL, combineCols]

/-- Arithmetic of tables of different widths aligns columns by name. -/
theorem C43_violation_mismatch :
    (WT.comp (.list [.leaf "a", .leaf "b"]) (.list [.leaf "c", .leaf "d", .leaf "e"])).countF = 3 ∧
    ((WT.comp (.list [.leaf "a", .leaf "b"]) (.list [.leaf "c", .leaf "d", .leaf "e"])).cols fun a b => a ++ b).length = 5 := by
  decide +kernel

/-- A regression without intercept has one column less than predicted. -/
theorem C43_violation_no_intercept (fmt : String → String → String) (y x : String) :
    (WT.model false (.leaf y) (.leaf x)).countF = 2 ∧ ((WT.model false (.leaf y) (.leaf x)).cols fmt).length = 1 := by
  simp [WT.countF, WT.cols]

end Verif
