import Verif.Lemmas.ExpandLeaf

namespace Verif

/-! ## Rank and termination -/

/-- How far a leaf is from elementary. -/
def SLeaf.rank : SLeaf → Nat
  | .sum _ | .count _ _ | .max _ | .min _ | .other _ => 0
  | .dot _ _ _ => 1
  | .mean _ _ => 2
  | .cov _ _ _ _ _ _ => 3
  | .variance _ _ _ => 4
  | .sd _ _ _ => 5
  | .cv _ _ | .corr _ _ _ => 6

theorem rank_le (k : SLeaf) : k.rank ≤ 6 := by cases k <;> simp [SLeaf.rank]

theorem equiv_none (k : SLeaf) : k.equiv = none ↔ k.rank = 0 := by
  cases k with
  | dot v w n => cases n <;> simp [SLeaf.equiv, SLeaf.rank]
  | mean v w => cases w <;> simp [SLeaf.equiv, SLeaf.rank]
  | variance v u w => cases w <;> simp [SLeaf.equiv, SLeaf.rank]
  | _ => simp [SLeaf.equiv, SLeaf.rank]

theorem rank_elementary (k : SLeaf) : k.rank = 0 ↔ k.elementary := by
  cases k <;> simp [SLeaf.rank, SLeaf.elementary]

theorem leaves_covEquiv (v w : ECol) (bias : Bool) (ddof : Option ℤ) (wt fw : Option ECol)
    (k : SLeaf) (hk : k ∈ (covEquiv v w bias ddof wt fw).leaves) :
    k.rank < 3 ∧ k.weights = [] ∧
      ∀ c ∈ k.cols, ∀ b ∈ c.bases, ∃ c' ∈ (SLeaf.cov v w bias ddof wt fw).cols, b ∈ c'.bases := by
  unfold covEquiv at hk
  generalize covDdof bias ddof = d at hk
  cases wt <;> cases fw <;> simp only at hk <;> split at hk <;>
    simp only [sqrtSq, ET.leaves, List.cons_append, List.nil_append, List.mem_cons,
      List.not_mem_nil, or_false, List.append_nil] at hk <;>
    (rcases hk with hk | hk | hk | hk | hk | hk | hk <;> try subst hk) <;>
    simp [SLeaf.rank, SLeaf.weights, SLeaf.cols, ECol.bases] <;> grind [ECol.bases]

theorem leaves_equiv (k0 : SLeaf) (e : ET) (he : k0.equiv = some e) (k : SLeaf)
    (hk : k ∈ e.leaves) :
    k.rank < k0.rank ∧ (∀ c ∈ k.weights, c ∈ k0.weights) ∧
      ∀ c ∈ k.cols, ∀ b ∈ c.bases, ∃ c' ∈ k0.cols, b ∈ c'.bases := by
  cases k0 with
  | sum v => cases he
  | count v d => cases he
  | max v => cases he
  | min v => cases he
  | other i => cases he
  | dot v w n =>
    cases n <;> simp only [SLeaf.equiv, Option.some.injEq] at he <;> subst he <;>
      simp only [ET.leaves, List.cons_append, List.nil_append, List.mem_cons,
        List.not_mem_nil, or_false] at hk
    · subst hk; simp [SLeaf.rank, SLeaf.weights, SLeaf.cols, ECol.bases]
    · rcases hk with rfl | rfl <;> simp [SLeaf.rank, SLeaf.weights, SLeaf.cols, ECol.bases]
  | mean v w =>
    cases w <;> simp only [SLeaf.equiv, Option.some.injEq] at he <;> subst he <;>
      simp only [ET.leaves, List.cons_append, List.nil_append, List.mem_cons,
        List.not_mem_nil, or_false] at hk <;>
      rcases hk with rfl | rfl <;> simp [SLeaf.rank, SLeaf.weights, SLeaf.cols] <;> grind
  | variance v u w =>
    cases w with
    | none =>
      simp only [SLeaf.equiv, Option.some.injEq] at he
      subst he
      simp only [ET.leaves, List.mem_cons, List.not_mem_nil, or_false] at hk
      subst hk
      simp [SLeaf.rank, SLeaf.weights, SLeaf.cols]
    | some w =>
      cases u <;> simp only [SLeaf.equiv, Option.some.injEq, sqrtSq] at he <;> subst he <;>
        simp [ET.leaves] at hk <;>
        (rcases hk with rfl | rfl | rfl | rfl) <;>
        simp [SLeaf.rank, SLeaf.weights, SLeaf.cols, ECol.bases] <;> grind
  | sd v u w =>
    simp only [SLeaf.equiv, Option.some.injEq] at he
    subst he
    simp only [ET.leaves, List.cons_append, List.nil_append, List.mem_cons,
        List.not_mem_nil, or_false] at hk
    subst hk
    simp [SLeaf.rank, SLeaf.weights, SLeaf.cols]
    grind
  | cv v u =>
    simp only [SLeaf.equiv, Option.some.injEq] at he
    subst he
    simp only [ET.leaves, List.cons_append, List.nil_append, List.mem_cons,
        List.not_mem_nil, or_false] at hk
    rcases hk with rfl | rfl <;> simp [SLeaf.rank, SLeaf.weights, SLeaf.cols]
  | corr v w wt =>
    simp only [SLeaf.equiv, Option.some.injEq] at he
    subst he
    simp only [ET.leaves, List.cons_append, List.nil_append, List.mem_cons,
        List.not_mem_nil, or_false] at hk
    rcases hk with rfl | rfl | rfl <;> simp [SLeaf.rank, SLeaf.weights, SLeaf.cols] <;> grind
  | cov v w bias ddof wt fw =>
    simp only [SLeaf.equiv, Option.some.injEq] at he
    subst he
    obtain ⟨h1, h2, h3⟩ := leaves_covEquiv v w bias ddof wt fw k hk
    exact ⟨h1, by simp [h2], h3⟩


theorem leaves_setTop (n : Option String) (w : List Nat) (e : ET) : (e.setTop n w).leaves = e.leaves := by
  cases e <;> simp [ET.setTop, ET.leaves]

/-- Equivalents are unfiltered metrics, not numbers. -/
theorem equiv_shape (k : SLeaf) (e : ET) (he : k.equiv = some e) :
    (∃ k', e = lf k') ∨ ∃ op a b, e = .comp op a b none [] := by
  cases k with
  | dot v w n => cases n <;> cases he <;> simp
  | mean v w => cases w <;> cases he <;> simp
  | variance v u w => cases w <;> cases he <;> simp
  | sd v u w => cases he; simp
  | cv v u => cases he; simp
  | corr v w wt => cases he; simp
  | cov v w b d wt fw =>
    cases he
    unfold covEquiv
    cases wt <;> cases fw <;> simp only <;> split <;> simp
  | _ => cases he

theorem val_setTop (sem lv) (k : SLeaf) (e : ET) (he : k.equiv = some e) (n : Option String)
    (w : List Nat) (rs : List RRow) :
    (e.setTop n w).val sem lv rs = e.val sem lv (keepRows sem w rs) := by
  rcases equiv_shape k e he with ⟨k', rfl⟩ | ⟨op, a, b, rfl⟩ <;> simp [ET.setTop, ET.val]

theorem equiv_ne (k : SLeaf) (e : ET) (he : k.equiv = some e) (n n' : Option String)
    (w w' : List Nat) : e.setTop n w ≠ .leaf k n' w' := by
  intro h
  have h1 := congrArg ET.leaves h
  rw [leaves_setTop] at h1
  have := (leaves_equiv k e he k (by rw [h1]; simp [ET.leaves])).1
  omega

/-- The largest rank among leaves. -/
def maxRank (l : List SLeaf) : Nat := (l.map SLeaf.rank).foldr max 0

theorem maxRank_le {l : List SLeaf} {n : Nat} : maxRank l ≤ n ↔ ∀ k ∈ l, k.rank ≤ n := by
  induction l with
  | nil => simp [maxRank]
  | cons a l ih =>
    simp only [maxRank, List.map_cons, List.foldr_cons, List.mem_cons, forall_eq_or_imp] at ih ⊢
    rw [Nat.max_le, ih]

mutual
/-- Leaves after one round: untouched elementary ones, or leaves of an equivalent. -/
theorem leaves_step : ∀ (t : ET) (k : SLeaf), k ∈ t.step.leaves →
    (k ∈ t.leaves ∧ k.equiv = none) ∨ ∃ k0 ∈ t.leaves, ∃ e, k0.equiv = some e ∧ k ∈ e.leaves
  | .const q, k, h => by simp [ET.step, ET.leaves] at h
  | .leaf k0 n w, k, h => by
      rw [ET.step] at h
      cases he : k0.equiv with
      | none =>
        rw [he] at h
        simp only [ET.leaves, List.mem_singleton] at h
        subst h
        exact Or.inl ⟨by simp [ET.leaves], he⟩
      | some e =>
        rw [he] at h
        simp only [leaves_setTop] at h
        exact Or.inr ⟨k0, by simp [ET.leaves], e, he, h⟩
  | .comp op l r n w, k, h => by
      simp only [ET.step, ET.leaves, List.mem_append] at h ⊢
      rcases h with h | h
      · rcases leaves_step l k h with h | ⟨k0, h, h2⟩
        · exact Or.inl ⟨Or.inl h.1, h.2⟩
        · exact Or.inr ⟨k0, Or.inl h, h2⟩
      · rcases leaves_step r k h with h | ⟨k0, h, h2⟩
        · exact Or.inl ⟨Or.inr h.1, h.2⟩
        · exact Or.inr ⟨k0, Or.inr h, h2⟩
  | .node t cs n w, k, h => by
      simp only [ET.step, ET.leaves] at h ⊢
      exact leaves_stepL cs k h
theorem leaves_stepL : ∀ (cs : List ET) (k : SLeaf), k ∈ ET.leavesL (ET.stepL cs) →
    (k ∈ ET.leavesL cs ∧ k.equiv = none) ∨
      ∃ k0 ∈ ET.leavesL cs, ∃ e, k0.equiv = some e ∧ k ∈ e.leaves
  | [], k, h => by simp [ET.stepL, ET.leavesL] at h
  | c :: cs, k, h => by
      simp only [ET.stepL, ET.leavesL, List.mem_append] at h ⊢
      rcases h with h | h
      · rcases leaves_step c k h with h | ⟨k0, h, h2⟩
        · exact Or.inl ⟨Or.inl h.1, h.2⟩
        · exact Or.inr ⟨k0, Or.inl h, h2⟩
      · rcases leaves_stepL cs k h with h | ⟨k0, h, h2⟩
        · exact Or.inl ⟨Or.inr h.1, h.2⟩
        · exact Or.inr ⟨k0, Or.inr h, h2⟩
end

theorem maxRank_step (t : ET) (n : Nat) (h : maxRank t.leaves ≤ n) : maxRank t.step.leaves ≤ n - 1 := by
  rw [maxRank_le] at h ⊢
  intro k hk
  rcases leaves_step t k hk with ⟨_, h2⟩ | ⟨k0, h0, e, he, hke⟩
  · rw [(equiv_none k).1 h2]; omega
  · have := (leaves_equiv k0 e he k hke).1
    have := h k0 h0
    omega

mutual
/-- A round changes nothing exactly if all leaves are elementary. -/
theorem step_fixed : ∀ t : ET, t.step = t ↔ ∀ k ∈ t.leaves, k.equiv = none
  | .const q => by simp [ET.step, ET.leaves]
  | .leaf k n w => by
      rw [ET.step]
      cases he : k.equiv with
      | none => simp [ET.leaves, he]
      | some e =>
        simp only [ET.leaves, List.mem_singleton, forall_eq, he, reduceCtorEq, iff_false]
        exact equiv_ne k e he n n w w
  | .comp op l r n w => by
      have h1 := step_fixed l
      have h2 := step_fixed r
      simp only [ET.step, ET.leaves, List.mem_append, ET.comp.injEq, h1, h2]
      grind
  | .node t cs n w => by
      simp [ET.step, ET.leaves, stepL_fixed cs]
theorem stepL_fixed : ∀ cs : List ET, ET.stepL cs = cs ↔ ∀ k ∈ ET.leavesL cs, k.equiv = none
  | [] => by simp [ET.stepL, ET.leavesL]
  | c :: cs => by
      have h1 := step_fixed c
      have h2 := stepL_fixed cs
      simp only [ET.stepL, ET.leavesL, List.mem_append, List.cons.injEq, h1, h2]
      grind
end

theorem fixed_of_rank_zero (t : ET) (h : maxRank t.leaves ≤ 0) : t.step = t :=
  (step_fixed t).2 fun k hk => (equiv_none k).2 (by have := maxRank_le.1 h k hk; omega)

theorem loop_total (n : Nat) : ∀ t : ET, maxRank t.leaves ≤ n → ∃ m res, m ≤ n ∧ Expands t m res := by
  induction n with
  | zero =>
    intro t h
    refine ⟨0, t, Nat.le_refl _, ?_⟩
    unfold Expands
    rw [fixed_of_rank_zero t h]
    exact .stop t
  | succ n ih =>
    intro t h
    by_cases hf : t = t.step
    · refine ⟨0, t, Nat.zero_le _, ?_⟩
      unfold Expands
      rw [← hf]
      exact .stop t
    · obtain ⟨m, res, hm, hl⟩ := ih t.step (by have := maxRank_step t _ h; omega)
      exact ⟨m + 1, res, by omega, .body t t.step res m hf hl⟩

theorem loop_unique {t : ET} {m m' : Nat} {res res' : ET} (h : Expands t m res)
    (h' : Expands t m' res') : m = m' ∧ res = res' := by
  unfold Expands at h h'
  generalize hs : t.step = s at h h'
  induction h generalizing m' res' with
  | stop t =>
    cases h' with
    | stop => exact ⟨rfl, rfl⟩
    | body _ _ _ _ hne _ => exact absurd rfl hne
  | body p c r n hne _ ih =>
    cases h' with
    | stop => exact absurd rfl hne
    | body _ _ _ n' _ h2 =>
      obtain ⟨h3, h4⟩ := ih rfl h2
      exact ⟨by rw [h3], h4⟩

/-- What holds of the input and is kept by a round holds of the result, which is a fixed point. -/
theorem loop_inv (P : ET → Prop) (hP : ∀ t, P t → P t.step) {t : ET} {m : Nat} {res : ET}
    (h : Expands t m res) (h0 : P t) : P res ∧ res.step = res := by
  unfold Expands at h
  generalize hs : t.step = s at h
  induction h with
  | stop t => exact ⟨h0, hs⟩
  | body p c r n _ _ ih => exact ih (hs ▸ hP p h0) rfl

end Verif
