import Verif.Lemmas.ExpandTree

namespace Verif

theorem CleanOn.filter {C W : List String} {rs : List RRow} (h : CleanOn C W rs) (p : RRow → Bool) :
    CleanOn C W (rs.filter p) := fun r hr => h r (List.mem_of_mem_filter hr)

theorem CleanOn.keep {C W : List String} {rs : List RRow} (h : CleanOn C W rs) (sem : ESem)
    (w : List Nat) : CleanOn C W (keepRows sem w rs) := h.filter _

theorem clean_eval {C : List String} {r : RRow} (h : ∀ c ∈ C, (r c).isSome) :
    ∀ v : ECol, (∀ c ∈ v.bases, c ∈ C) → (v.eval r).isSome
  | .base c, hv => h c (hv c (by simp [ECol.bases]))
  | .mul a b, hv => by
      have h1 := clean_eval h a fun c hc => hv c (by simp [ECol.bases, hc])
      have h2 := clean_eval h b fun c hc => hv c (by simp [ECol.bases, hc])
      rw [Option.isSome_iff_exists] at h1 h2 ⊢
      obtain ⟨x, hx⟩ := h1
      obtain ⟨y, hy⟩ := h2
      exact ⟨x * y, by simp [ECol.eval, hx, hy]⟩
  | .sq a, hv => by
      have h1 := clean_eval h a fun c hc => hv c (by simpa [ECol.bases] using hc)
      simp only [ECol.eval, Option.isSome_map]
      exact h1

theorem nonneg_get {W : List String} {r : RRow} (h : ∀ c ∈ W, ∀ x, r c = some x → 0 ≤ x) :
    ∀ v : ECol, (∀ c ∈ v.bases, c ∈ W) → 0 ≤ v.get r
  | .base c, hv => by
      unfold ECol.get
      simp only [ECol.eval]
      cases hc : r c with
      | none => simp
      | some x => exact h c (hv c (by simp [ECol.bases])) x hc
  | .mul a b, hv => by
      rw [get_mul]
      exact mul_nonneg (nonneg_get h a fun c hc => hv c (by simp [ECol.bases, hc]))
        (nonneg_get h b fun c hc => hv c (by simp [ECol.bases, hc]))
  | .sq a, hv => by rw [get_sq]; positivity

theorem present_clean {C W : List String} {rs : List RRow} (h : CleanOn C W rs) (v : ECol)
    (hv : ∀ c ∈ v.bases, c ∈ C) : present v rs = rs.map v.get := by
  unfold present
  induction rs with
  | nil => rfl
  | cons r rs ih =>
    have h1 := clean_eval (h r (by simp)).1 v hv
    rw [Option.isSome_iff_exists] at h1
    obtain ⟨x, hx⟩ := h1
    rw [List.filterMap_cons, hx, List.map_cons, ih fun r hr => h r (by simp [hr])]
    simp [ECol.get, hx]

/-- On clean data, elementary leaves have their textbook value. -/
theorem elem_textbook (sem : ESem) {C W : List String} {rs : List RRow} (h : CleanOn C W rs)
    (k : SLeaf) (hk : k.equiv = none) (hc : ∀ v ∈ k.cols, ∀ c ∈ v.bases, c ∈ C) :
    k.elemVal sem rs = textbook sem k rs := by
  rw [equiv_none, rank_elementary] at hk
  cases k with
  | sum v =>
    simp only [SLeaf.elemVal, textbook, sumOf, tot]
    rw [present_clean h v (hc v (by simp [SLeaf.cols]))]
  | count v d =>
    have hp := present_clean h v (hc v (by simp [SLeaf.cols]))
    cases d with
    | false => simp only [SLeaf.elemVal, textbook, countOf, hp]; simp [nrows]
    | true =>
      simp only [SLeaf.elemVal, textbook, countOf, hp, if_true]
      congr 2
  | max v =>
    simp only [SLeaf.elemVal, textbook, maxOf]
    rw [present_clean h v (hc v (by simp [SLeaf.cols]))]
  | min v =>
    simp only [SLeaf.elemVal, textbook, minOf]
    rw [present_clean h v (hc v (by simp [SLeaf.cols]))]
  | other i => simp only [SLeaf.elemVal, textbook]
  | _ => exact absurd hk (by simp [SLeaf.elementary])

/-- Reading only some columns is kept by a round. -/
theorem reads_step (C W : List String) (t : ET) (h : t.reads C W) : t.step.reads C W := by
  intro k hk
  rcases leaves_step t k hk with ⟨h1, _⟩ | ⟨k0, h0, e, he, hke⟩
  · exact h k h1
  · obtain ⟨_, h2, h3⟩ := leaves_equiv k0 e he k hke
    obtain ⟨h4, h5⟩ := h k0 h0
    refine ⟨fun v hv c hc => ?_, fun v hv c hc => h5 v (h2 v hv) c hc⟩
    obtain ⟨c', hc', hb⟩ := h3 v hv c hc
    exact h4 c' hc' c hb

/-! Two ways to compute leaves that agree on the leaves of a tree give the same value, on clean data. -/

mutual
theorem val_congr (sem : ESem) (C W : List String) (hn : NodesExtensional sem C W)
    (lv lv' : SLeaf → List RRow → Option ℝ) : ∀ t : ET,
    (∀ k ∈ t.leaves, ∀ rs, CleanOn C W rs → lv k rs = lv' k rs) →
    ∀ rs, CleanOn C W rs → t.val sem lv rs = t.val sem lv' rs
  | .const q, _, rs, _ => rfl
  | .leaf k n w, h, rs, hc => by
      simp only [ET.val]
      exact h k (by simp [ET.leaves]) _ (hc.keep sem w)
  | .comp op l r n w, h, rs, hc => by
      simp only [ET.val]
      rw [val_congr sem C W hn lv lv' l (fun k hk => h k (by simp [ET.leaves, hk])) _ (hc.keep sem w),
        val_congr sem C W hn lv lv' r (fun k hk => h k (by simp [ET.leaves, hk])) _ (hc.keep sem w)]
  | .node t cs n w, h, rs, hc => by
      simp only [ET.val]
      exact hn t _ _ (valL_congr sem C W hn lv lv' cs (fun k hk => h k (by simp [ET.leaves, hk])))
        _ (hc.keep sem w)
theorem valL_congr (sem : ESem) (C W : List String) (hn : NodesExtensional sem C W)
    (lv lv' : SLeaf → List RRow → Option ℝ) : ∀ cs : List ET,
    (∀ k ∈ ET.leavesL cs, ∀ rs, CleanOn C W rs → lv k rs = lv' k rs) →
    List.Forall₂ (fun f g => ∀ rs, CleanOn C W rs → f rs = g rs)
      (ET.valL sem lv cs) (ET.valL sem lv' cs)
  | [], _ => by simp only [ET.valL]; exact .nil
  | c :: cs, h => by
      simp only [ET.valL]
      exact .cons (val_congr sem C W hn lv lv' c (fun k hk => h k (by simp [ET.leavesL, hk])))
        (valL_congr sem C W hn lv lv' cs (fun k hk => h k (by simp [ET.leavesL, hk])))
end

mutual
/-- A round preserves textbook values. -/
theorem val_step (sem : ESem) (C W : List String) (hn : NodesExtensional sem C W) : ∀ t : ET,
    t.reads C W → ∀ rs, CleanOn C W rs →
    t.step.val sem (textbook sem) rs = t.val sem (textbook sem) rs
  | .const q, _, rs, _ => rfl
  | .leaf k n w, h, rs, hc => by
      rw [ET.step]
      cases he : k.equiv with
      | none => rfl
      | some e =>
        simp only
        rw [val_setTop sem _ k e he]
        simp only [ET.val]
        apply equiv_sound sem k e he
        intro c hcw r hr
        exact nonneg_get ((hc.keep sem w) r hr).2 c
          ((h k (by simp [ET.leaves])).2 c hcw)
  | .comp op l r n w, h, rs, hc => by
      simp only [ET.step, ET.val]
      rw [val_step sem C W hn l (fun k hk => h k (by simp [ET.leaves, hk])) _ (hc.keep sem w),
        val_step sem C W hn r (fun k hk => h k (by simp [ET.leaves, hk])) _ (hc.keep sem w)]
  | .node t cs n w, h, rs, hc => by
      simp only [ET.step, ET.val]
      exact hn t _ _ (valL_step sem C W hn cs (fun k hk => h k (by simp [ET.leaves, hk])))
        _ (hc.keep sem w)
theorem valL_step (sem : ESem) (C W : List String) (hn : NodesExtensional sem C W) :
    ∀ cs : List ET,
    (∀ k ∈ ET.leavesL cs, (∀ v ∈ k.cols, ∀ c ∈ v.bases, c ∈ C) ∧
      (∀ v ∈ k.weights, ∀ c ∈ v.bases, c ∈ W)) →
    List.Forall₂ (fun f g => ∀ rs, CleanOn C W rs → f rs = g rs)
      (ET.valL sem (textbook sem) (ET.stepL cs)) (ET.valL sem (textbook sem) cs)
  | [], _ => by simp only [ET.stepL, ET.valL]; exact .nil
  | c :: cs, h => by
      simp only [ET.stepL, ET.valL]
      exact .cons (val_step sem C W hn c (fun k hk => h k (by simp [ET.leavesL, hk])))
        (valL_step sem C W hn cs (fun k hk => h k (by simp [ET.leavesL, hk])))
end

theorem top_step (t : ET) : t.step.nameOf = t.nameOf ∧ t.step.whereOf = t.whereOf := by
  cases t with
  | const q => simp [ET.step]
  | leaf k n w =>
    rw [ET.step]
    cases he : k.equiv with
    | none => simp
    | some e =>
      rcases equiv_shape k e he with ⟨k', rfl⟩ | ⟨op, a, b, rfl⟩ <;>
        simp [ET.setTop, ET.nameOf, ET.whereOf]
  | comp op l r n w => simp [ET.step, ET.nameOf, ET.whereOf]
  | node t cs n w => simp [ET.step, ET.nameOf, ET.whereOf]

end Verif
