import Verif.Spec.Adjust
import Verif.Props.Comparison

/-!
# Lemmas for C36
-/

namespace Verif
variable {S D K : Type} [DecidableEq S] [DecidableEq D] [Field K] [LinearOrder K]

theorem lookup_keyed {κ X : Type} [BEq κ] [LawfulBEq κ] [DecidableEq κ] (F : κ → X) (keys : List κ) (k : κ) :
    (keys.map fun k => (k, F k)).lookup k = if k ∈ keys then some (F k) else none := by
  induction keys with
  | nil => rfl
  | cons a l ih =>
    rw [List.map_cons, List.lookup_cons]
    by_cases h : k = a
    · subst h; simp
    · rw [beq_false_of_ne h]
      simp only [ih, List.mem_cons, h, false_or]

/-- What `pyChange` does to a table given by its keys. -/
theorem pyChange_keyed (f : Option K → Option K → Option K) (b : D) (incl : Bool) (keys : List (S × D))
    (F : S × D → Option K) :
    pyChange f b incl (keys.map fun k => (k, F k))
      = if ∀ k ∈ keys, k.2 ≠ b then none
        else some ((keys.map fun k => (k, f (F k) (if (k.1, b) ∈ keys then F (k.1, b) else none))).filter
          fun r => incl || !decide (r.1.2 = b)) := by
  cases hp : pyChange f b incl (keys.map fun k => (k, F k)) with
  | none =>
    rw [C34_keyerror] at hp
    rw [if_pos]
    intro k hk
    exact hp (k, F k) (List.mem_map.2 ⟨k, hk, rfl⟩)
  | some res =>
    rw [if_neg, pyChange_some hp, List.map_map]
    · congr 2
      apply List.map_congr_left
      intro k _
      simp only [Function.comp_apply]
      unfold baseVal
      rw [lookup_keyed]
      split <;> rfl
    · intro hall
      have : pyChange f b incl (keys.map fun k => (k, F k)) = none := by
        rw [C34_keyerror]
        intro r hr
        obtain ⟨k, hk, rfl⟩ := List.mem_map.1 hr
        exact hall k hk
      rw [this] at hp
      cases hp

theorem sqlChange_keyed (f : Option K → Option K → Option K) (b : D) (incl : Bool) (keys : List (S × D))
    (hk : keys.Nodup) (F : S × D → Option K) :
    sqlChange f b incl (keys.map fun k => (k, F k))
      = ((keys.map fun k => (k, f (F k) (if (k.1, b) ∈ keys then F (k.1, b) else none))).filter
          fun r => incl || !decide (r.1.2 = b)).filter fun r => decide ((r.1.1, b) ∈ keys) := by
  rw [sqlChange_eq f b incl _ (by rw [List.map_map]; exact (List.map_id keys).symm ▸ hk), List.map_map]
  have h1 : (keys.map ((fun r : (S × D) × Option K => (r.1, f r.2 (baseVal (keys.map fun k => (k, F k)) b r.1.1))) ∘
      fun k => (k, F k))) = keys.map fun k => (k, f (F k) (if (k.1, b) ∈ keys then F (k.1, b) else none)) := by
    apply List.map_congr_left
    intro k _
    simp only [Function.comp_apply]
    unfold baseVal
    rw [lookup_keyed]
    split <;> rfl
  rw [h1]
  apply List.filter_congr
  intro r _
  rw [lookup_keyed]
  by_cases h : (r.1.1, b) ∈ keys <;> simp [h]

/-- Adding the same number to all values of a slice does not change differences. -/
theorem optSub_shift (keys : List (S × D)) (F H : S × D → Option K) (δ : S → K)
    (h : ∀ k ∈ keys, F k = (H k).map (· + δ k.1)) (b : D) (k : S × D) (hk : k ∈ keys) :
    optSub (F k) (if (k.1, b) ∈ keys then F (k.1, b) else none)
      = optSub (H k) (if (k.1, b) ∈ keys then H (k.1, b) else none) := by
  by_cases hb : (k.1, b) ∈ keys
  · rw [if_pos hb, if_pos hb, h k hk, h _ hb]
    cases H k <;> cases H (k.1, b) <;> simp [optSub]
  · rw [if_neg hb, if_neg hb, h k hk]
    cases H k <;> rfl

/-! ## Averages -/

theorem avgL_add [IsStrictOrderedRing K] {α : Type} (l : List α) (hl : l ≠ []) (f : α → K) (c : K) :
    avgL (l.map fun a => f a + c) = avgL (l.map f) + c := by
  unfold avgL
  rw [List.sum_map_add, List.length_map, List.length_map, List.map_const', List.sum_replicate, nsmul_eq_mul, add_div]
  congr 1
  have : (l.length : K) ≠ 0 := by
    have := List.length_pos_iff.2 hl
    exact_mod_cast this.ne'
  field_simp

theorem avgL_sub [IsStrictOrderedRing K] {α : Type} (l : List α) (hl : l ≠ []) (f : α → K) (c : K) :
    avgL (l.map fun a => f a - c) = avgL (l.map f) - c := by
  simp only [sub_eq_add_neg]
  exact avgL_add l hl f (-c)

omit [LinearOrder K] in
theorem avgL_mul {α : Type} (l : List α) (f : α → K) (c : K) : avgL (l.map fun a => c * f a) = c * avgL (l.map f) := by
  unfold avgL
  rw [List.sum_map_mul_left, List.length_map, List.length_map, mul_div_assoc]

theorem covSamp_shift [IsStrictOrderedRing K] (l : List (K × K)) (c : K) :
    covSamp (l.map fun p => (p.1, p.2 - c)) = covSamp l := by
  unfold covSamp
  by_cases h : l.length ≤ 1
  · simp [h]
  · have hl : l ≠ [] := by rintro rfl; simp at h
    rw [List.length_map, if_neg h, if_neg h, List.map_map, List.map_map, List.map_map]
    congr 3
    apply List.map_congr_left
    intro p _
    simp only [Function.comp_apply]
    have h1 : l.map ((fun x : K × K => x.1) ∘ fun p : K × K => (p.1, p.2 - c)) = l.map (·.1) := by
      apply List.map_congr_left; intro p _; rfl
    have h2 : l.map ((fun x : K × K => x.2) ∘ fun p : K × K => (p.1, p.2 - c)) = l.map fun p => p.2 - c := by
      apply List.map_congr_left; intro p _; rfl
    rw [h1, h2, avgL_sub l hl (·.2) c]
    ring

theorem varSampX_shift [IsStrictOrderedRing K] (l : List (K × K)) (c : K) :
    varSampX (l.map fun p => (p.1, p.2 - c)) = varSampX l := by
  unfold varSampX covSamp
  by_cases h : l.length ≤ 1
  · simp [h]
  · have hl : l ≠ [] := by rintro rfl; simp at h
    simp only [List.length_map, if_neg h, List.map_map]
    congr 3
    apply List.map_congr_left
    intro p _
    simp only [Function.comp_apply]
    have h2 : avgL (l.map fun p : K × K => p.2 - c) = avgL (l.map (·.2)) - c := avgL_sub l hl (·.2) c
    change (p.2 - c - avgL (l.map fun p : K × K => p.2 - c)) * (p.2 - c - avgL (l.map fun p : K × K => p.2 - c))
      = (p.2 - avgL (l.map fun p : K × K => p.2)) * (p.2 - avgL (l.map fun p : K × K => p.2))
    rw [h2]
    ring

theorem thetaOf_shift [IsStrictOrderedRing K] (l : List (K × K)) (c : K) :
    thetaOf (l.map fun p => (p.1, p.2 - c)) = thetaOf l := by
  unfold thetaOf
  rw [covSamp_shift, varSampX_shift]

/-! ## Groups of the centred table -/

omit [DecidableEq D] [LinearOrder K] in
/-- Mapping the rows of a table, keeping the keys, and then taking a group. -/
theorem sliceXY_map (t : ATab S D K) (s : S) (c : S → K) :
    sliceXY (t.map fun r => (r.1, (r.2.1, r.2.2 - c r.1.1))) s = (sliceXY t s).map fun p => (p.1, p.2 - c s) := by
  unfold sliceXY
  rw [List.filter_map, List.map_map, List.map_map]
  apply List.map_congr_left
  intro r hr
  have := (List.mem_filter.1 hr).2
  simp only [Function.comp_apply, decide_eq_true_eq] at this
  simp only [Function.comp_apply, this]

omit [LinearOrder K] in
theorem cellXY_map (t : ATab S D K) (k : S × D) (c : S → K) :
    cellXY (t.map fun r => (r.1, (r.2.1, r.2.2 - c r.1.1))) k = (cellXY t k).map fun p => (p.1, p.2 - c k.1) := by
  unfold cellXY
  rw [List.filter_map, List.map_map, List.map_map]
  apply List.map_congr_left
  intro r hr
  have := (List.mem_filter.1 hr).2
  simp only [Function.comp_apply, decide_eq_true_eq] at this
  simp only [Function.comp_apply, this]

/-- The average of the covariate in a slice. -/
def muX (t : ATab S D K) (s : S) : K := avgL ((sliceXY t s).map (·.2))

omit [LinearOrder K] in
theorem centerX_eq (t : ATab S D K) : centerX t = t.map fun r => (r.1, (r.2.1, r.2.2 - muX t r.1.1)) := rfl

omit [LinearOrder K] in
theorem cellKeys_center (t : ATab S D K) : cellKeys (centerX t) = cellKeys t := by
  unfold cellKeys centerX
  rw [List.map_map]
  rfl

omit [LinearOrder K] in
theorem mem_cellKeys (t : ATab S D K) (k : S × D) : k ∈ cellKeys t ↔ k ∈ t.map (·.1) := List.mem_dedup

omit [Field K] [LinearOrder K] in
theorem cell_ne_nil {t : ATab S D K} {k : S × D} (h : k ∈ t.map (·.1)) : cellXY t k ≠ [] := by
  obtain ⟨r, hr, rfl⟩ := List.mem_map.1 h
  intro h0
  unfold cellXY at h0
  rw [List.map_eq_nil_iff, List.filter_eq_nil_iff] at h0
  exact h0 r hr (by simp)

omit [DecidableEq D] [Field K] [LinearOrder K] in
theorem slice_ne_nil {t : ATab S D K} {k : S × D} (h : k ∈ t.map (·.1)) : sliceXY t k.1 ≠ [] := by
  obtain ⟨r, hr, rfl⟩ := List.mem_map.1 h
  intro h0
  unfold sliceXY at h0
  rw [List.map_eq_nil_iff, List.filter_eq_nil_iff] at h0
  exact h0 r hr (by simp)

/-- If a function sums to zero over each group it sums to zero. -/
theorem sum_groups_zero {α κ M : Type} [AddCommGroup M] [DecidableEq κ] (key : α → κ) (f : α → M) :
    ∀ (n : Nat) (l : List α), l.length ≤ n → (∀ k ∈ l.map key, ((l.filter fun a => decide (key a = k)).map f).sum = 0) →
      (l.map f).sum = 0 := by
  have hsplit : ∀ (p : α → Bool) (l : List α),
      (l.map f).sum = ((l.filter p).map f).sum + ((l.filter fun a => !p a).map f).sum := by
    intro p l
    induction l with
    | nil => simp
    | cons a l ih =>
      by_cases h : p a = true
      · simp [h, ih, add_assoc]
      · simp [h, ih, add_left_comm]
  intro n
  induction n with
  | zero => intro l hl _; have := List.length_eq_zero_iff.1 (Nat.le_zero.1 hl); subst this; rfl
  | succ n ih =>
    intro l hl h
    cases l with
    | nil => rfl
    | cons a l =>
      rw [hsplit (fun x => decide (key x = key a)), h (key a) (by simp), zero_add]
      apply ih
      · rw [List.filter_cons]
        simp only [decide_true, Bool.not_true, Bool.false_eq_true, if_false]
        have := List.length_filter_le (fun x => !decide (key x = key a)) l
        simp only [List.length_cons] at hl
        omega
      · intro k hk
        obtain ⟨x, hx, rfl⟩ := List.mem_map.1 hk
        rw [List.mem_filter] at hx
        have hne : key x ≠ key a := by simpa using hx.2
        rw [List.filter_filter, ← h (key x) (List.mem_map.2 ⟨x, hx.1, rfl⟩)]
        congr 2
        apply List.filter_congr
        intro y _
        by_cases hy : key y = key x
        · simp [hy, hne]
        · simp [hy]

end Verif
