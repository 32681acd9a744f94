import Verif.Lemmas.Distribution
import Mathlib.Analysis.SpecialFunctions.Log.Basic
import Mathlib.Algebra.Order.Field.Rat
import Mathlib.Tactic.NormNum

/-!
# C28 Distribution sums to one
# C30 HHI lies between 1/n and 1
# C31 Entropy lies between 0 and log n
# C32 TopK is the largest share k categories can have
# C33 Nxx is the least number of categories reaching the share
-/

namespace Verif

set_option linter.unusedSectionVars false

section
variable {S C K : Type} [DecidableEq S] [Field K] [LinearOrder K] [IsStrictOrderedRing K]

/-! ## C28 -/

/-- **C28** The query returns exactly what `compute_on` returns, on every table (missing values, zero totals). -/
theorem C28_sql_agrees (t : DTab S C K) : sqlDist t = pyDist t := sqlDist_eq_pyDist t

/-- **C28** The result has the rows of the child, each with its share of the total of its slice. -/
theorem C28_share (t : DTab S C K) :
    List.Forall₂ (fun r d => d.1 = r.1 ∧
      (sliceTotal t r.1.1 ≠ 0 → d.2 = r.2.map (· / sliceTotal t r.1.1))) t (pyDist t) := by
  rw [pyDist_eq]
  rw [List.forall₂_map_right_iff, List.forall₂_same]
  intro r _
  refine ⟨rfl, fun h => ?_⟩
  cases hv : r.2 with
  | none => rfl
  | some v => simp [nanDiv, h]

/-- **C28** Within a slice the shares add up to one, unless the total is zero. -/
theorem C28_sums_to_one (t : DTab S C K) (s : S) (h : sliceTotal t s ≠ 0) :
    (presentVals (pyDist t) s).sum = 1 := by
  rw [← sliceVals_present, present_pyDist t s h]
  exact sum_shares _ h

/-- The hypothesis is met. -/
example : sliceTotal ([((0, 0), some 1), ((0, 1), some 3), ((1, 0), none), ((0, 2), none)] : DTab Nat Nat ℚ) 0 ≠ 0 ∧
    pyDist ([((0, 0), some 1), ((0, 1), some 3), ((1, 0), none), ((0, 2), none)] : DTab Nat Nat ℚ)
      = [((0, 0), some (1 / 4)), ((0, 1), some (3 / 4)), ((1, 0), none), ((0, 2), none)] := by
  decide +kernel

/-! ## C30 -/

theorem hhi_sub (ps : List K) (h1 : ps.sum = 1) (hn : ps ≠ []) :
    (ps.map (· ^ 2)).sum - 1 / (ps.length : K) = (ps.map fun p => (p - 1 / (ps.length : K)) ^ 2).sum := by
  have hlen : (ps.length : K) ≠ 0 := by
    have := List.length_pos_iff.2 hn
    exact_mod_cast this.ne'
  have key : ∀ (c : K) (l : List K), (l.map fun p => (p - c) ^ 2).sum
      = (l.map (· ^ 2)).sum - 2 * c * l.sum + l.length * c ^ 2 := by
    intro c l
    induction l with
    | nil => simp
    | cons p l ih => simp only [List.map_cons, List.sum_cons, ih, List.length_cons]; push_cast; ring
  rw [key, h1]
  field_simp
  ring

theorem share_mem {vs : List K} (h : ∀ v ∈ vs, 0 ≤ v) (hT : 0 < vs.sum) :
    ∀ p ∈ vs.map (· / vs.sum), 0 ≤ p ∧ p ≤ 1 := by
  intro p hp
  obtain ⟨v, hv, rfl⟩ := List.mem_map.1 hp
  exact ⟨div_nonneg (h v hv) hT.le, (div_le_one hT).2 (List.single_le_sum h v hv)⟩

theorem sum_sq_le_sum (ps : List K) (h : ∀ p ∈ ps, 0 ≤ p ∧ p ≤ 1) : (ps.map (· ^ 2)).sum ≤ ps.sum := by
  induction ps with
  | nil => simp
  | cons p ps ih =>
    rw [List.map_cons, List.sum_cons, List.sum_cons]
    have h1 := ih fun q hq => h q (by simp [hq])
    obtain ⟨h2, h3⟩ := h p (by simp)
    nlinarith

theorem sum_sq_eq_sum {ps : List K} (h : ∀ p ∈ ps, 0 ≤ p ∧ p ≤ 1) (he : (ps.map (· ^ 2)).sum = ps.sum) :
    ∀ p ∈ ps, p = 0 ∨ p = 1 := by
  induction ps with
  | nil => simp
  | cons p ps ih =>
    rw [List.map_cons, List.sum_cons, List.sum_cons] at he
    have h1 := sum_sq_le_sum ps fun q hq => h q (by simp [hq])
    obtain ⟨h2, h3⟩ := h p (by simp)
    have h4 : p ^ 2 ≤ p := by nlinarith
    have h5 : p ^ 2 = p := by linarith
    have h6 : (ps.map (· ^ 2)).sum = ps.sum := by linarith
    intro q hq
    rcases List.mem_cons.1 hq with rfl | hq
    · rcases eq_or_ne q 0 with h | h
      · exact Or.inl h
      · right
        have : q * (q - 1) = 0 := by ring_nf; ring_nf at h5; linarith
        rcases mul_eq_zero.1 this with h' | h'
        · exact absurd h' h
        · linarith
    · exact ih (fun q hq => h q (by simp [hq])) h6 q hq

theorem sum_zero_all {ps : List K} (h : ∀ p ∈ ps, 0 ≤ p) (hs : ps.sum = 0) : ∀ p ∈ ps, p = 0 := by
  intro p hp
  exact le_antisymm (hs ▸ List.single_le_sum h p hp) (h p hp)

/-- The reported value is the sum of the squared shares. -/
theorem pyHHI_eq (t : DTab S C K) (s : S) (x : K) (h : (s, x) ∈ pyHHI t) (hT : sliceTotal t s ≠ 0) :
    x = (((presentVals t s).map (· / (presentVals t s).sum)).map (· ^ 2)).sum := by
  obtain ⟨_, rfl⟩ := mem_groupAgg h
  unfold nanSum
  rw [filterMap_id_map, present_pyDist t s hT]

/-- **C30** For every slice whose values are non-negative with a positive total, with `n` values present:
`1/n ≤ HHI ≤ 1`. It is 1 exactly if one category has everything, and `1/n` exactly if all values are equal. -/
theorem C30_hhi_bounds (t : DTab S C K) (s : S) (x : K) (h : (s, x) ∈ pyHHI t)
    (hnn : ∀ v ∈ presentVals t s, 0 ≤ v) (hT : 0 < sliceTotal t s) :
    1 / ((presentVals t s).length : K) ≤ x ∧ x ≤ 1 ∧
    (x = 1 ↔ ∃ v ∈ presentVals t s, v = sliceTotal t s) ∧
    (x = 1 / ((presentVals t s).length : K) ↔ ∀ v ∈ presentVals t s, ∀ w ∈ presentVals t s, v = w) := by
  have hx := pyHHI_eq t s x h hT.ne'
  unfold sliceTotal at hT ⊢
  set vs := presentVals t s with hvs
  have hne : vs ≠ [] := by rintro h0; rw [h0] at hT; simp at hT
  have hlen : (0 : K) < vs.length := by exact_mod_cast List.length_pos_iff.2 hne
  set ps := vs.map (· / vs.sum) with hps
  have hps1 : ps.sum = 1 := sum_shares vs hT.ne'
  have hpl : ps.length = vs.length := by simp [hps]
  have hpne : ps ≠ [] := by rw [hps]; simpa using hne
  have hsh := share_mem hnn hT
  have hsub := hhi_sub ps hps1 hpne
  rw [hpl] at hsub
  have hle : (ps.map (· ^ 2)).sum ≤ 1 := by rw [← hps1]; exact sum_sq_le_sum ps hsh
  have hge : 0 ≤ (ps.map fun p => (p - 1 / (vs.length : K)) ^ 2).sum :=
    List.sum_nonneg (by intro q hq; obtain ⟨p, _, rfl⟩ := List.mem_map.1 hq; positivity)
  subst hx
  refine ⟨by linarith, hle, ⟨fun hx => ?_, ?_⟩, ⟨fun hx => ?_, fun hall => ?_⟩⟩
  · have h01 := sum_sq_eq_sum hsh (by rw [hx]; exact hps1.symm)
    have : ∃ p ∈ ps, p = 1 := by
      by_contra hno
      have hz : ∀ p ∈ ps, p = 0 := fun p hp => (h01 p hp).resolve_right fun h1 => hno ⟨p, hp, h1⟩
      have : ps.sum = 0 := List.sum_eq_zero hz
      rw [hps1] at this
      exact one_ne_zero this
    obtain ⟨p, hp, hp1⟩ := this
    obtain ⟨v, hv, rfl⟩ := List.mem_map.1 hp
    exact ⟨v, hv, by rwa [div_eq_one_iff_eq hT.ne'] at hp1⟩
  · rintro ⟨v, hv, hvT⟩
    have h1 : (1 : K) ∈ ps := List.mem_map.2 ⟨v, hv, by rw [hvT, div_self hT.ne']⟩
    have h2 : (1 : K) ≤ (ps.map (· ^ 2)).sum := by
      have := List.single_le_sum (l := ps.map (· ^ 2))
        (by intro q hq; obtain ⟨p, _, rfl⟩ := List.mem_map.1 hq; positivity) (1 ^ 2)
        (List.mem_map.2 ⟨1, h1, rfl⟩)
      simpa using this
    linarith
  · have h0 : (ps.map fun p => (p - 1 / (vs.length : K)) ^ 2).sum = 0 := by rw [← hsub, hx]; ring
    have hz := sum_zero_all (by intro q hq; obtain ⟨p, _, rfl⟩ := List.mem_map.1 hq; positivity) h0
    have hall : ∀ v ∈ vs, v / vs.sum = 1 / vs.length := by
      intro v hv
      have := hz _ (List.mem_map.2 ⟨v / vs.sum, List.mem_map.2 ⟨v, hv, rfl⟩, rfl⟩)
      have := pow_eq_zero_iff (n := 2) (by norm_num) |>.1 this
      linarith
    intro v hv w hw
    have h1 := hall v hv
    have h2 := hall w hw
    rw [← h2] at h1
    exact (div_left_inj' hT.ne').1 h1
  · have hconst : ∃ c, ∀ v ∈ vs, v = c := by
      cases hv : vs with
      | nil => exact absurd hv hne
      | cons a l => exact ⟨a, fun v hv' => hall v (by rw [hv]; exact hv') a (by rw [hv]; simp)⟩
    obtain ⟨c, hc⟩ := hconst
    have hsum : vs.sum = vs.length * c := by
      rw [List.sum_eq_card_nsmul vs c hc, nsmul_eq_mul]
    have hc0 : c ≠ 0 := by rintro rfl; rw [hsum] at hT; simp at hT
    have : (ps.map fun p => (p - 1 / (vs.length : K)) ^ 2).sum = 0 := by
      apply List.sum_eq_zero
      intro q hq
      obtain ⟨p, hp, rfl⟩ := List.mem_map.1 hq
      obtain ⟨v, hv, rfl⟩ := List.mem_map.1 hp
      rw [hc v hv, hsum]
      have : c / (vs.length * c) - 1 / vs.length = 0 := by field_simp; ring
      rw [this]; ring
    rw [this] at hsub
    linarith

/-- **C30** One value per slice of the child's result. -/
theorem C30_slices (t : DTab S C K) : (pyHHI t).map Prod.fst = (t.map (·.1.1)).dedup := by
  unfold pyHHI
  rw [groupAgg_keys, sliceKeys_pyDist]
  rfl

/-- **C30** The query gives the same number, for every slice with a total other than zero. -/
theorem C30_sql_agrees (t : DTab S C K) (s : S) (x : K) (y : Option K) (h : (s, x) ∈ pyHHI t)
    (h' : (s, y) ∈ sqlHHI t) (hT : sliceTotal t s ≠ 0) : y = some x := by
  rw [pyHHI_eq t s x h hT]
  unfold sqlHHI at h'
  rw [sqlDist_eq_pyDist] at h'
  obtain ⟨_, rfl⟩ := mem_groupAgg h'
  unfold sqlSumN
  rw [filterMap_id_map, present_pyDist t s hT]
  have hne : presentVals t s ≠ [] := by rintro h0; apply hT; unfold sliceTotal; rw [h0]; rfl
  cases hp : presentVals t s with
  | nil => exact absurd hp hne
  | cons a l => rfl

/-- The hypotheses are met. -/
example : pyHHI ([((0, 0), some 1), ((0, 1), some 3), ((1, 0), some 2)] : DTab Nat Nat ℚ) = [(0, 5 / 8), (1, 1)] ∧
    (∀ v ∈ presentVals ([((0, 0), some 1), ((0, 1), some 3), ((1, 0), some 2)] : DTab Nat Nat ℚ) 0, 0 ≤ v) ∧
    0 < sliceTotal ([((0, 0), some 1), ((0, 1), some 3), ((1, 0), some 2)] : DTab Nat Nat ℚ) 0 := by
  decide +kernel

/-- **C30** (violation) For a slice that is in the child's result but only with zeros and missing values, the HHI of the DataFrame is 0,
below every bound, as if nothing were perfectly diverse; the query gives NULL. -/
theorem C30_nothing_violation (t : DTab S C K) (s : S) (hs : ∃ r ∈ t, r.1.1 = s) (h0 : ∀ v ∈ presentVals t s, v = 0) :
    (s, 0) ∈ pyHHI t ∧ (s, none) ∈ sqlHHI t := by
  have hT : sliceTotal t s = 0 := List.sum_eq_zero h0
  have hk : s ∈ sliceKeys (pyDist t) := by
    rw [sliceKeys_pyDist]
    obtain ⟨r, hr, rfl⟩ := hs
    exact mem_sliceKeys hr
  have hnone : ∀ v ∈ sliceVals (pyDist t) s, v = none := by
    intro v hv
    unfold sliceVals at hv
    obtain ⟨r, hr, rfl⟩ := List.mem_map.1 hv
    obtain ⟨hr, hrs⟩ := List.mem_filter.1 hr
    rw [pyDist_eq] at hr
    obtain ⟨r0, hr0, rfl⟩ := List.mem_map.1 hr
    have hrs' : r0.1.1 = s := by simpa using hrs
    simp only [hrs', hT]
    cases r0.2 <;> simp [nanDiv]
  have hfm : (sliceVals (pyDist t) s).map (fun v => v.map (· ^ 2)) = (sliceVals (pyDist t) s).map fun _ => (none : Option K) :=
    List.map_congr_left fun v hv => by rw [hnone v hv]; rfl
  have hfm' : ((sliceVals (pyDist t) s).map fun _ => (none : Option K)).filterMap id = [] := by
    rw [List.filterMap_eq_nil_iff]
    intro a ha
    obtain ⟨_, _, rfl⟩ := List.mem_map.1 ha
    rfl
  constructor
  · unfold pyHHI groupAgg
    refine List.mem_map.2 ⟨s, hk, ?_⟩
    simp only [hfm, nanSum, hfm', List.sum_nil]
  · unfold sqlHHI groupAgg
    rw [sqlDist_eq_pyDist]
    refine List.mem_map.2 ⟨s, hk, ?_⟩
    simp only [hfm, sqlSumN, hfm', List.isEmpty_nil, if_true]

example : pyHHI ([((0, 0), some 0), ((0, 1), none), ((1, 0), some 2)] : DTab Nat Nat ℚ) = [(0, 0), (1, 1)] ∧
    sqlHHI ([((0, 0), some 0), ((0, 1), none), ((1, 0), some 2)] : DTab Nat Nat ℚ) = [(0, none), (1, some 1)] := by
  decide +kernel

/-! ## C32 -/

theorem pyTopK_eq (k : Nat) (t : DTab S C K) (s : S) (x : K) (h : (s, x) ∈ pyTopK k t) (hT : sliceTotal t s ≠ 0) :
    x = ((sortDesc ((presentVals t s).map (· / (presentVals t s).sum))).take k).sum := by
  obtain ⟨_, rfl⟩ := mem_groupAgg h
  rw [present_pyDist t s hT]

theorem subperm_map' {α β : Type} (f : α → β) {a b : List α} (h : a.Subperm b) : (a.map f).Subperm (b.map f) := by
  obtain ⟨l, hl, hs⟩ := h
  exact ⟨l.map f, hl.map f, hs.map f⟩

theorem perm_map_inv' {α β : Type} (f : α → β) {a b : List β} (h : a.Perm b) :
    ∀ l : List α, a = l.map f → ∃ m : List α, b = m.map f ∧ l.Perm m := by
  induction h with
  | nil => intro l hl; exact ⟨l, hl, .refl _⟩
  | cons x _ ih =>
    intro l hl
    cases l with
    | nil => simp at hl
    | cons y l =>
      simp only [List.map_cons, List.cons.injEq] at hl
      obtain ⟨m, h1, h2⟩ := ih l hl.2
      exact ⟨y :: m, by simp [hl.1, h1], h2.cons _⟩
  | swap x y _ =>
    intro l hl
    match l, hl with
    | [], hl => simp at hl
    | [_], hl => simp at hl
    | p :: q :: l, hl =>
      simp only [List.map_cons, List.cons.injEq] at hl
      exact ⟨q :: p :: l, by simp [hl.1, hl.2.1, hl.2.2], .swap _ _ _⟩
  | trans _ _ ih1 ih2 =>
    intro l hl
    obtain ⟨m, h1, h2⟩ := ih1 l hl
    obtain ⟨n, h3, h4⟩ := ih2 m h1
    exact ⟨n, h3, h2.trans h4⟩

theorem shares_of_subperm {sub vs : List K} {T : K} (h : sub.Subperm (vs.map (· / T))) :
    ∃ sub' : List K, sub'.Subperm vs ∧ sub = sub'.map (· / T) := by
  obtain ⟨l, hl, hs⟩ := h
  obtain ⟨l', hl', rfl⟩ := List.sublist_map_iff.1 hs
  have : ∃ sub' : List K, sub'.Perm l' ∧ sub = sub'.map (· / T) := by
    obtain ⟨m, hm1, hm2⟩ := perm_map_inv' _ hl l' rfl
    exact ⟨m, hm2.symm, hm1⟩
  obtain ⟨sub', h1, h2⟩ := this
  exact ⟨sub', ⟨l', h1.symm, hl'⟩, h2⟩

/-- **C32** TopK is the largest share any `k` of the slice's categories have together: no `k` of them have more, and
some `k` of them have that much. For `k` up to the number of categories; values of any sign, total positive. -/
theorem C32_topk_max (k : Nat) (t : DTab S C K) (s : S) (x : K) (h : (s, x) ∈ pyTopK k t)
    (hT : 0 < sliceTotal t s) (hk : k ≤ (presentVals t s).length) :
    (∀ sub : List K, sub.Subperm (presentVals t s) → sub.length = k → shareOf sub (presentVals t s) ≤ x) ∧
    ∃ sub : List K, sub.Subperm (presentVals t s) ∧ sub.length = k ∧ shareOf sub (presentVals t s) = x := by
  have hx := pyTopK_eq k t s x h hT.ne'
  unfold sliceTotal at hT
  set vs := presentVals t s
  subst hx
  constructor
  · intro sub hsub hlen
    have h1 : (sub.map (· / vs.sum)).Subperm (sortDesc (vs.map (· / vs.sum))) :=
      (subperm_map' _ hsub).trans (sortDesc_perm _).symm.subperm
    have h2 := subperm_sum_le h1 (sortDesc_sorted _)
    rw [List.length_map, hlen, sum_map_div] at h2
    exact h2
  · have h1 : ((sortDesc (vs.map (· / vs.sum))).take k).Subperm (vs.map (· / vs.sum)) :=
      (List.take_sublist _ _).subperm.trans (sortDesc_perm _).subperm
    obtain ⟨sub, h2, h3⟩ := shares_of_subperm h1
    refine ⟨sub, h2, ?_, ?_⟩
    · have := congrArg List.length h3
      rw [List.length_take, List.length_map, (sortDesc_perm _).length_eq, List.length_map] at this
      omega
    · unfold shareOf
      rw [h3, sum_map_div]

/-- **C32** For non-negative values TopK does not shrink when `k` grows. -/
theorem C32_topk_mono (k k' : Nat) (t : DTab S C K) (s : S) (x x' : K) (h : (s, x) ∈ pyTopK k t)
    (h' : (s, x') ∈ pyTopK k' t) (hnn : ∀ v ∈ presentVals t s, 0 ≤ v) (hT : 0 < sliceTotal t s) (hk : k ≤ k') : x ≤ x' := by
  rw [pyTopK_eq k t s x h hT.ne', pyTopK_eq k' t s x' h' hT.ne']
  apply sum_take_le _ _ _ _ hk
  intro v hv
  have := (sortDesc_perm _).mem_iff.1 hv
  exact (share_mem hnn hT v this).1

/-- **C32** With `k` at least the number of categories it is 1. -/
theorem C32_topk_all (k : Nat) (t : DTab S C K) (s : S) (x : K) (h : (s, x) ∈ pyTopK k t)
    (hT : 0 < sliceTotal t s) (hk : (presentVals t s).length ≤ k) : x = 1 := by
  rw [pyTopK_eq k t s x h hT.ne', List.take_of_length_le]
  · rw [(sortDesc_perm _).sum_eq]
    exact sum_shares _ hT.ne'
  · rw [(sortDesc_perm _).length_eq, List.length_map]
    exact hk

/-- **C32** The query gives the same number, for `k ≥ 1`. -/
theorem C32_sql_agrees (k : Nat) (hk : 0 < k) (t : DTab S C K) (s : S) (x : K) (y : Option K) (h : (s, x) ∈ pyTopK k t)
    (h' : (s, y) ∈ sqlTopK k t) (hT : sliceTotal t s ≠ 0) : y = some x := by
  rw [pyTopK_eq k t s x h hT]
  unfold sqlTopK at h'
  rw [sqlDist_eq_pyDist] at h'
  obtain ⟨_, rfl⟩ := mem_groupAgg h'
  unfold sqlSumN
  rw [present_pyDist t s hT, List.filterMap_map,
    show (id ∘ some : K → Option K) = some from rfl, List.filterMap_some]
  have hne : presentVals t s ≠ [] := by rintro h0; apply hT; unfold sliceTotal; rw [h0]; rfl
  have : ((sortDesc ((presentVals t s).map (· / (presentVals t s).sum))).take k) ≠ [] := by
    intro h0
    have := congrArg List.length h0
    rw [List.length_take, (sortDesc_perm _).length_eq, List.length_map, List.length_nil] at this
    have := List.length_pos_iff.2 hne
    omega
  cases hl : ((sortDesc ((presentVals t s).map (· / (presentVals t s).sum))).take k) with
  | nil => exact absurd hl this
  | cons a l => rfl

/-- The hypotheses are met. -/
example : pyTopK 2 ([((0, 0), some 1), ((0, 1), some 3), ((0, 2), some 4), ((1, 0), some 2)] : DTab Nat Nat ℚ)
      = [(0, 7 / 8), (1, 1)] ∧
    0 < sliceTotal ([((0, 0), some 1), ((0, 1), some 3), ((0, 2), some 4), ((1, 0), some 2)] : DTab Nat Nat ℚ) 0 ∧
    2 ≤ (presentVals ([((0, 0), some 1), ((0, 1), some 3), ((0, 2), some 4), ((1, 0), some 2)] : DTab Nat Nat ℚ) 0).length := by
  decide +kernel

/-! ## C33 -/

/-- The number counted. -/
theorem nxx_count (share : K) (ps : List K) :
    ((cumsum (ps.map some)).filter (fun v => v.elim false (fun x => decide (x < share)))).length
      = ((List.range ps.length).filter (fun i => decide ((ps.take (i + 1)).sum < share))).length := by
  rw [cumsum_some, List.filter_map, List.length_map]
  rfl

theorem pyNxx_eq (share : K) (t : DTab S C K) (s : S) (n : Nat) (h : (s, n) ∈ pyNxx share t) (hT : sliceTotal t s ≠ 0) :
    n = ((List.range (presentVals t s).length).filter (fun i => decide
      (((sortDesc ((presentVals t s).map (· / (presentVals t s).sum))).take (i + 1)).sum < share))).length + 1 := by
  obtain ⟨_, rfl⟩ := mem_groupAgg h
  rw [present_pyDist t s hT, nxx_count, (sortDesc_perm _).length_eq, List.length_map]

/-- **C33** For non-negative values with a positive total and a share in (0, 1], Nxx is the least number of categories
that together reach the share: some `n` of them do, and any that do are at least `n`. -/
theorem C33_nxx_least (share : K) (h0 : 0 < share) (h1 : share ≤ 1) (t : DTab S C K) (s : S) (n : Nat)
    (h : (s, n) ∈ pyNxx share t) (hnn : ∀ v ∈ presentVals t s, 0 ≤ v) (hT : 0 < sliceTotal t s) :
    (∃ sub : List K, sub.Subperm (presentVals t s) ∧ sub.length = n ∧ share ≤ shareOf sub (presentVals t s)) ∧
    ∀ sub : List K, sub.Subperm (presentVals t s) → share ≤ shareOf sub (presentVals t s) → n ≤ sub.length := by
  have hn := pyNxx_eq share t s n h hT.ne'
  unfold sliceTotal at hT
  set vs := presentVals t s
  set ps := sortDesc (vs.map (· / vs.sum)) with hps
  have hpl : ps.length = vs.length := by rw [hps, (sortDesc_perm _).length_eq, List.length_map]
  have hpn : ∀ p ∈ ps, 0 ≤ p := fun p hp => (share_mem hnn hT p ((sortDesc_perm _).mem_iff.1 hp)).1
  have htot : ps.sum = 1 := by rw [hps, (sortDesc_perm _).sum_eq]; exact sum_shares vs hT.ne'
  set q : Nat → Bool := fun i => decide ((ps.take (i + 1)).sum < share) with hq
  have hmono : ∀ i, q (i + 1) = true → q i = true := by
    intro i hi
    rw [hq] at hi ⊢
    simp only [decide_eq_true_eq] at hi ⊢
    exact (sum_take_le ps hpn (i + 1) (i + 1 + 1) (by omega)).trans_lt hi
  have hinit := filter_range_initial q hmono vs.length
  set m := ((List.range vs.length).filter q).length with hm
  have hvs : 0 < vs.length := List.length_pos_iff.2 (by rintro h0; rw [h0] at hT; simp at hT)
  have hmlt : m < vs.length := by
    by_contra hge
    have := (hinit (vs.length - 1) (by omega)).2 (by omega)
    rw [hq] at this
    simp only [decide_eq_true_eq] at this
    rw [Nat.sub_add_cancel hvs, List.take_of_length_le (by omega), htot] at this
    linarith
  have hreach : share ≤ (ps.take (m + 1)).sum := by
    have h2 : ¬ q m = true := fun h2 => by have := (hinit m hmlt).1 h2; omega
    rw [hq] at h2
    simpa using h2
  have hbelow : ∀ k, k ≤ m → (ps.take k).sum < share := by
    intro k hk
    cases k with
    | zero => simpa using h0
    | succ k =>
      have h2 := (hinit k (by omega)).2 (by omega)
      rw [hq] at h2
      simpa using h2
  subst hn
  constructor
  · have h2 : (ps.take (m + 1)).Subperm (vs.map (· / vs.sum)) :=
      (List.take_sublist _ _).subperm.trans (sortDesc_perm _).subperm
    obtain ⟨sub, h3, h4⟩ := shares_of_subperm h2
    refine ⟨sub, h3, ?_, ?_⟩
    · have := congrArg List.length h4
      rw [List.length_take, List.length_map] at this
      omega
    · unfold shareOf
      rw [← sum_map_div, ← h4]
      exact hreach
  · intro sub hsub hge
    by_contra hlt
    have h2 : (sub.map (· / vs.sum)).Subperm ps := (subperm_map' _ hsub).trans (sortDesc_perm _).symm.subperm
    have h3 := subperm_sum_le h2 (sortDesc_sorted _)
    rw [List.length_map, sum_map_div] at h3
    have h4 := hbelow sub.length (by omega)
    unfold shareOf at hge
    linarith

/-- **C33** The query gives the same number. -/
theorem C33_sql_agrees (share : K) (t : DTab S C K) : sqlNxx share t = pyNxx share t := by
  unfold sqlNxx pyNxx
  rw [sqlDist_eq_pyDist]
  congr 1
  funext vs
  rw [sqlRunning_some, cumsum_some]

/-- The hypotheses are met: categories with 50 %, 37.5 % and 12.5 %; two are needed for 60 %. -/
example : pyNxx (3 / 5) ([((0, 0), some 1), ((0, 1), some 3), ((0, 2), some 4), ((1, 0), some 2)] : DTab Nat Nat ℚ)
      = [(0, 2), (1, 1)] ∧
    (∀ v ∈ presentVals ([((0, 0), some 1), ((0, 1), some 3), ((0, 2), some 4), ((1, 0), some 2)] : DTab Nat Nat ℚ) 0, 0 ≤ v) := by
  decide +kernel

end

/-! ## C31 -/

section
variable {S C : Type} [DecidableEq S]

theorem pyEntropy_eq (t : DTab S C ℝ) (s : S) (x : ℝ) (h : (s, x) ∈ pyEntropy t) (hT : sliceTotal t s ≠ 0) :
    x = ((((presentVals t s).map (· / (presentVals t s).sum)).filter (fun p => decide (0 < p))).map
      (fun p => -p * Real.log p)).sum := by
  obtain ⟨_, rfl⟩ := mem_groupAgg h
  rw [← present_pyDist t s hT]
  unfold nanSum
  generalize sliceVals (pyDist t) s = vs
  congr 1
  induction vs with
  | nil => rfl
  | cons v vs ih =>
    cases v with
    | none => simpa using ih
    | some p =>
      by_cases hp : 0 < p
      · simp [hp] at ih ⊢; exact ih
      · simp [hp] at ih ⊢; exact ih

/-- **C31** For every slice whose values are positive, with `n` of them: `0 ≤ entropy ≤ log n`, and the upper bound is
reached exactly if all values are equal. -/
theorem C31_entropy_bounds (t : DTab S C ℝ) (s : S) (x : ℝ) (h : (s, x) ∈ pyEntropy t)
    (hpos : ∀ v ∈ presentVals t s, 0 < v) (hne : presentVals t s ≠ []) :
    0 ≤ x ∧ x ≤ Real.log (presentVals t s).length ∧
    (x = Real.log (presentVals t s).length ↔ ∀ v ∈ presentVals t s, ∀ w ∈ presentVals t s, v = w) := by
  have hT : 0 < sliceTotal t s := List.sum_pos _ hpos hne
  have hx := pyEntropy_eq t s x h hT.ne'
  unfold sliceTotal at hT
  set vs := presentVals t s
  set ps := vs.map (· / vs.sum) with hps
  have hn : (0 : ℝ) < vs.length := by exact_mod_cast List.length_pos_iff.2 hne
  have hppos : ∀ p ∈ ps, 0 < p := by
    intro p hp
    obtain ⟨v, hv, rfl⟩ := List.mem_map.1 hp
    exact div_pos (hpos v hv) hT
  have hp1 : ∀ p ∈ ps, p ≤ 1 := fun p hp => (share_mem (fun v hv => (hpos v hv).le) hT p hp).2
  have hfil : ps.filter (fun p => decide (0 < p)) = ps := by
    rw [List.filter_eq_self]; intro p hp; simpa using hppos p hp
  rw [hfil] at hx
  have hsum : ps.sum = 1 := sum_shares vs hT.ne'
  have hlen : ps.length = vs.length := by simp [hps]
  -- log n - H as a sum of non-negative terms
  set g : ℝ → ℝ := fun p => 1 / vs.length - p - p * Real.log (1 / (vs.length * p)) with hg
  have hgnn : ∀ p ∈ ps, 0 ≤ g p := by
    intro p hp
    have h1 : Real.log (1 / (vs.length * p)) ≤ 1 / (vs.length * p) - 1 :=
      Real.log_le_sub_one_of_pos (by have := hppos p hp; positivity)
    have h2 := mul_le_mul_of_nonneg_left h1 (hppos p hp).le
    have h3 : p * (1 / (vs.length * p) - 1) = 1 / vs.length - p := by
      have := (hppos p hp).ne'
      field_simp
    rw [hg]
    simp only
    linarith
  have hgsum : (ps.map g).sum = Real.log vs.length - (ps.map fun p => -p * Real.log p).sum := by
    have key : ∀ l : List ℝ, (∀ p ∈ l, 0 < p) → (l.map g).sum = l.length * (1 / vs.length) - l.sum
        + l.sum * Real.log vs.length - (l.map fun p => -p * Real.log p).sum := by
      intro l
      induction l with
      | nil => intro _; simp
      | cons p l ih =>
        intro hl
        have hp := hl p (by simp)
        have hgp : g p = 1 / vs.length - p + p * (Real.log vs.length + Real.log p) := by
          rw [hg]
          simp only
          rw [one_div ((vs.length : ℝ) * p), Real.log_inv, Real.log_mul hn.ne' hp.ne']
          ring
        simp only [List.map_cons, List.sum_cons, List.length_cons, ih fun q hq => hl q (by simp [hq]), hgp]
        push_cast
        ring
    rw [key ps hppos, hsum, hlen]
    field_simp
    ring
  have hH : (ps.map fun p => -p * Real.log p).sum = x := hx.symm
  rw [hH] at hgsum
  have hgs : 0 ≤ (ps.map g).sum := List.sum_nonneg (by
    intro q hq; obtain ⟨p, hp, rfl⟩ := List.mem_map.1 hq; exact hgnn p hp)
  refine ⟨?_, by linarith, ⟨fun he => ?_, fun hall => ?_⟩⟩
  · rw [hx]
    apply List.sum_nonneg
    intro q hq
    obtain ⟨p, hp, rfl⟩ := List.mem_map.1 hq
    have := Real.log_nonpos (hppos p hp).le (hp1 p hp)
    have := hppos p hp
    nlinarith
  · have h0 : (ps.map g).sum = 0 := by rw [hgsum, he]; ring
    have hz := sum_zero_all (by intro q hq; obtain ⟨p, hp, rfl⟩ := List.mem_map.1 hq; exact hgnn p hp) h0
    have hall : ∀ p ∈ ps, p = 1 / vs.length := by
      intro p hp
      have h1 := hz _ (List.mem_map.2 ⟨p, hp, rfl⟩)
      by_contra hne'
      have hpp := hppos p hp
      have h2 : 1 / (vs.length * p) ≠ 1 := by
        intro h3
        apply hne'
        field_simp at h3 ⊢
        linarith
      have h4 : Real.log (1 / (vs.length * p)) < 1 / (vs.length * p) - 1 :=
        Real.log_lt_sub_one_of_pos (by positivity) h2
      have h5 := mul_lt_mul_of_pos_left h4 hpp
      have h6 : p * (1 / (vs.length * p) - 1) = 1 / vs.length - p := by field_simp
      rw [hg] at h1
      simp only at h1
      linarith
    intro v hv w hw
    have h1 := hall _ (List.mem_map.2 ⟨v, hv, rfl⟩)
    have h2 := hall _ (List.mem_map.2 ⟨w, hw, rfl⟩)
    rw [← h2] at h1
    exact (div_left_inj' hT.ne').1 h1
  · have hconst : ∃ c, ∀ v ∈ vs, v = c := by
      cases hv : vs with
      | nil => exact absurd hv hne
      | cons a l => exact ⟨a, fun v hv' => hall v (by rw [hv]; exact hv') a (by rw [hv]; simp)⟩
    obtain ⟨c, hc⟩ := hconst
    have hvsum : vs.sum = vs.length * c := by
      rw [List.sum_eq_card_nsmul vs c hc, nsmul_eq_mul]
    have hc0 : c ≠ 0 := by rintro rfl; rw [hvsum] at hT; simp at hT
    have : (ps.map g).sum = 0 := by
      apply List.sum_eq_zero
      intro q hq
      obtain ⟨p, hp, rfl⟩ := List.mem_map.1 hq
      obtain ⟨v, hv, rfl⟩ := List.mem_map.1 hp
      have h1 : v / vs.sum = 1 / vs.length := by rw [hc v hv, hvsum]; field_simp
      rw [hg]
      simp only [h1]
      have h2 : (1 : ℝ) / (vs.length * (1 / vs.length)) = 1 := by field_simp
      rw [h2, Real.log_one]
      ring
    rw [this] at hgsum
    linarith

/-- **C31** For positive data the query gives the same numbers. -/
theorem C31_sql_agrees (t : DTab S C ℝ) (s : S) (x : ℝ) (res : List (S × Option ℝ)) (y : Option ℝ)
    (h : (s, x) ∈ pyEntropy t) (hs : sqlEntropy t = some res) (h' : (s, y) ∈ res)
    (hpos : ∀ v ∈ presentVals t s, 0 < v) (hne : presentVals t s ≠ []) : y = some x := by
  have hT : 0 < sliceTotal t s := List.sum_pos _ hpos hne
  rw [pyEntropy_eq t s x h hT.ne']
  unfold sqlEntropy at hs
  split at hs
  · cases hs
    rw [sqlDist_eq_pyDist] at h'
    obtain ⟨_, rfl⟩ := mem_groupAgg h'
    unfold sqlSumN
    rw [filterMap_id_map, present_pyDist t s hT.ne']
    unfold sliceTotal at hT
    have hfil : ((presentVals t s).map (· / (presentVals t s).sum)).filter (fun p => decide (0 < p))
        = (presentVals t s).map (· / (presentVals t s).sum) := by
      rw [List.filter_eq_self]
      intro p hp
      obtain ⟨v, hv, rfl⟩ := List.mem_map.1 hp
      simpa using div_pos (hpos v hv) hT
    rw [hfil]
    generalize hps : (presentVals t s).map (· / (presentVals t s).sum) = ps
    have hpne : ps ≠ [] := by rw [← hps]; simpa using hne
    have hneg : ∀ l : List ℝ, (l.map fun p => -p * Real.log p).sum = -(l.map fun p => p * Real.log p).sum := by
      intro l
      induction l with
      | nil => simp
      | cons p l ih => simp only [List.map_cons, List.sum_cons, ih]; ring
    rw [hneg]
    cases ps with
    | nil => exact absurd rfl hpne
    | cons a l => rfl
  · cases hs

/-- **C31** The query does not fail on positive data. -/
theorem C31_sql_defined (t : DTab S C ℝ) (hpos : ∀ r ∈ t, ∀ v, r.2 = some v → 0 < v) : (sqlEntropy t).isSome := by
  unfold sqlEntropy
  rw [if_pos]
  · rfl
  · rw [sqlDist_eq_pyDist, pyDist_eq]
    intro r hr p hp
    obtain ⟨r0, hr0, rfl⟩ := List.mem_map.1 hr
    cases hv : r0.2 with
    | none => rw [hv] at hp; cases hp
    | some v =>
      rw [hv] at hp
      simp only [nanDiv] at hp
      split at hp
      · cases hp
      · cases hp
        apply div_pos (hpos r0 hr0 v hv)
        apply List.sum_pos
        · intro w hw
          unfold presentVals at hw
          obtain ⟨r1, hr1, h1⟩ := List.mem_filterMap.1 hw
          split at h1
          · exact hpos r1 hr1 w h1
          · cases h1
        · intro h0
          have : v ∈ presentVals t r0.1.1 := by
            unfold presentVals
            rw [List.mem_filterMap]
            exact ⟨r0, hr0, by simp [hv]⟩
          rw [h0] at this
          cases this

/-- The hypotheses are met by every table with one slice and two positive values. -/
example (a b : ℝ) (ha : 0 < a) (hb : 0 < b) :
    let t : DTab Unit Nat ℝ := [(((), 0), some a), (((), 1), some b)]
    (∃ x, ((), x) ∈ pyEntropy t) ∧ (∀ v ∈ presentVals t (), 0 < v) ∧ presentVals t () ≠ [] ∧
      ∀ r ∈ t, ∀ v, r.2 = some v → 0 < v := by
  refine ⟨⟨_, List.mem_map.2 ⟨(), ?_, rfl⟩⟩, ?_, by simp [presentVals], ?_⟩
  · rw [sliceKeys_pyDist]; simp [sliceKeys]
  · intro v hv
    simp [presentVals] at hv
    rcases hv with rfl | rfl <;> assumption
  · intro r hr v hv
    simp at hr
    rcases hr with rfl | rfl <;> cases hv <;> assumption

end
end Verif
