import Verif.Model.Quantile
import Verif.Spec.Quantile
import Mathlib.Tactic.FieldSimp
import Mathlib.Tactic.Linarith
import Mathlib.Tactic.Ring
import Mathlib.Algebra.Order.BigOperators.Group.List

namespace Verif

/-! ## np.interp on increasing knots -/

abbrev Knots := List (Rat × Rat)

def Increasing (K : Knots) : Prop := K.Pairwise (fun a b => a.1 < b.1)

theorem interp_bounds (lo hi q : Rat) : ∀ (K : Knots), K ≠ [] → Increasing K →
    (∀ p ∈ K, lo ≤ p.2 ∧ p.2 ≤ hi) → ∃ y, interp q K = some y ∧ lo ≤ y ∧ y ≤ hi
  | [], h, _, _ => absurd rfl h
  | [(x, v)], _, _, hb => ⟨v, rfl, (hb (x, v) (by simp)).1, (hb (x, v) (by simp)).2⟩
  | (x0, v0) :: (x1, v1) :: t, _, hi', hb => by
      have b0 := hb (x0, v0) (by simp)
      have b1 := hb (x1, v1) (by simp)
      simp only at b0 b1
      unfold Increasing at hi'
      have hx : x0 < x1 := (List.pairwise_cons.1 hi').1 (x1, v1) (by simp)
      rw [interp]
      split
      · exact ⟨v0, rfl, b0.1, b0.2⟩
      · rename_i h1
        split
        · rename_i h2
          refine ⟨_, rfl, ?_⟩
          have hd : 0 < x1 - x0 := sub_pos.2 hx
          have he : (v1 - v0) / (x1 - x0) * (q - x0) + v0
              = v0 * ((x1 - q) / (x1 - x0)) + v1 * ((q - x0) / (x1 - x0)) := by
            field_simp; ring
          have ha : 0 ≤ (x1 - q) / (x1 - x0) := div_nonneg (by linarith) hd.le
          have hb' : 0 ≤ (q - x0) / (x1 - x0) := div_nonneg (by linarith) hd.le
          have hs : (x1 - q) / (x1 - x0) + (q - x0) / (x1 - x0) = 1 := by field_simp; ring
          rw [he]
          constructor
          · have e : lo = lo * ((x1 - q) / (x1 - x0)) + lo * ((q - x0) / (x1 - x0)) := by
              rw [← mul_add, hs, mul_one]
            rw [e]
            exact add_le_add (mul_le_mul_of_nonneg_right b0.1 ha) (mul_le_mul_of_nonneg_right b1.1 hb')
          · have e : hi = hi * ((x1 - q) / (x1 - x0)) + hi * ((q - x0) / (x1 - x0)) := by
              rw [← mul_add, hs, mul_one]
            rw [e]
            exact add_le_add (mul_le_mul_of_nonneg_right b0.2 ha) (mul_le_mul_of_nonneg_right b1.2 hb')
        · exact interp_bounds lo hi q ((x1, v1) :: t) (by simp) (List.pairwise_cons.1 hi').2
            (fun p hp => hb p (List.mem_cons_of_mem _ hp))

theorem interp_mono {q q' : Rat} (hq : q ≤ q') : ∀ (K : Knots), Increasing K →
    K.Pairwise (fun a b => a.2 ≤ b.2) → ∀ y y', interp q K = some y → interp q' K = some y' → y ≤ y'
  | [], _, _, y, y', h, _ => by simp [interp] at h
  | [(x, v)], _, _, y, y', h, h' => by
      simp [interp] at h h'; rw [← h, ← h']
  | (x0, v0) :: (x1, v1) :: t, hi, hv, y, y', h, h' => by
      unfold Increasing at hi
      have hx : x0 < x1 := (List.pairwise_cons.1 hi).1 (x1, v1) (by simp)
      have hd : 0 < x1 - x0 := sub_pos.2 hx
      have hv01 : v0 ≤ v1 := (List.pairwise_cons.1 hv).1 (x1, v1) (by simp)
      have hv0 := (List.pairwise_cons.1 hv).1
      have hv1 := (List.pairwise_cons.1 (List.pairwise_cons.1 hv).2).1
      have hslope : 0 ≤ (v1 - v0) / (x1 - x0) := div_nonneg (by linarith) hd.le
      -- lower bounds of the tail
      have htail : ∀ r z, interp r ((x1, v1) :: t) = some z → v1 ≤ z := by
        intro r z hz
        -- upper bound is irrelevant: take the maximum
        obtain ⟨hi2, hhi⟩ : ∃ hi2 : Rat, ∀ p ∈ (x1, v1) :: t, p.2 ≤ hi2 := by
          clear hz
          generalize ((x1, v1) :: t) = l0
          induction l0 with
          | nil => exact ⟨0, by simp⟩
          | cons a l ih =>
            obtain ⟨m, hm⟩ := ih
            refine ⟨max a.2 m, ?_⟩
            intro p hp
            rcases List.mem_cons.1 hp with rfl | hp
            · exact le_max_left _ _
            · exact (hm p hp).trans (le_max_right _ _)
        obtain ⟨y2, h2, h3, _⟩ := interp_bounds v1 hi2 r ((x1, v1) :: t) (by simp)
          (List.pairwise_cons.1 hi).2 (fun p hp => ⟨by
            rcases List.mem_cons.1 hp with rfl | hp
            · exact le_refl _
            · exact hv1 p hp, hhi p hp⟩)
        rw [h2] at hz; cases hz; exact h3
      rw [interp] at h h'
      by_cases h1 : q ≤ x0
      · rw [if_pos h1] at h; cases h
        by_cases h2 : q' ≤ x0
        · rw [if_pos h2] at h'; cases h'; exact le_refl _
        · rw [if_neg h2] at h'
          by_cases h3 : q' < x1
          · rw [if_pos h3] at h'; cases h'
            have := mul_nonneg hslope (by linarith : (0:Rat) ≤ q' - x0)
            linarith
          · rw [if_neg h3] at h'
            exact hv01.trans (htail _ _ h')
      · rw [if_neg h1] at h
        have h2 : ¬ q' ≤ x0 := fun hh => h1 (hq.trans hh)
        rw [if_neg h2] at h'
        by_cases h3 : q < x1
        · rw [if_pos h3] at h; cases h
          by_cases h4 : q' < x1
          · rw [if_pos h4] at h'; cases h'
            have := mul_le_mul_of_nonneg_left (by linarith : q - x0 ≤ q' - x0) hslope
            linarith
          · rw [if_neg h4] at h'
            have hz := htail _ _ h'
            have he : (v1 - v0) / (x1 - x0) * (x1 - x0) = v1 - v0 := by field_simp
            have := mul_le_mul_of_nonneg_left (by linarith : q - x0 ≤ x1 - x0) hslope
            linarith
        · rw [if_neg h3] at h
          have h4 : ¬ q' < x1 := fun hh => h3 (lt_of_le_of_lt hq hh)
          rw [if_neg h4] at h'
          exact interp_mono hq ((x1, v1) :: t) (List.pairwise_cons.1 hi).2
            (List.pairwise_cons.1 hv).2 y y' h h'

/-- At a knot the interpolation gives the knot's value. -/
theorem interp_at_knot : ∀ (K : Knots), Increasing K → ∀ p ∈ K, interp p.1 K = some p.2
  | [], _, p, hp => by cases hp
  | [(x, v)], _, p, hp => by
      simp only [List.mem_singleton] at hp; subst hp; rfl
  | (x0, v0) :: (x1, v1) :: t, hi, p, hp => by
      unfold Increasing at hi
      rcases List.mem_cons.1 hp with rfl | hp'
      · rw [interp]; simp
      · have h0 : x0 < p.1 := (List.pairwise_cons.1 hi).1 p hp'
        have h1 : ¬ p.1 < x1 := by
          rcases List.mem_cons.1 hp' with rfl | hp''
          · simp
          · exact not_lt.2 ((List.pairwise_cons.1 (List.pairwise_cons.1 hi).2).1 p hp'').le
        rw [interp, if_neg (not_le.2 h0), if_neg h1]
        exact interp_at_knot ((x1, v1) :: t) (List.pairwise_cons.1 hi).2 p hp'

/-! ## The SQL sum -/

/-- Sum of the query's terms. -/
def sqlSumOf (q : Rat) (prev : Cell) (K : Knots) : Rat := ((pairUp prev K).map (QRow.term q)).sum

theorem sqlSum_single_some (q p x v : Rat) :
    sqlSumOf q (some p) [(x, v)] = if x < q then v else 0 := by
  simp [sqlSumOf, pairUp, QRow.term]

theorem sqlSum_cons_some (q p x0 v0 x1 v1 : Rat) (t : Knots) :
    sqlSumOf q (some p) ((x0, v0) :: (x1, v1) :: t)
      = (if x0 ≤ q ∧ q ≤ x1 then (v1 * (q - x0) + (x1 - q) * v0) / (x1 - x0) else 0)
        + sqlSumOf q (some x0) ((x1, v1) :: t) := by
  simp [sqlSumOf, pairUp, QRow.term]

theorem sqlSum_low (q : Rat) : ∀ (K : Knots) (p : Rat), Increasing K →
    (∀ a ∈ K, q < a.1) → sqlSumOf q (some p) K = 0
  | [], p, _, _ => by simp [sqlSumOf, pairUp]
  | [(x, v)], p, _, h => by
      rw [sqlSum_single_some]
      have := h (x, v) (by simp)
      simp [not_lt.2 this.le]
  | (x0, v0) :: (x1, v1) :: t, p, hi, h => by
      unfold Increasing at hi
      rw [sqlSum_cons_some]
      have h0 : q < x0 := h (x0, v0) (by simp)
      rw [if_neg (fun hh => absurd hh.1 (not_le.2 h0)),
        sqlSum_low q ((x1, v1) :: t) x0 (List.pairwise_cons.1 hi).2
          (fun a ha => h a (List.mem_cons_of_mem _ ha))]
      simp

/-- Interior knots: all but the first and the last. -/
def interior (K : Knots) : List Rat := (K.tail.dropLast).map Prod.fst

theorem tail_gt {x1 v1 : Rat} {t : Knots} (hi : Increasing ((x1, v1) :: t)) :
    ∀ a ∈ t, x1 < a.1 := (List.pairwise_cons.1 hi).1

theorem sqlSum_some (q : Rat) : ∀ (K : Knots) (p x0 v0 : Rat) (t : Knots), K = (x0, v0) :: t →
    Increasing K →
    (q = x0 → sqlSumOf q (some p) K = if t = [] then 0 else v0) ∧
    (x0 < q → q ∉ interior K → interp q K = some (sqlSumOf q (some p) K)) ∧
    (x0 < q → q ∈ interior K → (interp q K).map (2 * ·) = some (sqlSumOf q (some p) K))
  | [], _, _, _, _, h, _ => by cases h
  | [(x, v)], p, x0, v0, t, h, _ => by
      cases h
      rw [sqlSum_single_some]
      refine ⟨fun h => by simp [h], fun h _ => by simp [h, interp], fun _ h => by simp [interior] at h⟩
  | (x0, v0) :: (x1, v1) :: t', p, y0, w0, t, h, hi => by
      cases h
      unfold Increasing at hi
      have hx : x0 < x1 := (List.pairwise_cons.1 hi).1 (x1, v1) (by simp)
      have hd : x1 - x0 ≠ 0 := by intro h0; linarith
      have hi' : Increasing ((x1, v1) :: t') := (List.pairwise_cons.1 hi).2
      have hgt := tail_gt hi'
      obtain ⟨ih1, ih2, ih3⟩ := sqlSum_some q ((x1, v1) :: t') x0 x1 v1 t' rfl hi'
      have hlow : q < x1 → sqlSumOf q (some x0) ((x1, v1) :: t') = 0 := by
        intro hq
        apply sqlSum_low q _ x0 hi'
        intro a ha
        rcases List.mem_cons.1 ha with rfl | ha
        · exact hq
        · exact hq.trans (hgt a ha)
      have hint : interior ((x0, v0) :: (x1, v1) :: t')
          = if t' = [] then [] else x1 :: interior ((x1, v1) :: t') := by
        unfold interior
        cases t' with
        | nil => simp
        | cons a b => simp
      rw [sqlSum_cons_some]
      refine ⟨?_, ?_, ?_⟩
      · intro hq
        subst hq
        rw [if_pos ⟨le_refl _, hx.le⟩, hlow hx]
        simp only [sub_self, mul_zero, zero_add, add_zero, reduceCtorEq, if_false]
        field_simp
      · intro hq hni
        rw [interp, if_neg (not_le.2 hq)]
        by_cases h1 : q < x1
        · rw [if_pos h1, if_pos ⟨hq.le, h1.le⟩, hlow h1]
          congr 1; field_simp; ring
        · rw [if_neg h1]
          rcases eq_or_lt_of_le (not_lt.1 h1) with he | hlt
          · -- q = x1 must be the last knot
            have hq1 : q = x1 := he.symm
            cases t' with
            | nil =>
              rw [ih1 hq1, if_pos ⟨hq.le, hq1.le⟩]
              simp only [interp]
              congr 1; rw [hq1]
              simp only [sub_self, zero_mul, add_zero, if_true]
              field_simp
            | cons a b =>
              exfalso; apply hni; rw [hint]; simp [hq1]
          · rw [if_neg (fun hh => absurd hh.2 (not_le.2 hlt)), zero_add]
            apply ih2 hlt
            intro hm; apply hni; rw [hint]
            cases t' with
            | nil => simp [interior] at hm
            | cons a b => simp [hm]
      · intro hq hin
        rw [hint] at hin
        cases t' with
        | nil => simp at hin
        | cons a b =>
          simp only [reduceCtorEq, if_false, List.mem_cons] at hin
          have h1 : ¬ q < x1 := by
            rcases hin with h | h
            · rw [h]; exact lt_irrefl _
            · unfold interior at h
              obtain ⟨c, hc, rfl⟩ := List.mem_map.1 h
              exact not_lt.2 (hgt c (List.dropLast_subset _ hc)).le
          rw [interp, if_neg (not_le.2 hq), if_neg h1]
          rcases eq_or_lt_of_le (not_lt.1 h1) with he | hlt
          · have hq1 : q = x1 := he.symm
            have hk := interp_at_knot _ hi' (x1, v1) (by simp)
            rw [ih1 hq1, if_pos ⟨hq.le, hq1.le⟩]
            simp only [reduceCtorEq, if_false]
            rw [hq1, hk]
            simp only [Option.map_some]
            congr 1
            field_simp; ring
          · rw [if_neg (fun hh => absurd hh.2 (not_le.2 hlt)), zero_add]
            apply ih3 hlt
            rcases hin with h | h
            · exact absurd h (ne_of_gt hlt)
            · exact h

theorem sqlSum_none_cons (q x0 v0 x1 v1 : Rat) (t : Knots) :
    sqlSumOf q none ((x0, v0) :: (x1, v1) :: t)
      = (if q < x0 then v0 else 0) + sqlSumOf q (some 0) ((x0, v0) :: (x1, v1) :: t) := by
  simp only [sqlSumOf, pairUp, QRow.term, List.map_cons, List.sum_cons]
  by_cases h : q < x0
  · simp [h, not_le.2 h]
  · simp [h]

/-- The value of the query against `np.interp`. -/
theorem sqlSum_none (q : Rat) (K : Knots) (hK : K ≠ []) (hi : Increasing K) :
    (q ∉ interior K → (∀ x v, K = [(x, v)] → q ≠ x) → interp q K = some (sqlSumOf q none K)) ∧
    (q ∈ interior K → (interp q K).map (2 * ·) = some (sqlSumOf q none K)) ∧
    (∀ v, K = [(q, v)] → sqlSumOf q none K = 0) := by
  match K, hK, hi with
  | [], h, _ => exact absurd rfl h
  | [(x, v)], _, _ =>
    refine ⟨?_, fun h => by simp [interior] at h, ?_⟩
    · intro _ hne
      have := hne x v rfl
      have hs : sqlSumOf q none [(x, v)] = if q < x ∨ x < q then v else 0 := by
        simp [sqlSumOf, pairUp, QRow.term]
      rw [hs, if_pos (lt_or_gt_of_ne this)]; rfl
    · intro v' h
      cases h
      simp [sqlSumOf, pairUp, QRow.term]
  | (x0, v0) :: (x1, v1) :: t, _, hi =>
    have hgt := tail_gt hi
    obtain ⟨h1, h2, h3⟩ := sqlSum_some q _ 0 x0 v0 ((x1, v1) :: t) rfl hi
    refine ⟨?_, ?_, ?_⟩
    · intro hni _
      rw [sqlSum_none_cons]
      rcases lt_trichotomy q x0 with hlt | heq | hgt'
      · rw [if_pos hlt, sqlSum_low q _ 0 hi (by
          intro a ha
          rcases List.mem_cons.1 ha with rfl | ha
          · exact hlt
          · exact hlt.trans (hgt a ha))]
        simp [interp, hlt.le]
      · rw [h1 heq]; simp [interp, heq]
      · rw [if_neg (not_lt.2 hgt'.le), zero_add]; exact h2 hgt' hni
    · intro hin
      rw [sqlSum_none_cons]
      have : x0 < q := by
        unfold interior at hin
        obtain ⟨c, hc, rfl⟩ := List.mem_map.1 hin
        exact hgt c (List.dropLast_subset _ hc)
      rw [if_neg (not_lt.2 this.le), zero_add]; exact h3 this hin
    · intro v h; cases h

/-! ## Positions as a function of the data -/

theorem positions_map (W : Rat → Rat) (T : Rat) : ∀ (L : List Rat) (c : Rat), L.Pairwise (· < ·) →
    positions c T (L.map (fun x => (x, W x)))
      = L.map (fun x => ((c + ((L.filter (· < x)).map W).sum + W x / 2) / T, x))
  | [], c, _ => rfl
  | a :: L, c, h => by
      obtain ⟨h1, h2⟩ := List.pairwise_cons.1 h
      have hnil : L.filter (fun b => decide (b < a)) = [] := by
        rw [List.filter_eq_nil_iff]
        intro b hb; simpa using (h1 b hb).le
      simp only [List.map_cons, positions]
      rw [positions_map W T L (c + W a) h2]
      congr 1
      · congr 1
        simp only [List.filter_cons, lt_irrefl, decide_false, Bool.false_eq_true, if_false]
        rw [hnil]
        simp only [List.map_nil, List.sum_nil, add_zero]
        ring
      · apply List.map_congr_left
        intro x hx
        have := h1 x hx
        simp only [List.filter_cons, this, decide_true, if_true, List.map_cons, List.sum_cons]
        congr 1
        ring

theorem sum_map_indicator (y w : Rat) : ∀ (L : List Rat), L.Nodup →
    (L.map (fun x => if y = x then w else 0)).sum = if y ∈ L then w else 0
  | [], _ => by simp
  | a :: L, h => by
      obtain ⟨h1, h2⟩ := List.nodup_cons.1 h
      have ih := sum_map_indicator y w L h2
      simp only [List.map_cons, List.sum_cons, ih, List.mem_cons]
      by_cases hya : y = a
      · subst hya; simp [h1]
      · simp [hya]

theorem weightsOf_cons (var weight : String) (x : Rat) (r : Row) (rs : List Row) :
    (weightsOf var weight x (r :: rs)).sum
      = (if r var = some x then (r weight).getD 0 else 0) + (weightsOf var weight x rs).sum := by
  unfold weightsOf
  by_cases h : r var = some x
  · cases hw : r weight <;> simp [List.filterMap_cons, h, hw]
  · simp [List.filterMap_cons, h]

theorem sum_weights (var weight : String) (P : Rat → Bool) (L : List Rat) (hnd : L.Nodup) :
    ∀ rs : List Row, (∀ r ∈ rs, ∀ y, r var = some y → y ∈ L) →
    ((L.filter P).map (fun x => (weightsOf var weight x rs).sum)).sum
      = (rs.filterMap (fun r => match r var, r weight with
          | some y, some w => if P y then some w else none | _, _ => none)).sum
  | [], _ => by
      have : (L.filter P).map (fun x => (weightsOf var weight x []).sum)
          = (L.filter P).map (fun _ => (0 : Rat)) := by
        apply List.map_congr_left; intro x _; simp [weightsOf]
      rw [this]; simp
  | r :: rs, h => by
      have ih := sum_weights var weight P L hnd rs (fun r hr => h r (List.mem_cons_of_mem _ hr))
      have : (L.filter P).map (fun x => (weightsOf var weight x (r :: rs)).sum)
          = (L.filter P).map (fun x => (if r var = some x then (r weight).getD 0 else 0)
              + (weightsOf var weight x rs).sum) := by
        apply List.map_congr_left; intro x _; exact weightsOf_cons ..
      rw [this, List.sum_map_add, ih, List.filterMap_cons]
      cases hv : r var with
      | none =>
        have h0 : ((L.filter P).map (fun x => if (none : Cell) = some x then (r weight).getD 0 else 0)).sum = 0 := by
          simp
        rw [h0]
        simp
      | some y =>
        have hy : y ∈ L := h r (by simp) y hv
        have h0 : ((L.filter P).map (fun x => if some y = some x then (r weight).getD 0 else 0)).sum
            = if P y then (r weight).getD 0 else 0 := by
          have := sum_map_indicator y ((r weight).getD 0) (L.filter P) (hnd.filter _)
          simp only [Option.some.injEq]
          rw [this]
          simp [List.mem_filter, hy]
        rw [h0]
        cases hw : r weight with
        | none => simp
        | some w =>
          by_cases hp : P y
          · simp [hp]
          · simp [hp]

/-- The distinct values of the slice in ascending order. -/
def valuesAsc (var : String) (rs : List Row) : List Rat :=
  ((rs.filterMap (fun r => r var)).dedup).insertionSort (· ≤ ·)

theorem valuesAsc_mem (var : String) (rs : List Row) (x : Rat) :
    x ∈ valuesAsc var rs ↔ ∃ r ∈ rs, r var = some x := by
  unfold valuesAsc
  rw [(List.perm_insertionSort _ _).mem_iff, List.mem_dedup, List.mem_filterMap]

theorem valuesAsc_nodup (var : String) (rs : List Row) : (valuesAsc var rs).Nodup :=
  ((List.perm_insertionSort _ _).nodup_iff).2 (List.nodup_dedup _)

theorem valuesAsc_sorted (var : String) (rs : List Row) : (valuesAsc var rs).Pairwise (· < ·) := by
  have h1 : (valuesAsc var rs).Pairwise (· ≤ ·) := List.pairwise_insertionSort _ _
  have h2 := valuesAsc_nodup var rs
  exact (h1.and h2).imp (fun h => lt_of_le_of_ne h.1 h.2)

theorem totalW_eq (var weight : String) (rs : List Row) :
    totalW (aggPy var weight rs)
      = (rs.filterMap (fun r => match r var, r weight with
          | some _, some w => some w | _, _ => none)).sum := by
  have := sum_weights var weight (fun _ => true) (valuesAsc var rs) (valuesAsc_nodup var rs) rs
    (fun r hr y hy => (valuesAsc_mem var rs y).2 ⟨r, hr, hy⟩)
  simp only [List.filter_true, if_true] at this
  rw [← this]
  unfold totalW aggPy valuesAsc
  rw [List.map_map]; rfl

/-- The knots of the interpolation, in terms of the data. -/
theorem positions_eq (var weight : String) (rs : List Row) :
    positions 0 (totalW (aggPy var weight rs)) (aggPy var weight rs)
      = (valuesAsc var rs).map (fun x => (quantilePoint var weight rs x, x)) := by
  have hT := totalW_eq var weight rs
  have := positions_map (fun x => (weightsOf var weight x rs).sum) (totalW (aggPy var weight rs))
    (valuesAsc var rs) 0 (valuesAsc_sorted var rs)
  refine this.trans ?_
  apply List.map_congr_left
  intro x _
  have h1 := sum_weights var weight (fun y => decide (y < x)) (valuesAsc var rs) (valuesAsc_nodup var rs) rs
    (fun r hr y hy => (valuesAsc_mem var rs y).2 ⟨r, hr, hy⟩)
  have h2 : (weightsOf var weight x rs).sum
      = (rs.filterMap (fun r => match r var, r weight with
          | some y, some w => if y = x then some w else none | _, _ => none)).sum := by
    unfold weightsOf
    congr 1
    apply List.filterMap_congr
    intro r _
    cases hv : r var with
    | none => simp
    | some y => cases hw : r weight with
      | none => simp
      | some w => simp
  rw [h1, h2, hT]
  unfold quantilePoint
  simp
  rfl

theorem aggSql_eq (var weight : String) (rs : List Row) (hpos : PositiveWeights var weight rs) :
    aggSql var weight rs = aggPy var weight rs := by
  unfold aggSql aggPy
  have hf : ∀ r ∈ rs, ((r var).isSome && (r weight).isSome) = (r var).isSome := by
    intro r hr
    cases hv : (r var).isSome with
    | false => simp
    | true =>
      obtain ⟨w, hw, _⟩ := hpos r hr hv
      simp [hw]
  have h1 : (rs.filter (fun r => (r var).isSome && (r weight).isSome)).filterMap (fun r => r var)
      = rs.filterMap (fun r => r var) := by
    rw [List.filter_congr hf, List.filterMap_filter]
    apply List.filterMap_congr
    intro r _
    cases r var <;> simp
  have h2 : ∀ x, weightsOf var weight x (rs.filter (fun r => (r var).isSome && (r weight).isSome))
      = weightsOf var weight x rs := by
    intro x
    unfold weightsOf
    rw [List.filter_congr hf, List.filterMap_filter]
    apply List.filterMap_congr
    intro r _
    by_cases h : r var = some x
    · simp [h]
    · simp [h]
  rw [h1]
  simp only [h2]

theorem weightsOf_pos (var weight : String) (rs : List Row) (hpos : PositiveWeights var weight rs)
    (x : Rat) (hx : x ∈ valuesAsc var rs) : 0 < (weightsOf var weight x rs).sum := by
  obtain ⟨r, hr, hv⟩ := (valuesAsc_mem var rs x).1 hx
  apply List.sum_pos
  · intro w hw
    unfold weightsOf at hw
    obtain ⟨r', hr', h⟩ := List.mem_filterMap.1 hw
    by_cases h' : r' var = some x
    · rw [if_pos h'] at h
      obtain ⟨w', h1, h2⟩ := hpos r' hr' (by simp [h'])
      rw [h1] at h; cases h; exact h2
    · rw [if_neg h'] at h; cases h
  · intro h0
    obtain ⟨w, h1, _⟩ := hpos r hr (by simp [hv])
    have : w ∈ weightsOf var weight x rs :=
      List.mem_filterMap.2 ⟨r, hr, by rw [if_pos hv, h1]⟩
    rw [h0] at this; cases this

theorem positions_increasing (T : Rat) (hT : 0 < T) : ∀ (a : List (Rat × Rat)) (c : Rat),
    (∀ p ∈ a, 0 < p.2) → Increasing (positions c T a) ∧ ∀ p ∈ positions c T a, c / T < p.1
  | [], c, _ => ⟨List.Pairwise.nil, by simp [positions]⟩
  | (x, w) :: t, c, h => by
      have hw : 0 < w := h (x, w) (by simp)
      obtain ⟨h1, h2⟩ := positions_increasing T hT t (c + w)
        (fun p hp => h p (List.mem_cons_of_mem _ hp))
      have hlt : ((c + w) - 1 / 2 * w) / T < (c + w) / T := by
        apply (div_lt_div_iff_of_pos_right hT).2; linarith
      have hlt0 : c / T < ((c + w) - 1 / 2 * w) / T := by
        apply (div_lt_div_iff_of_pos_right hT).2; linarith
      refine ⟨List.pairwise_cons.2 ⟨fun p hp => hlt.trans (h2 p hp), h1⟩, ?_⟩
      intro p hp
      rcases List.mem_cons.1 hp with rfl | hp
      · exact hlt0
      · exact hlt0.trans (hlt.trans (h2 p hp))

theorem knots_increasing (var weight : String) (rs : List Row)
    (hpos : PositiveWeights var weight rs) (hne : valuesAsc var rs ≠ []) :
    Increasing (positions 0 (totalW (aggPy var weight rs)) (aggPy var weight rs)) := by
  have hall : ∀ p ∈ aggPy var weight rs, 0 < p.2 := by
    intro p hp
    unfold aggPy at hp
    obtain ⟨x, hx, rfl⟩ := List.mem_map.1 hp
    exact weightsOf_pos var weight rs hpos x hx
  apply (positions_increasing _ ?_ _ 0 hall).1
  unfold totalW
  apply List.sum_pos
  · intro w hw
    obtain ⟨p, hp, rfl⟩ := List.mem_map.1 hw
    exact hall p hp
  · unfold aggPy
    intro h0
    apply hne
    have h1 := List.map_eq_nil_iff.1 h0
    have h2 := List.map_eq_nil_iff.1 h1
    exact h2

end Verif
