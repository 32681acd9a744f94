import Verif.Lemmas.Quantile
import Verif.Spec.Example
import Mathlib.Algebra.Order.Field.Basic

/-!
# C15 Weighted quantile in SQL equals the weighted quantile in Python
# C16 Quantile results are ordered and bounded
-/

namespace Verif

variable (var weight : String)

/-- `x` occurs as a value. -/
abbrev Occurs (var : String) (rs : List Row) (x : Rat) : Prop := ∃ r ∈ rs, r var = some x

theorem values_ne_nil {rs : List Row} {x : Rat} (h : Occurs var rs x) : valuesAsc var rs ≠ [] := by
  intro h0
  have := (valuesAsc_mem var rs x).2 h
  rw [h0] at this; cases this

theorem interior_iff {rs : List Row} {q : Rat} (hinj : ∀ x y, Occurs var rs x → Occurs var rs y →
      quantilePoint var weight rs x = quantilePoint var weight rs y → x = y) :
    q ∈ interior ((valuesAsc var rs).map (fun x => (quantilePoint var weight rs x, x))) ↔
      ∃ y x z, Occurs var rs y ∧ Occurs var rs x ∧ Occurs var rs z ∧ y < x ∧ x < z ∧
        q = quantilePoint var weight rs x := by
  have hs := valuesAsc_sorted var rs
  have hm := valuesAsc_mem var rs
  have hdl : interior ((valuesAsc var rs).map (fun x => (quantilePoint var weight rs x, x)))
      = ((valuesAsc var rs).tail.dropLast).map (quantilePoint var weight rs) := by
    unfold interior
    rw [← List.map_tail, ← List.map_dropLast, List.map_map]; rfl
  rw [hdl]
  constructor
  · intro h
    obtain ⟨x, hx, rfl⟩ := List.mem_map.1 h
    cases hL : valuesAsc var rs with
    | nil => rw [hL] at hx; simp at hx
    | cons a L =>
      rw [hL] at hx hs
      simp only [List.tail_cons] at hx
      have hxL : x ∈ L := List.dropLast_subset _ hx
      have hLne : L ≠ [] := by intro h0; rw [h0] at hx; simp at hx
      have hsplit := List.dropLast_append_getLast hLne
      obtain ⟨h1, h2⟩ := List.pairwise_cons.1 hs
      have hlast : x < L.getLast hLne := by
        rw [← hsplit, List.pairwise_append] at h2
        exact h2.2.2 x hx _ (by simp)
      refine ⟨a, x, L.getLast hLne, (hm a).1 (by simp [hL]), (hm x).1 (by simp [hL, hxL]),
        (hm _).1 (by rw [hL]; exact List.mem_cons_of_mem _ (List.getLast_mem hLne)), h1 x hxL, hlast, rfl⟩
  · rintro ⟨y, x, z, hy, hx, hz, hyx, hxz, rfl⟩
    apply List.mem_map_of_mem
    have hxL := (hm x).2 hx
    have hyL := (hm y).2 hy
    have hzL := (hm z).2 hz
    cases hL : valuesAsc var rs with
    | nil => rw [hL] at hxL; cases hxL
    | cons a L =>
      rw [hL] at hxL hyL hzL hs
      obtain ⟨h1, h2⟩ := List.pairwise_cons.1 hs
      have hxa : x ≠ a := by
        rintro rfl
        rcases List.mem_cons.1 hyL with rfl | h
        · exact lt_irrefl _ hyx
        · exact lt_irrefl _ (hyx.trans (h1 y h))
      have hx' : x ∈ L := (List.mem_cons.1 hxL).resolve_left hxa
      have hza : z ≠ a := by
        rintro rfl
        exact lt_irrefl _ (hxz.trans (h1 x hx'))
      have hz' : z ∈ L := (List.mem_cons.1 hzL).resolve_left hza
      have hLne : L ≠ [] := List.ne_nil_of_mem hx'
      have hsplit := List.dropLast_append_getLast hLne
      simp only [List.tail_cons]
      rw [← hsplit] at hx' hz' h2
      rw [List.pairwise_append] at h2
      rcases List.mem_append.1 hx' with h | h
      · exact h
      · simp only [List.mem_singleton] at h
        exfalso
        rcases List.mem_append.1 hz' with h' | h'
        · have := h2.2.2 z h' (L.getLast hLne) (by simp)
          rw [← h] at this; exact lt_irrefl _ (this.trans hxz)
        · simp only [List.mem_singleton] at h'
          rw [h, h'] at hxz; exact lt_irrefl _ hxz

theorem quantilePoint_inj {rs : List Row} (hpos : PositiveWeights var weight rs) (x y : Rat)
    (hx : Occurs var rs x) (hy : Occurs var rs y)
    (h : quantilePoint var weight rs x = quantilePoint var weight rs y) : x = y := by
  have hi := knots_increasing var weight rs hpos (values_ne_nil var hx)
  have h1 := interp_at_knot _ hi (quantilePoint var weight rs x, x) (by
    rw [positions_eq]; exact List.mem_map.2 ⟨x, (valuesAsc_mem var rs x).2 hx, rfl⟩)
  have h2 := interp_at_knot _ hi (quantilePoint var weight rs y, y) (by
    rw [positions_eq]; exact List.mem_map.2 ⟨y, (valuesAsc_mem var rs y).2 hy, rfl⟩)
  simp only at h1 h2
  rw [h, h2] at h1
  exact (Option.some.inj h1).symm

/-- All values equal: the only knot is at 1/2. -/
theorem quantilePoint_single {rs : List Row} (hpos : PositiveWeights var weight rs) (x : Rat)
    (hL : valuesAsc var rs = [x]) : quantilePoint var weight rs x = 1 / 2 := by
  have hp := positions_eq var weight rs
  have hw := weightsOf_pos var weight rs hpos x (by rw [hL]; simp)
  have ha : aggPy var weight rs = [(x, (weightsOf var weight x rs).sum)] := by
    have : aggPy var weight rs = (valuesAsc var rs).map (fun x => (x, (weightsOf var weight x rs).sum)) := rfl
    rw [this, hL]; rfl
  rw [ha, hL] at hp
  simp only [positions, totalW, List.map_cons, List.map_nil, List.sum_cons, List.sum_nil, add_zero,
    zero_add, List.cons.injEq, Prod.mk.injEq, and_true] at hp
  rw [← hp]
  field_simp
  ring

theorem sql_eq_sum {rs : List Row} (hpos : PositiveWeights var weight rs)
    (hne : valuesAsc var rs ≠ []) (q : Rat) :
    sqlQuantile var weight q rs
      = some (sqlSumOf q none (positions 0 (totalW (aggPy var weight rs)) (aggPy var weight rs))) := by
  unfold sqlQuantile
  simp only [aggSql_eq var weight rs hpos]
  rw [if_neg]
  · rfl
  · rw [positions_eq]
    cases h : valuesAsc var rs with
    | nil => exact absurd h hne
    | cons a L => cases L <;> simp [pairUp]

/-! ## C15 -/

/-- **C15** (partial) With positive weights the generated query computes the Python weighted
quantile, for every data set and every `q` that is not exactly the quantile point of a value
strictly between the smallest and the largest, nor 1/2 on a slice with a single value.
Missing: at exactly those points the query is wrong, see the next two theorems. -/
theorem C15_sql_agrees_partial (q : Rat) (rs : List Row) (hpos : PositiveWeights var weight rs)
    (hsome : ∃ x, Occurs var rs x)
    (hmid : ∀ y x z, Occurs var rs y → Occurs var rs x → Occurs var rs z → y < x → x < z →
      q ≠ quantilePoint var weight rs x)
    (hone : (∀ x y, Occurs var rs x → Occurs var rs y → x = y) → q ≠ 1 / 2) :
    sqlQuantile var weight q rs = pyQuantile var weight q rs ∧
    (pyQuantile var weight q rs).isSome := by
  obtain ⟨x0, hx0⟩ := hsome
  have hne := values_ne_nil var hx0
  have hi := knots_increasing var weight rs hpos hne
  have hinj := fun x y hx hy h => quantilePoint_inj var weight hpos x y hx hy h
  have hK : positions 0 (totalW (aggPy var weight rs)) (aggPy var weight rs) ≠ [] := by
    rw [positions_eq]; simpa using hne
  obtain ⟨h1, _, _⟩ := sqlSum_none q _ hK hi
  have hpy : pyQuantile var weight q rs
      = some (sqlSumOf q none (positions 0 (totalW (aggPy var weight rs)) (aggPy var weight rs))) := by
    apply h1
    · rw [positions_eq, interior_iff var weight hinj]
      rintro ⟨y, x, z, hy, hx, hz, hyx, hxz, he⟩
      exact hmid y x z hy hx hz hyx hxz he
    · intro x v hxv
      rw [positions_eq] at hxv
      cases hL : valuesAsc var rs with
      | nil => exact absurd hL hne
      | cons a L =>
        rw [hL] at hxv
        simp only [List.map_cons, List.cons.injEq, Prod.mk.injEq, List.map_eq_nil_iff] at hxv
        obtain ⟨⟨h2, h3⟩, h4⟩ := hxv
        subst h4
        rw [← h2, quantilePoint_single var weight hpos a hL]
        apply hone
        intro x y hx hy
        have h5 := (valuesAsc_mem var rs x).2 hx
        have h6 := (valuesAsc_mem var rs y).2 hy
        rw [hL] at h5 h6
        simp only [List.mem_singleton] at h5 h6
        rw [h5, h6]
  exact ⟨by rw [sql_eq_sum var weight hpos hne, hpy], by rw [hpy]; rfl⟩

/-- **C15 violated**, in general: at the quantile point of any value `x` strictly between two
others the Python quantile is `x` and the query returns `2 * x`. -/
theorem C15_knot_violation (rs : List Row) (hpos : PositiveWeights var weight rs)
    (y x z : Rat) (hy : Occurs var rs y) (hx : Occurs var rs x) (hz : Occurs var rs z)
    (hyx : y < x) (hxz : x < z) :
    pyQuantile var weight (quantilePoint var weight rs x) rs = some x ∧
    sqlQuantile var weight (quantilePoint var weight rs x) rs = some (2 * x) := by
  have hne := values_ne_nil var hx
  have hi := knots_increasing var weight rs hpos hne
  have hinj := fun x y hx hy h => quantilePoint_inj var weight hpos x y hx hy h
  have hK : positions 0 (totalW (aggPy var weight rs)) (aggPy var weight rs) ≠ [] := by
    rw [positions_eq]; simpa using hne
  have hpy : pyQuantile var weight (quantilePoint var weight rs x) rs = some x := by
    have := interp_at_knot _ hi (quantilePoint var weight rs x, x) (by
      rw [positions_eq]; exact List.mem_map.2 ⟨x, (valuesAsc_mem var rs x).2 hx, rfl⟩)
    exact this
  refine ⟨hpy, ?_⟩
  obtain ⟨_, h2, _⟩ := sqlSum_none (quantilePoint var weight rs x) _ hK hi
  have hin : quantilePoint var weight rs x
      ∈ interior (positions 0 (totalW (aggPy var weight rs)) (aggPy var weight rs)) := by
    rw [positions_eq, interior_iff var weight hinj]
    exact ⟨y, x, z, hy, hx, hz, hyx, hxz, rfl⟩
  rw [sql_eq_sum var weight hpos hne, ← h2 hin]
  have : interp (quantilePoint var weight rs x)
    (positions 0 (totalW (aggPy var weight rs)) (aggPy var weight rs)) = some x := hpy
  rw [this]; rfl

/-- **C15 violated**, in general: the median of a slice whose rows all have the value `x` is
`x` in Python and 0 in the query. -/
theorem C15_single_value_violation (rs : List Row) (hpos : PositiveWeights var weight rs) (x : Rat)
    (hx : Occurs var rs x) (hall : ∀ y, Occurs var rs y → y = x) :
    pyQuantile var weight (1 / 2) rs = some x ∧ sqlQuantile var weight (1 / 2) rs = some 0 := by
  have hne := values_ne_nil var hx
  have hi := knots_increasing var weight rs hpos hne
  have hL : valuesAsc var rs = [x] := by
    have hs := valuesAsc_sorted var rs
    have hm := valuesAsc_mem var rs
    cases h : valuesAsc var rs with
    | nil => exact absurd h hne
    | cons a L =>
      have ha : a = x := hall a ((hm a).1 (by simp [h]))
      cases L with
      | nil => rw [ha]
      | cons b L =>
        have hb : b = x := hall b ((hm b).1 (by simp [h]))
        rw [h] at hs
        have := (List.pairwise_cons.1 hs).1 b (by simp)
        rw [ha, hb] at this; exact absurd this (lt_irrefl _)
  have hK : positions 0 (totalW (aggPy var weight rs)) (aggPy var weight rs) = [(1 / 2, x)] := by
    rw [positions_eq, hL]; simp [quantilePoint_single var weight hpos x hL]
  constructor
  · unfold pyQuantile; simp only [hK]; rfl
  · rw [sql_eq_sum var weight hpos hne, hK]
    rw [(sqlSum_none (1 / 2) [(1 / 2, x)] (by simp) (List.pairwise_singleton _ _)).2.2 x rfl]

/-- Three values with weight 1 each. -/
def qRows : List Row :=
  [mkRow [("x", 3), ("w", 1)], mkRow [("x", 1), ("w", 1)], mkRow [("x", 2), ("w", 1)]]

theorem qRows_pos : PositiveWeights "x" "w" qRows := by
  intro r hr _
  simp only [qRows, List.mem_cons, List.not_mem_nil, or_false] at hr
  rcases hr with rfl | rfl | rfl <;> exact ⟨1, by decide +kernel, by decide⟩

/-- The hypotheses of the theorems are met: the first quartile of 1, 2, 3 agrees,
the median does not. -/
example : pyQuantile "x" "w" (1/4) qRows = some (5/4) ∧ sqlQuantile "x" "w" (1/4) qRows = some (5/4) ∧
    pyQuantile "x" "w" (1/2) qRows = some 2 ∧ sqlQuantile "x" "w" (1/2) qRows = some 4 ∧
    PositiveWeights "x" "w" qRows ∧ quantilePoint "x" "w" qRows 2 = 1 / 2 := by
  refine ⟨by decide +kernel, by decide +kernel, by decide +kernel, by decide +kernel, qRows_pos,
    by decide +kernel⟩

/-- **C15 violated** A missing weight: Python keeps the value with weight zero although the
documentation says such rows are dropped, the query drops them. -/
theorem C15_missing_weight_violation :
    let rs : List Row := [mkRow [("x", 0), ("w", 1)], mkRow [("x", 10)], mkRow [("x", 12), ("w", 1)]]
    pyQuantile "x" "w" (1/2) rs = some 10 ∧ sqlQuantile "x" "w" (1/2) rs = some 6 := by
  constructor <;> decide +kernel

/-! ## C16 -/

/-- **C16** The weighted quantile of a slice with positive weights lies between any bounds of the
slice's values. -/
theorem C16_bounded (q : Rat) (rs : List Row) (hpos : PositiveWeights var weight rs)
    (hsome : ∃ x, Occurs var rs x) (lo hi : Rat)
    (hb : ∀ x, Occurs var rs x → lo ≤ x ∧ x ≤ hi) :
    ∃ y, pyQuantile var weight q rs = some y ∧ lo ≤ y ∧ y ≤ hi := by
  obtain ⟨x0, hx0⟩ := hsome
  have hne := values_ne_nil var hx0
  have hinc := knots_increasing var weight rs hpos hne
  apply interp_bounds lo hi q _ (by rw [positions_eq]; simpa using hne) hinc
  intro p hp
  rw [positions_eq] at hp
  obtain ⟨x, hx, rfl⟩ := List.mem_map.1 hp
  exact hb x ((valuesAsc_mem var rs x).1 hx)

/-- **C16** The weighted quantile does not decrease when `q` grows. -/
theorem C16_monotone (q q' : Rat) (hq : q ≤ q') (rs : List Row)
    (hpos : PositiveWeights var weight rs) (y y' : Rat)
    (h : pyQuantile var weight q rs = some y) (h' : pyQuantile var weight q' rs = some y') :
    y ≤ y' := by
  by_cases hne : valuesAsc var rs = []
  · unfold pyQuantile at h
    simp only [positions_eq, hne, List.map_nil, interp] at h
    cases h
  · refine interp_mono hq _ (knots_increasing var weight rs hpos hne) ?_ y y' h h'
    rw [positions_eq, List.pairwise_map]
    exact (valuesAsc_sorted var rs).imp le_of_lt

/-- **C16** The bounds are reached: `q = 0` gives the smallest value and `q = 1` the largest. -/
theorem C16_ends (rs : List Row) (hpos : PositiveWeights var weight rs) (lo hi : Rat)
    (hlo : Occurs var rs lo) (hhi : Occurs var rs hi)
    (hb : ∀ x, Occurs var rs x → lo ≤ x ∧ x ≤ hi) :
    pyQuantile var weight 0 rs = some lo ∧ pyQuantile var weight 1 rs = some hi := by
  have hne := values_ne_nil var hlo
  have hinc := knots_increasing var weight rs hpos hne
  have hall : ∀ p ∈ aggPy var weight rs, 0 < p.2 := by
    intro p hp
    unfold aggPy at hp
    obtain ⟨x, hx, rfl⟩ := List.mem_map.1 hp
    exact weightsOf_pos var weight rs hpos x hx
  have hT : 0 < totalW (aggPy var weight rs) := by
    unfold totalW
    apply List.sum_pos
    · intro w hw
      obtain ⟨p, hp, rfl⟩ := List.mem_map.1 hw
      exact hall p hp
    · intro h0
      apply hne
      exact List.map_eq_nil_iff.1 (List.map_eq_nil_iff.1 h0)
  -- all knots lie strictly between 0 and 1
  have hup : ∀ (a : List (Rat × Rat)) (c T : Rat), 0 < T → (∀ p ∈ a, 0 < p.2) →
      c + totalW a ≤ T → ∀ p ∈ positions c T a, p.1 < 1 := by
    intro a
    induction a with
    | nil => intro c T _ _ _ p hp; simp [positions] at hp
    | cons b t ih =>
      obtain ⟨x, w⟩ := b
      intro c T hT hw hc p hp
      have hw0 : 0 < w := hw (x, w) (by simp)
      have htot : totalW ((x, w) :: t) = w + totalW t := by simp [totalW]
      have htn : 0 ≤ totalW t := by
        unfold totalW
        apply List.sum_nonneg
        intro z hz
        obtain ⟨p, hp, rfl⟩ := List.mem_map.1 hz
        exact (hw p (List.mem_cons_of_mem _ hp)).le
      rw [positions] at hp
      rcases List.mem_cons.1 hp with rfl | hp
      · simp only
        rw [div_lt_one hT]; linarith
      · exact ih (c + w) T hT (fun p hp => hw p (List.mem_cons_of_mem _ hp)) (by linarith) p hp
  have hpos0 := (positions_increasing _ hT (aggPy var weight rs) 0 hall).2
  have hlt1 := hup (aggPy var weight rs) 0 _ hT hall (by simp)
  rw [positions_eq] at hpos0 hlt1 hinc
  unfold pyQuantile
  simp only [positions_eq]
  have hm := valuesAsc_mem var rs
  have hsort := valuesAsc_sorted var rs
  constructor
  · cases hL : valuesAsc var rs with
    | nil => exact absurd hL hne
    | cons a L =>
      rw [hL] at hsort hpos0
      have ha : a = lo := by
        have h1 := (hb a ((hm a).1 (by simp [hL]))).1
        have h2 := (hm lo).2 hlo
        rw [hL] at h2
        rcases List.mem_cons.1 h2 with h | h
        · exact h.symm
        · exact absurd ((List.pairwise_cons.1 hsort).1 lo h) (not_lt.2 h1)
      have h0 := hpos0 (quantilePoint var weight rs a, a) (by simp)
      simp only [zero_div] at h0
      cases L with
      | nil => simp [interp, ha]
      | cons b L => rw [List.map_cons, List.map_cons, interp, if_pos h0.le, ha]
  · have hlast : ∀ (K : Knots) (hK : K ≠ []), (∀ p ∈ K, p.1 < 1) → Increasing K →
        interp 1 K = some (K.getLast hK).2 := by
      intro K
      induction K with
      | nil => intro h; exact absurd rfl h
      | cons a t ih =>
        intro _ hlt hi
        cases t with
        | nil => rfl
        | cons b t =>
          obtain ⟨x0, v0⟩ := a
          obtain ⟨x1, v1⟩ := b
          rw [interp, if_neg (not_le.2 (hlt (x0, v0) (by simp))),
            if_neg (not_lt.2 (hlt (x1, v1) (by simp)).le)]
          rw [ih (by simp) (fun p hp => hlt p (List.mem_cons_of_mem _ hp)) (List.pairwise_cons.1 hi).2]
          simp
    rw [hlast _ (by simpa using hne) hlt1 hinc, List.getLast_map]
    congr 1
    have h1 := (hb _ ((hm _).1 (List.getLast_mem hne))).2
    have h2 := (hm hi).2 hhi
    by_contra hcon
    have hlt : (valuesAsc var rs).getLast hne < hi := lt_of_le_of_ne h1 hcon
    rw [← List.dropLast_append_getLast hne] at h2 hsort
    rw [List.pairwise_append] at hsort
    rcases List.mem_append.1 h2 with h | h
    · exact absurd (hsort.2.2 hi h _ (by simp)) (not_lt.2 hlt.le)
    · simp only [List.mem_singleton] at h
      exact absurd hlt (by rw [← h]; exact lt_irrefl _)

/-- Hypotheses met by `qRows`; quantiles 0, 1/4, 1/2, 1. -/
example : [0, 1/4, 1/2, 1].map (fun q => pyQuantile "x" "w" q qRows)
    = [some 1, some (5/4), some 2, some 3] := by decide +kernel

end Verif
