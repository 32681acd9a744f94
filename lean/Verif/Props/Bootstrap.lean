import Verif.Lemmas.Draws
import Verif.Lemmas.PoissonMoments
import Verif.Props.Resample
import Verif.Props.StdErr

/-!
# C105: bootstrapping sums and counts is unbiased

/repo/operations.py:2662-2691, 1827-1830. The draws of pandas are independent and uniform; expected values are averages over all of
them (`Spec/Draws`).
-/

namespace Verif

/-- The metric of some rows alone; sums and counts are never missing. -/
noncomputable def valueOf {U O C F : Type} (L : BLeaf C F) (rows : List (JRow Unit U O C F ℝ)) : ℝ := (L.agg rows).getD 0

section
variable {U O C F : Type} [DecidableEq U]

/-- What one row contributes. -/
private noncomputable def contrib (L : BLeaf C F) (r : JRow Unit U O C F ℝ) : ℝ :=
  if r.pass L.flt then (match r.col L.col with | none => 0 | some v => if L.kind = .sum then v else 1) else 0

private theorem agg_contrib (L : BLeaf C F) (hk : L.kind = .sum ∨ L.kind = .count) (rows : List (JRow Unit U O C F ℝ)) :
    L.agg rows = some (rows.map (contrib L)).sum := by
  have hs : ∀ rows : List (JRow Unit U O C F ℝ), L.kind = .sum →
      ((rows.filter fun r => r.pass L.flt).filterMap fun r => r.col L.col).sum = (rows.map (contrib L)).sum := by
    intro rows hk
    induction rows with
    | nil => rfl
    | cons r rows ih =>
      by_cases hp : r.pass L.flt
      · cases hc : r.col L.col with
        | none => simp [hp, hc, contrib, ih]
        | some v => simp [hp, hc, contrib, ih, hk]
      · simp [hp, contrib, ih]
  have hc : ∀ rows : List (JRow Unit U O C F ℝ), L.kind = .count →
      ((((rows.filter fun r => r.pass L.flt).filterMap fun r => r.col L.col).length : ℕ) : ℝ) = (rows.map (contrib L)).sum := by
    intro rows hk
    induction rows with
    | nil => simp
    | cons r rows ih =>
      by_cases hp : r.pass L.flt
      · cases hc : r.col L.col with
        | none => simp [hp, hc, contrib, ih]
        | some v => simp [hp, hc, contrib, ih, hk]; ring
      · simp [hp, contrib, ih]
  unfold BLeaf.agg
  rcases hk with h | h
  · simp only [h]; rw [hs rows h]
  · simp only [h]; rw [hc rows h]

private theorem valueOf_contrib (L : BLeaf C F) (hk : L.kind = .sum ∨ L.kind = .count) (rows : List (JRow Unit U O C F ℝ)) :
    valueOf L rows = (rows.map (contrib L)).sum := by
  unfold valueOf
  rw [agg_contrib L hk]; rfl

private theorem sample_value (L : BLeaf C F) (hk : L.kind = .sum ∨ L.kind = .count) (t : List (JRow Unit U O C F ℝ)) (draws : List U) :
    bsScalar L t draws = some (draws.map fun u => valueOf L (t.filter fun r => decide (r.u = u))).sum := by
  unfold bsScalar bsSample
  rw [agg_contrib L hk, sum_flatMap_filter]
  simp only [valueOf_contrib L hk]

private theorem point_value (L : BLeaf C F) (hk : L.kind = .sum ∨ L.kind = .count) (t : List (JRow Unit U O C F ℝ)) :
    L.agg t = some ((t.map (·.u)).dedup.map fun u => valueOf L (t.filter fun r => decide (r.u = u))).sum := by
  rw [agg_contrib L hk]
  simp only [valueOf_contrib L hk]
  have := sum_groups_total (fun r : JRow Unit U O C F ℝ => r.u) (contrib L) t fun _ => true
  simpa using this.symm

end

/-- Sums of values drawn out of `x`. -/
private theorem moments {n : ℕ} (x : Fin n → ℝ) (hpos : 0 < n) :
    average (fun d : Fin n → Fin n => ∑ i, x (d i)) = ∑ i, x i ∧
      average (fun d : Fin n → Fin n => (∑ i, x (d i) - ∑ i, x i) ^ 2) = spread (List.ofFn x) := by
  haveI : Nonempty (Fin n) := ⟨⟨0, hpos⟩⟩
  have hn : (n : ℝ) ≠ 0 := by exact_mod_cast hpos.ne'
  have ha : (n : ℝ) * average x = ∑ i, x i := by
    unfold average
    rw [Fintype.card_fin]
    field_simp
  have h2 := average_square x n
  rw [ha] at h2
  refine ⟨by rw [average_sum x n, ha], ?_⟩
  rw [h2]
  have hm : average x = (∑ i, x i) / n := by rw [← ha]; field_simp
  rw [hm]
  unfold average spread
  rw [Fintype.card_fin, List.map_ofFn, List.sum_ofFn, List.sum_ofFn, List.length_ofFn]
  simp only [Function.comp_def]
  field_simp

/-- The squared standard error of `m` replicates, on average. -/
private theorem stderr_moment {α : Type} [Fintype α] [Nonempty α] (T : α → ℝ) (m : ℕ) (hm : 2 ≤ m) :
    ∃ se : (Fin m → α) → ℝ, (∀ ds, bsStderr (List.ofFn fun i => some (T (ds i))) = (some (se ds), (m : ℤ) - 1)) ∧
      average (fun ds => se ds ^ 2) = average fun x => (T x - average T) ^ 2 := by
  have h1 : (0 : ℝ) < (m : ℝ) - 1 := by
    have : (2 : ℝ) ≤ m := by exact_mod_cast hm
    linarith
  refine ⟨fun ds => Real.sqrt (spread (List.ofFn fun i => T (ds i)) / ((m : ℝ) - 1)), ?_, ?_⟩
  · intro ds
    have e : (List.ofFn fun i => some (T (ds i))).filterMap id = List.ofFn fun i => T (ds i) := by
      have : (List.ofFn fun i => some (T (ds i))) = (List.ofFn fun i => T (ds i)).map some := by rw [List.map_ofFn]; rfl
      rw [this, List.filterMap_map]
      simp
    unfold bsStderr
    rw [e]
    simp only [List.length_ofFn]
    unfold stdSamp
    rw [List.length_ofFn, if_neg (by omega)]
    unfold spread
    rw [List.length_ofFn]
  · rw [← average_variance T m hm]
    congr 1
    funext ds
    rw [Real.sq_sqrt]
    apply div_nonneg _ h1.le
    unfold spread
    apply List.sum_nonneg
    intro x hx
    obtain ⟨y, _, rfl⟩ := List.mem_map.1 hx
    positivity

section
variable {U O C F : Type} [DecidableEq U]

/-- The metric of every unit's rows. -/
noncomputable def unitValues (L : BLeaf C F) (t : List (JRow Unit U O C F ℝ)) : List ℝ :=
  (t.map (·.u)).dedup.map fun u => valueOf L (t.filter fun r => decide (r.u = u))

private theorem map_ofFn_get {α β : Type} (f : α → β) (l : List α) : l.map f = List.ofFn fun i : Fin l.length => f (l.get i) := by
  apply List.ext_getElem <;> simp

private theorem units_pos {t : List (JRow Unit U O C F ℝ)} (hne : t ≠ []) : 0 < (t.map (·.u)).dedup.length := by
  rw [List.length_pos_iff]
  intro h
  cases t with
  | nil => exact hne rfl
  | cons r t =>
    have : r.u ∈ ((r :: t).map (·.u)).dedup := List.mem_dedup.2 (by simp)
    rw [h] at this
    cases this

/-- **C105.** In a slice with rows, a sum or count of a bootstrap sample by units (recomputed or on preaggregated data) is on average
over all draws the sum or count of the data, and its mean squared deviation from that is the spread of the units' values. -/
theorem C105_unbiased [DecidableEq O] (L : BLeaf C F) (hk : L.kind = .sum ∨ L.kind = .count) (t : List (JRow Unit U O C F ℝ))
    (hne : t ≠ []) :
    ∃ (p : ℝ) (rep : (Fin (t.map (·.u)).dedup.length → Fin (t.map (·.u)).dedup.length) → ℝ), L.agg t = some p ∧
      (∀ d, bsScalar L t (drawn (t.map (·.u)).dedup d) = some (rep d) ∧ bsPreScalar L t (drawn (t.map (·.u)).dedup d) = some (rep d)) ∧
      average rep = p ∧ average (fun d => (rep d - p) ^ 2) = spread (unitValues L t) := by
  let x : Fin (t.map (·.u)).dedup.length → ℝ := fun i =>
    valueOf L (t.filter fun r => decide (r.u = (t.map (·.u)).dedup.get i))
  have hu : unitValues L t = List.ofFn x := map_ofFn_get _ _
  have hrep : ∀ d, bsScalar L t (drawn (t.map (·.u)).dedup d) = some (∑ i, x (d i)) := by
    intro d
    rw [sample_value L hk, drawn, List.map_ofFn, List.sum_ofFn]
    rfl
  have hm := moments x (units_pos hne)
  refine ⟨∑ i, x i, fun d => ∑ i, x (d i), ?_, fun d => ⟨hrep d, (C41_scalar_general L t _).trans (hrep d)⟩, hm.1, ?_⟩
  · rw [point_value L hk, ← List.sum_ofFn]
    exact congrArg (fun l => some (List.sum l)) hu
  · rw [hu]; exact hm.2

/-- **C105.** The squared standard error of `m ≥ 2` bootstrap replicates of a sum or count is on average, over all draws of all
replicates, the spread of the units' values: the number of replicates and the missing of some units in a sample do not bias it. -/
theorem C105_stderr [DecidableEq O] (L : BLeaf C F) (hk : L.kind = .sum ∨ L.kind = .count) (t : List (JRow Unit U O C F ℝ))
    (hne : t ≠ []) (m : ℕ) (hm : 2 ≤ m) :
    ∃ se : (Fin m → Fin (t.map (·.u)).dedup.length → Fin (t.map (·.u)).dedup.length) → ℝ,
      (∀ ds, bsStderr (List.ofFn fun i => bsScalar L t (drawn (t.map (·.u)).dedup (ds i))) = (some (se ds), (m : ℤ) - 1)) ∧
      average (fun ds => se ds ^ 2) = spread (unitValues L t) := by
  obtain ⟨p, rep, _, hrep, hp, hv⟩ := C105_unbiased L hk t hne
  haveI : Nonempty (Fin (t.map (·.u)).dedup.length) := ⟨⟨0, units_pos hne⟩⟩
  obtain ⟨se, h1, h2⟩ := stderr_moment rep m hm
  refine ⟨se, fun ds => ?_, ?_⟩
  · rw [← h1 ds]
    congr 2
    funext i
    exact (hrep (ds i)).1
  · rw [h2, hp, hv]

/-- The metric of every row. -/
noncomputable def valuesByRow (L : BLeaf C F) (t : List (JRow Unit U O C F ℝ)) : List ℝ := t.map fun r => valueOf L [r]

/-- **C105.** Without a unit rows are drawn: the same with rows for units. -/
theorem C105_rows (L : BLeaf C F) (hk : L.kind = .sum ∨ L.kind = .count) (t : List (JRow Unit U O C F ℝ)) (hne : t ≠ []) :
    ∃ (p : ℝ) (rep : (Fin t.length → Fin t.length) → ℝ), L.agg t = some p ∧
      (∀ d, L.agg (bsByRow t (List.ofFn d)) = some (rep d)) ∧
      average rep = p ∧ average (fun d => (rep d - p) ^ 2) = spread (valuesByRow L t) ∧
      ∀ m, 2 ≤ m → ∃ se : (Fin m → Fin t.length → Fin t.length) → ℝ,
        (∀ ds, bsStderr (List.ofFn fun i => L.agg (bsByRow t (List.ofFn (ds i)))) = (some (se ds), (m : ℤ) - 1)) ∧
        average (fun ds => se ds ^ 2) = spread (valuesByRow L t) := by
  let x : Fin t.length → ℝ := fun i => valueOf L [t.get i]
  have hx : ∀ r : JRow Unit U O C F ℝ, valueOf L [r] = contrib L r := by intro r; rw [valueOf_contrib L hk]; simp
  have hu : valuesByRow L t = List.ofFn x := map_ofFn_get _ _
  have hpos : 0 < t.length := List.length_pos_iff.2 hne
  haveI : Nonempty (Fin t.length) := ⟨⟨0, hpos⟩⟩
  have hrep : ∀ d : Fin t.length → Fin t.length, L.agg (bsByRow t (List.ofFn d)) = some (∑ i, x (d i)) := by
    intro d
    rw [agg_contrib L hk, bsByRow, List.map_map, List.map_ofFn, List.sum_ofFn]
    simp only [x, hx]
    rfl
  have hm := moments x hpos
  have hp : L.agg t = some (∑ i, x i) := by
    rw [agg_contrib L hk, ← List.sum_ofFn]
    simp only [x, hx]
    rw [← map_ofFn_get]
  refine ⟨_, fun d => ∑ i, x (d i), hp, hrep, hm.1, by rw [hu]; exact hm.2, fun m hm2 => ?_⟩
  obtain ⟨se, h1, h2⟩ := stderr_moment (fun d : Fin t.length → Fin t.length => ∑ i, x (d i)) m hm2
  refine ⟨se, fun ds => ?_, ?_⟩
  · rw [← h1 ds]
    congr 2
    funext i
    exact hrep (ds i)
  · rw [h2, hm.1, hu, ← hm.2]

private theorem spread_loo (xs : List ℝ) (c : ℝ) : spread (xs.map fun x => c - x) = spread xs := by
  have hs : ∀ l : List ℝ, (l.map fun x => c - x).sum = l.length * c - l.sum := by
    intro l
    induction l with
    | nil => simp
    | cons x l ih => simp only [List.map_cons, List.sum_cons, ih, List.length_cons]; push_cast; ring
  unfold spread
  rw [List.map_map, List.length_map, hs]
  congr 1
  apply List.map_congr_left
  intro x hx
  have hn : (xs.length : ℝ) ≠ 0 := by
    have := List.length_pos_of_mem hx
    exact_mod_cast this.ne'
  simp only [Function.comp]
  field_simp
  ring

/-- **C105.** The squared jackknife standard error of a sum or count over `n ≥ 2` units is `(n - 1) / n` times that spread. -/
theorem C105_jackknife (L : BLeaf C F) (hk : L.kind = .sum ∨ L.kind = .count) (t : List (JRow Unit U O C F ℝ))
    (hn : 2 ≤ (t.map (·.u)).dedup.length) :
    ∃ s, (jkStderr ((t.map (·.u)).dedup.map fun u => L.agg (t.filter fun r => decide (r.u ≠ u)))).1 = some s ∧
      s ^ 2 = (((t.map (·.u)).dedup.length : ℝ) - 1) / (t.map (·.u)).dedup.length * spread (unitValues L t) := by
  have hloo : ((t.map (·.u)).dedup.map fun u => L.agg (t.filter fun r => decide (r.u ≠ u))) =
      ((unitValues L t).map fun x => (t.map (contrib L)).sum - x).map some := by
    unfold unitValues
    rw [List.map_map, List.map_map]
    apply List.map_congr_left
    intro u _
    simp only [Function.comp]
    rw [agg_contrib L hk, valueOf_contrib L hk]
    congr 1
    have split : ∀ l : List (JRow Unit U O C F ℝ), (l.map (contrib L)).sum =
        ((l.filter fun r => decide (r.u ≠ u)).map (contrib L)).sum + ((l.filter fun r => decide (r.u = u)).map (contrib L)).sum := by
      intro l
      induction l with
      | nil => simp
      | cons r l ih =>
        by_cases h : r.u = u
        · simp [h] at ih ⊢; rw [ih]; ring
        · simp [h] at ih ⊢; rw [ih]; ring
    rw [split t]; ring
  rw [C39_value, hloo]
  have e : (((unitValues L t).map fun x => (t.map (contrib L)).sum - x).map some).filterMap id =
      (unitValues L t).map fun x => (t.map (contrib L)).sum - x := by
    rw [List.filterMap_map]; simp
  rw [e]
  have hl : (unitValues L t).length = (t.map (·.u)).dedup.length := by unfold unitValues; rw [List.length_map]
  rw [if_pos (by rw [List.length_map, hl]; exact hn)]
  refine ⟨_, rfl, ?_⟩
  have hf : jackknifeSE ((unitValues L t).map fun x => (t.map (contrib L)).sum - x) =
      Real.sqrt ((((t.map (·.u)).dedup.length : ℝ) - 1) / (t.map (·.u)).dedup.length * spread (unitValues L t)) := by
    rw [← spread_loo (unitValues L t) (t.map (contrib L)).sum, ← hl]
    unfold jackknifeSE spread
    rw [List.length_map]
  rw [hf, Real.sq_sqrt]
  have h2 : (2 : ℝ) ≤ (t.map (·.u)).dedup.length := by exact_mod_cast hn
  apply mul_nonneg
  · apply div_nonneg <;> linarith
  · unfold spread
    apply List.sum_nonneg
    intro x hx
    obtain ⟨y, _, rfl⟩ := List.mem_map.1 hx
    positivity

/-- **C105.** If all units have the same value every bootstrap sample gives the point estimate, and only then. -/
theorem C105_exact [DecidableEq O] (L : BLeaf C F) (hk : L.kind = .sum ∨ L.kind = .count) (t : List (JRow Unit U O C F ℝ)) (hne : t ≠ []) :
    (∀ d, bsScalar L t (drawn (t.map (·.u)).dedup d) = L.agg t) ↔
      ∀ x ∈ unitValues L t, ∀ y ∈ unitValues L t, x = y := by
  let x : Fin (t.map (·.u)).dedup.length → ℝ := fun i =>
    valueOf L (t.filter fun r => decide (r.u = (t.map (·.u)).dedup.get i))
  have hu : unitValues L t = List.ofFn x := map_ofFn_get _ _
  have hrep : ∀ d, bsScalar L t (drawn (t.map (·.u)).dedup d) = some (∑ i, x (d i)) := by
    intro d
    rw [sample_value L hk, drawn, List.map_ofFn, List.sum_ofFn]
    rfl
  have hp : L.agg t = some (∑ i, x i) := by
    rw [point_value L hk, ← List.sum_ofFn]
    exact congrArg (fun l => some (List.sum l)) hu
  have hn : ((t.map (·.u)).dedup.length : ℝ) ≠ 0 := by exact_mod_cast (units_pos hne).ne'
  rw [hu, hp]
  constructor
  · intro h a ha b hb
    have e : ∀ i, ((t.map (·.u)).dedup.length : ℝ) * x i = ∑ j, x j := by
      intro i
      have := h fun _ => i
      rw [hrep, Option.some.injEq] at this
      simpa using this
    rw [List.mem_ofFn] at ha hb
    obtain ⟨i, rfl⟩ := ha
    obtain ⟨j, rfl⟩ := hb
    exact mul_left_cancel₀ hn ((e i).trans (e j).symm)
  · intro h d
    rw [hrep]
    congr 1
    exact Finset.sum_congr rfl fun i _ => h _ (List.mem_ofFn.2 ⟨d i, rfl⟩) _ (List.mem_ofFn.2 ⟨i, rfl⟩)

/-- The weight of a unit: that of its place in the list of units. -/
def weightOf (us : List U) (ω : Fin us.length → ℕ) (u : U) : ℕ :=
  if h : us.idxOf u < us.length then ω ⟨us.idxOf u, h⟩ else 0

open MeasureTheory ProbabilityTheory in
/-- **C105.** With independent Poisson weights of rate 1 a sum or count of a Poisson bootstrap sample has the sum or count of the data
as its expected value, and the sum of the squares of the units' values (not of their deviations) as its variance. -/
theorem C105_poisson [DecidableEq O] (L : BLeaf C F) (hk : L.kind = .sum ∨ L.kind = .count) (t : List (JRow Unit U O C F ℝ)) :
    ∃ (p : ℝ) (rep : (Fin (t.map (·.u)).dedup.length → ℕ) → ℝ), L.agg t = some p ∧
      (∀ ω, L.agg (poissonSample t (weightOf (t.map (·.u)).dedup ω)) = some (rep ω) ∧
        poissonPreScalar L t (weightOf (t.map (·.u)).dedup ω) = some (rep ω)) ∧
      ∫ ω, rep ω ∂(poisWeights (t.map (·.u)).dedup.length) = p ∧
      Var[rep; poisWeights (t.map (·.u)).dedup.length] = ((unitValues L t).map fun x => x ^ 2).sum := by
  let x : Fin (t.map (·.u)).dedup.length → ℝ := fun i =>
    valueOf L (t.filter fun r => decide (r.u = (t.map (·.u)).dedup.get i))
  have hu : unitValues L t = List.ofFn x := map_ofFn_get _ _
  have hw : ∀ (ω : Fin (t.map (·.u)).dedup.length → ℕ) i, weightOf (t.map (·.u)).dedup ω ((t.map (·.u)).dedup.get i) = ω i := by
    intro ω i
    unfold weightOf
    have : (t.map (·.u)).dedup.idxOf ((t.map (·.u)).dedup.get i) = i := by
      simpa using (List.nodup_dedup (t.map (·.u))).idxOf_getElem i.1 i.2
    rw [dif_pos (by rw [this]; exact i.2)]
    congr 1
    exact Fin.ext this
  have hrepl : ∀ (k : ℕ) (l : List (JRow Unit U O C F ℝ)), (((List.replicate k l).flatten).map (contrib L)).sum = (l.map (contrib L)).sum * k := by
    intro k l
    induction k with
    | zero => simp
    | succ k ih => rw [List.replicate_succ, List.flatten_cons, List.map_append, List.sum_append, ih]; push_cast; ring
  have hrep : ∀ ω, L.agg (poissonSample t (weightOf (t.map (·.u)).dedup ω)) = some (∑ i, x i * (ω i : ℝ)) := by
    intro ω
    rw [agg_contrib L hk, poissonSample, sum_flatMap_filter, map_ofFn_get _ (t.map (·.u)).dedup, List.sum_ofFn]
    congr 1
    apply Finset.sum_congr rfl
    intro i _
    rw [hrepl, hw]
    simp only [x, valueOf_contrib L hk]
  have hp : L.agg t = some (∑ i, x i) := by
    rw [point_value L hk, ← List.sum_ofFn]
    exact congrArg (fun l => some (List.sum l)) hu
  refine ⟨_, _, hp, fun ω => ⟨hrep ω, (C41_poisson L t _).trans (hrep ω)⟩, pois_sum_mean x, ?_⟩
  rw [pois_sum_variance, hu, List.map_ofFn, List.sum_ofFn]
  rfl

end

/-- The data of the example: two units, the second with two rows of which one is missing. -/
private def exBoot : List (JRow Unit ℕ Unit Unit Unit ℝ) :=
  [⟨(), 0, (), fun _ => some 1, fun _ => true⟩, ⟨(), 1, (), fun _ => some 3, fun _ => true⟩,
    ⟨(), 1, (), fun _ => none, fun _ => true⟩]

/-- Its units have the values 1 and 3, whose spread is 2. -/
example : exBoot ≠ [] ∧ 2 ≤ (exBoot.map (·.u)).dedup.length ∧ spread (unitValues ⟨.sum, (), ()⟩ exBoot) = 2 := by
  refine ⟨by simp [exBoot], by simp [exBoot], ?_⟩
  have h : unitValues ⟨.sum, (), ()⟩ exBoot = [1, 3] := by
    simp [unitValues, exBoot, valueOf, BLeaf.agg]
  rw [h]
  norm_num [spread]

end Verif
