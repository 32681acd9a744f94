import Verif.Lemmas.Resample

/-!
# C40 and C41: batches of resamples; resampling preaggregated units
-/

namespace Verif

/-! ## C40 -/

theorem flatten_slices {U : Type} (bs : Nat) (hb : 0 < bs) (n : Nat) (l : List U) :
    ((List.range n).map fun i => (l.drop (i * bs)).take bs).flatten = l.take (n * bs) := by
  induction n with
  | zero => simp
  | succ n ih =>
    rw [List.range_succ, List.map_append, List.flatten_append, ih]
    simp only [List.map_cons, List.map_nil, List.flatten_cons, List.flatten_nil, List.append_nil]
    rw [Nat.succ_mul, List.take_add]

/-- The batches of units, one after the other, are the units: each is left out exactly once, in order. No batch is larger
than allowed or empty. -/
theorem C40_jackknife {U : Type} (units : List U) (bs : Nat) (hb : 0 < bs) :
    (jkBatches units bs).flatten = units ∧ ∀ b ∈ jkBatches units bs, b.length ≤ bs ∧ b ≠ [] := by
  have hw : ∀ i, (i + 1) * bs - i * bs = bs := by intro i; rw [Nat.succ_mul]; omega
  constructor
  · unfold jkBatches
    simp only [hw]
    rw [flatten_slices bs hb, List.take_of_length_le]
    have := Nat.div_add_mod (units.length + bs - 1) bs
    have hm := Nat.mod_lt (units.length + bs - 1) hb
    rw [Nat.mul_comm]
    omega
  · intro b hmem
    unfold jkBatches at hmem
    simp only [hw] at hmem
    obtain ⟨i, hi, rfl⟩ := List.mem_map.1 hmem
    constructor
    · exact List.length_take_le _ _
    · intro hnil
      have hlen : ((units.drop (i * bs)).take bs).length = 0 := by rw [hnil]; rfl
      rw [List.length_take, List.length_drop] at hlen
      rw [List.mem_range] at hi
      have h1 : i + 1 ≤ (units.length + bs - 1) / bs := hi
      have h2 : (i + 1) * bs ≤ units.length + bs - 1 := (Nat.le_div_iff_mul_le hb).1 h1
      rw [Nat.succ_mul] at h2
      omega

/-- The batches of replicates add up to the number asked for. No batch is larger than allowed or empty. -/
theorem C40_bootstrap (n bs : Nat) (hb : 0 < bs) :
    (bsBatches n bs).sum = n ∧ (∀ b ∈ bsBatches n bs, b ≤ bs ∧ 0 < b) ∧
    ((bsBatches n bs).flatMap replicateIdx).length = n := by
  have hsum : (bsBatches n bs).sum = n := by
    unfold bsBatches
    rw [List.sum_append, List.sum_replicate, smul_eq_mul]
    have := Nat.div_add_mod n bs
    rw [Nat.mul_comm] at this
    split
    · next h => rw [List.sum_nil]; omega
    · rw [List.sum_cons, List.sum_nil]; omega
  refine ⟨hsum, ?_, ?_⟩
  · intro b hmem
    unfold bsBatches at hmem
    rw [List.mem_append] at hmem
    rcases hmem with h | h
    · rw [List.eq_of_mem_replicate h]; exact ⟨le_refl _, hb⟩
    · split at h
      · cases h
      · next hne =>
        rw [List.mem_singleton] at h
        subst h
        exact ⟨(Nat.mod_lt _ hb).le, Nat.pos_of_ne_zero hne⟩
  · rw [List.length_flatMap]
    have : (fun a => (replicateIdx a).length) = id := by funext a; simp [replicateIdx]
    rw [this, List.map_id, hsum]

example : jkBatches ["a", "b", "c", "d", "e"] 2 = [["a", "b"], ["c", "d"], ["e"]] := by decide +kernel
example : bsBatches 2500 1000 = [1000, 1000, 500] ∧ bsBatches 2000 1000 = [1000, 1000] ∧ bsBatches 0 1000 = [] := by
  decide +kernel

/-! ## C41 -/

theorem sum_groups_total {ρ κ M : Type} [DecidableEq κ] [AddCommMonoid M] (key : ρ → κ) (w : ρ → M) (rows : List ρ)
    (p : κ → Bool) :
    (((rows.map key).dedup.filter p).map fun k => ((rows.filter fun r => decide (key r = k)).map w).sum).sum
      = ((rows.filter fun r => p (key r)).map w).sum := by
  rw [sum_over_groups key w _ ((List.nodup_dedup _).filter _)]
  congr 2
  apply List.filter_congr
  intro r hr
  rw [Bool.eq_iff_iff, decide_eq_true_eq, List.mem_filter, List.mem_dedup]
  exact ⟨fun h => h.2, fun h => ⟨List.mem_map.2 ⟨r, hr, rfl⟩, h⟩⟩

theorem sum_map_nsmul' {ρ M : Type} [AddCommMonoid M] (n : Nat) (w : ρ → M) (l : List ρ) :
    (l.map fun r => n • w r).sum = n • (l.map w).sum := by
  induction l with
  | nil => simp
  | cons a l ih => simp [ih, nsmul_add]

section
variable {U O C F K : Type} [DecidableEq U] [DecidableEq O] [Field K] [LinearOrder K]

/-- What a preaggregated cell stands for. -/
theorem preagg_cell (L : BLeaf C F) (A : AsSum L U O K) (t : List (JRow Unit U O C F K)) (k : U × O) :
    letI := A.inst
    A.enc (((aggBy (fun r : JRow Unit U O C F K => (r.u, r.o)) L.agg (t.filter fun r => r.pass L.flt)).lookup k).getD none)
      = ((t.filter fun r => decide ((r.u, r.o) = k)).map fun r => if r.pass L.flt then A.c r else 0).sum := by
  letI := A.inst
  have key : ∀ rows : List (JRow Unit U O C F K),
      (((rows.filter fun r => r.pass L.flt).filter fun r => decide ((r.u, r.o) = k)).map
        fun r => if r.pass L.flt then A.c r else 0).sum
        = ((rows.filter fun r => decide ((r.u, r.o) = k)).map fun r => if r.pass L.flt then A.c r else 0).sum := by
    intro rows
    induction rows with
    | nil => rfl
    | cons r rows ih =>
      by_cases hp : r.pass L.flt = true
      · by_cases hk : (r.u, r.o) = k <;> simp [List.filter_cons, hp, hk] at ih ⊢ <;> first | exact ih | rw [ih]
      · by_cases hk : (r.u, r.o) = k <;> simp [List.filter_cons, hp, hk] at ih ⊢ <;> exact ih
  rw [aggBy_lookup]
  split
  · rw [Option.getD_some, A.agg_eq, A.enc_dec, key]
  · next h =>
    rw [Option.getD_none, A.enc_none, ← key]
    have : ((t.filter fun r => r.pass L.flt).filter fun r => decide ((r.u, r.o) = k)) = [] := by
      rw [List.filter_eq_nil_iff]
      intro r hr hk
      exact h (List.mem_map.2 ⟨r, hr, by simpa using hk⟩)
    rw [this]; rfl

/-- Totals over preaggregated cells are totals over rows. -/
theorem preagg_sum (L : BLeaf C F) (A : AsSum L U O K) (t : List (JRow Unit U O C F K)) (p : U × O → Bool) :
    letI := A.inst
    (((preagg L t).filter fun b => p b.1).map fun b => A.enc b.2).sum
      = ((t.filter fun r => p (r.u, r.o)).map fun r => if r.pass L.flt then A.c r else 0).sum := by
  letI := A.inst
  have h1 : ((preagg L t).filter fun b => p b.1).map (fun b => A.enc b.2)
      = (((t.map fun r => (r.u, r.o)).dedup).filter p).map fun k =>
          ((t.filter fun r => decide ((r.u, r.o) = k)).map fun r => if r.pass L.flt then A.c r else 0).sum := by
    unfold preagg
    rw [List.filter_map, List.map_map]
    apply List.map_congr_left
    intro k _
    exact preagg_cell L A t k
  rw [h1, sum_groups_total (fun r : JRow Unit U O C F K => (r.u, r.o))]

/-- No unit and no level is lost by preaggregation, whatever the filter of the leaf. -/
theorem C41_same_units (L : BLeaf C F) (t : List (JRow Unit U O C F K)) (u : U) (o : O) :
    (∃ x, ((u, o), x) ∈ preagg L t) ↔ ∃ r ∈ t, r.u = u ∧ r.o = o := by
  unfold preagg
  simp only [List.mem_map, List.mem_dedup]
  constructor
  · rintro ⟨x, k, ⟨r, hr, rfl⟩, h⟩
    rw [Prod.mk.injEq, Prod.mk.injEq] at h
    exact ⟨r, hr, h.1.1, h.1.2⟩
  · rintro ⟨r, hr, rfl, rfl⟩
    exact ⟨_, (r.u, r.o), ⟨r, hr, rfl⟩, rfl⟩

/-- One preaggregated row per unit and level. -/
theorem C41_one_row (L : BLeaf C F) (t : List (JRow Unit U O C F K)) : ((preagg L t).map (·.1)).Nodup := by
  unfold preagg
  rw [List.map_map]
  show (((t.map fun r => (r.u, r.o)).dedup).map id).Nodup
  rw [List.map_id]
  exact List.nodup_dedup _

theorem sum_flatMap_filter {M ρ : Type} [AddCommMonoid M] (draws : List U) (f : U → List ρ) (w : ρ → M) :
    ((draws.flatMap f).map w).sum = (draws.map fun u => ((f u).map w).sum).sum := by
  induction draws with
  | nil => rfl
  | cons u draws ih => simp [List.flatMap_cons, ih]

/-- `Sum`, `Count`, `Max` and `Min` of a resample of preaggregated units are those of all the rows of the units drawn,
however often each was drawn. -/
theorem C41_scalar (L : BLeaf C F) (t : List (JRow Unit U O C F K)) (draws : List U) :
    bsPreScalar L t draws = L.agg (draws.flatMap fun u => t.filter fun r => decide (r.u = u)) := by
  obtain ⟨A⟩ := asSum (U := U) (O := O) (K := K) L
  letI := A.inst
  unfold bsPreScalar
  rw [A.pre_eq, A.agg_eq, List.map_map]
  congr 1
  rw [sum_flatMap_filter, sum_flatMap_filter]
  congr 1
  apply List.map_congr_left
  intro u _
  exact preagg_sum L A t fun k => decide (k.1 = u)

theorem C41_scalar_general (L : BLeaf C F) (t : List (JRow Unit U O C F K)) (draws : List U) :
    bsPreScalar L t draws = bsScalar L t draws := C41_scalar L t draws

theorem filter_flatMap {ρ : Type} (draws : List U) (f : U → List ρ) (p : ρ → Bool) :
    (draws.flatMap f).filter p = draws.flatMap fun u => (f u).filter p := by
  induction draws with
  | nil => rfl
  | cons u draws ih => simp [List.flatMap_cons, ih]

/-- By level: what the preaggregated resample has at a level is the metric on the drawn rows of that level, and it has
exactly the levels of the drawn rows. -/
theorem C41_levels (L : BLeaf C F) (t : List (JRow Unit U O C F K)) (draws : List U) (o : O) :
    (bsPre L t draws).lookup o
      = if ∃ r ∈ t, r.u ∈ draws ∧ r.o = o then
          some (L.agg ((draws.flatMap fun u => t.filter fun r => decide (r.u = u)).filter fun r => decide (r.o = o)))
        else none := by
  obtain ⟨A⟩ := asSum (U := U) (O := O) (K := K) L
  letI := A.inst
  unfold bsPre
  rw [aggBy_lookup]
  have hkey : o ∈ (draws.flatMap fun u => (preagg L t).filter fun p => decide (p.1.1 = u)).map (fun p => p.1.2)
      ↔ ∃ r ∈ t, r.u ∈ draws ∧ r.o = o := by
    simp only [List.mem_map, List.mem_flatMap, List.mem_filter, decide_eq_true_eq]
    constructor
    · rintro ⟨⟨⟨u, o'⟩, x⟩, ⟨u', hu', hp, hu⟩, ho⟩
      obtain ⟨r, hr, h1, h2⟩ := (C41_same_units L t u o').1 ⟨x, hp⟩
      dsimp only at hu ho
      exact ⟨r, hr, by rw [h1, hu]; exact hu', by rw [h2, ho]⟩
    · rintro ⟨r, hr, hu, rfl⟩
      obtain ⟨x, hx⟩ := (C41_same_units L t r.u r.o).2 ⟨r, hr, rfl, rfl⟩
      exact ⟨_, ⟨r.u, hu, hx, rfl⟩, rfl⟩
  by_cases h : ∃ r ∈ t, r.u ∈ draws ∧ r.o = o
  · rw [if_pos (hkey.2 h), if_pos h]
    congr 1
    rw [A.pre_eq, A.agg_eq, List.map_map]
    congr 1
    rw [filter_flatMap, filter_flatMap, sum_flatMap_filter, sum_flatMap_filter]
    congr 1
    apply List.map_congr_left
    intro u _
    have := preagg_sum L A t fun k => decide (k.2 = o) && decide (k.1 = u)
    rw [List.filter_filter, List.filter_filter]
    exact this
  · rw [if_neg (fun hm => h (hkey.1 hm)), if_neg h]

theorem mem_bsSample (t : List (JRow Unit U O C F K)) (draws : List U) (r : JRow Unit U O C F K) :
    r ∈ bsSample t draws ↔ r ∈ t ∧ r.u ∈ draws := by
  simp only [bsSample, List.mem_flatMap, List.mem_filter, decide_eq_true_eq]
  constructor
  · rintro ⟨u, hu, hr, rfl⟩; exact ⟨hr, hu⟩
  · rintro ⟨hr, hu⟩; exact ⟨r.u, hu, hr, rfl⟩

theorem agg_filter (L : BLeaf C F) (rows : List (JRow Unit U O C F K)) (p : JRow Unit U O C F K → Bool) :
    L.agg ((rows.filter fun r => r.pass L.flt).filter p) = L.agg (rows.filter p) := by
  unfold BLeaf.agg
  have : ((rows.filter fun r => r.pass L.flt).filter p).filter (fun r => r.pass L.flt)
      = (rows.filter p).filter fun r => r.pass L.flt := by
    rw [List.filter_filter, List.filter_filter, List.filter_filter]
    apply List.filter_congr
    intro r _
    cases r.pass L.flt <;> simp
  rw [this]

theorem bsGeneral_lookup (L : BLeaf C F) (t : List (JRow Unit U O C F K)) (draws : List U) (o : O) :
    (bsGeneral L t draws).lookup o
      = if ∃ r ∈ t, r.u ∈ draws ∧ r.o = o ∧ r.pass L.flt = true then
          some (L.agg ((bsSample t draws).filter fun r => decide (r.o = o)))
        else none := by
  unfold bsGeneral
  rw [aggBy_lookup, agg_filter]
  have hkey : o ∈ ((bsSample t draws).filter fun r => r.pass L.flt).map (fun r => r.o)
      ↔ ∃ r ∈ t, r.u ∈ draws ∧ r.o = o ∧ r.pass L.flt = true := by
    simp only [List.mem_map, List.mem_filter, mem_bsSample]
    constructor
    · rintro ⟨r, ⟨⟨h1, h2⟩, h3⟩, h4⟩; exact ⟨r, h1, h2, h4, h3⟩
    · rintro ⟨r, h1, h2, h4, h3⟩; exact ⟨r, ⟨⟨h1, h2⟩, h3⟩, h4⟩
  by_cases h : ∃ r ∈ t, r.u ∈ draws ∧ r.o = o ∧ r.pass L.flt = true
  · rw [if_pos (hkey.2 h), if_pos h]
  · rw [if_neg (fun hm => h (hkey.1 hm)), if_neg h]

/-- Wherever resampling rows gives a value, resampling preaggregated units gives the same. -/
theorem C41_levels_partial (L : BLeaf C F) (t : List (JRow Unit U O C F K)) (draws : List U) (o : O) (x : Option K)
    (h : (bsGeneral L t draws).lookup o = some x) : (bsPre L t draws).lookup o = some x := by
  rw [bsGeneral_lookup] at h
  split at h
  · next he =>
    obtain ⟨r, h1, h2, h3, _⟩ := he
    rw [C41_levels, if_pos ⟨r, h1, h2, h3⟩]
    exact h
  · cases h

/-- Without a filter that drops rows the two agree at every level. -/
theorem C41_levels_nofilter (L : BLeaf C F) (t : List (JRow Unit U O C F K)) (hf : ∀ r ∈ t, r.pass L.flt = true)
    (draws : List U) (o : O) : (bsPre L t draws).lookup o = (bsGeneral L t draws).lookup o := by
  rw [bsGeneral_lookup, C41_levels]
  have : (∃ r ∈ t, r.u ∈ draws ∧ r.o = o ∧ r.pass L.flt = true) ↔ ∃ r ∈ t, r.u ∈ draws ∧ r.o = o :=
    ⟨fun ⟨r, h1, h2, h3, _⟩ => ⟨r, h1, h2, h3⟩, fun ⟨r, h1, h2, h3⟩ => ⟨r, h1, h2, h3, hf r h1⟩⟩
  by_cases h : ∃ r ∈ t, r.u ∈ draws ∧ r.o = o
  · rw [if_pos h, if_pos (this.2 h)]; rfl
  · rw [if_neg h, if_neg (fun hm => h (this.1 hm))]

/-! ### Poisson -/

/-- The units of a Poisson sample, with multiplicity. -/
def poissonDraws (t : List (JRow Unit U O C F K)) (w : U → Nat) : List U :=
  (t.map (·.u)).dedup.flatMap fun u => List.replicate (w u) u

theorem poissonSample_eq (t : List (JRow Unit U O C F K)) (w : U → Nat) :
    poissonSample t w = bsSample t (poissonDraws t w) := by
  unfold poissonSample bsSample poissonDraws
  rw [List.flatMap_assoc]
  congr 1
  funext u
  rw [List.flatMap_replicate]

/-- A row occurs in a Poisson sample as often as the weight of its unit says. -/
theorem C41_poisson_rows [DecidableEq (JRow Unit U O C F K)] (t : List (JRow Unit U O C F K)) (w : U → Nat)
    (r : JRow Unit U O C F K) : (poissonSample t w).count r = w r.u * t.count r := by
  unfold poissonSample
  rw [List.count_flatMap]
  have h1 : ∀ u, (List.replicate (w u) (t.filter fun q => decide (q.u = u))).flatten.count r
      = if u = r.u then w u * t.count r else 0 := by
    intro u
    rw [List.count_flatten, List.map_replicate, List.sum_replicate, smul_eq_mul]
    split
    · next h =>
      subst h
      rw [List.count_filter]
      simp
    · next h =>
      rw [List.count_eq_zero.2, Nat.mul_zero]
      intro hm
      rw [List.mem_filter, decide_eq_true_eq] at hm
      exact h hm.2.symm
  have h2 : ((t.map (·.u)).dedup.map (List.count r ∘ fun u => (List.replicate (w u) (t.filter fun q => decide (q.u = u))).flatten))
      = (t.map (·.u)).dedup.map fun u => if u = r.u then w u * t.count r else 0 := by
    apply List.map_congr_left
    intro u _
    exact h1 u
  rw [h2]
  by_cases hm : r.u ∈ t.map (·.u)
  · have hn : ∀ l : List U, l.Nodup → r.u ∈ l → (l.map fun u => if u = r.u then w u * t.count r else 0).sum = w r.u * t.count r := by
      intro l
      induction l with
      | nil => intro _ h; cases h
      | cons a l ih =>
        intro hd ha
        rw [List.nodup_cons] at hd
        rw [List.map_cons, List.sum_cons]
        by_cases hau : a = r.u
        · subst hau
          rw [if_pos rfl]
          have : (l.map fun u => if u = r.u then w u * t.count r else 0).sum = 0 := by
            apply List.sum_eq_zero
            intro x hx
            obtain ⟨u, hu, rfl⟩ := List.mem_map.1 hx
            rw [if_neg]
            rintro rfl
            exact hd.1 hu
          rw [this, Nat.add_zero]
        · rw [if_neg hau, Nat.zero_add]
          exact ih hd.2 ((List.mem_cons.1 ha).resolve_left (fun h => hau h.symm))
    exact hn _ (List.nodup_dedup _) (List.mem_dedup.2 hm)
  · have hc : t.count r = 0 := List.count_eq_zero.2 fun h => hm (List.mem_map.2 ⟨r, h, rfl⟩)
    rw [hc]
    simp

theorem poissonPre_sum (L : BLeaf C F) (A : AsSum L U O K) (t : List (JRow Unit U O C F K)) (w : U → Nat) (p : O → Bool) :
    letI := A.inst
    (((poissonPre L t w).filter fun b => p b.1.2).map fun b => A.enc b.2).sum
      = ((((poissonSample t w).filter fun r => p r.o)).map fun r => if r.pass L.flt then A.c r else 0).sum := by
  letI := A.inst
  -- the left side, unit by unit
  have hl : (((poissonPre L t w).filter fun b => p b.1.2).map fun b => A.enc b.2).sum
      = (((preagg L t).filter fun b => p b.1.2).map fun b => w b.1.1 • A.enc b.2).sum := by
    unfold poissonPre
    rw [List.filter_map, List.map_map]
    induction preagg L t with
    | nil => rfl
    | cons b bs ih =>
      by_cases hw : 0 < w b.1.1
      · by_cases hp : p b.1.2 = true
        · have hs := A.scale_eq (w b.1.1) b.2 hw
          simp only [List.filter_cons, hw, hp, decide_true, if_true, Function.comp, List.map_cons, List.sum_cons] at ih ⊢
          rw [ih]
          congr 1
        · simp only [List.filter_cons, hw, hp, decide_true, if_true, Function.comp] at ih ⊢
          exact ih
      · have hz : w b.1.1 = 0 := Nat.eq_zero_of_not_pos hw
        by_cases hp : p b.1.2 = true
        · simp only [List.filter_cons, hw, hp, decide_false, if_true, List.map_cons, List.sum_cons, hz, zero_nsmul, zero_add] at ih ⊢
          exact ih
        · simp only [List.filter_cons, hw, hp, decide_false] at ih ⊢
          exact ih
  have h2 : (((preagg L t).filter fun b => p b.1.2).map fun b => w b.1.1 • A.enc b.2).sum
      = ((t.filter fun r => p r.o).map fun r => w r.u • (if r.pass L.flt then A.c r else 0)).sum := by
    have h1 : (((preagg L t).filter fun b => p b.1.2).map fun b => w b.1.1 • A.enc b.2)
        = (((t.map fun r => (r.u, r.o)).dedup).filter fun k => p k.2).map fun k =>
          ((t.filter fun r => decide ((r.u, r.o) = k)).map fun r => w r.u • (if r.pass L.flt then A.c r else 0)).sum := by
      unfold preagg
      rw [List.filter_map, List.map_map]
      apply List.map_congr_left
      intro k _
      show w k.1 • A.enc _ = _
      rw [preagg_cell L A t k, ← sum_map_nsmul']
      congr 1
      apply List.map_congr_left
      intro r hr
      rw [List.mem_filter, decide_eq_true_eq] at hr
      rw [← hr.2]
    rw [h1, sum_groups_total (fun r : JRow Unit U O C F K => (r.u, r.o))]
  rw [hl, h2]
  unfold poissonSample
  rw [filter_flatMap, sum_flatMap_filter]
  have h3 : ∀ u, (((List.replicate (w u) (t.filter fun r => decide (r.u = u))).flatten.filter fun r => p r.o).map
      fun r => if r.pass L.flt then A.c r else 0).sum
      = ((((t.filter fun r => p r.o)).filter fun r => decide (r.u = u)).map
          fun r => w r.u • (if r.pass L.flt then A.c r else 0)).sum := by
    intro u
    have hrep : ∀ n : Nat, (((List.replicate n (t.filter fun r => decide (r.u = u))).flatten.filter fun r => p r.o).map
        fun r => if r.pass L.flt then A.c r else 0).sum
        = n • ((((t.filter fun r => p r.o)).filter fun r => decide (r.u = u)).map
          fun r => if r.pass L.flt then A.c r else 0).sum := by
      intro n
      induction n with
      | zero => simp
      | succ n ih =>
        rw [List.replicate_succ, List.flatten_cons, List.filter_append, List.map_append, List.sum_append, ih, succ_nsmul']
        congr 3
        rw [List.filter_filter, List.filter_filter]
        apply List.filter_congr
        intro r _
        exact Bool.and_comm _ _
    rw [hrep, ← sum_map_nsmul']
    congr 1
    apply List.map_congr_left
    intro r hr
    rw [List.mem_filter, decide_eq_true_eq] at hr
    rw [hr.2]
  simp only [h3]
  rw [sum_over_groups (fun r : JRow Unit U O C F K => r.u) _ _ (List.nodup_dedup _)]
  congr 2
  symm
  rw [List.filter_eq_self]
  intro r hr
  rw [decide_eq_true_eq, List.mem_dedup]
  exact List.mem_map.2 ⟨r, List.mem_of_mem_filter hr, rfl⟩

/-- Multiplying preaggregated sums and counts by the weights, and dropping units of weight 0, gives `Sum`, `Count`, `Max`
and `Min` of the rows repeated by the weights. -/
theorem C41_poisson (L : BLeaf C F) (t : List (JRow Unit U O C F K)) (w : U → Nat) :
    poissonPreScalar L t w = L.agg (poissonSample t w) := by
  obtain ⟨A⟩ := asSum (U := U) (O := O) (K := K) L
  letI := A.inst
  unfold poissonPreScalar
  rw [A.pre_eq, A.agg_eq, List.map_map]
  have := poissonPre_sum L A t w fun _ => true
  simp only [List.filter_true] at this
  congr 1

/-- The same by level. -/
theorem C41_poisson_levels (L : BLeaf C F) (t : List (JRow Unit U O C F K)) (w : U → Nat) (o : O) :
    (poissonPreLevels L t w).lookup o
      = if ∃ r ∈ t, 0 < w r.u ∧ r.o = o then
          some (L.agg ((poissonSample t w).filter fun r => decide (r.o = o)))
        else none := by
  obtain ⟨A⟩ := asSum (U := U) (O := O) (K := K) L
  letI := A.inst
  unfold poissonPreLevels
  rw [aggBy_lookup]
  have hkey : o ∈ (poissonPre L t w).map (fun p => p.1.2) ↔ ∃ r ∈ t, 0 < w r.u ∧ r.o = o := by
    unfold poissonPre
    rw [List.map_map]
    simp only [List.mem_map, List.mem_filter, decide_eq_true_eq, Function.comp]
    constructor
    · rintro ⟨⟨⟨u, o'⟩, x⟩, ⟨hp, hw⟩, ho⟩
      obtain ⟨r, hr, h1, h2⟩ := (C41_same_units L t u o').1 ⟨x, hp⟩
      exact ⟨r, hr, by rw [h1]; exact hw, by rw [h2]; exact ho⟩
    · rintro ⟨r, hr, hw, rfl⟩
      obtain ⟨x, hx⟩ := (C41_same_units L t r.u r.o).2 ⟨r, hr, rfl, rfl⟩
      exact ⟨_, ⟨hx, hw⟩, rfl⟩
  by_cases h : ∃ r ∈ t, 0 < w r.u ∧ r.o = o
  · rw [if_pos (hkey.2 h), if_pos h]
    congr 1
    rw [A.pre_eq, A.agg_eq, List.map_map]
    congr 1
    exact poissonPre_sum L A t w fun o' => decide (o' = o)
  · rw [if_neg (fun hm => h (hkey.1 hm)), if_neg h]

theorem mem_poissonDraws (t : List (JRow Unit U O C F K)) (w : U → Nat) (u : U) :
    u ∈ poissonDraws t w ↔ (∃ r ∈ t, r.u = u) ∧ 0 < w u := by
  simp only [poissonDraws, List.mem_flatMap, List.mem_dedup, List.mem_map, List.mem_replicate]
  constructor
  · rintro ⟨v, ⟨r, hr, rfl⟩, hw, rfl⟩; exact ⟨⟨r, hr, rfl⟩, Nat.pos_of_ne_zero hw⟩
  · rintro ⟨⟨r, hr, rfl⟩, hw⟩; exact ⟨r.u, ⟨r, hr, rfl⟩, hw.ne', rfl⟩

/-- The leaf on a Poisson sample of rows has exactly the levels with a row that passes, of a unit of positive weight, and its value there
is the leaf on the rows of that level, each repeated by the weight of its unit. -/
theorem C41_poisson_general (L : BLeaf C F) (t : List (JRow Unit U O C F K)) (w : U → Nat) (o : O) :
    (poissonGeneral L t w).lookup o
      = if ∃ r ∈ t, 0 < w r.u ∧ r.o = o ∧ r.pass L.flt = true then
          some (L.agg ((poissonSample t w).filter fun r => decide (r.o = o)))
        else none := by
  have e : poissonGeneral L t w = bsGeneral L t (poissonDraws t w) := by
    unfold poissonGeneral bsGeneral; rw [poissonSample_eq]
  have hk : (∃ r ∈ t, r.u ∈ poissonDraws t w ∧ r.o = o ∧ r.pass L.flt = true) ↔
      ∃ r ∈ t, 0 < w r.u ∧ r.o = o ∧ r.pass L.flt = true := by
    constructor
    · rintro ⟨r, hr, h, h'⟩; exact ⟨r, hr, ((mem_poissonDraws t w _).1 h).2, h'⟩
    · rintro ⟨r, hr, h, h'⟩; exact ⟨r, hr, (mem_poissonDraws t w _).2 ⟨⟨r, hr, rfl⟩, h⟩, h'⟩
  rw [e, bsGeneral_lookup, poissonSample_eq]
  by_cases h : ∃ r ∈ t, 0 < w r.u ∧ r.o = o ∧ r.pass L.flt = true
  · rw [if_pos h, if_pos (hk.2 h)]
  · rw [if_neg h, if_neg fun h' => h (hk.1 h')]

/-- Wherever a Poisson sample of rows gives a value, the weighted preaggregated units give the same. -/
theorem C41_poisson_levels_partial (L : BLeaf C F) (t : List (JRow Unit U O C F K)) (w : U → Nat) (o : O) (x : Option K)
    (h : (poissonGeneral L t w).lookup o = some x) : (poissonPreLevels L t w).lookup o = some x := by
  rw [C41_poisson_general] at h
  split at h
  · next he =>
    obtain ⟨r, h1, h2, h3, _⟩ := he
    rw [C41_poisson_levels, if_pos ⟨r, h1, h2, h3⟩]
    exact h
  · cases h

/-- Without a filter that drops rows the two agree at every level. -/
theorem C41_poisson_levels_nofilter (L : BLeaf C F) (t : List (JRow Unit U O C F K)) (hf : ∀ r ∈ t, r.pass L.flt = true)
    (w : U → Nat) (o : O) : (poissonPreLevels L t w).lookup o = (poissonGeneral L t w).lookup o := by
  rw [C41_poisson_general, C41_poisson_levels]
  have : (∃ r ∈ t, 0 < w r.u ∧ r.o = o ∧ r.pass L.flt = true) ↔ ∃ r ∈ t, 0 < w r.u ∧ r.o = o :=
    ⟨fun ⟨r, h1, h2, h3, _⟩ => ⟨r, h1, h2, h3⟩, fun ⟨r, h1, h2, h3⟩ => ⟨r, h1, h2, h3, hf r h1⟩⟩
  by_cases h : ∃ r ∈ t, 0 < w r.u ∧ r.o = o
  · rw [if_pos h, if_pos (this.2 h)]
  · rw [if_neg h, if_neg (fun hm => h (this.1 hm))]

end

/-! ### Concrete cases -/

/-- Unit, level, value, filter. -/
def bRow (u o : Nat) (x : Option ℚ) (p : Bool) : JRow Unit Nat Nat Unit Unit ℚ := ⟨(), u, o, fun _ => x, fun _ => p⟩

def bDoc : List (JRow Unit Nat Nat Unit Unit ℚ) :=
  [bRow 1 0 (some 1) true, bRow 1 1 (some 2) true, bRow 2 0 (some 4) true, bRow 2 0 none true, bRow 3 1 (some 8) false]

example : bsPreScalar ⟨.sum, (), ()⟩ bDoc [1, 1, 2] = some 10 ∧ bsPreScalar ⟨.count, (), ()⟩ bDoc [1, 1, 2] = some 5 ∧
    bsPreScalar ⟨.max, (), ()⟩ bDoc [1, 1, 2] = some 4 ∧ bsPreScalar ⟨.min, (), ()⟩ bDoc [3, 3, 3] = none := by
  decide +kernel
example : poissonPreScalar ⟨.sum, (), ()⟩ bDoc (fun u => if u = 1 then 3 else if u = 2 then 1 else 0) = some 13 := by
  decide +kernel
example : bsPre ⟨.sum, (), ()⟩ bDoc [1, 1, 2] = [(1, some 4), (0, some 6)] := by decide +kernel

/-- A filter on the leaf: if the units drawn have no row at a level that passes it, recomputing on the rows has no such
level, but the preaggregated data still has it, with a sum of 0. -/
theorem C41_violation_filter :
    ∃ (t : List (JRow Unit Nat Nat Unit Unit ℚ)) (draws : List Nat) (o : Nat),
      (bsGeneral ⟨.sum, (), ()⟩ t draws).lookup o = none ∧ (bsPre ⟨.sum, (), ()⟩ t draws).lookup o = some (some 0) :=
  ⟨bDoc, [3, 3, 2], 1, by decide +kernel⟩

/-- The same with Poisson weights. -/
theorem C41_poisson_violation_filter :
    ∃ (t : List (JRow Unit Nat Nat Unit Unit ℚ)) (w : Nat → Nat) (o : Nat),
      (poissonGeneral ⟨.sum, (), ()⟩ t w).lookup o = none ∧ (poissonPreLevels ⟨.sum, (), ()⟩ t w).lookup o = some (some 0) :=
  ⟨bDoc, fun u => if u = 1 then 0 else 2, 1, by decide +kernel⟩

example : poissonGeneral ⟨.sum, (), ()⟩ bDoc (fun u => if u = 1 then 3 else if u = 2 then 1 else 0) = [(1, some 6), (0, some 7)] := by
  decide +kernel

end Verif
