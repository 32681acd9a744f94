import Verif.Lemmas.JackCache
import Verif.Lemmas.Slice
import Verif.Lemmas.Jackknife
import Verif.Props.MetricValues

/-! Totals and leave-one-out values made of cached buckets. -/

namespace Verif

theorem dedup_map_dedup {α β} [DecidableEq α] [DecidableEq β] (f : α → β) (l : List α) : (l.dedup.map f).dedup = (l.map f).dedup := by
  induction l with
  | nil => rfl
  | cons a l ih =>
    by_cases h : a ∈ l
    · rw [List.dedup_cons_of_mem h, ih, List.map_cons, List.dedup_cons_of_mem (List.mem_map_of_mem h)]
    · rw [List.dedup_cons_of_notMem h, List.map_cons, List.map_cons]
      by_cases h' : f a ∈ l.map f
      · have h'' : f a ∈ l.dedup.map f := by
          obtain ⟨b, hb, e⟩ := List.mem_map.1 h'
          exact List.mem_map.2 ⟨b, List.mem_dedup.2 hb, e⟩
        rw [List.dedup_cons_of_mem h', List.dedup_cons_of_mem h'', ih]
      · have h'' : f a ∉ l.dedup.map f := fun hm => by
          obtain ⟨b, hb, e⟩ := List.mem_map.1 hm
          exact h' (List.mem_map.2 ⟨b, List.mem_dedup.1 hb, e⟩)
        rw [List.dedup_cons_of_notMem h', List.dedup_cons_of_notMem h'', ih]

theorem keyOf_dropUnit (unit : String) (r : Row) (h : (r unit).isSome) (cols : List String) :
    keyOf (cols.filter fun c => decide (c ≠ unit)) r = (keyOf cols r).map (dropUnit unit cols) := by
  induction cols with
  | nil => rfl
  | cons c cs ih =>
    have hc : keyOf (c :: cs) r = (r c).bind fun a => (keyOf cs r).map fun as => a :: as := by
      unfold keyOf
      rw [List.mapM_cons]
      cases r c <;> cases List.mapM r cs <;> rfl
    rw [hc]
    by_cases hu : c = unit
    · subst hu
      rw [List.filter_cons_of_neg (by simp), ih]
      obtain ⟨x, hx⟩ := Option.isSome_iff_exists.1 h
      rw [hx]
      cases keyOf cs r <;> simp [dropUnit]
    · rw [List.filter_cons_of_pos (by simpa using hu)]
      have hc' : ∀ cs', keyOf (c :: cs') r = (r c).bind fun a => (keyOf cs' r).map fun as => a :: as := fun cs' => by
        unfold keyOf
        rw [List.mapM_cons]
        cases r c <;> cases List.mapM r cs' <;> rfl
      rw [hc', ih]
      cases r c <;> cases keyOf cs r <;> simp [dropUnit, hu]

/-- Sums and counts are sums over the rows. -/
theorem agg_weight {k : Leaf} (hk : (M.leaf k []).sumOrCount = true) : ∃ w : Row → ℚ, ∀ rs, k.agg rs = .fin (rs.map w).sum := by
  cases k with
  | sum v =>
    refine ⟨fun r => (r v).getD 0, fun rs => ?_⟩
    simp only [Leaf.agg, vals]
    congr 1
    induction rs with
    | nil => rfl
    | cons r rs ih => rw [List.filterMap_cons, List.map_cons, List.sum_cons, ← ih]; cases r v <;> simp
  | count v =>
    refine ⟨fun r => if (r v).isSome then 1 else 0, fun rs => ?_⟩
    simp only [Leaf.agg, vals]
    congr 1
    induction rs with
    | nil => rfl
    | cons r rs ih => rw [List.filterMap_cons, List.map_cons, List.sum_cons, ← ih]; cases r v <;> simp [add_comm]
  | _ => simp [M.sumOrCount] at hk

/-- Summed over the units, the buckets are the sums without units. -/
theorem jkTotal_run {k : Leaf} (hk : (M.leaf k []).sumOrCount = true) (unit : String) (cols : List String) (hcols : cols ≠ []) (rows : List Row)
    (hu : ∀ r ∈ rows, (r unit).isSome) :
    jkTotal unit cols ((groupKeys cols rows).map fun key => (key, k.agg (rowsAt cols key rows))) =
      (groupKeys (cols.filter fun c => decide (c ≠ unit)) rows).map fun key =>
        (key, k.agg (rowsAt (cols.filter fun c => decide (c ≠ unit)) key rows)) := by
  obtain ⟨w, hw⟩ := agg_weight hk
  unfold jkTotal
  have hkeys : (if cols.filter (fun c => decide (c ≠ unit)) = [] then [[]] else
      (((groupKeys cols rows).map fun key => (key, k.agg (rowsAt cols key rows))).map fun p => dropUnit unit cols p.1).dedup) =
      groupKeys (cols.filter fun c => decide (c ≠ unit)) rows := by
    unfold groupKeys
    rw [if_neg hcols]
    split
    · rfl
    · rw [List.map_map]
      show ((rows.filterMap (keyOf cols)).dedup.map (dropUnit unit cols)).dedup = _
      rw [dedup_map_dedup, List.map_filterMap]
      congr 1
      apply List.filterMap_congr
      intro r hr
      rw [keyOf_dropUnit unit r (hu r hr)]
  rw [hkeys]
  apply List.map_congr_left
  intro k' _
  congr 1
  rw [hw, List.filter_map, List.map_map]
  have e1 : ((groupKeys cols rows).filter ((fun p : Key × PyVal => decide (dropUnit unit cols p.1 = k')) ∘ fun key =>
      (key, k.agg (rowsAt cols key rows)))).map (Prod.snd ∘ fun key => (key, k.agg (rowsAt cols key rows))) =
      (((groupKeys cols rows).filter fun key => decide (dropUnit unit cols key = k')).map
        fun key => ((rowsAt cols key rows).map w).sum).map PyVal.fin := by
    rw [List.map_map]
    apply List.map_congr_left
    intro key _
    exact hw _
  rw [e1, pySum_fin]
  congr 1
  have e2 := sum_over_groups (keyOf cols) w (((groupKeys cols rows).filter fun key => decide (dropUnit unit cols key = k')).map some)
    (((groupKeys_nodup cols rows).filter _).map (Option.some_injective _)) rows
  rw [List.map_map] at e2
  refine Eq.trans e2 ?_
  congr 2
  unfold rowsAt
  apply List.filter_congr
  intro r hr
  rw [Bool.eq_iff_iff]
  simp only [decide_eq_true_iff]
  rw [keyOf_dropUnit unit r (hu r hr), List.mem_map]
  constructor
  · rintro ⟨key, hm, he⟩
    rw [List.mem_filter, decide_eq_true_eq] at hm
    rw [← he, Option.map_some, hm.2]
  · intro he
    obtain ⟨key, h1, h2⟩ := Option.map_eq_some_iff.1 he
    refine ⟨key, List.mem_filter.2 ⟨?_, by simpa using h2⟩, h1.symm⟩
    unfold groupKeys
    rw [if_neg hcols, List.mem_dedup, List.mem_filterMap]
    exact ⟨r, hr, h1⟩

theorem Tbl.get_map_not (ks : List Key) (g : Key → PyVal) {v : Key} (h : v ∉ ks) : Tbl.get (ks.map (fun k => (k, g k))) v = none := by
  unfold Tbl.get
  rw [Option.map_eq_none_iff, List.find?_eq_none]
  intro p hp
  obtain ⟨k, hk, rfl⟩ := List.mem_map.1 hp
  simp only [decide_eq_true_eq]
  rintro rfl
  exact h hk

/-- The leave-one-out values of a sum or count. -/
theorem jkLoo_run (env : Env) {k : Leaf} (hk : (M.leaf k []).sumOrCount = true) (unit : String) (s : List String) (hs : unit ∉ s) (D : Frame)
    (hu : ∀ r ∈ D.rows, (r unit).isSome) (W : List String) :
    jkLoo unit s.length (s ++ [unit]) D.rows
        ((groupKeys (s ++ [unit]) (D.query env W).rows).map fun key => (key, k.agg (rowsAt (s ++ [unit]) key (D.query env W).rows))) =
      (groupKeys (s ++ [unit]) D.rows).map fun key =>
        (key, if s ≠ [] ∧ rowsAt s key.dropLast (D.query env W).rows = [] then .nan
          else k.agg ((rowsAt s key.dropLast (D.query env W).rows).filter fun r => decide (r unit ≠ key.getLast?))) := by
  obtain ⟨w, hw⟩ := agg_weight hk
  have hfil : (s ++ [unit]).filter (fun c => decide (c ≠ unit)) = s := by
    rw [List.filter_append, List.filter_eq_self.2 (fun c hc => by simp; rintro rfl; exact hs hc)]
    simp
  have hu' : ∀ r ∈ (D.query env W).rows, (r unit).isSome := fun r hr => hu r (List.mem_of_mem_filter hr)
  unfold jkLoo looKeys
  rw [if_pos (by simp), jkTotal_run hk unit (s ++ [unit]) (by simp) _ hu', hfil]
  apply List.map_congr_left
  intro key hkey
  congr 1
  have hkey' : ∃ r ∈ D.rows, keyOf (s ++ [unit]) r = some key := by
    unfold groupKeys at hkey
    rw [if_neg (by simp), List.mem_dedup, List.mem_filterMap] at hkey
    exact hkey
  obtain ⟨r0, hr0, hk0⟩ := hkey'
  have hx : ∃ s0 x, key = s0 ++ [x] ∧ s0.length = s.length ∧ dropUnit unit (s ++ [unit]) key = s0 := by
    have h1 := keyOf_append s [unit] r0
    have h2 := keyOf_dropUnit unit r0 (hu r0 hr0) (s ++ [unit])
    rw [hfil, hk0, Option.map_some] at h2
    rw [hk0, h2] at h1
    obtain ⟨x, hx⟩ := Option.isSome_iff_exists.1 (hu r0 hr0)
    have h3 : keyOf [unit] r0 = some [x] := by unfold keyOf; simp [hx]
    rw [h3] at h1
    simp only [Option.bind_some, Option.map_some, Option.some.injEq] at h1
    exact ⟨_, x, h1, keyOf_length h2, rfl⟩
  obtain ⟨s0, x, rfl, hlen, hdu⟩ := hx
  rw [hdu]
  simp only [List.dropLast_concat, List.getLast?_concat]
  set R := (D.query env W).rows with hR
  have hb : ((Tbl.get ((groupKeys (s ++ [unit]) R).map fun key => (key, k.agg (rowsAt (s ++ [unit]) key R))) (s0 ++ [x])).getD (.fin 0)) =
      .fin ((rowsAt (s ++ [unit]) (s0 ++ [x]) R).map w).sum := by
    by_cases hm : s0 ++ [x] ∈ groupKeys (s ++ [unit]) R
    · rw [Tbl.get_map_keys' _ (fun key => k.agg (rowsAt (s ++ [unit]) key R)) hm, Option.getD_some, hw]
    · rw [Tbl.get_map_not _ (fun key => k.agg (rowsAt (s ++ [unit]) key R)) hm, Option.getD_none]
      have : rowsAt (s ++ [unit]) (s0 ++ [x]) R = [] := by
        unfold rowsAt
        rw [List.filter_eq_nil_iff]
        intro r hr h
        apply hm
        unfold groupKeys
        rw [if_neg (by simp), List.mem_dedup, List.mem_filterMap]
        exact ⟨r, hr, by simpa using h⟩
      rw [this]; rfl
  rw [hb, ← rowsAt_rowsAt R hlen]
  have hmem : s0 ∈ groupKeys s R ↔ ¬ (s ≠ [] ∧ rowsAt s s0 R = []) := by
    unfold groupKeys
    split
    · rename_i h
      subst h
      have : s0 = [] := by simpa using hlen
      simp [this]
    · rename_i h
      rw [List.mem_dedup, List.mem_filterMap]
      simp only [ne_eq, h, not_false_eq_true, true_and, rowsAt, List.filter_eq_nil_iff, not_forall, decide_eq_true_eq, not_not, exists_prop]
  by_cases hc : s ≠ [] ∧ rowsAt s s0 R = []
  · rw [if_pos hc, Tbl.get_map_not _ (fun key => k.agg (rowsAt s key R)) (fun h => hmem.1 h hc)]
    rfl
  · rw [if_neg hc, Tbl.get_map_keys' _ (fun key => k.agg (rowsAt s key R)) (hmem.2 hc), Option.getD_some, hw, hw,
      sum_filter_split w (fun r => decide (r unit = some x)) (rowsAt s s0 R)]
    have e1 : rowsAt [unit] [x] (rowsAt s s0 R) = (rowsAt s s0 R).filter fun r => decide (r unit = some x) := by
      conv_lhs => unfold rowsAt
      apply List.filter_congr
      intro r _
      have : keyOf [unit] r = (r unit).map fun a => [a] := by
        unfold keyOf
        rw [List.mapM_cons]
        cases r unit <;> rfl
      rw [this]
      cases r unit <;> simp
    rw [e1]
    show PyVal.fin _ = _
    congr 1
    have e2 : (rowsAt s s0 R).filter (fun r => decide (r unit ≠ some x)) = (rowsAt s s0 R).filter fun r => !decide (r unit = some x) := by
      apply List.filter_congr; intro r _; simp
    rw [e2]
    ring

theorem leafSem_onData (env : Env) (D : Frame) : LeafSem env (onData env D) where
  congr k W W' sb h := by unfold onData; rw [query_congr env D h]
  mean v W sb := by
    rw [run_runW, ← mean_run]
    simp [onData, M.run, query_nil]

/-- The value without a unit. -/
abbrev looVal (env : Env) (D : Frame) (unit : String) (k : Leaf) (W sb : List String) (key : Key) : PyVal :=
  if sb.dropLast ≠ [] ∧ rowsAt sb.dropLast key.dropLast (D.query env W).rows = [] then .nan
  else k.agg ((rowsAt sb.dropLast key.dropLast (D.query env W).rows).filter fun r => decide (r unit ≠ key.getLast?))

theorem leftOut_pos {env : Env} {D : Frame} {unit : String} {k : Leaf} {W sb : List String}
    (h : (k.vars ++ sb).all (fun c => D.cols.contains c) = true) :
    leftOut env D unit k W sb = .ok (.tbl [] [(groupKeys sb D.rows).map fun key => (key, looVal env D unit k W sb key)]) := if_pos h

theorem leftOut_neg {env : Env} {D : Frame} {unit : String} {k : Leaf} {W sb : List String}
    (h : ¬ (k.vars ++ sb).all (fun c => D.cols.contains c) = true) : leftOut env D unit k W sb = .error .keyError := if_neg h

theorem leafSem_leftOut (env : Env) (D : Frame) (unit : String) : LeafSem env (leftOut env D unit) where
  congr k W W' sb h := by unfold leftOut; rw [query_congr env D h]
  mean v W sb := by
    simp only [M.runW, List.append_nil]
    by_cases hcols : ([v] ++ sb).all (fun c => D.cols.contains c) = true
    · rw [leftOut_pos (k := .mean v) hcols, leftOut_pos (k := .sum v) hcols, leftOut_pos (k := .count v) hcols]
      set g : Leaf → Key → PyVal := fun k key => looVal env D unit k W sb key with hg
      have : zipCols (Tbl.align (BinOp.py env .div)) [(groupKeys sb D.rows).map (fun key => (key, g (.sum v) key))]
          [(groupKeys sb D.rows).map (fun key => (key, g (.count v) key))] =
          .ok [(groupKeys sb D.rows).map (fun key => (key, g (.mean v) key))] := by
        simp only [zipCols, List.map_cons, List.map_nil, Tbl.align, List.map_map]
        congr 2
        have hid : ∀ k, (Prod.fst ∘ fun key => (key, g k key)) = id := fun _ => rfl
        rw [hid, hid, List.map_id, List.Subset.dedup_append_right (List.Subset.refl _), (groupKeys_nodup sb D.rows).dedup]
        apply List.map_congr_left
        intro k hk
        rw [Tbl.get_map_keys' _ (g (.sum v)) hk, Tbl.get_map_keys' _ (g (.count v)) hk]
        simp only [Option.getD_some, BinOp.py, hg, looVal]
        congr 1
        split
        · rfl
        · simp only [Leaf.agg, PyVal.div, pyMean]
          generalize vals v _ = xs
          cases xs with
          | nil => simp [PyVal.infSign]
          | cons x xs =>
            have : ((x :: xs).length : Rat) ≠ 0 := by
              rw [List.length_cons, Nat.cast_ne_zero]; omega
            rw [if_neg this]
            simp
      show _ = combine _ _ _
      simp only [combine, if_true]
      rw [show zipCols (Tbl.align (BinOp.py env .div)) _ _ = _ from this]
    · rw [leftOut_neg (k := .mean v) hcols, leftOut_neg (k := .sum v) hcols]

end Verif
