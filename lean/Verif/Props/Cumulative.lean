import Verif.Props.Diversity

/-!
# C29: CumulativeDistribution

`rows` are the rows of one slice of the child's result, (category, value), all present.
-/

namespace Verif
variable {S C K : Type} [DecidableEq S] [LinearOrder C] [Field K] [LinearOrder K] [IsStrictOrderedRing K]

theorem sliceRows_pyDist (t : DTab S C K) (s : S) :
    sliceRows (pyDist t) s = (sliceRows t s).map fun r => (r.1, nanDiv r.2 (some (sliceTotal t s))) := by
  rw [pyDist_eq]
  unfold sliceRows
  rw [List.filterMap_map, List.map_filterMap]
  apply List.filterMap_congr
  intro r _
  simp only [Function.comp_apply]
  by_cases h : r.1.1 = s
  · simp [h]
  · simp [h]

theorem present_rows {t : DTab S C K} {s : S} {rows : List (C × K)}
    (h : sliceRows t s = rows.map fun r => (r.1, some r.2)) : presentVals t s = rows.map (·.2) := by
  have h1 : presentVals t s = (sliceRows t s).filterMap (·.2) := by
    unfold presentVals sliceRows
    rw [List.filterMap_filterMap]
    apply List.filterMap_congr
    intro r _
    by_cases hr : r.1.1 = s <;> simp [hr]
  rw [h1, h, List.filterMap_map, ← List.filterMap_eq_map]
  rfl

/-- The shares of the slice. -/
theorem rows_shares {t : DTab S C K} {s : S} {rows : List (C × K)}
    (h : sliceRows t s = rows.map fun r => (r.1, some r.2)) (hT : sliceTotal t s ≠ 0) :
    sliceRows (pyDist t) s = rows.map fun r => (r.1, some (r.2 / sliceTotal t s)) := by
  rw [sliceRows_pyDist, h, List.map_map]
  apply List.map_congr_left
  intro r _
  simp [nanDiv, hT]

theorem running_of_arr (arr : List (C × K)) (T : K) (hT : T = (arr.map (·.2)).sum) :
    (((arr.map fun r => (r.1, some (r.2 / T))).map (·.1)).zip
      (cumsum ((arr.map fun r => (r.1, some (r.2 / T))).map (·.2)))) = runningShare arr := by
  rw [List.map_map, List.map_map,
    show (arr.map ((fun x : C × Option K => x.2) ∘ fun r => (r.1, some (r.2 / T))))
      = ((arr.map (·.2)).map (· / T)).map some by simp, cumsum_some]
  unfold runningShare
  congr 1
  rw [List.length_map, List.length_map]
  apply List.map_congr_left
  intro i _
  rw [← List.map_take, sum_map_div, hT]

theorem running_of_arr_sql (arr : List (C × K)) (T : K) (hT : T = (arr.map (·.2)).sum) :
    (((arr.map fun r => (r.1, some (r.2 / T))).map (·.1)).zip
      (sqlRunning ((arr.map fun r => (r.1, some (r.2 / T))).map (·.2)))) = runningShare arr := by
  rw [← running_of_arr arr T hT]
  congr 1
  rw [List.map_map,
    show (arr.map ((fun x : C × Option K => x.2) ∘ fun r => (r.1, some (r.2 / T))))
      = ((arr.map (·.2)).map (· / T)).map some by simp, cumsum_some, sqlRunning_some]

theorem pairwise_idxOf {order : List C} (h : order.Nodup) :
    order.Pairwise (fun a b => order.idxOf a ≤ order.idxOf b) := by
  rw [List.pairwise_iff_getElem]
  intro i j hi hj hij
  rw [List.Nodup.idxOf_getElem h, List.Nodup.idxOf_getElem h]
  omega

theorem lookup_of_mem_nodup {α β : Type} [DecidableEq α] : ∀ (l : List (α × β)) (a : α) (b : β),
    (l.map (·.1)).Nodup → (a, b) ∈ l → l.lookup a = some b
  | [], _, _, _, h => by simp at h
  | (a', b') :: l, a, b, hn, h => by
    rw [List.map_cons, List.nodup_cons] at hn
    rw [List.lookup_cons]
    rcases List.mem_cons.1 h with h1 | h1
    · cases h1; simp
    · have : a ≠ a' := by
        rintro rfl
        exact hn.1 (List.mem_map.2 ⟨_, h1, rfl⟩)
      rw [beq_false_of_ne this]
      exact lookup_of_mem_nodup l a b hn.2 h1

theorem mem_of_lookup' {α β : Type} [DecidableEq α] : ∀ (l : List (α × β)) (a : α) (b : β),
    l.lookup a = some b → (a, b) ∈ l
  | [], _, _, h => by simp at h
  | (a', b') :: l, a, b, h => by
    rw [List.lookup_cons] at h
    by_cases ha : a = a'
    · subst ha
      simp at h
      simp [h]
    · rw [beq_false_of_ne ha] at h
      exact List.mem_cons_of_mem _ (mem_of_lookup' l a b h)

/-- The custom arrangement is a permutation when the order lists every category. -/
theorem custom_perm {o : List C} (ho : o.Nodup) {l : List (C × Option K)} (hl : (l.map (·.1)).Nodup)
    (hs : ∀ r ∈ l, r.2.isSome) (hc : ∀ c ∈ l.map (·.1), c ∈ o) :
    ((o.map fun c => (c, (l.lookup c).bind id)).filter (fun r => r.2.isSome)).Perm l := by
  rw [List.perm_ext_iff_of_nodup]
  · rintro ⟨c, v⟩
    rw [List.mem_filter, List.mem_map]
    constructor
    · rintro ⟨⟨c', _, h⟩, hv⟩
      rw [Prod.mk.injEq] at h
      obtain ⟨rfl, h⟩ := h
      simp only at hv
      rw [← h] at hv ⊢
      cases hlk : l.lookup c' with
      | none => rw [hlk] at hv; simp at hv
      | some w =>
        simp only [Option.bind_some, id]
        exact mem_of_lookup' l c' w hlk
    · intro h
      refine ⟨⟨c, hc c (List.mem_map.2 ⟨_, h, rfl⟩), ?_⟩, hs _ h⟩
      rw [lookup_of_mem_nodup l c v hl h]
      rfl
  · apply List.Nodup.filter
    exact List.Nodup.map (fun a b h => congrArg Prod.fst h) ho
  · exact List.Nodup.of_map _ hl

theorem arrange_perm (mode : CumMode C) (asc : Bool) {l : List (C × Option K)} (hl : (l.map (·.1)).Nodup)
    (hs : ∀ r ∈ l, r.2.isSome) (hm : listsAll mode (l.map (·.1))) : (pyArrange mode asc l).Perm l := by
  cases mode with
  | over => exact List.perm_insertionSort _ _
  | byValue => exact List.perm_insertionSort _ _
  | custom order =>
    obtain ⟨h1, h2⟩ := hm
    cases asc with
    | true => exact custom_perm h1 hl hs h2
    | false => exact custom_perm (List.nodup_reverse.2 h1) hl hs fun c hc => List.mem_reverse.2 (h2 c hc)

omit [LinearOrder C] [Field K] [LinearOrder K] [IsStrictOrderedRing K] in
theorem insertion_sorted (r : C × Option K → C × Option K → Bool) (h1 : ∀ a b, r a b = true ∨ r b a = true)
    (h2 : ∀ a b c, r a b = true → r b c = true → r a c = true) (l : List (C × Option K)) :
    (l.insertionSort (fun a b => r a b = true)).Pairwise (fun a b => r a b = true) := by
  haveI : Std.Total (fun a b => r a b = true) := ⟨h1⟩
  haveI : IsTrans _ (fun a b => r a b = true) := ⟨h2⟩
  exact List.pairwise_insertionSort _ l

/-- The arrangement obeys the mode. -/
theorem arrange_sorted (mode : CumMode C) (asc : Bool) (rows : List (C × K)) (T : K) (hT : 0 < T)
    (arr : List (C × K)) (hm : listsAll mode (rows.map (·.1)))
    (h : pyArrange mode asc (rows.map fun r => (r.1, some (r.2 / T))) = arr.map fun r => (r.1, some (r.2 / T))) :
    arr.Pairwise (ordered mode asc) := by
  cases mode with
  | over =>
    have hp := insertion_sorted (fun a b : C × Option K => if asc then decide (a.1 ≤ b.1) else decide (b.1 ≤ a.1))
      (by intro a b; cases asc <;> simp [le_total])
      (by
        intro a b c h1 h2
        cases asc <;> simp at *
        · exact h2.trans h1
        · exact h1.trans h2) (rows.map fun r => (r.1, some (r.2 / T)))
    change pyArrange .over asc _ |>.Pairwise _ at hp
    rw [h, List.pairwise_map] at hp
    refine hp.imp ?_
    intro a b hab
    unfold ordered
    cases asc <;> simpa using hab
  | byValue =>
    have hp := insertion_sorted (fun a b : C × Option K =>
      match a.2, b.2 with
      | some x, some y => if asc then decide (x ≤ y) else decide (y ≤ x)
      | some _, none => true
      | none, some _ => false
      | none, none => true)
      (by
        rintro ⟨_, _ | x⟩ ⟨_, _ | y⟩ <;> cases asc <;> simp [le_total])
      (by
        rintro ⟨_, _ | x⟩ ⟨_, _ | y⟩ ⟨_, _ | z⟩ h1 h2 <;> cases asc <;> simp at *
        · exact h2.trans h1
        · exact h1.trans h2) (rows.map fun r => (r.1, some (r.2 / T)))
    change pyArrange .byValue asc _ |>.Pairwise _ at hp
    rw [h, List.pairwise_map] at hp
    refine hp.imp ?_
    intro a b hab
    unfold ordered
    cases asc
    · simp only [Bool.false_eq_true, if_false, decide_eq_true_eq] at hab ⊢
      exact (div_le_div_iff_of_pos_right hT).1 hab
    · simp only [if_true, decide_eq_true_eq] at hab ⊢
      exact (div_le_div_iff_of_pos_right hT).1 hab
  | custom order =>
    obtain ⟨h1, _⟩ := hm
    have h2 : (arr.map (·.1)).Sublist (if asc then order else order.reverse) := by
      have h3 := congrArg (List.map (·.1)) h
      rw [List.map_map, show ((fun x : C × Option K => x.1) ∘ fun r : C × K => (r.1, some (r.2 / T))) = (·.1) from rfl] at h3
      rw [← h3]
      unfold pyArrange
      simp only
      refine (List.filter_sublist.map _).trans ?_
      rw [List.map_map, show ((fun x : C × Option K => x.1) ∘ fun c : C => (c,
        ((rows.map fun r => (r.1, some (r.2 / T))).lookup c).bind id)) = id from rfl, List.map_id]
    unfold ordered
    cases asc with
    | true =>
      simp only [if_true] at h2 ⊢
      have h3 := (pairwise_idxOf h1).sublist h2
      rw [List.pairwise_map] at h3
      exact h3
    | false =>
      simp only [Bool.false_eq_true, if_false] at h2 ⊢
      have h3 := (List.pairwise_reverse.2 (pairwise_idxOf h1)).sublist h2
      rw [List.pairwise_map] at h3
      exact h3

/-- **C29** For a slice whose values are all present, with a positive total: the categories of the result are those of
the slice, in the order asked for, and each has the share of the categories up to it. `hm` is automatic unless there is
a custom order, which must then list every category of the slice (see the violation below). -/
theorem C29_cumulative_partial (mode : CumMode C) (asc : Bool) (t : DTab S C K) (s : S) (rows : List (C × K))
    (hr : sliceRows t s = rows.map fun r => (r.1, some r.2)) (hn : (rows.map (·.1)).Nodup)
    (hT : 0 < (rows.map (·.2)).sum) (hm : listsAll mode (rows.map (·.1))) :
    ∃ arr : List (C × K), arr.Perm rows ∧ arr.Pairwise (ordered mode asc) ∧
      pyCumulative mode asc (sliceRows (pyDist t) s) = runningShare arr := by
  have hTe : sliceTotal t s = (rows.map (·.2)).sum := by unfold sliceTotal; rw [present_rows hr]
  have hsh := rows_shares hr (by rw [hTe]; exact hT.ne')
  rw [hTe] at hsh
  rw [hsh]
  have hkeys : (rows.map fun r => (r.1, some (r.2 / (rows.map (·.2)).sum))).map (·.1) = rows.map (·.1) := by
    rw [List.map_map]; rfl
  have hp := arrange_perm mode asc (l := rows.map fun r => (r.1, some (r.2 / (rows.map (·.2)).sum)))
    (by rw [hkeys]; exact hn) (by intro r h; obtain ⟨_, _, rfl⟩ := List.mem_map.1 h; rfl) (by rw [hkeys]; exact hm)
  obtain ⟨arr, h1, h2⟩ := perm_map_inv' _ hp.symm rows rfl
  refine ⟨arr, h2.symm, arrange_sorted mode asc rows _ hT arr hm h1, ?_⟩
  unfold pyCumulative
  simp only [h1]
  exact running_of_arr arr _ (h2.map _).sum_eq

/-- **C29** So does the query, in any order that its ORDER BY allows, and without `hm`: for a custom order the
categories that are not listed come last (first if descending). -/
theorem C29_sql_cumulative (mode : CumMode C) (asc : Bool) (t : DTab S C K) (s : S) (rows : List (C × K))
    (hr : sliceRows t s = rows.map fun r => (r.1, some r.2))
    (hT : 0 < (rows.map (·.2)).sum) (out : List (C × Option K))
    (ho : SqlCumulative mode asc (sliceRows (sqlDist t) s) out) :
    ∃ arr : List (C × K), arr.Perm rows ∧ arr.Pairwise (ordered mode asc) ∧ out = runningShare arr := by
  have hTe : sliceTotal t s = (rows.map (·.2)).sum := by unfold sliceTotal; rw [present_rows hr]
  have hsh := rows_shares hr (by rw [hTe]; exact hT.ne')
  rw [hTe] at hsh
  rw [sqlDist_eq_pyDist, hsh] at ho
  obtain ⟨a, ha, hp, rfl⟩ := ho
  obtain ⟨arr, h1, h2⟩ := perm_map_inv' _ ha.symm rows rfl
  subst h1
  refine ⟨arr, h2.symm, ?_, running_of_arr_sql arr _ (h2.map _).sum_eq⟩
  rw [List.pairwise_map] at hp
  refine hp.imp ?_
  intro x y hxy
  cases mode with
  | over => exact hxy
  | custom order => exact hxy
  | byValue =>
    unfold sqlBefore at hxy
    unfold ordered
    cases asc
    · simp only [Bool.false_eq_true, if_false, Option.elim] at hxy ⊢
      exact (div_le_div_iff_of_pos_right hT).1 hxy
    · simp only [if_true, Option.elim] at hxy ⊢
      exact (div_le_div_iff_of_pos_right hT).1 hxy

omit [DecidableEq S] [LinearOrder C] in
/-- **C29** Running shares of non-negative values never go down, lie in [0, 1] and end at 1. -/
theorem C29_running (arr : List (C × K)) (hnn : ∀ r ∈ arr, 0 ≤ r.2) (hT : 0 < (arr.map (·.2)).sum) :
    (runningShare arr).map (·.1) = arr.map (·.1) ∧
    (∀ r ∈ runningShare arr, ∃ x : K, r.2 = some x ∧ 0 ≤ x ∧ x ≤ 1) ∧
    ((runningShare arr).map (·.2)).Pairwise (fun x y => ∃ a b : K, x = some a ∧ y = some b ∧ a ≤ b) ∧
    ((runningShare arr).getLast?).map (·.2) = some (some 1) := by
  have hlen : (arr.map (·.1)).length = ((List.range arr.length).map fun i =>
    some (((arr.map (·.2)).take (i + 1)).sum / (arr.map (·.2)).sum)).length := by simp
  have hnn' : ∀ v ∈ arr.map (·.2), 0 ≤ v := by
    intro v hv; obtain ⟨r, hr, rfl⟩ := List.mem_map.1 hv; exact hnn r hr
  have hsnd : (runningShare arr).map (·.2) = ((List.range arr.length).map fun i =>
    some (((arr.map (·.2)).take (i + 1)).sum / (arr.map (·.2)).sum)) := by
    unfold runningShare
    exact List.map_snd_zip hlen.ge
  refine ⟨List.map_fst_zip hlen.le, ?_, ?_, ?_⟩
  · intro r hr
    have : r.2 ∈ (runningShare arr).map (·.2) := List.mem_map.2 ⟨r, hr, rfl⟩
    rw [hsnd, List.mem_map] at this
    obtain ⟨i, _, hi⟩ := this
    refine ⟨_, hi.symm, div_nonneg (List.sum_nonneg fun v hv => hnn' v (List.mem_of_mem_take hv)) hT.le, ?_⟩
    rw [div_le_one hT]
    calc _ ≤ ((arr.map (·.2)).take (max (i + 1) (arr.map (·.2)).length)).sum :=
          sum_take_le _ hnn' _ _ (le_max_left _ _)
      _ = _ := by rw [List.take_of_length_le (le_max_right _ _)]
  · rw [hsnd, List.pairwise_map]
    refine List.pairwise_lt_range.imp ?_
    intro i j hij
    exact ⟨_, _, rfl, rfl, (div_le_div_iff_of_pos_right hT).2 (sum_take_le _ hnn' _ _ (by omega))⟩
  · rw [← List.getLast?_map, hsnd, List.getLast?_map, List.getLast?_range]
    have : arr ≠ [] := by rintro rfl; simp at hT
    have hl := List.length_pos_iff.2 this
    rw [if_neg (by omega), Option.map_some, List.take_of_length_le (by simp; omega), div_self hT.ne']

omit [IsStrictOrderedRing K] [DecidableEq S] in
theorem arr_unique (mode : CumMode C) (asc : Bool) (hmode : mode ≠ .byValue) {rows a b : List (C × K)}
    (hn : (rows.map (·.1)).Nodup) (hm : listsAll mode (rows.map (·.1)))
    (ha : a.Perm rows) (hb : b.Perm rows) (hpa : a.Pairwise (ordered mode asc)) (hpb : b.Pairwise (ordered mode asc)) :
    a = b := by
  apply List.Perm.eq_of_pairwise _ hpa hpb (ha.trans hb.symm)
  intro x y hx hy h1 h2
  have hx := ha.mem_iff.1 hx
  have hy := hb.mem_iff.1 hy
  have hc : x.1 = y.1 := by
    cases mode with
    | over =>
      unfold ordered at h1 h2
      cases asc <;> simp at h1 h2
      · exact le_antisymm h2 h1
      · exact le_antisymm h1 h2
    | byValue => exact absurd rfl hmode
    | custom order =>
      have hxo := hm.2 _ (List.mem_map.2 ⟨x, hx, rfl⟩)
      have : order.idxOf x.1 = order.idxOf y.1 := by
        unfold ordered at h1 h2
        cases asc <;> simp at h1 h2 <;> omega
      exact List.idxOf_inj hxo |>.1 this
  have hx' := lookup_of_mem_nodup rows x.1 x.2 hn hx
  have hy' := lookup_of_mem_nodup rows y.1 y.2 hn hy
  rw [hc, hy'] at hx'
  exact Prod.ext hc (Option.some.inj hx').symm

/-- **C29** Ordered by category or by a custom order that lists every category, both paths give the same. -/
theorem C29_sql_agrees (mode : CumMode C) (hmode : mode ≠ .byValue) (asc : Bool) (t : DTab S C K) (s : S)
    (rows : List (C × K)) (hr : sliceRows t s = rows.map fun r => (r.1, some r.2)) (hn : (rows.map (·.1)).Nodup)
    (hT : 0 < (rows.map (·.2)).sum) (hm : listsAll mode (rows.map (·.1))) (out : List (C × Option K))
    (ho : SqlCumulative mode asc (sliceRows (sqlDist t) s) out) :
    out = pyCumulative mode asc (sliceRows (pyDist t) s) := by
  obtain ⟨a, a1, a2, a3⟩ := C29_cumulative_partial mode asc t s rows hr hn hT hm
  obtain ⟨b, b1, b2, b3⟩ := C29_sql_cumulative mode asc t s rows hr hT out ho
  rw [a3, b3, arr_unique mode asc hmode hn hm a1 b1 a2 b2]

/-- **C29** Violation without `hm`: pandas drops a category that the custom order does not list, so the result does not
end at 1, while the query keeps it. -/
theorem C29_violation_custom :
    let t : DTab Nat Nat ℚ := [((0, 0), some 1), ((0, 1), some 3)]
    pyCumulative (.custom [0]) true (sliceRows (pyDist t) 0) = [(0, some (1 / 4))] ∧
    SqlCumulative (.custom [0]) true (sliceRows (sqlDist t) 0) [(0, some (1 / 4)), (1, some 1)] := by
  refine ⟨by decide +kernel, [(0, some (1 / 4)), (1, some (3 / 4))], ?_, ?_, ?_⟩
  · decide +kernel
  · simp [sqlBefore, caseIndex]
  · decide +kernel

/-- The hypotheses are met. -/
example :
    let t : DTab Nat Nat ℚ := [((0, 0), some 1), ((0, 1), some 3), ((1, 0), some 2), ((0, 2), some 4)]
    sliceRows t 0 = [(0, 1), (1, 3), (2, 4)].map (fun r => (r.1, some r.2)) ∧
    pyCumulative .over true (sliceRows (pyDist t) 0) = [(0, some (1 / 8)), (1, some (1 / 2)), (2, some 1)] ∧
    pyCumulative .byValue false (sliceRows (pyDist t) 0) = [(2, some (1 / 2)), (1, some (7 / 8)), (0, some 1)] ∧
    pyCumulative (.custom [1, 0, 2]) true (sliceRows (pyDist t) 0) = [(1, some (3 / 8)), (0, some (1 / 2)), (2, some 1)] := by
  decide +kernel

example : listsAll (.custom [1, 0, 2]) [0, 1, 2] := by
  unfold listsAll; decide

end Verif
