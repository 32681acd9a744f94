import Verif.Props.Cumulative

/-!
# C29: CumulativeDistribution of data with missing values
-/

namespace Verif

section
variable {α : Type}

theorem filter_orderedInsert (r : α → α → Prop) [DecidableRel r] (htrans : ∀ a b c, r a b → r b c → r a c)
    (p : α → Bool) (a : α) : ∀ l : List α, l.Pairwise r →
    (l.orderedInsert r a).filter p = if p a then (l.filter p).orderedInsert r a else l.filter p
  | [], _ => by cases h : p a <;> simp [h]
  | b :: l, hs => by
    rw [List.pairwise_cons] at hs
    rw [List.orderedInsert]
    by_cases hab : r a b
    · rw [if_pos hab]
      cases ha : p a with
      | false => simp [ha]
      | true =>
        have hall : ∀ x ∈ (b :: l).filter p, r a x := by
          intro x hx
          rcases List.mem_cons.1 (List.mem_filter.1 hx).1 with rfl | h
          · exact hab
          · exact htrans a b x hab (hs.1 x h)
        rw [List.filter_cons_of_pos (by simpa using ha)]
        simp only [if_true]
        generalize (b :: l).filter p = q at hall
        cases q with
        | nil => rfl
        | cons c q => rw [List.orderedInsert, if_pos (hall c (by simp))]
    · rw [if_neg hab]
      have ih := filter_orderedInsert r htrans p a l hs.2
      cases hb : p b with
      | false => rw [List.filter_cons_of_neg (by simp [hb]), ih, List.filter_cons_of_neg (by simp [hb])]
      | true =>
        rw [List.filter_cons_of_pos (by simpa using hb), ih, List.filter_cons_of_pos (by simpa using hb)]
        cases ha : p a with
        | false => simp
        | true => simp [hab]

/-- A stable sort commutes with leaving out rows. -/
theorem filter_insertionSort (r : α → α → Prop) [DecidableRel r] (htrans : ∀ a b c, r a b → r b c → r a c)
    (htot : ∀ a b, r a b ∨ r b a) (p : α → Bool) (l : List α) :
    (l.insertionSort r).filter p = (l.filter p).insertionSort r := by
  haveI : IsTrans α r := ⟨htrans⟩
  haveI : Std.Total r := ⟨htot⟩
  induction l with
  | nil => rfl
  | cons a l ih =>
    rw [List.insertionSort_cons, filter_orderedInsert r htrans p a _ (List.pairwise_insertionSort r l), ih]
    cases ha : p a with
    | false => simp [ha]
    | true => simp [ha]

end

variable {S C K : Type} [DecidableEq S] [LinearOrder C] [Field K] [LinearOrder K] [IsStrictOrderedRing K]

omit [LinearOrder C] [LinearOrder K] [IsStrictOrderedRing K] in
theorem zip_cumsumFrom_filter (a : List (C × Option K)) : ∀ acc : K,
    ((a.map (·.1)).zip (cumsumFrom acc (a.map (·.2)))).filter (fun r => r.2.isSome) =
      ((a.filter (fun r => r.2.isSome)).map (·.1)).zip (cumsumFrom acc ((a.filter (fun r => r.2.isSome)).map (·.2))) := by
  induction a with
  | nil => intro acc; rfl
  | cons r a ih =>
    intro acc
    obtain ⟨c, v⟩ := r
    cases v with
    | none => simp [cumsumFrom, ih acc]
    | some v => simp [cumsumFrom, ih (acc + v)]

omit [LinearOrder C] [LinearOrder K] [IsStrictOrderedRing K] in
theorem zip_cumsumFrom_none (a : List (C × Option K)) (c : C) : ∀ acc : K,
    (c, none) ∈ (a.map (·.1)).zip (cumsumFrom acc (a.map (·.2))) ↔ (c, none) ∈ a := by
  induction a with
  | nil => intro acc; rfl
  | cons r a ih =>
    intro acc
    obtain ⟨c', v⟩ := r
    cases v with
    | none => simp [cumsumFrom, ih acc]
    | some v => simp [cumsumFrom, ih (acc + v)]

omit [Field K] [LinearOrder K] [IsStrictOrderedRing K] in
theorem lookup_filter_present {l : List (C × Option K)} (hn : (l.map (·.1)).Nodup) (c : C) :
    ((l.filter fun r => r.2.isSome).lookup c).bind id = (l.lookup c).bind id := by
  induction l with
  | nil => rfl
  | cons r l ih =>
    obtain ⟨c', v⟩ := r
    rw [List.map_cons, List.nodup_cons] at hn
    cases v with
    | none =>
      rw [List.filter_cons_of_neg (by simp), List.lookup_cons]
      by_cases h : c = c'
      · subst h
        rw [ih hn.2]
        have : l.lookup c = none := by
          rw [List.lookup_eq_none_iff]
          intro p hp
          rw [bne_iff_ne]
          intro he
          exact hn.1 (he ▸ List.mem_map.2 ⟨p, hp, rfl⟩)
        simp [this]
      · rw [show (c == c') = false by simpa using h]
        exact ih hn.2
    | some v =>
      rw [List.filter_cons_of_pos (by simp), List.lookup_cons, List.lookup_cons]
      by_cases h : c = c'
      · subst h; simp
      · rw [show (c == c') = false by simpa using h]
        exact ih hn.2

omit [Field K] [IsStrictOrderedRing K] in
theorem arrange_filter (mode : CumMode C) (asc : Bool) {l : List (C × Option K)} (hn : (l.map (·.1)).Nodup) :
    (pyArrange mode asc l).filter (fun r => r.2.isSome) = pyArrange mode asc (l.filter fun r => r.2.isSome) := by
  cases mode with
  | over =>
    apply filter_insertionSort
    · intro a b c
      cases asc <;> simp only [Bool.false_eq_true, if_false, if_true, decide_eq_true_eq]
      · exact fun h1 h2 => le_trans h2 h1
      · exact le_trans
    · intro a b
      cases asc <;> simp only [Bool.false_eq_true, if_false, if_true, decide_eq_true_eq] <;> exact le_total _ _
  | custom order =>
    simp only [pyArrange, List.filter_filter, Bool.and_self]
    congr 1
    apply List.map_congr_left
    intro c _
    rw [lookup_filter_present hn]
  | byValue =>
    apply filter_insertionSort
    · intro a b c
      obtain ⟨_, a⟩ := a
      obtain ⟨_, b⟩ := b
      obtain ⟨_, c⟩ := c
      cases asc <;> cases a <;> cases b <;> cases c <;> simp
      · exact fun h1 h2 => le_trans h2 h1
      · exact le_trans
    · intro a b
      obtain ⟨_, a⟩ := a
      obtain ⟨_, b⟩ := b
      cases asc <;> cases a <;> cases b <;> simp <;> exact le_total _ _

omit [IsStrictOrderedRing K] [LinearOrder C] in
theorem sliceRows_present (t : DTab S C K) (s : S) (hT : sliceTotal t s ≠ 0) :
    (sliceRows (pyDist t) s).filter (fun r => r.2.isSome) = sliceRows (pyDist (t.filter fun r => r.2.isSome)) s := by
  have hp : ∀ s, presentVals (t.filter fun r => r.2.isSome) s = presentVals t s := by
    intro s
    unfold presentVals
    rw [List.filterMap_filter]
    apply List.filterMap_congr
    intro r _
    cases r.2 <;> simp
  have hs : ∀ s, sliceTotal (t.filter fun r => r.2.isSome) s = sliceTotal t s := by
    intro s; unfold sliceTotal; rw [hp]
  have e1 : ∀ t' : DTab S C K, sliceRows (pyDist t') s
      = (sliceRows t' s).map fun r => (r.1, nanDiv r.2 (some (sliceTotal t' s))) := by
    intro t'
    rw [pyDist_eq]
    unfold sliceRows
    rw [List.filterMap_map, List.map_filterMap]
    apply List.filterMap_congr
    intro r _
    simp only [Function.comp_apply]
    by_cases h : r.1.1 = s
    · simp [h]
    · simp [h]
  rw [e1, e1, hs, List.filter_map]
  congr 1
  unfold sliceRows
  rw [List.filter_filterMap, List.filterMap_filter]
  apply List.filterMap_congr
  intro r _
  by_cases h : r.1.1 = s
  · cases hr : r.2 <;> simp [h, hr, nanDiv, hT]
  · cases hr : r.2 <;> simp [h]

/-- **C29** Missing values: the categories that have a value get what they get in the data without the missing ones
(to which `C29_cumulative_partial` applies), in every order; and unless there is a custom order, which drops them, the
categories without a value appear with a missing share. -/
theorem C29_missing (mode : CumMode C) (asc : Bool) (t : DTab S C K) (s : S) (hT : sliceTotal t s ≠ 0)
    (hn : ((sliceRows t s).map (·.1)).Nodup) :
    (pyCumulative mode asc (sliceRows (pyDist t) s)).filter (fun r => r.2.isSome)
      = pyCumulative mode asc (sliceRows (pyDist (t.filter fun r => r.2.isSome)) s) ∧
    ∀ c, (c, none) ∈ pyCumulative mode asc (sliceRows (pyDist t) s) ↔
      (c, none) ∈ sliceRows t s ∧ ∀ order, mode ≠ .custom order := by
  have hn' : ((sliceRows (pyDist t) s).map (·.1)).Nodup := by
    rw [sliceRows_pyDist, List.map_map]
    exact hn
  constructor
  · unfold pyCumulative cumsum
    rw [zip_cumsumFrom_filter, arrange_filter mode asc hn', sliceRows_present t s hT]
  · intro c
    unfold pyCumulative cumsum
    rw [zip_cumsumFrom_none]
    have hmem : (c, none) ∈ sliceRows (pyDist t) s ↔ (c, none) ∈ sliceRows t s := by
      rw [sliceRows_pyDist, List.mem_map]
      constructor
      · rintro ⟨⟨c', v⟩, h1, h2⟩
        cases v with
        | none => simp only [Prod.mk.injEq] at h2; rw [← h2.1]; exact h1
        | some v => simp [nanDiv, hT] at h2
      · intro h
        exact ⟨(c, none), h, by simp [nanDiv]⟩
    rw [← hmem]
    cases mode with
    | over => simp only [pyArrange, List.mem_insertionSort]; simp
    | byValue => simp only [pyArrange, List.mem_insertionSort]; simp
    | custom order => simp [pyArrange]

/-- **C29** With missing values the query differs: the window SUM gives a category without a value the share of those
before it. -/
theorem C29_violation_missing_sql :
    let t : DTab Nat Nat ℚ := [((0, 0), some 1), ((0, 1), none), ((0, 2), some 3)]
    pyCumulative .over true (sliceRows (pyDist t) 0) = [(0, some (1 / 4)), (1, none), (2, some 1)] ∧
    SqlCumulative .over true (sliceRows (sqlDist t) 0) [(0, some (1 / 4)), (1, some (1 / 4)), (2, some 1)] := by
  refine ⟨by decide +kernel, [(0, some (1 / 4)), (1, none), (2, some (3 / 4))], ?_, ?_, ?_⟩
  · decide +kernel
  · simp [sqlBefore]
  · decide +kernel

/-- The hypotheses are met. -/
example :
    let t : DTab Nat Nat ℚ := [((0, 0), some 1), ((0, 1), none), ((0, 2), some 3)]
    sliceTotal t 0 ≠ 0 ∧ ((sliceRows t 0).map (·.1)).Nodup ∧
    pyCumulative .byValue false (sliceRows (pyDist t) 0) = [(2, some (3 / 4)), (0, some 1), (1, none)] := by
  decide +kernel

end Verif
