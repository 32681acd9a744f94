import Verif.Lemmas.Preagg
import Verif.Lemmas.SqlAlias
import Verif.Props.SqlAlias
import Verif.Spec.Example

/-!
# C84: preaggregated data give the same result as the rows

/repo/operations.py:2612-2691, 2789-2876, 3116-3202.
-/

namespace Verif

theorem preaggregate_ok {env : Env} {ν : PreNaming} {unit : String} {m t : M} {f g : Frame} {sb : List String}
    (h : preaggregate env ν unit m f sb = .ok (t, g)) :
    (∀ l ∈ (m.push []).leafList, l.1.canPre = true) ∧ t = (m.push []).preTree ν ∧
      g = preFrame env ν (sb ++ [unit] ++ m.extraSplit) (m.push []).leafList f ∧
      PreColsOk ν (sb ++ [unit] ++ m.extraSplit) (m.push []).leafList f g ∧ (sb ++ [unit] ++ m.extraSplit).Nodup := by
  unfold preaggregate at h
  simp only at h
  split at h
  · cases h
  rename_i h1
  split at h
  · cases h
  rename_i h2
  split at h
  · cases h
  rename_i h3
  simp only [Except.ok.injEq, Prod.mk.injEq] at h
  obtain ⟨rfl, rfl⟩ := h
  simp only [Bool.not_eq_true, Bool.not_eq_false', List.all_eq_true] at h1 h2
  refine ⟨h1, rfl, rfl, ⟨?_, ?_, ?_, ?_⟩, by simpa using h3⟩
  · intro c hc
    have := h2 c (List.mem_append_right _ hc)
    simpa using this
  · intro l hl
    have := h2 l.1.col (List.mem_append_left _ (List.mem_flatMap.2 ⟨l, hl, by rw [vars_canPre (h1 l hl)]; simp⟩))
    simpa using this
  · intro c hc
    exact List.mem_append_left _ hc
  · intro l hl
    exact List.mem_append_right _ (List.mem_map.2 ⟨l, hl, rfl⟩)

theorem all_sub (unit : String) (m : M) (sb : List String) : sb ++ m.opCols ⊆ sb ++ [unit] ++ m.extraSplit := by
  intro c hc
  rcases List.mem_append.1 hc with h | h
  · simp [h]
  · simp [opCols_sub m h]

theorem C84_of_standFor {env : Env} {ν : PreNaming} {unit : String} {m t : M} {f g : Frame} {sb : List String}
    (h : preaggregate env ν unit m f sb = .ok (t, g)) {A B : List Row}
    (hs : StandFor env ν (sb ++ [unit] ++ m.extraSplit) (m.push []).leafList A B)
    (hk : NoSliceEmptied env m { f with rows := A } sb) :
    ExRel Res.Same (t.run env { g with rows := B } sb) (m.run env { f with rows := A } sb) := by
  obtain ⟨h1, rfl, _, h3, _⟩ := preaggregate_ok h
  have := pre_run (f := { f with rows := A }) (g := { g with rows := B }) h1 ⟨h3.raw, h3.rawVar, h3.pre, h3.preVar⟩ hs m [] sb
    (List.Subset.refl _) (all_sub unit m sb) (by rw [query_nil]; exact hk)
  rwa [query_nil] at this

theorem standFor_pre {env : Env} {ν : PreNaming} {unit : String} {m t : M} {f g : Frame} {sb : List String}
    (h : preaggregate env ν unit m f sb = .ok (t, g)) (hc : f.completeIn (sb ++ [unit] ++ m.extraSplit))
    (hn : namesFit env ν (sb ++ [unit] ++ m.extraSplit) (m.push []).leafList) :
    StandFor env ν (sb ++ [unit] ++ m.extraSplit) (m.push []).leafList f.rows g.rows := by
  obtain ⟨h1, _, h2, _, _⟩ := preaggregate_ok h
  rw [h2]
  exact standFor_frame (by simp) h1 hn hc

/-- **C84** The metric and the table that the preaggregation of a bootstrap returns give what the metric gives on the original table, for
every tree of sums, counts, maxima and minima, with filters anywhere: the same columns, the same index values, the same numbers; or both
fail in the same way. -/
theorem C84_preaggregated {env : Env} {ν : PreNaming} {unit : String} {m t : M} {f g : Frame} {sb : List String}
    (h : preaggregate env ν unit m f sb = .ok (t, g)) (hc : f.completeIn (sb ++ [unit] ++ m.extraSplit))
    (hn : namesFit env ν (sb ++ [unit] ++ m.extraSplit) (m.push []).leafList) (hk : NoSliceEmptied env m f sb) :
    ExRel Res.Same (t.run env g sb) (m.run env f sb) :=
  C84_of_standFor h (standFor_pre h hc hn) hk

/-- **C84** The same for every sample: whatever units a bootstrap draws, however often, from the two tables. -/
theorem C84_resampled {env : Env} {ν : PreNaming} {unit : String} {m t : M} {f g : Frame} {sb : List String}
    (h : preaggregate env ν unit m f sb = .ok (t, g)) (hc : f.completeIn (sb ++ [unit] ++ m.extraSplit))
    (hn : namesFit env ν (sb ++ [unit] ++ m.extraSplit) (m.push []).leafList) (draws : List Key)
    (hk : NoSliceEmptied env m (f.drawn (sb ++ [unit]) draws) sb) :
    ExRel Res.Same (t.run env (g.drawn (sb ++ [unit]) draws) sb) (m.run env (f.drawn (sb ++ [unit]) draws) sb) := by
  have h1 := (preaggregate_ok h).1
  exact C84_of_standFor h (StandFor.flatMap h1 draws
    (fun u _ => (standFor_pre h hc hn).at h1 (fun c hc => List.mem_append_left _ hc) u)) hk

/-- **C84** The Poisson bootstrap repeats the rows of each unit of the original table as often as its weight says, and multiplies the
sums and counts of the preaggregated table by the weight (units with weight 0 are left out): the results are the same. -/
theorem C84_poisson {env : Env} {ν : PreNaming} {unit : String} {m t : M} {f g : Frame} {sb : List String}
    (h : preaggregate env ν unit m f sb = .ok (t, g)) (hc : f.completeIn (sb ++ [unit] ++ m.extraSplit))
    (hn : namesFit env ν (sb ++ [unit] ++ m.extraSplit) (m.push []).leafList) (ht : namesTell ν (m.push []).leafList)
    (draws : List (Key × ℕ)) (hk : NoSliceEmptied env m (f.weighted (sb ++ [unit]) draws) sb) :
    ExRel Res.Same (t.run env (g.scaled (sb ++ [unit] ++ m.extraSplit).length (sb ++ [unit]) draws) sb)
      (m.run env (f.weighted (sb ++ [unit]) draws) sb) := by
  obtain ⟨h1, _, h2, _, _⟩ := preaggregate_ok h
  have hcols : g.cols.drop (sb ++ [unit] ++ m.extraSplit).length = (m.push []).leafList.map (fun l => ν l.1 l.2) := by
    rw [h2]; simp [preFrame]
  refine C84_of_standFor h ?_ hk
  have e : draws.flatMap (fun u => (List.replicate u.2 (rowsAt (sb ++ [unit]) u.1 f.rows)).flatten) =
      (draws.filter (fun u => 0 < u.2)).flatMap (fun u => (List.replicate u.2 (rowsAt (sb ++ [unit]) u.1 f.rows)).flatten) :=
    flatMap_filter_pos (fun k n => (List.replicate n (rowsAt (sb ++ [unit]) k f.rows)).flatten) (fun _ => by simp) draws
  show StandFor _ _ _ _ (draws.flatMap _) _
  rw [e]
  refine StandFor.flatMap h1 _ (fun u hu => ?_)
  rw [hcols]
  refine StandFor.scale ((standFor_pre h hc hn).at h1 (fun c hc => List.mem_append_left _ hc) u.1) hn.1 ht ?_ ?_
    (by simpa using (List.mem_filter.1 hu).2)
  · exact fun l hl => List.mem_map.2 ⟨l, hl, rfl⟩
  · intro c hc
    obtain ⟨l, hl, rfl⟩ := List.mem_map.1 hc
    exact hn.1 l hl

/-- **C84** Where no operation splits further, the rows of the preaggregated table are repeated instead, and the results are the same. -/
theorem C84_poisson_rows {env : Env} {ν : PreNaming} {unit : String} {m t : M} {f g : Frame} {sb : List String}
    (h : preaggregate env ν unit m f sb = .ok (t, g)) (hc : f.completeIn (sb ++ [unit] ++ m.extraSplit))
    (hn : namesFit env ν (sb ++ [unit] ++ m.extraSplit) (m.push []).leafList)
    (draws : List (Key × ℕ)) (hk : NoSliceEmptied env m (f.weighted (sb ++ [unit]) draws) sb) :
    ExRel Res.Same (t.run env (g.weighted (sb ++ [unit]) draws) sb) (m.run env (f.weighted (sb ++ [unit]) draws) sb) := by
  have h1 := (preaggregate_ok h).1
  refine C84_of_standFor h (StandFor.flatMap h1 draws (fun u _ => ?_)) hk
  have hs := (standFor_pre h hc hn).at h1 (G := sb ++ [unit]) (fun c hc => List.mem_append_left _ hc) u.1
  induction u.2 with
  | zero => exact StandFor.nil h1
  | succ n ih =>
    rw [List.replicate_succ, List.flatten_cons, List.replicate_succ, List.flatten_cons]
    exact hs.append ih

/-- **C84** Whatever the filters leave: the result of a preaggregated aggregation has a row for every slice of the table, with the
aggregation of the rows that pass the filters, which is 0 for sums and counts of nothing. -/
theorem C84_slices {env : Env} {ν : PreNaming} {unit : String} {k : Leaf} {wh : List String} {t : M} {f g : Frame} {sb : List String}
    (h : preaggregate env ν unit (.leaf k wh) f sb = .ok (t, g)) (hc : f.completeIn (sb ++ [unit])) (hf : ν k wh ∉ sb ++ [unit]) :
    ∃ tb, t.run env g sb = .ok (.tbl [] [tb]) ∧
      Tbl.Same tb ((groupKeys sb f.rows).map (fun v => (v, k.agg (rowsAt sb v (f.query env wh).rows)))) := by
  have hs := standFor_pre h (by simpa [M.extraSplit] using hc) ⟨by simpa [M.extraSplit, M.push, M.leafList] using hf, by simp [M.push, M.leafList]⟩
  obtain ⟨h1, rfl, _, h3, _⟩ := preaggregate_ok h
  obtain ⟨tb, e, hs⟩ := leaf_pre h1 h3 hs (k := k) (wh := wh) (S := sb) (by simp [M.push, M.leafList]) (fun c hc => by simp [hc])
  refine ⟨tb, ?_, hs⟩
  simpa [M.push, M.preTree, M.run, query_nil] using e

/-- **C84** The preaggregation succeeds whenever the aggregations are sums, counts, maxima and minima, the columns exist and no column is
split by twice. -/
theorem C84_succeeds (env : Env) (ν : PreNaming) (unit : String) (m : M) (f : Frame) (sb : List String)
    (h1 : ∀ l ∈ (m.push []).leafList, ∃ v, (l.1 = .sum v ∨ l.1 = .count v ∨ l.1 = .max v ∨ l.1 = .min v) ∧ v ∈ f.cols)
    (h2 : ∀ c ∈ sb ++ [unit] ++ m.extraSplit, c ∈ f.cols) (h3 : (sb ++ [unit] ++ m.extraSplit).Nodup) :
    ∃ t g, preaggregate env ν unit m f sb = .ok (t, g) := by
  refine ⟨(m.push []).preTree ν, preFrame env ν (sb ++ [unit] ++ m.extraSplit) (m.push []).leafList f, ?_⟩
  unfold preaggregate
  simp only
  rw [if_neg, if_neg, if_neg]
  · simpa using h3
  · simp only [Bool.not_eq_true, Bool.not_eq_false', List.all_eq_true]
    intro c hc
    rcases List.mem_append.1 hc with hc | hc
    · obtain ⟨l, hl, hcl⟩ := List.mem_flatMap.1 hc
      obtain ⟨v, hv, hvf⟩ := h1 l hl
      rcases hv with e | e | e | e <;> (rw [e] at hcl; simp only [Leaf.vars, List.mem_singleton] at hcl; subst hcl; simpa using hvf)
    · simpa using h2 c hc
  · simp only [Bool.not_eq_true, Bool.not_eq_false', List.all_eq_true]
    intro l hl
    obtain ⟨v, hv, _⟩ := h1 l hl
    rcases hv with e | e | e | e <;> rw [e] <;> rfl

/-! ## The samples -/

theorem rowsAt_self (G : List String) (u u' : Key) (rs : List Row) : rowsAt G u (rowsAt G u' rs) = if u = u' then rowsAt G u rs else [] := by
  unfold rowsAt
  rw [List.filter_filter]
  split
  · rename_i h; subst h; simp
  · rename_i h
    rw [List.filter_eq_nil_iff]
    intro r _ e
    simp only [Bool.and_eq_true, decide_eq_true_eq] at e
    exact h (by rw [e.1] at e; simpa using e.2)

/-- **C84** A sample has the rows of a unit as often as the unit is drawn, and nothing else. -/
theorem C84_sample (f : Frame) (grp : List String) (draws : List Key) :
    (∀ u, rowsAt grp u (f.drawn grp draws).rows = (List.replicate (draws.count u) (rowsAt grp u f.rows)).flatten) ∧
      ∀ r ∈ (f.drawn grp draws).rows, ∃ u ∈ draws, keyOf grp r = some u := by
  constructor
  · intro u
    show rowsAt grp u (draws.flatMap _) = _
    induction draws with
    | nil => simp [rowsAt]
    | cons d draws ih =>
      rw [List.flatMap_cons, rowsAt_append', ih, rowsAt_self, List.count_cons]
      by_cases h : d = u
      · subst h; simp [List.replicate_succ]
      · simp [h, Ne.symm h]
  · intro r hr
    obtain ⟨u, hu, hr⟩ := List.mem_flatMap.1 hr
    exact ⟨u, hu, by simpa using (List.mem_filter.1 hr).2⟩

/-- **C84** A Poisson sample has the rows of each unit as often as the weights of the unit say, and nothing else. -/
theorem C84_poisson_sample (f : Frame) (grp : List String) (draws : List (Key × ℕ)) :
    (∀ u, rowsAt grp u (f.weighted grp draws).rows =
      (List.replicate ((draws.filter (fun d => d.1 = u)).map Prod.snd).sum (rowsAt grp u f.rows)).flatten) ∧
      ∀ r ∈ (f.weighted grp draws).rows, ∃ u ∈ draws, 0 < u.2 ∧ keyOf grp r = some u.1 := by
  constructor
  · intro u
    show rowsAt grp u (draws.flatMap _) = _
    induction draws with
    | nil => simp [rowsAt]
    | cons d draws ih =>
      rw [List.flatMap_cons, rowsAt_append', ih, rowsAt_flatten_replicate, rowsAt_self, List.filter_cons]
      by_cases h : d.1 = u
      · subst h
        rw [if_pos rfl, if_pos (by simp), List.map_cons, List.sum_cons, List.replicate_add, List.flatten_append]
      · simp [h, Ne.symm h]
  · intro r hr
    obtain ⟨u, hu, hr⟩ := List.mem_flatMap.1 hr
    obtain ⟨Y, hY, hr⟩ := List.mem_flatten.1 hr
    obtain ⟨h0, rfl⟩ := List.mem_replicate.1 hY
    exact ⟨u, hu, by omega, by simpa using (List.mem_filter.1 hr).2⟩

/-! ## The names -/

theorem dropWhile_append_of_mem {p : Char → Bool} {X : Txt} (h : ∃ c ∈ X, p c = false) (Y : Txt) : (X ++ Y).dropWhile p = X.dropWhile p ++ Y := by
  induction X with
  | nil => obtain ⟨c, hc, _⟩ := h; simp at hc
  | cons a X ih =>
    rw [List.cons_append, List.dropWhile_cons, List.dropWhile_cons]
    by_cases ha : p a = true
    · rw [if_pos ha, if_pos ha]
      apply ih
      obtain ⟨c, hc, hp⟩ := h
      rcases List.mem_cons.1 hc with rfl | hc
      · rw [ha] at hp; cases hp
      · exact ⟨c, hc, hp⟩
    · rw [if_neg ha, if_neg ha]; rfl

theorem replUU_word : ∀ (w X : Txt), '_' ∉ w → ∃ Y, replUU (w ++ '_' :: X) = w ++ '_' :: Y
  | [], [], _ => ⟨[], rfl⟩
  | [], b :: X, _ => by
    simp only [List.nil_append, replUU, true_and]
    split
    · exact ⟨_, rfl⟩
    · exact ⟨_, rfl⟩
  | [a], X, h => by
    obtain ⟨Y, hY⟩ := replUU_word [] X (by simp)
    simp only [List.nil_append] at hY
    have : a ≠ '_' := by rintro rfl; simp at h
    refine ⟨Y, ?_⟩
    simp only [List.cons_append, List.nil_append, replUU, this, false_and, if_false, hY]
  | a :: b :: w, X, h => by
    obtain ⟨Y, hY⟩ := replUU_word (b :: w) X (fun e => h (by simp [e]))
    have : a ≠ '_' := by rintro rfl; simp at h
    refine ⟨Y, ?_⟩
    simp only [List.cons_append] at hY
    simp only [List.cons_append, replUU, this, false_and, if_false, hY]

/-- The words in the names. -/
theorem word_facts (k : Leaf) : k.word ≠ [] ∧ (∀ c ∈ k.word, c ∉ specialChars) ∧ '_' ∉ k.word ∧ (∀ c ∈ k.word, c.isDigit = false) := by
  have h : ∀ w ∈ ["count".toList, "max".toList, "min".toList, "sum".toList], w ≠ [] ∧ (∀ c ∈ w, c ∉ specialChars) ∧ '_' ∉ w ∧
      (∀ c ∈ w, c.isDigit = false) := by decide
  apply h
  cases k <;> simp [Leaf.word]

theorem preaggVar_word (k : Leaf) (v : Txt) (wh : Option Txt) (hv : ∃ c ∈ v, c ∉ specialChars ∧ c ≠ '_') :
    ∃ Y, preaggVar k.word v wh = some (k.word ++ '_' :: Y) := by
  obtain ⟨w1, w2, w3, w4⟩ := word_facts k
  have hname : ∃ Z, (∃ c ∈ Z, c ∉ specialChars ∧ c ≠ '_') ∧
      preaggVar k.word v wh = escapeAlias (k.word ++ '(' :: Z) := by
    obtain ⟨c, hc, h⟩ := hv
    unfold preaggVar
    cases wh with
    | none => exact ⟨v ++ ")".toList, ⟨c, by simp [hc], h⟩, by simp⟩
    | some w => exact ⟨v ++ ")".toList ++ (" where ".toList ++ w), ⟨c, by simp [hc], h⟩, by simp⟩
  obtain ⟨Z, ⟨c, hc, hcs, hcu⟩, hZ⟩ := hname
  rw [hZ, escapeAlias_eq, if_neg]
  swap
  · rintro (h | h)
    · simp at h
    · exact h '(' (by decide) (by simp)
  have hesc : (k.word ++ '(' :: Z).flatMap escChar = k.word ++ '_' :: Z.flatMap escChar := by
    rw [List.flatMap_append, List.flatMap_cons]
    have : k.word.flatMap escChar = k.word := by
      have : ∀ w : Txt, (∀ c ∈ w, c ∉ specialChars) → w.flatMap escChar = w := by
        intro w
        induction w with
        | nil => intro _; rfl
        | cons a w ih =>
          intro h
          rw [List.flatMap_cons, escChar_plain a (h a (by simp)), ih (fun c hc => h c (by simp [hc]))]; rfl
      exact this _ w2
    rw [this]
    rfl
  have hcZ : c ∈ Z.flatMap escChar := List.mem_flatMap.2 ⟨c, hc, by rw [escChar_plain c hcs]; simp⟩
  have hns : ∀ x ∈ k.word ++ '_' :: Z.flatMap escChar, x ≠ ' ' := by
    intro x hx e
    subst e
    rcases List.mem_append.1 hx with h | h
    · exact w2 _ h (by decide)
    · rcases List.mem_cons.1 h with h | h
      · exact absurd h (by decide)
      · obtain ⟨y, _, hy⟩ := List.mem_flatMap.1 h
        exact esc_no_special y _ hy (by decide)
  have hstrip : ∃ X, stripC '_' (k.word ++ '_' :: Z.flatMap escChar) = k.word ++ '_' :: X := by
    unfold stripC
    have h1 : (k.word ++ '_' :: Z.flatMap escChar).dropWhile (· == '_') = k.word ++ '_' :: Z.flatMap escChar := by
      obtain ⟨a, w, hw⟩ := List.exists_cons_of_ne_nil w1
      rw [hw, List.cons_append, List.dropWhile_cons, if_neg]
      have : a ≠ '_' := by rintro rfl; exact w3 (by rw [hw]; simp)
      simpa using this
    rw [h1]
    have h2 : (k.word ++ '_' :: Z.flatMap escChar).reverse = (Z.flatMap escChar).reverse ++ ('_' :: k.word.reverse) := by simp
    rw [h2, dropWhile_append_of_mem ⟨c, by simpa using hcZ, by simpa using hcu⟩]
    exact ⟨_, by rw [List.reverse_append]; simp; rfl⟩
  obtain ⟨X, hX⟩ := hstrip
  have hstrip2 : stripC ' ' (k.word ++ '_' :: X) = k.word ++ '_' :: X := by
    have hx : ∀ x ∈ k.word ++ '_' :: X, x ≠ ' ' := by
      rw [← hX]
      exact fun x hx => hns x (stripC_subset _ _ _ hx)
    have nodrop : ∀ s : Txt, (∀ x ∈ s, x ≠ ' ') → s.dropWhile (· == ' ') = s := by
      intro s hs
      cases s with
      | nil => rfl
      | cons a s => rw [List.dropWhile_cons, if_neg]; simpa using hs a (by simp)
    unfold stripC
    rw [nodrop _ hx, nodrop _ (fun x h => hx x (List.mem_reverse.1 h)), List.reverse_reverse]
  have hbody : ∃ Y, escBody (k.word ++ '(' :: Z) = k.word ++ '_' :: Y := by
    unfold escBody
    rw [hesc, hX, hstrip2]
    exact replUU_word _ _ w3
  obtain ⟨Y, hY⟩ := hbody
  refine ⟨Y, ?_⟩
  rw [hY]
  obtain ⟨a, w, hw⟩ := List.exists_cons_of_ne_nil w1
  have ha := w4 a (by rw [hw]; simp)
  rw [hw]
  simp [ha]

/-- **C84** The names in use tell sums and counts from maxima and minima, whatever the filters, if the name of the aggregated column has a
character that is neither special nor an underscore. -/
theorem C84_names (leaves : List (Leaf × List String))
    (h : ∀ l ∈ leaves, l.1.canPre = true ∧ ∃ c ∈ (l.1.vars.headD "").toList, c ∉ specialChars ∧ c ≠ '_') : namesTell preName leaves := by
  intro l hl
  obtain ⟨hp, hv⟩ := h l hl
  obtain ⟨k, wh⟩ := l
  obtain ⟨Y, hY⟩ := preaggVar_word k (k.vars.headD "").toList ((Fp.whereText wh).map String.toList) hv
  simp only [preName, hY, isSumOrCount, Option.getD_some, String.toList_ofList]
  cases k <;> simp only [Leaf.canPre, Bool.false_eq_true] at hp <;> simp [Leaf.word]

/-! ## Where the two differ, and a case where they do not -/

/-- A table in which a unit is missing. -/
def preaggHole : Frame := { cols := ["u", "x"], rows := [mkRow [("u", 0), ("x", 1)], mkRow [("x", 2)]] }

/-- **C84** violated: rows without a unit count in the result of the metric, but not in that of the preaggregated one, which is the
point estimate that a bootstrap by unit shows. -/
theorem C84_violation_missing_unit :
    ∃ t g, preaggregate exEnv preName "u" (.leaf (.sum "x") []) preaggHole [] = .ok (t, g) ∧
      (M.leaf (.sum "x") []).run exEnv preaggHole [] = .ok (.tbl [] [[([], .fin 3)]]) ∧
      t.run exEnv g [] = .ok (.tbl [] [[([], .fin 1)]]) :=
  ⟨_, _, rfl, by decide +kernel, by decide +kernel⟩

/-- A table with units. -/
def preaggFrame : Frame :=
  { cols := ["g", "c", "u", "x"]
    rows := [mkRow [("g", 1), ("c", 0), ("u", 0), ("x", 1)], mkRow [("g", 0), ("c", 1), ("u", 0), ("x", 2)],
             mkRow [("g", 1), ("c", 0), ("u", 1), ("x", 4)], mkRow [("g", 1), ("c", 1), ("u", 1), ("x", 5)],
             mkRow [("g", 1), ("c", 1), ("u", 1), ("x", 6)]] }

/-- **C84** violated: a slice that the filter empties is not in the result of the metric, but appears with 0 in that of the
preaggregated one. -/
theorem C84_violation_filter :
    ∃ t g, preaggregate exEnv preName "u" (.leaf (.sum "x") ["g == 1"]) preaggFrame ["g"] = .ok (t, g) ∧
      (M.leaf (.sum "x") ["g == 1"]).run exEnv preaggFrame ["g"] = .ok (.tbl [] [[([1], .fin 16)]]) ∧
      t.run exEnv g ["g"] = .ok (.tbl [] [[([0], .fin 0), ([1], .fin 16)]]) :=
  ⟨_, _, rfl, by decide +kernel, by decide +kernel⟩

/-- **C84** violated: a column named `_` is summed without its weight by the Poisson bootstrap, as the name of its sum is `sum`. -/
theorem C84_violation_name : isSumOrCount (preName (.sum "_") []) = false ∧ isSumOrCount (preName (.sum "x") []) = true := by
  constructor <;> decide +kernel

/-- **C84** violated: two columns by both of which a tree splits. -/
theorem C84_violation_twice :
    preaggregate exEnv preName "u" (.oper (.dist ["u"]) (.leaf (.sum "x") []) []) preaggFrame [] = .error .valueError ∧
      ∃ r, (M.oper (.dist ["u"]) (.leaf (.sum "x") []) []).run exEnv preaggFrame [] = .ok r :=
  ⟨rfl, _, rfl⟩

/-- The change of a difference of which one side is filtered. -/
def preaggTree : M :=
  .oper (.absChange ["c"] [0] false) (.comp .sub (.leaf (.sum "x") ["g == 1"]) (.leaf (.max "x") []) []) []

/-- A tree with an operation, a filter, a sum and a maximum meets the hypotheses. -/
example : ∃ t g, preaggregate exEnv preName "u" preaggTree preaggFrame [] = .ok (t, g) ∧
    preaggFrame.completeIn (([] : List String) ++ ["u"] ++ preaggTree.extraSplit) ∧
    namesFit exEnv preName (([] : List String) ++ ["u"] ++ preaggTree.extraSplit) (preaggTree.push []).leafList ∧
    namesTell preName (preaggTree.push []).leafList ∧ NoSliceEmptied exEnv preaggTree preaggFrame [] ∧
    t.run exEnv g [] = .ok (.tbl ["c"] [[([1], .fin 4)]]) := by
  have hl : (preaggTree.push []).leafList = [(.sum "x", ["g == 1"]), (.max "x", [])] := rfl
  have he : preaggTree.extraSplit = ["c"] := rfl
  refine ⟨_, _, rfl, ?_, ⟨?_, ?_⟩, ?_, ?_, by decide +kernel⟩
  · unfold Frame.completeIn; rw [he]; decide +kernel
  · rw [hl, he]; decide +kernel
  · rw [hl]
    intro l hl l' hl' e
    simp only [List.mem_cons, List.not_mem_nil, or_false] at hl hl'
    rcases hl with rfl | rfl <;> rcases hl' with rfl | rfl
    · simp
    · exact absurd e (by decide +kernel)
    · exact absurd e (by decide +kernel)
    · simp
  · apply C84_names
    rw [hl]
    decide +kernel
  · intro k wh f' sb' hr
    cases hr with
    | child hr =>
      cases hr with
      | left hr => cases hr with | here => decide +kernel
      | right hr => cases hr with | here => decide +kernel

end Verif
