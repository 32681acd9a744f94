import Verif.Model.Metric

namespace Verif

theorem keyOf_append (sb ex : List String) (r : Row) :
    keyOf (sb ++ ex) r = (keyOf sb r).bind (fun a => (keyOf ex r).map (fun b => a ++ b)) := by
  unfold keyOf
  rw [List.mapM_append]
  cases List.mapM r sb <;> cases List.mapM r ex <;> rfl

theorem mapM_option_length {α β} (g : α → Option β) :
    ∀ (l : List α) (k : List β), l.mapM g = some k → k.length = l.length := by
  intro l
  induction l with
  | nil => intro k h; simp at h; subst h; rfl
  | cons a l ih =>
    intro k h
    rw [List.mapM_cons] at h
    cases ha : g a with
    | none => simp [ha] at h
    | some b =>
      cases hl : l.mapM g with
      | none => simp [ha, hl] at h
      | some bs =>
        simp [ha, hl] at h
        subst h
        simp [ih bs hl]

theorem keyOf_length {sb : List String} {r : Row} {k : Key} (h : keyOf sb r = some k) :
    k.length = sb.length := mapM_option_length r sb k h

theorem keyOf_append_eq_some {sb ex : List String} {r : Row} {v e : Key}
    (hv : v.length = sb.length) :
    keyOf (sb ++ ex) r = some (v ++ e) ↔ keyOf sb r = some v ∧ keyOf ex r = some e := by
  rw [keyOf_append]
  cases h1 : keyOf sb r with
  | none => simp
  | some a =>
    cases h2 : keyOf ex r with
    | none => simp
    | some b =>
      have ha := keyOf_length h1
      simp only [Option.bind_some, Option.map_some, Option.some.injEq]
      constructor
      · intro h
        exact List.append_inj h (by omega)
      · rintro ⟨rfl, rfl⟩; rfl

theorem rowsAt_rowsAt {sb ex : List String} {v e : Key} (rs : List Row)
    (hv : v.length = sb.length) :
    rowsAt ex e (rowsAt sb v rs) = rowsAt (sb ++ ex) (v ++ e) rs := by
  unfold rowsAt
  rw [List.filter_filter]
  apply List.filter_congr
  intro r _
  have := @keyOf_append_eq_some sb ex r v e hv
  by_cases h : keyOf (sb ++ ex) r = some (v ++ e)
  · simp [h, (this.1 h).1, (this.1 h).2]
  · have h' := h
    rw [this] at h'
    simp only [h, decide_false, Bool.and_eq_false_iff, decide_eq_false_iff_not]
    by_cases h1 : keyOf sb r = some v
    · exact Or.inl (fun h2 => h' ⟨h1, h2⟩)
    · exact Or.inr h1

theorem dedup_filterMap {α β} [DecidableEq α] [DecidableEq β] (g : α → Option β)
    (hg : ∀ a a' b, g a = some b → g a' = some b → a = a') :
    ∀ L : List α, (L.filterMap g).dedup = L.dedup.filterMap g := by
  intro L
  induction L with
  | nil => simp
  | cons a L ih =>
    by_cases hmem : a ∈ L
    · rw [List.dedup_cons_of_mem hmem]
      cases ha : g a with
      | none => rw [List.filterMap_cons_none ha, ih]
      | some b =>
        rw [List.filterMap_cons_some ha, List.dedup_cons_of_mem, ih]
        exact List.mem_filterMap.2 ⟨a, hmem, ha⟩
    · rw [List.dedup_cons_of_notMem hmem]
      cases ha : g a with
      | none => rw [List.filterMap_cons_none ha, List.filterMap_cons_none ha, ih]
      | some b =>
        rw [List.filterMap_cons_some ha, List.filterMap_cons_some ha,
          List.dedup_cons_of_notMem, ih]
        intro hb
        obtain ⟨a', ha', hb'⟩ := List.mem_filterMap.1 hb
        exact hmem (hg a a' b ha hb' ▸ ha')

/-- Restriction of an index value to the slice `v`. -/
def keyAt (v : Key) (k : Key) : Option Key :=
  if k.take v.length = v then some (k.drop v.length) else none

theorem keyAt_eq_some {v k e : Key} : keyAt v k = some e ↔ k = v ++ e := by
  unfold keyAt
  constructor
  · intro h
    split at h
    · rename_i h1
      simp at h
      rw [← List.take_append_drop v.length k, h1, h]
    · simp at h
  · rintro rfl
    simp

theorem keyAt_inj (v : Key) : ∀ a a' b, keyAt v a = some b → keyAt v a' = some b → a = a' := by
  intro a a' b h h'
  rw [keyAt_eq_some] at h h'
  rw [h, h']

theorem Tbl.at_eq (t : Tbl) (v : Key) :
    t.at v = t.filterMap (fun p => (keyAt v p.1).map (fun e => (e, p.2))) := by
  unfold Tbl.at keyAt
  congr 1
  funext p
  split <;> simp

theorem filterMap_keyOf_slice {sb ex : List String} {v : Key} (hv : v.length = sb.length)
    (rs : List Row) :
    (rs.filterMap (keyOf (sb ++ ex))).filterMap (keyAt v)
      = (rowsAt sb v rs).filterMap (keyOf ex) := by
  rw [List.filterMap_filterMap]
  unfold rowsAt
  rw [List.filterMap_filter]
  congr 1
  funext r
  by_cases h : keyOf sb r = some v
  · simp only [h, decide_true, if_true]
    cases he : keyOf ex r with
    | none =>
      rw [keyOf_append, h, he]; rfl
    | some e =>
      rw [(keyOf_append_eq_some hv).2 ⟨h, he⟩]
      simp only [Option.bind_some]
      rw [keyAt_eq_some]
  · simp only [h, decide_false]
    cases hk : keyOf (sb ++ ex) r with
    | none => simp
    | some k =>
      simp only [Option.bind_some]
      cases hka : keyAt v k with
      | none => simp
      | some e =>
        rw [keyAt_eq_some] at hka
        subst hka
        exact absurd ((keyOf_append_eq_some hv).1 hk).1 h

theorem groupKeys_slice {sb ex : List String} {v : Key} (hv : v.length = sb.length)
    (hsb : sb ≠ []) (rs : List Row) (hcov : ex ≠ [] ∨ v ∈ groupKeys sb rs) :
    (groupKeys (sb ++ ex) rs).filterMap (keyAt v) = groupKeys ex (rowsAt sb v rs) := by
  have hne : sb ++ ex ≠ [] := by simp [hsb]
  have h1 : groupKeys (sb ++ ex) rs = (rs.filterMap (keyOf (sb ++ ex))).dedup := by
    unfold groupKeys; rw [if_neg hne]
  rw [h1, ← dedup_filterMap _ (keyAt_inj v), filterMap_keyOf_slice hv]
  unfold groupKeys
  by_cases hex : ex = []
  · rw [if_pos hex]
    subst hex
    have hmem : v ∈ groupKeys sb rs := by
      cases hcov with
      | inl h => exact absurd rfl h
      | inr h => exact h
    unfold groupKeys at hmem
    rw [if_neg hsb, List.mem_dedup, List.mem_filterMap] at hmem
    obtain ⟨r, hr, hrk⟩ := hmem
    have hr' : r ∈ rowsAt sb v rs := by
      unfold rowsAt; rw [List.mem_filter]; exact ⟨hr, by simpa using hrk⟩
    have : ∀ l : List Row, l ≠ [] → (l.filterMap (keyOf [])).dedup = [[]] := by
      intro l
      induction l with
      | nil => intro h; exact absurd rfl h
      | cons a l ih =>
        intro _
        have hk : keyOf [] a = some [] := rfl
        rw [List.filterMap_cons_some hk]
        cases l with
        | nil => rfl
        | cons b l =>
          rw [List.dedup_cons_of_mem, ih (by simp)]
          rw [← List.mem_dedup, ih (by simp)]; simp
    exact this _ (List.ne_nil_of_mem hr')
  · rw [if_neg hex]

theorem Leaf.slice_tbl (k : Leaf) {sb ex : List String} {v : Key} (hv : v.length = sb.length)
    (hsb : sb ≠ []) (rs : List Row) (hcov : ex ≠ [] ∨ v ∈ groupKeys sb rs) :
    Tbl.at ((groupKeys (sb ++ ex) rs).map (fun key => (key, k.agg (rowsAt (sb ++ ex) key rs)))) v
      = (groupKeys ex (rowsAt sb v rs)).map
          (fun key => (key, k.agg (rowsAt ex key (rowsAt sb v rs)))) := by
  rw [Tbl.at_eq, List.filterMap_map, ← groupKeys_slice hv hsb rs hcov, List.map_filterMap]
  congr 1
  funext key
  simp only [Function.comp]
  cases h : keyAt v key with
  | none => simp
  | some e =>
    rw [keyAt_eq_some] at h
    subst h
    simp [rowsAt_rowsAt rs hv]

theorem Tbl.get_at (t : Tbl) (v e : Key) : (t.at v).get e = t.get (v ++ e) := by
  rw [Tbl.at_eq]
  unfold Tbl.get
  induction t with
  | nil => simp
  | cons p t ih =>
    cases h : keyAt v p.1 with
    | none =>
      rw [List.filterMap_cons_none (by simp [h]), ih]
      have hne : p.1 ≠ v ++ e := by
        intro hp
        have := (keyAt_eq_some (v := v) (k := p.1) (e := e)).2 hp
        rw [this] at h
        cases h
      rw [List.find?_cons_of_neg (by simpa using hne)]
    | some e' =>
      rw [List.filterMap_cons_some (b := (e', p.2)) (by simp [h])]
      rw [keyAt_eq_some] at h
      by_cases he : e' = e
      · rw [List.find?_cons_of_pos (by simpa using he),
          List.find?_cons_of_pos (by simp [h, he])]
        rfl
      · rw [List.find?_cons_of_neg (by simpa using he),
          List.find?_cons_of_neg (by simp [h, he]), ih]

theorem Tbl.at_map (t : Tbl) (v : Key) (g : PyVal → PyVal) :
    Tbl.at (t.map (fun p => (p.1, g p.2))) v = (t.at v).map (fun p => (p.1, g p.2)) := by
  rw [Tbl.at_eq, Tbl.at_eq, List.filterMap_map, List.map_filterMap]
  congr 1
  funext p
  simp only [Function.comp]
  cases keyAt v p.1 <;> simp

theorem Tbl.at_map_key (t : Tbl) (v : Key) (g : Key → PyVal → PyVal) (g' : Key → PyVal → PyVal)
    (h : ∀ e x, g (v ++ e) x = g' e x) :
    Tbl.at (t.map (fun p => (p.1, g p.1 p.2))) v
      = (t.at v).map (fun p => (p.1, g' p.1 p.2)) := by
  rw [Tbl.at_eq, Tbl.at_eq, List.filterMap_map, List.map_filterMap]
  congr 1
  funext p
  simp only [Function.comp]
  cases hk : keyAt v p.1 with
  | none => simp
  | some e =>
    have := keyAt_eq_some.1 hk
    simp [this, h]

theorem Tbl.keys_at (t : Tbl) (v : Key) :
    (t.at v).map Prod.fst = (t.map Prod.fst).filterMap (keyAt v) := by
  rw [Tbl.at_eq, List.filterMap_map, List.map_filterMap]
  congr 1
  funext p
  simp only [Function.comp]
  cases keyAt v p.1 <;> simp

theorem Tbl.at_align (op : PyVal → PyVal → PyVal) (a b : Tbl) (v : Key) :
    (Tbl.align op a b).at v = Tbl.align op (a.at v) (b.at v) := by
  unfold Tbl.align
  rw [Tbl.keys_at, Tbl.keys_at, ← List.filterMap_append, dedup_filterMap _ (keyAt_inj v),
    Tbl.at_eq, List.filterMap_map, List.map_filterMap]
  congr 1
  funext k
  simp only [Function.comp]
  cases hk : keyAt v k with
  | none => simp
  | some e =>
    have := keyAt_eq_some.1 hk
    subst this
    simp [Tbl.get_at]

theorem zipCols_at (op : PyVal → PyVal → PyVal) (as bs : List Tbl) (v : Key) {cs : List Tbl}
    (h : zipCols (Tbl.align op) (as.map (Tbl.at · v)) (bs.map (Tbl.at · v)) = .ok cs) :
    ∃ cs', zipCols (Tbl.align op) as bs = .ok cs' ∧ cs'.map (Tbl.at · v) = cs := by
  match as, bs with
  | [a], bs =>
    simp only [zipCols, List.map_cons, List.map_nil] at h ⊢
    injection h with h
    refine ⟨_, rfl, ?_⟩
    subst h
    simp [Function.comp_def, Tbl.at_align]
  | [], [] => simp [zipCols] at h ⊢; exact h
  | [], [b] => simp [zipCols] at h ⊢; exact h
  | [], b :: b' :: bs => simp [zipCols] at h
  | a :: a' :: as, [b] =>
    simp only [zipCols, List.map_cons, List.map_nil] at h ⊢
    injection h with h
    refine ⟨_, rfl, ?_⟩
    subst h
    simp [Function.comp_def, Tbl.at_align]
  | a :: a' :: as, [] => simp [zipCols] at h
  | a :: a' :: as, b :: b' :: bs =>
    simp only [zipCols, List.map_cons, List.length_cons, List.length_map] at h ⊢
    split at h
    · rename_i hl
      rw [if_pos hl]
      injection h with h
      refine ⟨_, rfl, ?_⟩
      subst h
      simp only [List.zipWith_cons_cons, List.map_cons, Tbl.at_align, List.map_zipWith,
        List.zipWith_map]
    · cases h

theorem combine_at (op : PyVal → PyVal → PyVal) (a b : Res) (v : Key) {c : Res}
    (h : combine op (a.at v) (b.at v) = .ok c) :
    ∃ c', combine op a b = .ok c' ∧ c'.at v = c := by
  match a, b with
  | .num x, .num y => simp [combine, Res.at] at h
  | .num x, .tbl ex bs =>
    simp only [combine, Res.at] at h ⊢
    injection h with h
    refine ⟨_, rfl, ?_⟩
    subst h
    simp only [List.map_map, Function.comp_def]
    congr 1
    apply List.map_congr_left
    intro t _
    exact Tbl.at_map t v (fun y => op (.fin x) y)
  | .tbl ex as, .num x =>
    simp only [combine, Res.at] at h ⊢
    injection h with h
    refine ⟨_, rfl, ?_⟩
    subst h
    simp only [List.map_map, Function.comp_def]
    congr 1
    apply List.map_congr_left
    intro t _
    exact Tbl.at_map t v (fun y => op y (.fin x))
  | .tbl ex as, .tbl ex' bs =>
    simp only [combine, Res.at] at h ⊢
    split at h
    · rename_i hex
      rw [if_pos hex]
      cases hz : zipCols (Tbl.align op) (as.map (Tbl.at · v)) (bs.map (Tbl.at · v)) with
      | error e => rw [hz] at h; cases h
      | ok cs =>
        rw [hz] at h
        obtain ⟨cs', h1, h2⟩ := zipCols_at op as bs v hz
        rw [h1]
        refine ⟨_, rfl, ?_⟩
        injection h with h
        subst h
        simp [h2]
    · cases h

theorem take_append_eq {v e e' : Key} (m : Nat) :
    (v ++ e').take (v.length + m) = (v ++ e).take (v.length + m) ↔ e'.take m = e.take m := by
  simp [List.take_append]

theorem Tbl.filter_take_at (t : Tbl) (v e : Key) (m : Nat) :
    (t.filter (fun p' => p'.1.take (v.length + m) = (v ++ e).take (v.length + m))).map Prod.snd
      = ((t.at v).filter (fun p' => p'.1.take m = e.take m)).map Prod.snd := by
  rw [Tbl.at_eq]
  induction t with
  | nil => simp
  | cons p t ih =>
    cases hk : keyAt v p.1 with
    | none =>
      rw [List.filterMap_cons_none (by simp [hk]), ← ih]
      rw [List.filter_cons_of_neg]
      simp only [decide_eq_true_eq]
      intro hp
      have h0 : p.1.take v.length = v := by
        have h2 := congrArg (List.take v.length) hp
        rw [List.take_take, List.take_take] at h2
        simpa using h2
      unfold keyAt at hk
      rw [if_pos h0] at hk
      cases hk
    | some e' =>
      rw [List.filterMap_cons_some (b := (e', p.2)) (by simp [hk])]
      have hp := keyAt_eq_some.1 hk
      by_cases hc : e'.take m = e.take m
      · rw [List.filter_cons_of_pos (by
          simp only [decide_eq_true_eq]; rw [hp]; exact (take_append_eq m).2 hc),
          List.filter_cons_of_pos (by simpa using hc)]
        simp only [List.map_cons, ih]
      · rw [List.filter_cons_of_neg (by
          simp only [decide_eq_true_eq]; rw [hp]; exact fun h => hc ((take_append_eq m).1 h)),
          List.filter_cons_of_neg (by simpa using hc)]
        exact ih

theorem distTbl_at (t : Tbl) (v : Key) (m : Nat) :
    (distTbl (v.length + m) t).at v = distTbl m (t.at v) := by
  unfold distTbl
  exact Tbl.at_map_key t v
    (fun k x => x.div (pySum ((t.filter (fun p' =>
      p'.1.take (v.length + m) = k.take (v.length + m))).map Prod.snd)))
    (fun k x => x.div (pySum (((t.at v).filter (fun p' => p'.1.take m = k.take m)).map Prod.snd)))
    (fun e x => by simp only [Tbl.filter_take_at])

theorem Tbl.mem_at {t : Tbl} {v e : Key} {x : PyVal} : (e, x) ∈ t.at v ↔ (v ++ e, x) ∈ t := by
  rw [Tbl.at_eq, List.mem_filterMap]
  constructor
  · rintro ⟨⟨k, y⟩, hp, h⟩
    cases hk : keyAt v k with
    | none => simp [hk] at h
    | some e' =>
      simp [hk] at h
      obtain ⟨rfl, rfl⟩ := h
      rw [keyAt_eq_some] at hk
      subst hk; exact hp
  · intro h
    refine ⟨_, h, ?_⟩
    simp [(keyAt_eq_some (v := v) (k := v ++ e) (e := e)).2 rfl]


theorem take_len_add (v e : Key) (m : Nat) : (v ++ e).take (v.length + m) = v ++ e.take m := by
  rw [List.take_append, List.take_of_length_le (by omega)]
  simp

theorem hhiTbl_at (t : Tbl) (v : Key) (m : Nat) (hv : v ≠ []) (hcov : m ≠ 0 ∨ t.at v ≠ []) :
    (hhiTbl (v.length + m) t).at v = hhiTbl m (t.at v) := by
  have hvl : v.length + m ≠ 0 := by
    cases v with
    | nil => exact absurd rfl hv
    | cons a v => simp
  unfold hhiTbl
  simp only [if_neg hvl]
  have hd : m ≠ 0 ∨ (distTbl (v.length + m) t).at v ≠ [] := by
    rw [distTbl_at]
    refine hcov.imp id (fun h h' => h ?_)
    unfold distTbl at h'
    simpa using h'
  rw [← distTbl_at]
  generalize distTbl (v.length + m) t = d at *
  -- keys
  have hkeys : (d.map (fun p => p.1.take (v.length + m))).filterMap (keyAt v)
      = (d.at v).map (fun p => p.1.take m) := by
    rw [Tbl.at_eq, List.filterMap_map, List.map_filterMap]
    congr 1
    funext p
    simp only [Function.comp]
    cases hk : keyAt v p.1 with
    | none =>
      simp only [Option.map_none]
      unfold keyAt at hk ⊢
      rw [List.take_take]
      split at hk
      · cases hk
      · rename_i h
        rw [if_neg]
        rwa [Nat.min_eq_left (by omega)]
    | some e =>
      have := keyAt_eq_some.1 hk
      rw [this]
      simp only [Option.map_some]
      rw [keyAt_eq_some, take_len_add]
  have hvals : ∀ e : Key, (d.filter (fun p => p.1.take (v.length + m) = v ++ e)).map
        (fun p => p.2.mul p.2)
      = ((d.at v).filter (fun p => p.1.take m = e)).map (fun p => p.2.mul p.2) := by
    intro e
    rw [Tbl.at_eq]
    clear hkeys hd
    induction d with
    | nil => simp
    | cons p d ih =>
      cases hk : keyAt v p.1 with
      | none =>
        rw [List.filterMap_cons_none (by simp [hk]), ← ih, List.filter_cons_of_neg]
        simp only [decide_eq_true_eq]
        intro hp
        have h0 : p.1.take v.length = v := by
          have h2 := congrArg (List.take v.length) hp
          rw [List.take_take] at h2
          simpa using h2
        unfold keyAt at hk
        rw [if_pos h0] at hk
        cases hk
      | some e' =>
        rw [List.filterMap_cons_some (b := (e', p.2)) (by simp [hk])]
        have hp := keyAt_eq_some.1 hk
        have hiff : p.1.take (v.length + m) = v ++ e ↔ e'.take m = e := by
          rw [hp, take_len_add]; simp
        by_cases hc : e'.take m = e
        · rw [List.filter_cons_of_pos (by simpa using hiff.2 hc),
            List.filter_cons_of_pos (by simpa using hc)]
          simp only [List.map_cons, ih]
        · rw [List.filter_cons_of_neg (by simpa using fun h => hc (hiff.1 h)),
            List.filter_cons_of_neg (by simpa using hc)]
          exact ih
  rw [Tbl.at_eq, List.filterMap_map]
  have hcov' : (if m = 0 then [[]] else
      ((d.at v).map (fun p => p.1.take m)).dedup) = ((d.at v).map (fun p => p.1.take m)).dedup := by
    split
    · rename_i hm
      subst hm
      have hne : d.at v ≠ [] := by
        cases hd with
        | inl h => exact absurd rfl h
        | inr h => exact h
      have : ∀ l : Tbl, l ≠ [] → (l.map (fun p => p.1.take 0)).dedup = [[]] := by
        intro l
        induction l with
        | nil => intro h; exact absurd rfl h
        | cons a l ih =>
          intro _
          cases l with
          | nil => rfl
          | cons b l =>
            rw [List.map_cons, List.dedup_cons_of_mem, ih (by simp)]
            rw [← List.mem_dedup, ih (by simp)]; simp
      exact (this _ hne).symm
    · rfl
  rw [hcov', ← hkeys, dedup_filterMap _ (keyAt_inj v), List.map_filterMap]
  congr 1
  funext k
  simp only [Function.comp]
  cases hk : keyAt v k with
  | none => simp
  | some e =>
    have := keyAt_eq_some.1 hk
    subst this
    simp only [Option.map_some, hvals]

theorem condOf_append (v e : Key) (m c : Nat) : condOf (v.length + m) c (v ++ e) = condOf m c e := by
  unfold condOf
  rw [List.drop_append, List.drop_of_length_le (by omega)]
  simp

theorem baseKey_append (v e base : Key) (m c : Nat) :
    baseKey (v.length + m) c base (v ++ e) = v ++ baseKey m c base e := by
  unfold baseKey
  rw [take_len_add, List.drop_append, List.drop_of_length_le (by omega)]
  have h : v.length + m + c - v.length = m + c := by omega
  rw [h]
  simp

theorem Tbl.at_filter_key (t : Tbl) (v : Key) (q q' : Key → Bool) (h : ∀ e, q (v ++ e) = q' e) :
    Tbl.at (t.filter (fun p => q p.1)) v = (t.at v).filter (fun p => q' p.1) := by
  rw [Tbl.at_eq, Tbl.at_eq, List.filterMap_filter, List.filter_filterMap]
  congr 1
  funext p
  cases hk : keyAt v p.1 with
  | none => simp
  | some e =>
    have := keyAt_eq_some.1 hk
    rw [this, h]
    simp [Option.filter]

theorem changeTbl_at (g : PyVal → PyVal → PyVal) (t : Tbl) (v base : Key) (m c : Nat) (incl : Bool)
    {t' : Tbl} (h : changeTbl g m c base incl (t.at v) = .ok t') :
    ∃ T, changeTbl g (v.length + m) c base incl t = .ok T ∧ T.at v = t' := by
  unfold changeTbl at h ⊢
  split at h
  · rename_i hany
    have hany' : t.any (fun p => condOf (v.length + m) c p.1 = base) := by
      rw [List.any_eq_true] at hany ⊢
      obtain ⟨⟨e, x⟩, hp, hb⟩ := hany
      refine ⟨(v ++ e, x), Tbl.mem_at.1 hp, ?_⟩
      rw [condOf_append]; exact hb
    rw [if_pos hany']
    injection h with h
    refine ⟨_, rfl, ?_⟩
    have hmap : Tbl.at (t.map (fun p => (p.1, g p.2 ((t.get (baseKey (v.length + m) c base p.1)).getD .nan)))) v
        = (t.at v).map (fun p => (p.1, g p.2 (((t.at v).get (baseKey m c base p.1)).getD .nan))) :=
      Tbl.at_map_key t v
        (fun k x => g x ((t.get (baseKey (v.length + m) c base k)).getD .nan))
        (fun k x => g x (((t.at v).get (baseKey m c base k)).getD .nan))
        (fun e x => by simp only [baseKey_append, Tbl.get_at])
    subst h
    cases incl with
    | true => exact hmap
    | false =>
      simp only [Bool.false_eq_true, if_false]
      rw [Tbl.at_filter_key _ v (fun k => decide (condOf (v.length + m) c k ≠ base))
        (fun k => decide (condOf m c k ≠ base)) (fun e => by rw [condOf_append]), hmap]
  · cases h

end Verif
