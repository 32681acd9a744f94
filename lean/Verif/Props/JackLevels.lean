import Verif.Lemmas.JackLoo
import Verif.Spec.Example

/-!
# C97: leave-one-out values by levels of operations

Below an operation such as a change or a distribution the sums and counts have further levels. The Jackknife makes its
leave-one-out values of the cached buckets by slice, unit and level.
-/

namespace Verif

theorem keyOf_cons_some {u : String} {ex : List String} {r : Row} {p : Key} :
    keyOf (u :: ex) r = some p ↔ ∃ y l, r u = some y ∧ keyOf ex r = some l ∧ p = y :: l := by
  unfold keyOf
  rw [List.mapM_cons]
  cases h1 : r u with
  | none => simp
  | some y =>
    cases h2 : List.mapM r ex with
    | none => simp
    | some l =>
      simp only [Option.some.injEq]
      constructor
      · intro h
        exact ⟨y, l, rfl, rfl, by cases h; rfl⟩
      · rintro ⟨_, _, rfl, rfl, rfl⟩
        rfl

theorem keyOf_mid_some {s ex : List String} {u : String} {r : Row} {p : Key} :
    keyOf (s ++ u :: ex) r = some p ↔
      ∃ a y l, keyOf s r = some a ∧ r u = some y ∧ keyOf ex r = some l ∧ p = a ++ y :: l := by
  rw [keyOf_append]
  constructor
  · intro h
    obtain ⟨a, h1, h2⟩ := Option.bind_eq_some_iff.mp h
    obtain ⟨b, h3, h4⟩ := Option.map_eq_some_iff.mp h2
    obtain ⟨y, l, h5, h6, rfl⟩ := keyOf_cons_some.mp h3
    exact ⟨a, y, l, h1, h5, h6, h4.symm⟩
  · rintro ⟨a, y, l, h1, h2, h3, rfl⟩
    rw [h1, keyOf_cons_some.mpr ⟨y, l, h2, h3, rfl⟩]
    rfl

theorem mem_groupKeys' {cols : List String} (h : cols ≠ []) {rows : List Row} {k : Key} :
    k ∈ groupKeys cols rows ↔ ∃ r ∈ rows, keyOf cols r = some k := by
  unfold groupKeys
  rw [if_neg h, List.mem_dedup, List.mem_filterMap]

/-- The table that the Jackknife makes of the buckets of a sum or count by `s`, unit and `ex`. -/
def looTable (k : Leaf) (unit : String) (s ex : List String) (rows : List Row) : Tbl :=
  jkLoo unit s.length (s ++ unit :: ex) rows
    ((groupKeys (s ++ unit :: ex) rows).map fun key => (key, k.agg (rowsAt (s ++ unit :: ex) key rows)))

theorem mem_looKeys {k : Leaf} {unit : String} {s ex : List String} (hex : ex ≠ []) {rows : List Row} {s0 : Key} {x : ℚ} {l : Key}
    (hs0 : s0.length = s.length) :
    s0 ++ x :: l ∈ looKeys s.length (s ++ unit :: ex) rows
        ((groupKeys (s ++ unit :: ex) rows).map fun key => (key, k.agg (rowsAt (s ++ unit :: ex) key rows))) ↔
      (∃ r ∈ rows, keyOf s r = some s0 ∧ r unit = some x) ∧
      ∃ r ∈ rows, keyOf s r = some s0 ∧ keyOf ex r = some l ∧ (∃ y, r unit = some y ∧ y ≠ x) := by
  have hlen : ¬ (s ++ unit :: ex).length ≤ s.length + 1 := by
    have := List.length_pos_iff.mpr hex
    rw [List.length_append, List.length_cons]
    omega
  have htake : (s ++ unit :: ex).take (s.length + 1) = s ++ [unit] := by
    rw [show s ++ unit :: ex = (s ++ [unit]) ++ ex by simp, List.take_left' (by simp)]
  have hone : ∀ r : Row, ∀ e : Key, keyOf (s ++ [unit]) r = some e ↔ ∃ a y, keyOf s r = some a ∧ r unit = some y ∧ e = a ++ [y] := by
    intro r e
    rw [show s ++ [unit] = s ++ unit :: [] from rfl, keyOf_mid_some]
    constructor
    · rintro ⟨a, y, l, h1, h2, h3, rfl⟩
      have : l = [] := by simpa [keyOf] using h3.symm
      exact ⟨a, y, h1, h2, by rw [this]⟩
    · rintro ⟨a, y, h1, h2, rfl⟩
      exact ⟨a, y, [], h1, h2, rfl, rfl⟩
  unfold looKeys
  rw [if_neg hlen, List.mem_dedup, List.mem_flatMap, htake]
  constructor
  · rintro ⟨e, he, hp⟩
    obtain ⟨r1, hr1, h1⟩ := (mem_groupKeys' (by simp)).mp he
    obtain ⟨a, y, ha, hy, rfl⟩ := (hone _ _).mp h1
    obtain ⟨p, hp, heq⟩ := List.mem_map.mp hp
    rw [List.mem_filter, Bool.and_eq_true, decide_eq_true_eq, decide_eq_true_eq] at hp
    obtain ⟨hp, hp1, hp2⟩ := hp
    obtain ⟨q, hq, rfl⟩ := List.mem_map.mp hp
    obtain ⟨r2, hr2, h2⟩ := (mem_groupKeys' (by simp)).mp hq
    obtain ⟨b, z, m, hb, hz, hm, rfl⟩ := keyOf_mid_some.mp h2
    have la := keyOf_length ha
    have lb := keyOf_length hb
    simp only at hp1 hp2 heq
    rw [List.take_left' lb, List.take_left' la] at hp1
    subst hp1
    rw [show b ++ z :: m = (b ++ [z]) ++ m by simp, List.drop_left' (by simp [lb])] at heq
    rw [show b ++ z :: m = (b ++ [z]) ++ m by simp, List.take_left' (by simp [lb])] at hp2
    rw [List.append_assoc] at heq
    obtain ⟨e1, e2⟩ := List.append_inj heq (by rw [lb, hs0])
    subst e1
    rw [List.cons_append, List.nil_append] at e2
    injection e2 with e3 e4
    subst e3 e4
    exact ⟨⟨r1, hr1, ha, hy⟩, r2, hr2, hb, hm, z, hz, fun e => hp2 (by rw [e])⟩
  · rintro ⟨⟨r1, hr1, h1, h2⟩, r2, hr2, h3, h4, y, h5, h6⟩
    refine ⟨s0 ++ [x], (mem_groupKeys' (by simp)).mpr ⟨r1, hr1, (hone _ _).mpr ⟨s0, x, h1, h2, rfl⟩⟩, ?_⟩
    refine List.mem_map.mpr ⟨(s0 ++ y :: l, _), List.mem_filter.mpr ⟨List.mem_map.mpr ⟨s0 ++ y :: l,
      (mem_groupKeys' (by simp)).mpr ⟨r2, hr2, keyOf_mid_some.mpr ⟨s0, y, l, h3, h5, h4, rfl⟩⟩, rfl⟩, ?_⟩, ?_⟩
    · rw [Bool.and_eq_true, decide_eq_true_eq, decide_eq_true_eq]
      refine ⟨by simp only; rw [List.take_left' hs0, List.take_left' hs0], ?_⟩
      simp only
      rw [show s0 ++ y :: l = (s0 ++ [y]) ++ l by simp, List.take_left' (by simp [hs0])]
      intro e
      have := List.append_cancel_left e
      injection this with e'
      exact h6 e'
    · simp only
      rw [show s0 ++ y :: l = (s0 ++ [y]) ++ l by simp, List.drop_left' (by simp [hs0])]
      simp

theorem dropUnit_mid {unit : String} {s ex : List String} (hs : unit ∉ s) (hex : unit ∉ ex) {s0 l : Key} {x : ℚ}
    (h0 : s0.length = s.length) (hl : l.length = ex.length) : dropUnit unit (s ++ unit :: ex) (s0 ++ x :: l) = s0 ++ l := by
  have aux : ∀ (cols : List String) (k : Key), unit ∉ cols → k.length = cols.length →
      ((cols.zip k).filter fun p => decide (p.1 ≠ unit)).map (·.2) = k := by
    intro cols k h e
    rw [List.filter_eq_self.mpr]
    · exact List.map_snd_zip (by omega)
    · intro p hp
      rw [decide_eq_true_eq]
      rintro rfl
      exact h (List.of_mem_zip hp).1
  unfold dropUnit
  rw [List.zip_append h0.symm, List.zip_cons_cons, List.filter_append, List.map_append, aux s s0 hs h0,
    List.filter_cons_of_neg (by simp), aux ex l hex hl]

/-- **C97** (levels of operations). The leave-one-out values that the Jackknife puts into the cache for a sum or count
below operations: for a slice, a unit of the slice and a level of the operations there is a value exactly if another unit
has rows of the level in the slice, and it is the sum or count of the rows of the other units; no row twice. -/
theorem C97_levels {k : Leaf} (hk : (M.leaf k []).sumOrCount = true) (unit : String) {s ex : List String} (hs : unit ∉ s)
    (hex : unit ∉ ex) (hne : ex ≠ []) {rows : List Row} (hu : ∀ r ∈ rows, (r unit).isSome) :
    ((looTable k unit s ex rows).map (·.1)).Nodup ∧
      ∀ (s0 l : Key) (x : ℚ) (v : PyVal), s0.length = s.length → l.length = ex.length →
        ((s0 ++ x :: l, v) ∈ looTable k unit s ex rows ↔
          (∃ r ∈ rows, keyOf s r = some s0 ∧ r unit = some x) ∧
          (∃ r ∈ rows, keyOf s r = some s0 ∧ keyOf ex r = some l ∧ r unit ≠ some x) ∧
          v = k.agg (rows.filter fun r => decide (keyOf s r = some s0 ∧ keyOf ex r = some l ∧ r unit ≠ some x))) := by
  have hcols : s ++ unit :: ex ≠ [] := by simp
  obtain ⟨w, hw⟩ := agg_weight hk
  have hfil : (s ++ unit :: ex).filter (fun c => decide (c ≠ unit)) = s ++ ex := by
    rw [List.filter_append, List.filter_eq_self.2 (fun c hc => by simp; rintro rfl; exact hs hc),
      List.filter_cons_of_neg (by simp), List.filter_eq_self.2 (fun c hc => by simp; rintro rfl; exact hex hc)]
  constructor
  · unfold looTable jkLoo
    rw [List.map_map]
    have : ((fun p : Key × PyVal => p.1) ∘ fun key : Key => (key, ((((jkTotal unit (s ++ unit :: ex)
        ((groupKeys (s ++ unit :: ex) rows).map fun key => (key, k.agg (rowsAt (s ++ unit :: ex) key rows)))).get
          (dropUnit unit (s ++ unit :: ex) key)).getD .nan).sub
        ((Tbl.get ((groupKeys (s ++ unit :: ex) rows).map fun key => (key, k.agg (rowsAt (s ++ unit :: ex) key rows))) key).getD
          (.fin 0))))) = id := rfl
    rw [this, List.map_id]
    unfold looKeys
    split
    · exact groupKeys_nodup _ _
    · exact List.nodup_dedup _
  · intro s0 l x v h0 hl
    have hother : (∃ r ∈ rows, keyOf s r = some s0 ∧ keyOf ex r = some l ∧ (∃ y, r unit = some y ∧ y ≠ x)) ↔
        ∃ r ∈ rows, keyOf s r = some s0 ∧ keyOf ex r = some l ∧ r unit ≠ some x := by
      constructor
      · rintro ⟨r, hr, a, b, y, hy, hyx⟩
        exact ⟨r, hr, a, b, by rw [hy]; simpa using hyx⟩
      · rintro ⟨r, hr, a, b, c⟩
        obtain ⟨y, hy⟩ := Option.isSome_iff_exists.mp (hu r hr)
        exact ⟨r, hr, a, b, y, hy, by rintro rfl; exact c hy⟩
    have hval : (∃ r ∈ rows, keyOf s r = some s0 ∧ keyOf ex r = some l ∧ r unit ≠ some x) →
        (((jkTotal unit (s ++ unit :: ex) ((groupKeys (s ++ unit :: ex) rows).map fun key =>
            (key, k.agg (rowsAt (s ++ unit :: ex) key rows)))).get (dropUnit unit (s ++ unit :: ex) (s0 ++ x :: l))).getD .nan).sub
          ((Tbl.get ((groupKeys (s ++ unit :: ex) rows).map fun key => (key, k.agg (rowsAt (s ++ unit :: ex) key rows)))
            (s0 ++ x :: l)).getD (.fin 0))
        = k.agg (rows.filter fun r => decide (keyOf s r = some s0 ∧ keyOf ex r = some l ∧ r unit ≠ some x)) := by
      rintro ⟨r, hr, ha, hb, _⟩
      have hse : s ++ ex ≠ [] := by simp [hne]
      rw [jkTotal_run hk unit _ hcols rows hu, hfil, dropUnit_mid hs hex h0 hl,
        Tbl.get_map_keys' _ (fun key => k.agg (rowsAt (s ++ ex) key rows))
          ((mem_groupKeys' hse).mpr ⟨r, hr, (keyOf_append_eq_some h0).mpr ⟨ha, hb⟩⟩), Option.getD_some]
      have hb' : ((Tbl.get ((groupKeys (s ++ unit :: ex) rows).map fun key => (key, k.agg (rowsAt (s ++ unit :: ex) key rows)))
            (s0 ++ x :: l)).getD (.fin 0)) = .fin ((rowsAt (s ++ unit :: ex) (s0 ++ x :: l) rows).map w).sum := by
        by_cases hm : s0 ++ x :: l ∈ groupKeys (s ++ unit :: ex) rows
        · rw [Tbl.get_map_keys' _ (fun key => k.agg (rowsAt (s ++ unit :: ex) key rows)) hm, Option.getD_some, hw]
        · rw [Tbl.get_map_not _ (fun key => k.agg (rowsAt (s ++ unit :: ex) key rows)) hm, Option.getD_none]
          have : rowsAt (s ++ unit :: ex) (s0 ++ x :: l) rows = [] := by
            unfold rowsAt
            rw [List.filter_eq_nil_iff]
            intro r hr h
            exact hm ((mem_groupKeys' hcols).mpr ⟨r, hr, by simpa using h⟩)
          rw [this]; rfl
      rw [hb', hw, hw, sum_filter_split w (fun r => decide (r unit = some x)) (rowsAt (s ++ ex) (s0 ++ l) rows)]
      have e1 : (rowsAt (s ++ ex) (s0 ++ l) rows).filter (fun r => decide (r unit = some x))
          = rowsAt (s ++ unit :: ex) (s0 ++ x :: l) rows := by
        unfold rowsAt
        rw [List.filter_filter]
        apply List.filter_congr
        intro r _
        rw [Bool.eq_iff_iff, Bool.and_eq_true, decide_eq_true_eq, decide_eq_true_eq, decide_eq_true_eq,
          keyOf_append_eq_some h0, keyOf_append_eq_some h0, keyOf_cons_some]
        constructor
        · rintro ⟨a, b, c⟩
          exact ⟨b, x, l, a, c, rfl⟩
        · rintro ⟨b, y, m, a, c, e⟩
          injection e with e1 e2
          subst e1 e2
          exact ⟨a, b, c⟩
      have e2 : (rowsAt (s ++ ex) (s0 ++ l) rows).filter (fun r => !decide (r unit = some x))
          = rows.filter fun r => decide (keyOf s r = some s0 ∧ keyOf ex r = some l ∧ r unit ≠ some x) := by
        unfold rowsAt
        rw [List.filter_filter]
        apply List.filter_congr
        intro r _
        rw [Bool.eq_iff_iff, Bool.and_eq_true, decide_eq_true_eq, decide_eq_true_eq, keyOf_append_eq_some h0]
        simp only [Bool.not_eq_true', decide_eq_false_iff_not, ne_eq]
        tauto
      rw [e1, e2]
      show PyVal.fin _ = _
      congr 1
      ring
    unfold looTable jkLoo
    rw [List.mem_map]
    constructor
    · rintro ⟨key, hkey, e⟩
      injection e with e1 e2
      subst e1
      have := (mem_looKeys hne h0).mp hkey
      rw [hother] at this
      exact ⟨this.1, this.2, by rw [← e2]; exact hval this.2⟩
    · rintro ⟨h1, h2, rfl⟩
      exact ⟨s0 ++ x :: l, (mem_looKeys hne h0).mpr ⟨h1, hother.mpr h2⟩, by rw [hval h2]⟩

/-- Sums by day, unit and group: in day 1 the group 5 has rows of unit 1 only, and no value without it. -/
def levelRows : List Row :=
  [mkRow [("d", 1), ("u", 1), ("g", 5), ("x", 2)], mkRow [("d", 1), ("u", 1), ("g", 6), ("x", 3)], mkRow [("d", 1), ("u", 2), ("g", 6), ("x", 4)],
    mkRow [("d", 2), ("u", 3), ("g", 5), ("x", 7)], mkRow [("d", 2), ("u", 3), ("g", 5), ("x", 1)], mkRow [("d", 2), ("u", 2), ("g", 5), ("x", 9)]]

example : looTable (.sum "x") "u" ["d"] ["g"] levelRows =
    [([1, 1, 6], .fin 4), ([1, 2, 5], .fin 2), ([1, 2, 6], .fin 3), ([2, 3, 5], .fin 9), ([2, 2, 5], .fin 8)] ∧
    (M.leaf (.sum "x") []).sumOrCount = true ∧ "u" ∉ ["d"] ∧ "u" ∉ ["g"] ∧ (∀ r ∈ levelRows, (r "u").isSome) := by
  decide +kernel

end Verif
