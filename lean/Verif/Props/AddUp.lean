import Verif.Lemmas.Slice
import Verif.Lemmas.Jackknife
import Verif.Lemmas.Preagg
import Mathlib.Data.List.Dedup

/-!
# C109: totals add up over slices

/repo/metrics.py:541-578, 1730-1732, 1758-1759, 1789-1797.
-/

namespace Verif

/-- The aggregations that are totals: Sum, Count, Dot without `normalize`. -/
def Leaf.isTotal : Leaf → Bool
  | .sum _ | .count _ | .dot _ _ false => true
  | _ => false

theorem total_weights {k : Leaf} (hk : k.isTotal = true) : ∃ w : Row → Rat, ∀ rs, k.agg rs = .fin (rs.map w).sum := by
  have hfm : ∀ (g : Row → Option Rat) (rs : List Row), (rs.filterMap g).sum = (rs.map fun r => (g r).getD 0).sum := by
    intro g rs
    induction rs with
    | nil => rfl
    | cons r rs ih =>
      rw [List.filterMap_cons, List.map_cons, List.sum_cons, ← ih]
      cases g r <;> simp
  have hln : ∀ (g : Row → Option Rat) (rs : List Row), ((rs.filterMap g).length : Rat) = (rs.map fun r => if (g r).isSome then (1 : Rat) else 0).sum := by
    intro g rs
    induction rs with
    | nil => rfl
    | cons r rs ih =>
      rw [List.filterMap_cons, List.map_cons, List.sum_cons, ← ih]
      cases g r
      · simp
      · simp [add_comm]
  match k, hk with
  | .sum v, _ => exact ⟨_, fun rs => congrArg PyVal.fin (hfm _ rs)⟩
  | .count v, _ => exact ⟨_, fun rs => congrArg PyVal.fin (hln _ rs)⟩
  | .dot v w false, _ => exact ⟨_, fun rs => congrArg PyVal.fin (hfm _ rs)⟩

theorem pySum_numbers (qs : List Rat) : pySum (qs.map PyVal.fin) = .fin qs.sum := by
  have hf : (qs.map PyVal.fin).filter (· ≠ .nan) = qs.map PyVal.fin := by
    rw [List.filter_eq_self]
    intro v hv
    obtain ⟨q, -, rfl⟩ := List.mem_map.1 hv
    simp
  have : ∀ (qs : List Rat) (z : Rat), (qs.map PyVal.fin).foldl PyVal.add (.fin z) = .fin (z + qs.sum) := by
    intro qs
    induction qs with
    | nil => intro z; simp
    | cons q qs ih =>
      intro z
      rw [List.map_cons, List.foldl_cons]
      show (qs.map PyVal.fin).foldl PyVal.add (.fin (z + q)) = _
      rw [ih, List.sum_cons, add_assoc]
  unfold pySum
  rw [hf, this, zero_add]

/-- **C109** (partial) If no row that passes the filter lacks a value of the columns `ex`, a total in a slice is the sum of the totals in its
parts by `ex`. -/
theorem C109_totals_partial (env : Env) (k : Leaf) (hk : k.isTotal = true) (wh : List String) (f : Frame) (sb ex : List String) (hex : ex ≠ [])
    (hfull : ∀ r ∈ f.rows, (∀ w ∈ wh, env.query w r = true) → ∀ v ∈ ex, r v ≠ none) (whole parts : Tbl)
    (hw : (M.leaf k wh).run env f sb = .ok (.tbl [] [whole])) (hp : (M.leaf k wh).run env f (sb ++ ex) = .ok (.tbl [] [parts])) :
    ∀ p ∈ whole, p.2 = pySum ((parts.filter fun q => q.1.take sb.length = p.1).map Prod.snd) := by
  obtain ⟨w, hagg⟩ := total_weights hk
  rw [M.run] at hw hp
  unfold Leaf.run at hw hp
  split at hw
  case isFalse => cases hw
  split at hp
  case isFalse => cases hp
  have hfull' : ∀ r ∈ (f.query env wh).rows, ∀ v ∈ ex, r v ≠ none := by
    intro r hr
    obtain ⟨h1, h2⟩ := List.mem_filter.1 hr
    exact hfull r h1 fun w hw => List.all_eq_true.1 h2 w hw
  generalize (f.query env wh).rows = rs at hw hp hfull'
  simp only [Except.ok.injEq, Res.tbl.injEq, List.cons.injEq, true_and, and_true] at hw hp
  subst hw hp
  intro p hpm
  obtain ⟨κ, -, rfl⟩ := List.mem_map.1 hpm
  rw [List.filter_map, List.map_map]
  have hcomp : (Prod.snd ∘ fun key => (key, k.agg (rowsAt (sb ++ ex) key rs))) =
      PyVal.fin ∘ fun key => ((rowsAt (sb ++ ex) key rs).map w).sum := by
    funext key; exact hagg _
  rw [hcomp, ← List.map_map, pySum_numbers, hagg]
  show PyVal.fin _ = _
  congr 1
  have hg : groupKeys (sb ++ ex) rs = (rs.filterMap (keyOf (sb ++ ex))).dedup := by
    unfold groupKeys
    rw [if_neg (by simp [hex])]
  rw [hg]
  have hfil : ((fun q : Key × PyVal => decide (q.1.take sb.length = κ)) ∘ fun key => (key, k.agg (rowsAt (sb ++ ex) key rs))) =
      fun key => decide (key.take sb.length = κ) := rfl
  rw [hfil]
  generalize hks : (rs.filterMap (keyOf (sb ++ ex))).dedup.filter (fun key => decide (key.take sb.length = κ)) = ks
  have hnd : ks.Nodup := by rw [← hks]; exact (List.nodup_dedup _).filter _
  have hsum := sum_over_groups (keyOf (sb ++ ex)) w (ks.map some) (hnd.map (Option.some_injective _)) rs
  rw [List.map_map] at hsum
  show ((rowsAt sb κ rs).map w).sum = (ks.map fun key => ((rowsAt (sb ++ ex) key rs).map w).sum).sum
  refine Eq.trans ?_ hsum.symm
  unfold rowsAt
  congr 2
  apply List.filter_congr
  intro r hr
  refine @decide_eq_decide _ _ (_) (_) |>.2 ?_
  constructor
  · intro h
    obtain ⟨b, hb⟩ : ∃ b, keyOf ex r = some b := by
      have : ∀ l : List String, (∀ v ∈ l, r v ≠ none) → ∃ b, keyOf l r = some b := by
        intro l
        induction l with
        | nil => intro _; exact ⟨[], rfl⟩
        | cons v l ih =>
          intro hl
          obtain ⟨x, hx⟩ := Option.ne_none_iff_exists'.1 (hl v (by simp))
          obtain ⟨b, hb⟩ := ih fun v hv => hl v (by simp [hv])
          refine ⟨x :: b, ?_⟩
          unfold keyOf at hb ⊢
          rw [List.mapM_cons, hx, hb]; rfl
      exact this ex (hfull' r hr)
    have hK : keyOf (sb ++ ex) r = some (κ ++ b) := by rw [keyOf_append, h, hb]; rfl
    rw [hK]
    refine List.mem_map.2 ⟨κ ++ b, ?_, rfl⟩
    rw [← hks, List.mem_filter, List.mem_dedup, List.mem_filterMap]
    refine ⟨⟨r, hr, hK⟩, ?_⟩
    rw [decide_eq_true_eq, ← keyOf_length h, List.take_left']
    rfl
  · intro h
    obtain ⟨K, hK, hr'⟩ := List.mem_map.1 h
    rw [← hks, List.mem_filter, decide_eq_true_eq] at hK
    rw [keyOf_append] at hr'
    cases h1 : keyOf sb r with
    | none => rw [h1] at hr'; cases hr'
    | some a =>
      cases h2 : keyOf ex r with
      | none => rw [h1, h2] at hr'; cases hr'
      | some b =>
        rw [h1, h2] at hr'
        have : K = a ++ b := by simpa using hr'
        rw [← hK.2, this, ← keyOf_length h1, List.take_left' rfl]

/-- The rows of a slice are those of its parts. -/
theorem mem_parts {sb ex : List String} (hex : ex ≠ []) {rs : List Row} (hfull : ∀ r ∈ rs, ∀ v ∈ ex, r v ≠ none) (κ : Key) (r : Row) :
    r ∈ rowsAt sb κ rs ↔ ∃ K ∈ groupKeys (sb ++ ex) rs, K.take sb.length = κ ∧ r ∈ rowsAt (sb ++ ex) K rs := by
  have hg : groupKeys (sb ++ ex) rs = (rs.filterMap (keyOf (sb ++ ex))).dedup := by
    unfold groupKeys
    rw [if_neg (by simp [hex])]
  have htot : ∀ r ∈ rs, ∃ b, keyOf ex r = some b := by
    intro r hr
    have : ∀ l : List String, (∀ v ∈ l, r v ≠ none) → ∃ b, keyOf l r = some b := by
      intro l
      induction l with
      | nil => intro _; exact ⟨[], rfl⟩
      | cons v l ih =>
        intro hl
        obtain ⟨x, hx⟩ := Option.ne_none_iff_exists'.1 (hl v (by simp))
        obtain ⟨b, hb⟩ := ih fun v hv => hl v (by simp [hv])
        refine ⟨x :: b, ?_⟩
        unfold keyOf at hb ⊢
        rw [List.mapM_cons, hx, hb]; rfl
    exact this ex (hfull r hr)
  unfold rowsAt
  simp only [List.mem_filter, decide_eq_true_eq]
  constructor
  · rintro ⟨hr, h⟩
    obtain ⟨b, hb⟩ := htot r hr
    have hK : keyOf (sb ++ ex) r = some (κ ++ b) := by rw [keyOf_append, h, hb]; rfl
    refine ⟨κ ++ b, ?_, ?_, hr, hK⟩
    · rw [hg, List.mem_dedup, List.mem_filterMap]
      exact ⟨r, hr, hK⟩
    · rw [← keyOf_length h, List.take_left' rfl]
  · rintro ⟨K, -, hK, hr, h⟩
    refine ⟨hr, ?_⟩
    rw [keyOf_append] at h
    cases h1 : keyOf sb r with
    | none => rw [h1] at h; cases h
    | some a =>
      cases h2 : keyOf ex r with
      | none => rw [h1, h2] at h; cases h
      | some b =>
        rw [h1, h2] at h
        have : K = a ++ b := by simpa using h.symm
        rw [← hK, this, ← keyOf_length h1, List.take_left' rfl]

theorem pyMax_iff (xs : List Rat) (m : Rat) : pyMax xs = .fin m ↔ m ∈ xs ∧ ∀ y ∈ xs, y ≤ m := by
  cases xs with
  | nil => simp [pyMax]
  | cons x xs =>
    obtain ⟨h1, h2, h3⟩ := foldl_max_le xs x
    simp only [pyMax, PyVal.fin.injEq, List.mem_cons, forall_eq_or_imp]
    constructor
    · rintro rfl; exact ⟨h3, h1, h2⟩
    · rintro ⟨h4, h5, h6⟩
      refine le_antisymm ?_ ?_
      · rcases h3 with h3 | h3
        · rw [h3]; exact h5
        · exact h6 _ h3
      · rcases h4 with rfl | h4
        · exact h1
        · exact h2 _ h4

theorem pyMin_iff (xs : List Rat) (m : Rat) : pyMin xs = .fin m ↔ m ∈ xs ∧ ∀ y ∈ xs, m ≤ y := by
  cases xs with
  | nil => simp [pyMin]
  | cons x xs =>
    obtain ⟨h1, h2, h3⟩ := foldl_min_le xs x
    simp only [pyMin, PyVal.fin.injEq, List.mem_cons, forall_eq_or_imp]
    constructor
    · rintro rfl; exact ⟨h3, h1, h2⟩
    · rintro ⟨h4, h5, h6⟩
      refine le_antisymm ?_ ?_
      · rcases h4 with rfl | h4
        · exact h1
        · exact h2 _ h4
      · rcases h3 with h3 | h3
        · rw [h3]; exact h5
        · exact h6 _ h3

/-- **C109** (partial) The greatest value in a slice is the greatest that occurs in its parts, the least the least. -/
theorem C109_extremes_partial (env : Env) (v : String) (wh : List String) (f : Frame) (sb ex : List String) (hex : ex ≠ [])
    (hfull : ∀ r ∈ f.rows, (∀ w ∈ wh, env.query w r = true) → ∀ v ∈ ex, r v ≠ none) (whole parts whole' parts' : Tbl)
    (hw : (M.leaf (.max v) wh).run env f sb = .ok (.tbl [] [whole]))
    (hp : (M.leaf (.max v) wh).run env f (sb ++ ex) = .ok (.tbl [] [parts]))
    (hw' : (M.leaf (.min v) wh).run env f sb = .ok (.tbl [] [whole']))
    (hp' : (M.leaf (.min v) wh).run env f (sb ++ ex) = .ok (.tbl [] [parts'])) :
    (∀ p ∈ whole, ∀ m, p.2 = .fin m ↔ (∃ q ∈ parts, q.1.take sb.length = p.1 ∧ q.2 = .fin m) ∧
      ∀ q ∈ parts, q.1.take sb.length = p.1 → ∀ m', q.2 = .fin m' → m' ≤ m) ∧
    (∀ p ∈ whole', ∀ m, p.2 = .fin m ↔ (∃ q ∈ parts', q.1.take sb.length = p.1 ∧ q.2 = .fin m) ∧
      ∀ q ∈ parts', q.1.take sb.length = p.1 → ∀ m', q.2 = .fin m' → m ≤ m') := by
  have hfull' : ∀ r ∈ (f.query env wh).rows, ∀ v ∈ ex, r v ≠ none := by
    intro r hr
    obtain ⟨h1, h2⟩ := List.mem_filter.1 hr
    exact hfull r h1 fun w hw => List.all_eq_true.1 h2 w hw
  have key : ∀ (k : Leaf) (sb : List String) (t : Tbl), (M.leaf k wh).run env f sb = .ok (.tbl [] [t]) →
      t = (groupKeys sb (f.query env wh).rows).map fun key => (key, k.agg (rowsAt sb key (f.query env wh).rows)) := by
    intro k sb t h
    rw [M.run] at h
    unfold Leaf.run at h
    split at h
    · simp only [Except.ok.injEq, Res.tbl.injEq, List.cons.injEq, true_and, and_true] at h
      exact h.symm
    · cases h
  rw [key _ _ _ hw, key _ _ _ hp, key _ _ _ hw', key _ _ _ hp']
  generalize (f.query env wh).rows = rs at hfull'
  have hmem : ∀ κ y, y ∈ vals v (rowsAt sb κ rs) ↔
      ∃ K ∈ groupKeys (sb ++ ex) rs, K.take sb.length = κ ∧ y ∈ vals v (rowsAt (sb ++ ex) K rs) := by
    intro κ y
    simp only [vals, List.mem_filterMap, mem_parts hex hfull' κ]
    constructor
    · rintro ⟨r, ⟨K, h1, h2, h3⟩, h4⟩; exact ⟨K, h1, h2, r, h3, h4⟩
    · rintro ⟨K, h1, h2, r, h3, h4⟩; exact ⟨r, ⟨K, h1, h2, h3⟩, h4⟩
  have hem : ∀ (g : Key → Key × PyVal) (l : List Key) (P : Key × PyVal → Prop), (∃ q ∈ l.map g, P q) ↔ ∃ K ∈ l, P (g K) := by
    intro g l P
    constructor
    · rintro ⟨q, hq, hP⟩
      obtain ⟨K, hK, rfl⟩ := List.mem_map.1 hq
      exact ⟨K, hK, hP⟩
    · rintro ⟨K, hK, hP⟩; exact ⟨_, List.mem_map.2 ⟨K, hK, rfl⟩, hP⟩
  simp only [List.forall_mem_map, hem, Leaf.agg, pyMax_iff, pyMin_iff, hmem]
  constructor
  · intro κ hκ m
    constructor
    · rintro ⟨⟨K, h1, h2, h3⟩, h4⟩
      exact ⟨⟨K, h1, h2, h3, fun y hy => h4 y ⟨K, h1, h2, hy⟩⟩, fun K' h1' h2' m' h => h4 m' ⟨K', h1', h2', h.1⟩⟩
    · rintro ⟨⟨K, h1, h2, h3, h4⟩, h5⟩
      refine ⟨⟨K, h1, h2, h3⟩, ?_⟩
      rintro y ⟨K', h1', h2', hy⟩
      cases hmx : pyMax (vals v (rowsAt (sb ++ ex) K' rs)) with
      | fin m' =>
        have := (pyMax_iff _ _).1 hmx
        exact (this.2 y hy).trans (h5 K' h1' h2' m' this)
      | _ =>
        cases hx : vals v (rowsAt (sb ++ ex) K' rs) with
        | nil => rw [hx] at hy; cases hy
        | cons x xs => rw [hx] at hmx; cases hmx
  · intro κ hκ m
    constructor
    · rintro ⟨⟨K, h1, h2, h3⟩, h4⟩
      exact ⟨⟨K, h1, h2, h3, fun y hy => h4 y ⟨K, h1, h2, hy⟩⟩, fun K' h1' h2' m' h => h4 m' ⟨K', h1', h2', h.1⟩⟩
    · rintro ⟨⟨K, h1, h2, h3, h4⟩, h5⟩
      refine ⟨⟨K, h1, h2, h3⟩, ?_⟩
      rintro y ⟨K', h1', h2', hy⟩
      cases hmx : pyMin (vals v (rowsAt (sb ++ ex) K' rs)) with
      | fin m' =>
        have := (pyMin_iff _ _).1 hmx
        exact (h5 K' h1' h2' m' this).trans (this.2 y hy)
      | _ =>
        cases hx : vals v (rowsAt (sb ++ ex) K' rs) with
        | nil => rw [hx] at hy; cases hy
        | cons x xs => rw [hx] at hmx; cases hmx

/-- **C109** (partial) A mean in a slice is the total of the sums of its parts by the total of their counts. -/
theorem C109_mean_partial (env : Env) (v : String) (wh : List String) (f : Frame) (sb ex : List String) (hex : ex ≠ [])
    (hfull : ∀ r ∈ f.rows, (∀ w ∈ wh, env.query w r = true) → ∀ v ∈ ex, r v ≠ none) (whole sums counts : Tbl)
    (hw : (M.leaf (.mean v) wh).run env f sb = .ok (.tbl [] [whole]))
    (hs : (M.leaf (.sum v) wh).run env f (sb ++ ex) = .ok (.tbl [] [sums]))
    (hc : (M.leaf (.count v) wh).run env f (sb ++ ex) = .ok (.tbl [] [counts])) :
    ∀ p ∈ whole, p.2 = (pySum ((sums.filter fun q => q.1.take sb.length = p.1).map Prod.snd)).div
      (pySum ((counts.filter fun q => q.1.take sb.length = p.1).map Prod.snd)) := by
  intro p hp
  have hcols : (M.leaf (.mean v) wh).run env f sb = .ok (.tbl [] [(groupKeys sb (f.query env wh).rows).map fun key =>
      (key, (Leaf.mean v).agg (rowsAt sb key (f.query env wh).rows))]) ∧
      (([v] ++ sb).all fun c => (f.query env wh).cols.contains c) = true := by
    rw [M.run] at hw ⊢
    unfold Leaf.run at hw ⊢
    split at hw
    · rename_i h; exact ⟨by rw [if_pos h], h⟩
    · cases hw
  obtain ⟨h1, h2⟩ := hcols
  have hs' : (M.leaf (.sum v) wh).run env f sb = .ok (.tbl [] [(groupKeys sb (f.query env wh).rows).map fun key =>
      (key, (Leaf.sum v).agg (rowsAt sb key (f.query env wh).rows))]) := by
    rw [M.run]; unfold Leaf.run; exact if_pos h2
  have hc' : (M.leaf (.count v) wh).run env f sb = .ok (.tbl [] [(groupKeys sb (f.query env wh).rows).map fun key =>
      (key, (Leaf.count v).agg (rowsAt sb key (f.query env wh).rows))]) := by
    rw [M.run]; unfold Leaf.run; exact if_pos h2
  rw [h1] at hw
  simp only [Except.ok.injEq, Res.tbl.injEq, List.cons.injEq, true_and, and_true] at hw
  subst hw
  obtain ⟨κ, hκ, rfl⟩ := List.mem_map.1 hp
  have e1 := C109_totals_partial env (.sum v) rfl wh f sb ex hex hfull _ sums hs' hs _ (List.mem_map.2 ⟨κ, hκ, rfl⟩)
  have e2 := C109_totals_partial env (.count v) rfl wh f sb ex hex hfull _ counts hc' hc _ (List.mem_map.2 ⟨κ, hκ, rfl⟩)
  simp only at e1 e2 ⊢
  rw [← e1, ← e2]
  simp only [Leaf.agg, pyMean, PyVal.div]
  by_cases h : vals v (rowsAt sb κ (f.query env wh).rows) = []
  · rw [if_pos h, h]; simp [PyVal.infSign]
  · have : ((vals v (rowsAt sb κ (f.query env wh).rows)).length : Rat) ≠ 0 := by
      exact_mod_cast (List.length_pos_iff.2 h).ne'
    rw [if_neg h, if_neg this]

/-- Two rows with `x = 1`, one of which has no `g`. -/
private def exGap : Frame where
  cols := ["x", "g"]
  rows := [some 0, none].map fun o v => if v = "x" then some 1 else if v = "g" then o else none

private def exNoFilter : Env := ⟨fun _ _ => true, fun _ _ => .nan⟩

/-- **C109** (violated) Rows in which a column of `ex` is missing are in no part: the total is 2, the parts add up to 1. -/
theorem C109_missing_violation : ∃ (f : Frame) (whole parts : Tbl),
    (M.leaf (.sum "x") []).run exNoFilter f [] = .ok (.tbl [] [whole]) ∧ (M.leaf (.sum "x") []).run exNoFilter f ["g"] = .ok (.tbl [] [parts]) ∧
      whole = [([], .fin 2)] ∧ parts = [([0], .fin 1)] := by
  refine ⟨exGap, _, _, ?_, ?_, rfl, rfl⟩ <;> decide +kernel

/-- Two slices `s` = 0, 1 of three rows with `g`. -/
private def exParts : Frame where
  cols := ["x", "g", "s"]
  rows := [(1, 0, 0), (2, 1, 0), (4, 0, 1)].map fun p v => if v = "x" then some p.1 else if v = "g" then some p.2.1 else some p.2.2

example : (∀ r ∈ exParts.rows, ∀ v ∈ ["g"], r v ≠ none) ∧
    (M.leaf (.sum "x") []).run exNoFilter exParts ["s"] = .ok (.tbl [] [[([0], .fin 3), ([1], .fin 4)]]) ∧
    (M.leaf (.sum "x") []).run exNoFilter exParts ["s", "g"] = .ok (.tbl [] [[([0, 0], .fin 1), ([0, 1], .fin 2), ([1, 0], .fin 4)]]) := by
  refine ⟨?_, ?_, ?_⟩
  · intro r hr v hv
    simp only [exParts, List.mem_map] at hr
    obtain ⟨p, -, rfl⟩ := hr
    rw [List.mem_singleton.1 hv]
    simp
  · decide +kernel
  · decide +kernel

end Verif
