import Verif.Spec.Preagg
import Verif.Lemmas.Slice
import Verif.Lemmas.Cache
import Verif.Lemmas.MixedMode
import Mathlib.Tactic.Linarith
import Mathlib.Tactic.Ring
import Mathlib.Algebra.BigOperators.Group.List.Basic

/-!
# Rows and the preaggregated rows that stand for them (for C84)
-/

namespace Verif

/-- The rows that pass the filters. -/
def passing (env : Env) (wh : List String) (rs : List Row) : List Row := rs.filter (fun r => wh.all (fun w => env.query w r))

/-- The values `ys` of a new column stand for the values `xs` of the column that is aggregated. -/
def Stands : Leaf → List Rat → List Rat → Prop
  | .sum _, xs, ys => ys.sum = xs.sum
  | .count _, xs, ys => ys.sum = xs.length
  | .max _, xs, ys => (∀ x ∈ xs, ∃ y ∈ ys, x ≤ y) ∧ (∀ y ∈ ys, ∃ x ∈ xs, y ≤ x)
  | .min _, xs, ys => (∀ x ∈ xs, ∃ y ∈ ys, y ≤ x) ∧ (∀ y ∈ ys, ∃ x ∈ xs, x ≤ y)
  | _, _, _ => False

def Leaf.col : Leaf → String
  | .sum v | .count v | .countDistinct v | .mean v | .max v | .min v | .dot v _ _ | .wmean v _ => v

/-- The rows `B` stand for the rows `A`. -/
structure StandFor (env : Env) (ν : PreNaming) (all : List String) (L : List (Leaf × List String)) (A B : List Row) : Prop where
  keys : ∀ S, S ⊆ all → ∀ v, (∃ r ∈ A, keyOf S r = some v) ↔ ∃ r ∈ B, keyOf S r = some v
  vals : ∀ l ∈ L, ∀ S, S ⊆ all → ∀ v,
    Stands l.1 (vals l.1.col (passing env l.2 (rowsAt S v A))) (vals (ν l.1 l.2) (rowsAt S v B))

theorem Stands.nil {k : Leaf} (h : k.canPre = true) : Stands k [] [] := by
  cases k <;> simp_all [Stands, Leaf.canPre]

theorem Stands.append {k : Leaf} {xs ys xs' ys' : List Rat} (h : Stands k xs ys) (h' : Stands k xs' ys') :
    Stands k (xs ++ xs') (ys ++ ys') := by
  cases k <;> simp only [Stands] at * <;> try (simp only [List.sum_append, List.length_append, Nat.cast_add, h, h']; done)
  all_goals
    refine ⟨fun x hx => ?_, fun y hy => ?_⟩
    · rcases List.mem_append.1 hx with hx | hx
      · obtain ⟨y, hy, hxy⟩ := h.1 x hx; exact ⟨y, by simp [hy], hxy⟩
      · obtain ⟨y, hy, hxy⟩ := h'.1 x hx; exact ⟨y, by simp [hy], hxy⟩
    · rcases List.mem_append.1 hy with hy | hy
      · obtain ⟨x, hx, hxy⟩ := h.2 y hy; exact ⟨x, by simp [hx], hxy⟩
      · obtain ⟨x, hx, hxy⟩ := h'.2 y hy; exact ⟨x, by simp [hx], hxy⟩

theorem Stands.perm {k : Leaf} {xs xs' ys : List Rat} (h : Stands k xs ys) (hp : xs.Perm xs') : Stands k xs' ys := by
  cases k <;> simp only [Stands] at *
  · rw [h, hp.sum_eq]
  · rw [h, hp.length_eq]
  all_goals exact ⟨fun x hx => h.1 x (hp.mem_iff.2 hx), fun y hy => by obtain ⟨x, hx, e⟩ := h.2 y hy; exact ⟨x, hp.mem_iff.1 hx, e⟩⟩

theorem vals_append' (v : String) (A B : List Row) : vals v (A ++ B) = vals v A ++ vals v B := by simp [vals]
theorem passing_append (env : Env) (wh : List String) (A B : List Row) : passing env wh (A ++ B) = passing env wh A ++ passing env wh B := by
  simp [passing]
theorem rowsAt_append' (S : List String) (v : Key) (A B : List Row) : rowsAt S v (A ++ B) = rowsAt S v A ++ rowsAt S v B := by
  simp [rowsAt]
theorem passing_rowsAt (env : Env) (wh : List String) (S : List String) (v : Key) (A : List Row) :
    passing env wh (rowsAt S v A) = rowsAt S v (passing env wh A) := by
  unfold passing rowsAt
  rw [List.filter_filter, List.filter_filter]
  apply List.filter_congr
  intro r _
  rw [Bool.and_comm]

section
variable {env : Env} {ν : PreNaming} {all : List String} {L : List (Leaf × List String)}

theorem StandFor.nil (hL : ∀ l ∈ L, l.1.canPre = true) : StandFor env ν all L [] [] :=
  ⟨fun _ _ _ => by simp, fun l hl S _ v => by simpa [rowsAt, passing, Verif.vals] using Stands.nil (hL l hl)⟩

theorem StandFor.append {A B A' B' : List Row} (h : StandFor env ν all L A B) (h' : StandFor env ν all L A' B') :
    StandFor env ν all L (A ++ A') (B ++ B') := by
  refine ⟨fun S hS v => ?_, fun l hl S hS v => ?_⟩
  · have e := h.keys S hS v
    have e' := h'.keys S hS v
    simp only [List.mem_append, or_and_right, exists_or]
    rw [e, e']
  · rw [rowsAt_append', rowsAt_append', passing_append, vals_append', vals_append']
    exact (h.vals l hl S hS v).append (h'.vals l hl S hS v)

theorem StandFor.perm {A A' B : List Row} (h : StandFor env ν all L A B) (hp : A.Perm A') : StandFor env ν all L A' B := by
  refine ⟨fun S hS v => ?_, fun l hl S hS v => ?_⟩
  · rw [← h.keys S hS v]
    exact ⟨fun ⟨r, hr, e⟩ => ⟨r, hp.mem_iff.2 hr, e⟩, fun ⟨r, hr, e⟩ => ⟨r, hp.mem_iff.1 hr, e⟩⟩
  · exact (h.vals l hl S hS v).perm (((hp.filter _).filter _).filterMap _)

theorem StandFor.flatMap (hL : ∀ l ∈ L, l.1.canPre = true) {α : Type} {g g' : α → List Row} :
    ∀ (us : List α), (∀ u ∈ us, StandFor env ν all L (g u) (g' u)) → StandFor env ν all L (us.flatMap g) (us.flatMap g')
  | [], _ => StandFor.nil hL
  | u :: us, h => by
    rw [List.flatMap_cons, List.flatMap_cons]
    exact (h u (by simp)).append (StandFor.flatMap hL us (fun x hx => h x (by simp [hx])))

theorem rowsAt_eq_nil {S : List String} {v : Key} (h : v.length ≠ S.length) (A : List Row) : rowsAt S v A = [] := by
  unfold rowsAt
  rw [List.filter_eq_nil_iff]
  intro r _ e
  exact h (keyOf_length (by simpa using e))

theorem StandFor.at {A B : List Row} (h : StandFor env ν all L A B) (hL : ∀ l ∈ L, l.1.canPre = true) {G : List String} (hG : G ⊆ all)
    (u : Key) : StandFor env ν all L (rowsAt G u A) (rowsAt G u B) := by
  by_cases hu : u.length = G.length
  · refine ⟨fun S hS v => ?_, fun l hl S hS v => ?_⟩
    · have e := h.keys (G ++ S) (List.append_subset.2 ⟨hG, hS⟩) (u ++ v)
      simp only [keyOf_append_eq_some hu] at e
      simpa [rowsAt, and_assoc] using e
    · rw [rowsAt_rowsAt _ hu, rowsAt_rowsAt _ hu]
      exact h.vals l hl _ (List.append_subset.2 ⟨hG, hS⟩) _
  · rw [rowsAt_eq_nil hu, rowsAt_eq_nil hu]
    exact StandFor.nil hL

/-! ## One slice -/

theorem keyOf_cons (c : String) (S : List String) (r : Row) : keyOf (c :: S) r = (r c).bind (fun x => (keyOf S r).map (x :: ·)) := by
  unfold keyOf
  rw [List.mapM_cons]
  cases r c <;> cases List.mapM r S <;> rfl

theorem lookup_of_keyOf : ∀ {all : List String} {key : Key} {r : Row}, keyOf all r = some key → ∀ c ∈ all, (all.zip key).lookup c = r c
  | [], _, _, _, c, hc => by simp at hc
  | a :: all, key, r, h, c, hc => by
    rw [keyOf_cons] at h
    cases ha : r a with
    | none => simp [ha] at h
    | some x =>
      cases hs : keyOf all r with
      | none => simp [ha, hs] at h
      | some xs =>
        simp only [ha, hs, Option.map_some, Option.bind_some, Option.some.injEq] at h
        subst h
        rw [List.zip_cons_cons, List.lookup_cons]
        by_cases e : c = a
        · subst e; simp [ha]
        · have hca : (c == a) = false := by simpa using e
          rw [hca]
          exact lookup_of_keyOf hs c (by simpa [e] using hc)

theorem lookup_none {all : List String} {key : Key} {c : String} (h : c ∉ all) : (all.zip key).lookup c = none := by
  rw [List.lookup_eq_none_iff]
  intro p hp
  have := (List.of_mem_zip hp).1
  simp only [beq_eq_false_iff_ne, ne_eq, bne_iff_ne]
  rintro rfl
  exact h this

theorem keyOf_congr {S : List String} {r r' : Row} (h : ∀ c ∈ S, r c = r' c) : keyOf S r = keyOf S r' := by
  induction S with
  | nil => rfl
  | cons c S ih =>
    rw [keyOf_cons, keyOf_cons, h c (by simp), ih (fun x hx => h x (by simp [hx]))]

theorem preRow_index {rs : List Row} {key : Key} {r : Row} (h : keyOf all r = some key) {c : String} (hc : c ∈ all) :
    preRow env ν all L rs key c = r c := by
  unfold preRow
  rw [lookup_of_keyOf h c hc]
  cases hr : r c with
  | some x => rfl
  | none =>
    exfalso
    obtain ⟨s, t, rfl⟩ := List.append_of_mem hc
    rw [keyOf_append, keyOf_cons, hr] at h
    cases hh : keyOf s r <;> simp [hh] at h

theorem holds_iff (wh : List String) (r : Row) : (wh.all (fun w => env.query w r) = true) ↔ holds env wh r := by
  simp [holds]

theorem preRow_new (hn : namesFit env ν all L) {l : Leaf × List String} (hl : l ∈ L) (rs : List Row) (key : Key) :
    preRow env ν all L rs key (ν l.1 l.2) = preCell env all rs l.1 l.2 key := by
  unfold preRow
  rw [lookup_none (hn.1 l hl)]
  have hs : (L.find? (fun l' => ν l'.1 l'.2 = ν l.1 l.2)).isSome := by
    rw [List.find?_isSome]; exact ⟨l, hl, by simp⟩
  obtain ⟨l', hl'⟩ := Option.isSome_iff_exists.1 hs
  rw [hl']
  have he := List.find?_some hl'
  simp only [decide_eq_true_eq] at he
  obtain ⟨h1, h2⟩ := hn.2 l' (List.mem_of_find?_eq_some hl') l hl he
  unfold preCell
  simp only
  have : (rs.filter (fun r => l'.2.all (fun w => env.query w r))) = rs.filter (fun r => l.2.all (fun w => env.query w r)) := by
    apply List.filter_congr
    intro r _
    rw [Bool.eq_iff_iff, holds_iff, holds_iff]
    exact h2 r
  rw [this, h1]

theorem foldl_max_le (xs : List Rat) : ∀ x, (x ≤ xs.foldl Max.max x) ∧ (∀ y ∈ xs, y ≤ xs.foldl Max.max x) ∧
    (xs.foldl Max.max x = x ∨ xs.foldl Max.max x ∈ xs) := by
  induction xs with
  | nil => intro x; simp
  | cons a xs ih =>
    intro x
    obtain ⟨h1, h2, h3⟩ := ih (Max.max x a)
    simp only [List.foldl_cons]
    refine ⟨le_trans (le_max_left _ _) h1, ?_, ?_⟩
    · intro y hy
      rcases List.mem_cons.1 hy with rfl | hy
      · exact le_trans (le_max_right _ _) h1
      · exact h2 y hy
    · rcases h3 with h3 | h3
      · rw [h3]
        rcases max_choice x a with e | e <;> rw [e] <;> simp
      · exact Or.inr (by simp [h3])

theorem foldl_min_le (xs : List Rat) : ∀ x, (xs.foldl Min.min x ≤ x) ∧ (∀ y ∈ xs, xs.foldl Min.min x ≤ y) ∧
    (xs.foldl Min.min x = x ∨ xs.foldl Min.min x ∈ xs) := by
  induction xs with
  | nil => intro x; simp
  | cons a xs ih =>
    intro x
    obtain ⟨h1, h2, h3⟩ := ih (Min.min x a)
    simp only [List.foldl_cons]
    refine ⟨le_trans h1 (min_le_left _ _), ?_, ?_⟩
    · intro y hy
      rcases List.mem_cons.1 hy with rfl | hy
      · exact le_trans h1 (min_le_right _ _)
      · exact h2 y hy
    · rcases h3 with h3 | h3
      · rw [h3]
        rcases min_choice x a with e | e <;> rw [e] <;> simp
      · exact Or.inr (by simp [h3])

/-- The value of a preaggregated leaf on the columns that stand for the values. -/
theorem agg_eq {k : Leaf} {A B : List Row} {v : String} (h : Stands k (vals k.col A) (vals v B)) : (k.pre v).agg B = k.agg A := by
  cases k <;> simp only [Stands, Leaf.col] at h
  · simp [Leaf.pre, Leaf.agg, h]
  · simp [Leaf.pre, Leaf.agg, h]
  · simp only [Leaf.pre, Leaf.agg]
    revert h
    generalize vals v B = ys
    rename_i c
    generalize vals c A = xs
    intro h
    cases xs with
    | nil =>
      cases ys with
      | nil => rfl
      | cons y ys => obtain ⟨x, hx, _⟩ := h.2 y (by simp); simp at hx
    | cons x xs =>
      cases ys with
      | nil => obtain ⟨y, hy, _⟩ := h.1 x (by simp); simp at hy
      | cons y ys =>
        simp only [pyMax, PyVal.fin.injEq]
        obtain ⟨a1, a2, a3⟩ := foldl_max_le xs x
        obtain ⟨b1, b2, b3⟩ := foldl_max_le ys y
        apply le_antisymm
        · have hm : ys.foldl Max.max y ∈ y :: ys := by
            rcases b3 with e | e
            · rw [e]; simp
            · simp [e]
          obtain ⟨z, hz, hzz⟩ := h.2 _ hm
          refine le_trans hzz ?_
          rcases List.mem_cons.1 hz with rfl | hz
          · exact a1
          · exact a2 z hz
        · have hm : xs.foldl Max.max x ∈ x :: xs := by
            rcases a3 with e | e
            · rw [e]; simp
            · simp [e]
          obtain ⟨z, hz, hzz⟩ := h.1 _ hm
          refine le_trans hzz ?_
          rcases List.mem_cons.1 hz with rfl | hz
          · exact b1
          · exact b2 z hz
  · simp only [Leaf.pre, Leaf.agg]
    revert h
    generalize vals v B = ys
    rename_i c
    generalize vals c A = xs
    intro h
    cases xs with
    | nil =>
      cases ys with
      | nil => rfl
      | cons y ys => obtain ⟨x, hx, _⟩ := h.2 y (by simp); simp at hx
    | cons x xs =>
      cases ys with
      | nil => obtain ⟨y, hy, _⟩ := h.1 x (by simp); simp at hy
      | cons y ys =>
        simp only [pyMin, PyVal.fin.injEq]
        obtain ⟨a1, a2, a3⟩ := foldl_min_le xs x
        obtain ⟨b1, b2, b3⟩ := foldl_min_le ys y
        apply le_antisymm
        · have hm : xs.foldl Min.min x ∈ x :: xs := by
            rcases a3 with e | e
            · rw [e]; simp
            · simp [e]
          obtain ⟨z, hz, hzz⟩ := h.1 _ hm
          refine le_trans ?_ hzz
          rcases List.mem_cons.1 hz with rfl | hz
          · exact b1
          · exact b2 z hz
        · have hm : ys.foldl Min.min y ∈ y :: ys := by
            rcases b3 with e | e
            · rw [e]; simp
            · simp [e]
          obtain ⟨z, hz, hzz⟩ := h.2 _ hm
          refine le_trans ?_ hzz
          rcases List.mem_cons.1 hz with rfl | hz
          · exact a1
          · exact a2 z hz

theorem stands_cell {k : Leaf} (hk : k.canPre = true) (rs : List Row) (wh : List String) (key : Key) :
    Stands k (vals k.col (passing env wh (rowsAt all key rs))) (preCell env all rs k wh key).toList := by
  rw [passing_rowsAt]
  unfold preCell
  change Stands k (vals k.col (rowsAt all key (passing env wh rs))) (Option.toList (match rowsAt all key (passing env wh rs) with | [] => none | a :: as => match k.agg (a :: as) with | .fin q => some q | _ => none))
  generalize rowsAt all key (passing env wh rs) = X
  cases X with
  | nil => simpa [vals] using Stands.nil hk
  | cons a as =>
    simp only
    cases k <;> simp only [Leaf.canPre, Bool.false_eq_true] at hk
    · simp [Stands, Leaf.agg, Leaf.col]
    · simp [Stands, Leaf.agg, Leaf.col]
    · simp only [Leaf.agg, Leaf.col, Stands]
      rename_i c
      generalize vals c (a :: as) = xs
      cases xs with
      | nil => simp [pyMax]
      | cons x xs =>
        simp only [pyMax, Option.toList_some, List.mem_singleton, exists_eq_left, forall_eq]
        obtain ⟨a1, a2, a3⟩ := foldl_max_le xs x
        refine ⟨fun y hy => ?_, ?_⟩
        · rcases List.mem_cons.1 hy with rfl | hy
          · exact a1
          · exact a2 y hy
        · rcases a3 with e | e
          · exact ⟨x, by simp, by rw [e]⟩
          · exact ⟨_, by simp [e], le_refl _⟩
    · simp only [Leaf.agg, Leaf.col, Stands]
      rename_i c
      generalize vals c (a :: as) = xs
      cases xs with
      | nil => simp [pyMin]
      | cons x xs =>
        simp only [pyMin, Option.toList_some, List.mem_singleton, exists_eq_left, forall_eq]
        obtain ⟨a1, a2, a3⟩ := foldl_min_le xs x
        refine ⟨fun y hy => ?_, ?_⟩
        · rcases List.mem_cons.1 hy with rfl | hy
          · exact a1
          · exact a2 y hy
        · rcases a3 with e | e
          · exact ⟨x, by simp, by rw [e]⟩
          · exact ⟨_, by simp [e], le_refl _⟩

theorem standFor_slice (hL : ∀ l ∈ L, l.1.canPre = true) (hn : namesFit env ν all L) (rs : List Row) {key : Key}
    (hk : ∃ r ∈ rs, keyOf all r = some key) : StandFor env ν all L (rowsAt all key rs) [preRow env ν all L rs key] := by
  obtain ⟨r0, hr0, e0⟩ := hk
  have same : ∀ S, S ⊆ all → ∀ r, keyOf all r = some key → keyOf S r = keyOf S (preRow env ν all L rs key) := by
    intro S hS r hr
    exact keyOf_congr (fun c hc => (preRow_index hr (hS hc)).symm)
  refine ⟨fun S hS v => ?_, fun l hl S hS v => ?_⟩
  · constructor
    · rintro ⟨r, hr, e⟩
      refine ⟨preRow env ν all L rs key, by simp, ?_⟩
      rw [← same S hS r (by simpa using (List.mem_filter.1 hr).2), e]
    · rintro ⟨r, hr, e⟩
      rw [List.mem_singleton] at hr
      subst hr
      exact ⟨r0, List.mem_filter.2 ⟨hr0, by simpa using e0⟩, by rw [same S hS r0 e0, e]⟩
  · by_cases hv : keyOf S (preRow env ν all L rs key) = some v
    · have hA : rowsAt S v (rowsAt all key rs) = rowsAt all key rs := by
        rw [rowsAt, List.filter_eq_self]
        intro r hr
        simp only [decide_eq_true_eq]
        rw [same S hS r (by simpa using (List.mem_filter.1 hr).2), hv]
      have hB : rowsAt S v [preRow env ν all L rs key] = [preRow env ν all L rs key] := by simp [rowsAt, hv]
      rw [hA, hB]
      have : Verif.vals (ν l.1 l.2) [preRow env ν all L rs key] = (preCell env all rs l.1 l.2 key).toList := by
        rw [← preRow_new hn hl rs key]
        unfold Verif.vals
        cases h : preRow env ν all L rs key (ν l.1 l.2) <;> simp [h]
      rw [this]
      exact stands_cell (hL l hl) rs l.2 key
    · have hA : rowsAt S v (rowsAt all key rs) = [] := by
        rw [rowsAt, List.filter_eq_nil_iff]
        intro r hr
        simp only [decide_eq_true_eq]
        rw [same S hS r (by simpa using (List.mem_filter.1 hr).2)]
        exact hv
      have hB : rowsAt S v [preRow env ν all L rs key] = [] := by simp [rowsAt, hv]
      rw [hA, hB]
      simpa [passing, Verif.vals] using Stands.nil (hL l hl)

end

/-- Rows sorted into groups. -/
theorem perm_groups (S : List String) : ∀ (ks : List Key) (rs : List Row), ks.Nodup → (∀ r ∈ rs, ∃ k ∈ ks, keyOf S r = some k) →
    (ks.flatMap (fun k => rowsAt S k rs)).Perm rs
  | [], rs, _, h => by
    cases rs with
    | nil => simp
    | cons r rs => obtain ⟨k, hk, _⟩ := h r (by simp); simp at hk
  | k :: ks, rs, hn, h => by
    rw [List.flatMap_cons]
    have hp := List.filter_append_perm (fun r => decide (keyOf S r = some k)) rs
    refine List.Perm.trans (List.Perm.append_left _ ?_) hp
    have ih := perm_groups S ks (rs.filter (fun r => !decide (keyOf S r = some k))) (List.nodup_cons.1 hn).2 (by
      intro r hr
      obtain ⟨hr1, hr2⟩ := List.mem_filter.1 hr
      obtain ⟨k', hk', e⟩ := h r hr1
      rcases List.mem_cons.1 hk' with rfl | hk'
      · simp [e] at hr2
      · exact ⟨k', hk', e⟩)
    refine List.Perm.trans (List.Perm.of_eq ?_) ih
    apply List.flatMap_congr
    intro k' hk'
    unfold rowsAt
    rw [List.filter_filter]
    apply List.filter_congr
    intro r _
    by_cases e : keyOf S r = some k'
    · have : k' ≠ k := by rintro rfl; exact (List.nodup_cons.1 hn).1 hk'
      simp [e, this]
    · simp [e]

theorem keyOf_some_of_complete {S : List String} {r : Row} (h : ∀ c ∈ S, r c ≠ none) : ∃ k, keyOf S r = some k := by
  induction S with
  | nil => exact ⟨[], rfl⟩
  | cons c S ih =>
    obtain ⟨k, hk⟩ := ih (fun x hx => h x (by simp [hx]))
    obtain ⟨x, hx⟩ := Option.ne_none_iff_exists'.1 (h c (by simp))
    exact ⟨x :: k, by rw [keyOf_cons, hx, hk]; rfl⟩

theorem mem_groupKeys_iff {S : List String} (hS : S ≠ []) {rs : List Row} {v : Key} :
    v ∈ groupKeys S rs ↔ ∃ r ∈ rs, keyOf S r = some v := by
  unfold groupKeys
  rw [if_neg hS, List.mem_dedup, List.mem_filterMap]

/-- The preaggregated rows stand for the rows. -/
theorem standFor_frame {env : Env} {ν : PreNaming} {all : List String} {L : List (Leaf × List String)} (hall : all ≠ [])
    (hL : ∀ l ∈ L, l.1.canPre = true) (hn : namesFit env ν all L) {f : Frame} (hc : f.completeIn all) :
    StandFor env ν all L f.rows (preFrame env ν all L f).rows := by
  have h : StandFor env ν all L ((groupKeys all f.rows).flatMap (fun k => rowsAt all k f.rows))
      ((groupKeys all f.rows).flatMap (fun k => [preRow env ν all L f.rows k])) :=
    StandFor.flatMap hL _ (fun k hk => standFor_slice hL hn f.rows ((mem_groupKeys_iff hall).1 hk))
  have e : (groupKeys all f.rows).flatMap (fun k => [preRow env ν all L f.rows k]) = (preFrame env ν all L f).rows := by
    simp [preFrame, List.flatMap_singleton']
    rw [List.map_eq_flatMap]
  rw [e] at h
  refine h.perm (perm_groups all _ _ (groupKeys_nodup _ _) ?_)
  intro r hr
  obtain ⟨k, hk⟩ := keyOf_some_of_complete (hc r hr)
  exact ⟨k, (mem_groupKeys_iff hall).2 ⟨r, hr, hk⟩, hk⟩


/-! ## Trees -/

theorem runTbl_same {S : List String} {ks ks' : List Key} (hn : ks.Nodup) (hn' : ks'.Nodup) (hk : ∀ v, v ∈ ks ↔ v ∈ ks') {g g' : Key → PyVal}
    (hg : ∀ v ∈ ks, g v = g' v) : Tbl.Same (ks.map (fun k => (k, g k))) (ks'.map (fun k => (k, g' k))) := by
  refine ⟨?_, ?_⟩
  · have hp : ks.Perm ks' := (List.perm_ext_iff_of_nodup hn hn').2 hk
    have e : ks.map (fun k => (k, g k)) = ks.map (fun k => (k, g' k)) := List.map_congr_left (fun k hk => by rw [hg k hk])
    rw [e]
    exact hp.map _
  · rw [List.map_map]
    have : (Prod.fst ∘ fun k => (k, g k)) = (id : Key → Key) := rfl
    rw [this, List.map_id]
    exact hn

mutual
/-- The columns the operations of a tree split by. -/
def M.opCols : M → List String
  | .const _ | .leaf _ _ => []
  | .comp _ l r _ => l.opCols ++ r.opCols
  | .list ms _ => opColsAll ms
  | .oper o c _ => o.splitBy ++ c.opCols
def opColsAll : List M → List String
  | [] => []
  | m :: ms => m.opCols ++ opColsAll ms
end

theorem mergeIdx_true_mem {l : List (List String)} {c : String} : (∃ x ∈ l, c ∈ x) → c ∈ (mergeIdx true l).getD [] := by
  rintro ⟨x, hx, hc⟩
  have hd : x ∈ l.dedup := List.mem_dedup.2 hx
  unfold mergeIdx
  split
  · rename_i e; rw [e] at hd; simp at hd
  · rename_i i e
    rw [e] at hd
    simp only [List.mem_singleton] at hd
    subst hd; simpa using hc
  · simp only [if_true, Option.getD_some, List.mem_dedup, List.mem_flatten]
    exact ⟨x, hx, hc⟩

theorem opCols_const {m : M} (h : m.isConst = true) : m.opCols = [] := by
  cases m <;> simp_all [M.isConst, M.opCols]

mutual
theorem opCols_sub : ∀ (m : M), m.opCols ⊆ m.extraSplit
  | .const _ => by simp [M.opCols]
  | .leaf _ _ => by simp [M.opCols]
  | .comp _ l r _ => by
    intro c hc
    rw [M.extraSplit]
    apply mergeIdx_true_mem
    rw [M.opCols, List.mem_append] at hc
    rcases hc with hc | hc
    · have : l.isConst = false := by
        by_contra h; rw [opCols_const (by simpa using h)] at hc; simp at hc
      exact ⟨_, by simp [this], opCols_sub l hc⟩
    · have : r.isConst = false := by
        by_contra h; rw [opCols_const (by simpa using h)] at hc; simp at hc
      exact ⟨r.extraSplit, by simp [this], opCols_sub r hc⟩
  | .list ms _ => by
    intro c hc
    rw [M.extraSplit]
    exact mergeIdx_true_mem (opColsAll_sub ms c (by simpa [M.opCols] using hc))
  | .oper o ch _ => by
    intro c hc
    rw [M.opCols, List.mem_append] at hc
    rw [M.extraSplit, List.mem_append]
    exact hc.imp id (fun h => opCols_sub ch h)
theorem opColsAll_sub : ∀ (ms : List M) (c : String), c ∈ opColsAll ms → ∃ x ∈ extraSplitAll ms, c ∈ x
  | [], c, h => by simp [opColsAll] at h
  | m :: ms, c, h => by
    rw [opColsAll, List.mem_append] at h
    rw [extraSplitAll]
    rcases h with h | h
    · have : m.isConst = false := by
        by_contra e; rw [opCols_const (by simpa using e)] at h; simp at h
      rw [this]
      exact ⟨m.extraSplit, by simp, opCols_sub m h⟩
    · obtain ⟨x, hx, hc⟩ := opColsAll_sub ms c h
      split
      · exact ⟨x, hx, hc⟩
      · exact ⟨x, by simp [hx], hc⟩
end

theorem pre_vars (k : Leaf) (v : String) : (k.pre v).vars = [v] := by cases k <;> rfl
theorem vars_canPre {k : Leaf} (h : k.canPre = true) : k.vars = [k.col] := by cases k <;> simp_all [Leaf.canPre, Leaf.vars, Leaf.col]

/-- The columns of `g` and `f` suffice. -/
structure PreColsOk (ν : PreNaming) (all : List String) (L : List (Leaf × List String)) (f g : Frame) : Prop where
  raw : ∀ c ∈ all, c ∈ f.cols
  rawVar : ∀ l ∈ L, l.1.col ∈ f.cols
  pre : ∀ c ∈ all, c ∈ g.cols
  preVar : ∀ l ∈ L, ν l.1 l.2 ∈ g.cols

theorem leaf_pre {env : Env} {ν : PreNaming} {all : List String} {L : List (Leaf × List String)} (hL : ∀ l ∈ L, l.1.canPre = true) {f g : Frame}
    (hc : PreColsOk ν all L f g) (hs : StandFor env ν all L f.rows g.rows) {k : Leaf} {wh : List String} (hl : (k, wh) ∈ L) {S : List String}
    (hS : S ⊆ all) :
    ∃ t, (k.pre (ν k wh)).run g S = .ok (.tbl [] [t]) ∧
      Tbl.Same t ((groupKeys S f.rows).map (fun v => (v, k.agg (rowsAt S v (f.query env wh).rows)))) := by
  refine ⟨(groupKeys S g.rows).map (fun key => (key, (k.pre (ν k wh)).agg (rowsAt S key g.rows))), ?_, ?_⟩
  · unfold Leaf.run
    rw [if_pos]
    rw [List.all_eq_true]
    intro c hcc
    rw [pre_vars, List.singleton_append, List.mem_cons] at hcc
    simp only [List.contains_iff_mem]
    rcases hcc with rfl | hcc
    · exact hc.preVar _ hl
    · exact hc.pre c (hS hcc)
  · apply runTbl_same (S := S) (groupKeys_nodup _ _) (groupKeys_nodup _ _)
    · intro v
      by_cases e : S = []
      · subst e; simp [groupKeys]
      · rw [mem_groupKeys_iff e, mem_groupKeys_iff e]; exact (hs.keys S hS v).symm
    · intro v _
      apply agg_eq
      have := hs.vals _ hl S hS v
      rw [passing_rowsAt] at this
      exact this

theorem groupKeys_filter_sub {S : List String} {rs : List Row} {p : Row → Bool} {v : Key} (h : v ∈ groupKeys S (rs.filter p)) : v ∈ groupKeys S rs := by
  by_cases e : S = []
  · subst e; simpa [groupKeys] using h
  · rw [mem_groupKeys_iff e] at h ⊢
    obtain ⟨r, hr, hk⟩ := h
    exact ⟨r, (List.mem_filter.1 hr).1, hk⟩

mutual
theorem pre_run {env : Env} {ν : PreNaming} {all : List String} {L : List (Leaf × List String)} (hL : ∀ l ∈ L, l.1.canPre = true) {f g : Frame}
    (hc : PreColsOk ν all L f g) (hs : StandFor env ν all L f.rows g.rows) : ∀ (m : M) (acc : List String) (sb : List String),
    (m.push acc).leafList ⊆ L → sb ++ m.opCols ⊆ all →
    (∀ k wh f' sb', Reach env m (f.query env acc) sb (.leaf k wh) f' sb' → ∀ v ∈ groupKeys sb' f.rows, v ∈ groupKeys sb' (f'.query env wh).rows) →
    ExRel Res.Same (((m.push acc).preTree ν).run env g sb) (m.run env (f.query env acc) sb)
  | .const q, acc, sb, _, _, _ => .ok rfl
  | .leaf k wh, acc, sb, h1, h2, h3 => by
    simp only [M.push, M.preTree, M.run, query_nil]
    have hl : (k, if acc = [] then wh else addWhere wh acc) ∈ L := h1 (by simp [M.push, M.leafList])
    have hS : sb ⊆ all := (List.append_subset.1 h2).1
    obtain ⟨t, ht, hsame⟩ := leaf_pre hL hc hs hl hS
    rw [ht]
    have h3' := h3 k wh _ sb (.here _ _ _)
    rw [query_addWhere] at hsame
    unfold Leaf.run
    rw [if_pos]
    · refine .ok ⟨rfl, .cons ?_ .nil⟩
      refine ⟨hsame.1.trans (runTbl_same (S := sb) (groupKeys_nodup _ _) (groupKeys_nodup _ _) ?_ (fun _ _ => rfl)).1, hsame.2⟩
      intro v
      refine ⟨h3' v, fun hv => ?_⟩
      rw [query_query] at hv
      exact groupKeys_filter_sub hv
    · rw [List.all_eq_true]
      intro c hcc
      rw [vars_canPre (hL _ hl), List.singleton_append, List.mem_cons] at hcc
      simp only [List.contains_iff_mem]
      rcases hcc with rfl | hcc
      · exact hc.rawVar _ hl
      · exact hc.raw c (hS hcc)
  | .comp op l r wh, acc, sb, h1, h2, h3 => by
    simp only [M.push, M.preTree, M.run, query_nil]
    simp only [M.push, M.leafList, List.append_subset] at h1
    simp only [M.opCols, List.append_subset] at h2
    have ihl := pre_run hL hc hs l (if acc = [] then wh else addWhere wh acc) sb h1.1 (List.append_subset.2 ⟨h2.1, h2.2.1⟩) (by
      rw [query_addWhere]
      exact fun k w f' sb' hr => h3 k w f' sb' (.left hr))
    have ihr := pre_run hL hc hs r (if acc = [] then wh else addWhere wh acc) sb h1.2 (List.append_subset.2 ⟨h2.1, h2.2.2⟩) (by
      rw [query_addWhere]
      exact fun k w f' sb' hr => h3 k w f' sb' (.right hr))
    rw [query_addWhere] at ihl ihr
    revert ihl ihr
    generalize M.run env _ g sb = x
    generalize M.run env _ g sb = x'
    generalize M.run env l _ sb = y
    generalize M.run env r _ sb = y'
    intro ihl ihr
    cases ihl with
    | error e => exact .error e
    | ok ha =>
      cases ihr with
      | error e => exact .error e
      | ok hb => exact same_combine _ ha hb
  | .list ms wh, acc, sb, h1, h2, h3 => by
    simp only [M.push, M.preTree, M.run, query_nil]
    simp only [M.push, M.leafList] at h1
    simp only [M.opCols] at h2
    have ih := pre_runAll hL hc hs ms (if acc = [] then wh else addWhere wh acc) sb h1 h2 (by
      rw [query_addWhere]
      exact fun m hm k w f' sb' hr => h3 k w f' sb' (.item hm hr))
    rw [query_addWhere] at ih
    exact same_joinRes ih
  | .oper o c wh, acc, sb, h1, h2, h3 => by
    simp only [M.push, M.preTree, M.run, query_nil]
    simp only [M.push, M.leafList] at h1
    simp only [M.opCols] at h2
    have ih := pre_run hL hc hs c (if acc = [] then wh else addWhere wh acc) (sb ++ o.splitBy) h1 (by rwa [List.append_assoc]) (by
      rw [query_addWhere]
      exact fun k w f' sb' hr => h3 k w f' sb' (.child hr))
    rw [query_addWhere] at ih
    revert ih
    generalize M.run env _ g (sb ++ o.splitBy) = x
    generalize M.run env c _ (sb ++ o.splitBy) = y
    intro ih
    cases ih with
    | error e => exact .error e
    | ok ha => exact same_onRes o sb.length ha
theorem pre_runAll {env : Env} {ν : PreNaming} {all : List String} {L : List (Leaf × List String)} (hL : ∀ l ∈ L, l.1.canPre = true) {f g : Frame}
    (hc : PreColsOk ν all L f g) (hs : StandFor env ν all L f.rows g.rows) : ∀ (ms : List M) (acc : List String) (sb : List String),
    leafListAll (pushAll acc ms) ⊆ L → sb ++ opColsAll ms ⊆ all →
    (∀ m ∈ ms, ∀ k wh f' sb', Reach env m (f.query env acc) sb (.leaf k wh) f' sb' → ∀ v ∈ groupKeys sb' f.rows, v ∈ groupKeys sb' (f'.query env wh).rows) →
    List.Forall₂ Res.Same (runAll env (preTreeAll ν (pushAll acc ms)) g sb) (runAll env ms (f.query env acc) sb)
  | [], acc, sb, _, _, _ => .nil
  | m :: ms, acc, sb, h1, h2, h3 => by
    simp only [pushAll, preTreeAll, runAll]
    simp only [pushAll, leafListAll, List.append_subset] at h1
    simp only [opColsAll, List.append_subset] at h2
    have ih := pre_run hL hc hs m acc sb h1.1 (List.append_subset.2 ⟨h2.1, h2.2.1⟩) (h3 m (by simp))
    have ihs := pre_runAll hL hc hs ms acc sb h1.2 (List.append_subset.2 ⟨h2.1, h2.2.2⟩) (fun x hx => h3 x (by simp [hx]))
    revert ih
    generalize ((m.push acc).preTree ν).run env g sb = x
    generalize m.run env (f.query env acc) sb = y
    intro ih
    cases ih with
    | ok h => exact .cons h ihs
    | error e => exact ihs
end

/-! ## Weights -/

theorem Stands.weight {k : Leaf} {w : ℕ} (hw : 0 < w) {X : List Row} {v : String} {ys ys' : List Rat} (h : Stands k (vals v X) ys)
    (hy : ((∃ c, k = .sum c ∨ k = .count c) → ys' = ys.map (· * (w : Rat))) ∧ ((¬ ∃ c, k = .sum c ∨ k = .count c) → ys' = ys)) :
    Stands k (vals v (List.replicate w X).flatten) ys' := by
  have hsum : ∀ (n : ℕ), (vals v (List.replicate n X).flatten).sum = (n : Rat) * (vals v X).sum ∧
      ((vals v (List.replicate n X).flatten).length : Rat) = n * (vals v X).length := by
    intro n
    induction n with
    | zero => simp [vals]
    | succ n ih =>
      rw [List.replicate_succ, List.flatten_cons, vals_append', List.sum_append, List.length_append]
      push_cast
      rw [ih.1, ih.2]
      constructor <;> ring
  have hmem : ∀ x, x ∈ vals v (List.replicate w X).flatten ↔ x ∈ vals v X := by
    intro x
    obtain ⟨n, rfl⟩ := Nat.exists_eq_succ_of_ne_zero hw.ne'
    unfold vals
    simp only [List.mem_filterMap, List.mem_flatten, List.mem_replicate]
    constructor
    · rintro ⟨r, ⟨Y, ⟨_, rfl⟩, hr⟩, e⟩; exact ⟨r, hr, e⟩
    · rintro ⟨r, hr, e⟩; exact ⟨r, ⟨X, ⟨by simp, rfl⟩, hr⟩, e⟩
  have hmul : (ys.map (· * (w : Rat))).sum = w * ys.sum := by
    clear hy h
    induction ys with
    | nil => simp
    | cons y ys ih => rw [List.map_cons, List.sum_cons, List.sum_cons, ih]; ring
  cases k <;> simp only [Stands] at h ⊢
  · rw [hy.1 ⟨_, Or.inl rfl⟩, hmul, h, (hsum w).1]
  · rw [hy.1 ⟨_, Or.inr rfl⟩, hmul, h, (hsum w).2]
  · rw [hy.2 (by simp)]
    simp only [hmem]; exact h
  · rw [hy.2 (by simp)]
    simp only [hmem]; exact h

theorem rowsAt_flatten_replicate (S : List String) (v : Key) (w : ℕ) (X : List Row) :
    rowsAt S v (List.replicate w X).flatten = (List.replicate w (rowsAt S v X)).flatten := by
  unfold rowsAt
  rw [List.filter_flatten, List.map_replicate]

theorem StandFor.scale {env : Env} {ν : PreNaming} {all : List String} {L : List (Leaf × List String)} {A B : List Row}
    (h : StandFor env ν all L A B) (hf : ∀ l ∈ L, ν l.1 l.2 ∉ all) (ht : namesTell ν L) {vars : List String}
    (hv1 : ∀ l ∈ L, ν l.1 l.2 ∈ vars) (hv2 : ∀ c ∈ vars, c ∉ all) {w : ℕ} (hw : 0 < w) :
    StandFor env ν all L (List.replicate w A).flatten (B.map (scaleRow vars w)) := by
  have hkey : ∀ S, S ⊆ all → ∀ r, keyOf S (scaleRow vars w r) = keyOf S r := by
    intro S hS r
    apply keyOf_congr
    intro c hc
    unfold scaleRow
    have : vars.contains c = false := by
      rw [Bool.eq_false_iff, Ne, List.contains_iff_mem]
      exact fun h => hv2 c h (hS hc)
    rw [this]; rfl
  have hrows : ∀ S, S ⊆ all → ∀ v, rowsAt S v (B.map (scaleRow vars w)) = (rowsAt S v B).map (scaleRow vars w) := by
    intro S hS v
    unfold rowsAt
    rw [List.filter_map]
    congr 1
    apply List.filter_congr
    intro r _
    simp only [Function.comp_apply, hkey S hS r]
  refine ⟨fun S hS v => ?_, fun l hl S hS v => ?_⟩
  · obtain ⟨n, rfl⟩ := Nat.exists_eq_succ_of_ne_zero hw.ne'
    rw [show (∃ r ∈ B.map (scaleRow vars (n+1)), keyOf S r = some v) ↔ ∃ r ∈ B, keyOf S r = some v by
      simp only [List.mem_map, exists_exists_and_eq_and, hkey S hS], ← h.keys S hS v]
    constructor
    · rintro ⟨r, hr, e⟩
      obtain ⟨Y, hY, hr⟩ := List.mem_flatten.1 hr
      rw [(List.mem_replicate.1 hY).2] at hr
      exact ⟨r, hr, e⟩
    · rintro ⟨r, hr, e⟩
      exact ⟨r, List.mem_flatten.2 ⟨A, List.mem_replicate.2 ⟨by simp, rfl⟩, hr⟩, e⟩
  · rw [rowsAt_flatten_replicate, hrows S hS v]
    have e : passing env l.2 (List.replicate w (rowsAt S v A)).flatten = (List.replicate w (passing env l.2 (rowsAt S v A))).flatten := by
      unfold passing
      rw [List.filter_flatten, List.map_replicate]
    rw [e]
    apply Stands.weight hw (h.vals l hl S hS v)
    have hc : vars.contains (ν l.1 l.2) = true := by rw [List.contains_iff_mem]; exact hv1 l hl
    unfold Verif.vals
    rw [List.filterMap_map]
    refine ⟨fun hk => ?_, fun hk => ?_⟩
    · rw [List.map_filterMap]
      congr 1
      funext r
      simp only [Function.comp_apply, scaleRow, hc, (ht l hl).2 hk, Bool.and_self, if_true]
    · have hk : ¬ isSumOrCount (ν l.1 l.2) = true := fun e => hk ((ht l hl).1 e)
      congr 1
      funext r
      simp only [Function.comp_apply, scaleRow]
      rw [if_neg (by simp [hk])]

theorem flatMap_filter_pos {α : Type} (g : Key → ℕ → List α) (h0 : ∀ k, g k 0 = []) :
    ∀ (us : List (Key × ℕ)), us.flatMap (fun u => g u.1 u.2) = (us.filter (fun u => 0 < u.2)).flatMap (fun u => g u.1 u.2)
  | [] => rfl
  | u :: us => by
    rw [List.flatMap_cons, flatMap_filter_pos g h0 us, List.filter_cons]
    by_cases h : 0 < u.2
    · simp [h]
    · have : u.2 = 0 := by omega
      simp [this, h0]

end Verif
