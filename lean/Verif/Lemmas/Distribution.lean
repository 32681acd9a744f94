import Verif.Spec.Distribution
import Mathlib.Algebra.BigOperators.Ring.List
import Mathlib.Tactic.Ring
import Mathlib.Tactic.FieldSimp
import Mathlib.Tactic.Linarith
import Mathlib.Tactic.Positivity

/-!
# Lemmas for C28-C33
-/

namespace Verif

section
variable {S C K : Type} [DecidableEq S] [Field K] [LinearOrder K]

theorem sliceVals_present (t : DTab S C K) (s : S) : (sliceVals t s).filterMap id = presentVals t s := by
  unfold sliceVals presentVals
  induction t with
  | nil => rfl
  | cons r t ih =>
    by_cases h : r.1.1 = s
    · cases hv : r.2 <;> simp_all
    · simp_all

theorem nanSum_sliceVals (t : DTab S C K) (s : S) : nanSum (sliceVals t s) = sliceTotal t s := by
  unfold nanSum sliceTotal
  rw [sliceVals_present]

theorem lookup_map_key {X : Type} (f : S → X) : ∀ (l : List S) (s : S), s ∈ l →
    (l.map fun k => (k, f k)).lookup s = some (f s) := by
  intro l
  induction l with
  | nil => intro s h; cases h
  | cons a l ih =>
    intro s h
    rw [List.map_cons, List.lookup_cons]
    by_cases hs : s = a
    · subst hs; simp
    · rw [beq_eq_false_iff_ne.2 hs]
      exact ih s (by rcases List.mem_cons.1 h with h | h; exact absurd h hs; exact h)

theorem mem_sliceKeys {t : DTab S C K} {r : (S × C) × Option K} (h : r ∈ t) : r.1.1 ∈ sliceKeys t :=
  List.mem_dedup.2 (List.mem_map.2 ⟨r, h, rfl⟩)

/-- What `pyDist` does to each row. -/
theorem pyDist_eq (t : DTab S C K) :
    pyDist t = t.map fun r => (r.1, nanDiv r.2 (some (sliceTotal t r.1.1))) := by
  unfold pyDist
  apply List.map_congr_left
  intro r hr
  simp only [groupAgg]
  rw [lookup_map_key (fun s => nanSum (sliceVals t s)) (sliceKeys t) r.1.1 (mem_sliceKeys hr), nanSum_sliceVals]

theorem nanDiv_none (x : Option K) : nanDiv none x = none := by cases x <;> rfl

theorem sqlDist_eq_pyDist (t : DTab S C K) : sqlDist t = pyDist t := by
  rw [pyDist_eq]
  unfold sqlDist
  apply List.map_congr_left
  intro r hr
  cases hv : r.2 with
  | none => rw [nanDiv_none, nanDiv_none]
  | some v =>
    have hm : v ∈ presentVals t r.1.1 := by
      unfold presentVals
      rw [List.mem_filterMap]
      exact ⟨r, hr, by simp [hv]⟩
    have : sqlSumN (sliceVals t r.1.1) = some (sliceTotal t r.1.1) := by
      unfold sqlSumN sliceTotal
      rw [sliceVals_present]
      cases hp : presentVals t r.1.1 with
      | nil => rw [hp] at hm; cases hm
      | cons a l => rfl
    rw [this]

theorem sliceKeys_pyDist (t : DTab S C K) : sliceKeys (pyDist t) = sliceKeys t := by
  unfold sliceKeys
  rw [pyDist_eq, List.map_map]
  rfl

theorem sliceVals_pyDist (t : DTab S C K) (s : S) :
    sliceVals (pyDist t) s = (sliceVals t s).map fun v => nanDiv v (some (sliceTotal t s)) := by
  have key : ∀ (T : S → K) (t : DTab S C K),
      sliceVals (t.map fun r => (r.1, nanDiv r.2 (some (T r.1.1)))) s =
        (sliceVals t s).map fun v => nanDiv v (some (T s)) := by
    intro T t
    unfold sliceVals
    induction t with
    | nil => rfl
    | cons r t ih =>
      rw [List.map_cons]
      by_cases h : r.1.1 = s
      · simp only [List.filter_cons, h, decide_true, if_true, List.map_cons]
        rw [ih]
      · simp only [List.filter_cons, h, decide_false, Bool.false_eq_true, if_false]
        rw [ih]
  rw [pyDist_eq]
  exact key (sliceTotal t) t

/-- With a total other than zero, the shares. -/
theorem sliceVals_share (t : DTab S C K) (s : S) (h : sliceTotal t s ≠ 0) :
    sliceVals (pyDist t) s = (sliceVals t s).map fun v => v.map (· / sliceTotal t s) := by
  rw [sliceVals_pyDist]
  apply List.map_congr_left
  intro v _
  cases v with
  | none => rfl
  | some v => simp [nanDiv, h]

theorem filterMap_id_map {α β : Type} (g : α → β) (l : List (Option α)) :
    (l.map fun v => v.map g).filterMap id = (l.filterMap id).map g := by
  induction l with
  | nil => rfl
  | cons v l ih => cases v <;> simp_all

/-- The shares in a slice. -/
theorem present_pyDist (t : DTab S C K) (s : S) (h : sliceTotal t s ≠ 0) :
    (sliceVals (pyDist t) s).filterMap id = (presentVals t s).map (· / (presentVals t s).sum) := by
  rw [sliceVals_share t s h, filterMap_id_map, sliceVals_present]
  rfl

theorem mem_groupAgg {X : Type} {f : List (Option K) → X} {t : DTab S C K} {s : S} {x : X}
    (h : (s, x) ∈ groupAgg f t) : s ∈ sliceKeys t ∧ x = f (sliceVals t s) := by
  unfold groupAgg at h
  obtain ⟨k, hk, he⟩ := List.mem_map.1 h
  cases he
  exact ⟨hk, rfl⟩

theorem groupAgg_keys {X : Type} (f : List (Option K) → X) (t : DTab S C K) :
    (groupAgg f t).map Prod.fst = sliceKeys t := by
  unfold groupAgg
  rw [List.map_map]
  exact List.map_id' _

end

section
variable {K : Type} [Field K]

theorem sum_map_div (vs : List K) (T : K) : (vs.map (· / T)).sum = vs.sum / T := by
  induction vs with
  | nil => simp
  | cons v vs ih => simp [ih, add_div]

theorem sum_shares (vs : List K) (h : vs.sum ≠ 0) : (vs.map (· / vs.sum)).sum = 1 := by
  rw [sum_map_div, div_self h]

/-- Running sums of present values. -/
theorem cumsumFrom_some (vs : List K) : ∀ acc : K,
    cumsumFrom acc (vs.map some) = (List.range vs.length).map fun i => some (acc + (vs.take (i + 1)).sum) := by
  induction vs with
  | nil => intro acc; rfl
  | cons v vs ih =>
    intro acc
    rw [List.map_cons, cumsumFrom, ih, List.length_cons, List.range_succ_eq_map, List.map_cons, List.map_map]
    simp [Function.comp_def, add_assoc]

theorem cumsum_some (vs : List K) :
    cumsum (vs.map some) = (List.range vs.length).map fun i => some (vs.take (i + 1)).sum := by
  unfold cumsum
  rw [cumsumFrom_some]
  simp

theorem sqlRunning_some (vs : List K) :
    sqlRunning (vs.map some) = (List.range vs.length).map fun i => some (vs.take (i + 1)).sum := by
  unfold sqlRunning
  rw [List.length_map]
  apply List.map_congr_left
  intro i hi
  have hi := List.mem_range.1 hi
  unfold sqlSumN
  rw [← List.map_take, List.filterMap_map]
  have h2 : (List.filterMap (id ∘ some) (List.take (i + 1) vs)) = List.take (i + 1) vs := by
    rw [show (id ∘ some : K → Option K) = some from rfl, List.filterMap_some]
  rw [h2]
  cases vs with
  | nil => simp at hi
  | cons a vs => simp

end

section
variable {K : Type} [Field K] [LinearOrder K] [IsStrictOrderedRing K]

theorem sum_take_le (vs : List K) (h : ∀ v ∈ vs, 0 ≤ v) (i j : Nat) (hij : i ≤ j) :
    (vs.take i).sum ≤ (vs.take j).sum := by
  obtain ⟨d, rfl⟩ := Nat.exists_eq_add_of_le hij
  rw [List.take_add, List.sum_append]
  have : 0 ≤ ((vs.drop i).take d).sum := List.sum_nonneg fun v hv =>
    h v (List.mem_of_mem_drop (List.mem_of_mem_take hv))
  linarith

/-- Values sorted in descending order: dropping the first cannot make the top `k` larger. -/
theorem take_cons_ge {a : K} {l : List K} (h : (a :: l).Pairwise (fun x y => y ≤ x)) (k : Nat) (hk : k ≤ l.length) :
    (l.take k).sum ≤ ((a :: l).take k).sum := by
  induction k generalizing a l with
  | zero => simp
  | succ k ih =>
    cases l with
    | nil => simp at hk
    | cons b l =>
      rw [List.take_succ_cons, List.take_succ_cons, List.sum_cons, List.sum_cons]
      have h1 : b ≤ a := (List.pairwise_cons.1 h).1 b (by simp)
      have h2 := ih (List.pairwise_cons.1 h).2 (by simpa using hk)
      linarith

/-- The top `k` of a sorted list beat any `k` of its elements. -/
theorem sublist_sum_le {sub l : List K} (hs : sub.Sublist l) (h : l.Pairwise (fun x y => y ≤ x)) :
    sub.sum ≤ (l.take sub.length).sum := by
  induction hs with
  | slnil => simp
  | @cons sub l a hs ih =>
    refine (ih (List.pairwise_cons.1 h).2).trans ?_
    exact take_cons_ge h _ hs.length_le
  | @cons_cons sub l a hs ih =>
    rw [List.length_cons, List.take_succ_cons, List.sum_cons, List.sum_cons]
    have := ih (List.pairwise_cons.1 h).2
    linarith

theorem subperm_sum_le {sub l : List K} (hs : sub.Subperm l) (h : l.Pairwise (fun x y => y ≤ x)) :
    sub.sum ≤ (l.take sub.length).sum := by
  obtain ⟨sub', hp, hs⟩ := hs
  have := sublist_sum_le hs h
  rw [hp.sum_eq, hp.length_eq] at this
  exact this

theorem sortDesc_perm (vs : List K) : (sortDesc vs).Perm vs := List.perm_insertionSort _ _

theorem sortDesc_sorted (vs : List K) : (sortDesc vs).Pairwise (fun x y => y ≤ x) := by
  haveI : Std.Total (fun a b : K => b ≤ a) := ⟨fun a b => le_total b a⟩
  haveI : IsTrans K (fun a b : K => b ≤ a) := ⟨fun a b c h1 h2 => h2.trans h1⟩
  exact List.pairwise_insertionSort _ vs

end

/-- A predicate that, once false, stays false, holds on an initial segment. -/
theorem filter_range_initial (p : Nat → Bool) (hp : ∀ i, p (i + 1) = true → p i = true) (n : Nat) :
    ∀ i < n, (p i = true ↔ i < ((List.range n).filter p).length) := by
  have mono : ∀ i j, i ≤ j → p j = true → p i = true := by
    intro i j hij
    induction hij with
    | refl => exact id
    | step _ ih => exact fun h => ih (hp _ h)
  induction n with
  | zero => intro i hi; omega
  | succ n ih =>
    intro i hi
    rw [List.range_succ, List.filter_append, List.length_append]
    cases hn : p n with
    | true =>
      have hall : (List.range n).filter p = List.range n := by
        rw [List.filter_eq_self]
        intro j hj
        exact mono j n (List.mem_range.1 hj).le hn
      rw [hall]
      simp only [List.filter_cons, hn, if_true, List.filter_nil, List.length_range, List.length_singleton]
      exact ⟨fun _ => hi, fun _ => mono i n (by omega) hn⟩
    | false =>
      simp only [List.filter_cons, hn, Bool.false_eq_true, if_false, List.filter_nil, List.length_nil, Nat.add_zero]
      by_cases hin : i < n
      · exact ih i hin
      · have : i = n := by omega
        subst this
        rw [hn]
        have hle : ((List.range i).filter p).length ≤ i := by
          have := List.length_filter_le p (List.range i)
          simpa using this
        simp
        omega

end Verif
