import Verif.Spec.Comparison
import Verif.Lemmas.Distribution

/-!
# Lemmas for C34 and C35
-/

namespace Verif

section
variable {α β γ : Type}

/-- Looking up in a re-keyed part of a table. -/
theorem lookup_rekey [BEq α] [LawfulBEq α] [BEq γ] [LawfulBEq γ] (p : α → Option γ) (a : α) (c : γ) (hpa : p a = some c) (hp : ∀ a', p a' = some c → a' = a)
    (l : List (α × β)) :
    (l.filterMap fun r => (p r.1).map fun c => (c, r.2)).lookup c = l.lookup a := by
  induction l with
  | nil => rfl
  | cons r l ih =>
    obtain ⟨x, v⟩ := r
    rw [List.lookup_cons]
    by_cases hx : a = x
    · subst hx
      rw [List.filterMap_cons]
      simp only [hpa, Option.map_some, List.lookup_cons, beq_self_eq_true]
    · rw [beq_false_of_ne hx]
      rw [List.filterMap_cons]
      cases hpx : p x with
      | none => simp only [Option.map_none]; exact ih
      | some c' =>
        simp only [Option.map_some, List.lookup_cons]
        have : c ≠ c' := by rintro rfl; exact hx (hp x hpx).symm
        rw [beq_false_of_ne this]
        exact ih

theorem filter_key_eq [DecidableEq α] [BEq α] [LawfulBEq α] (l : List (α × β)) (h : (l.map (·.1)).Nodup) (k : α) :
    l.filter (fun q => decide (q.1 = k)) = (l.lookup k).toList.map fun v => (k, v) := by
  induction l with
  | nil => rfl
  | cons r l ih =>
    obtain ⟨x, v⟩ := r
    rw [List.map_cons, List.nodup_cons] at h
    rw [List.lookup_cons, List.filter_cons]
    by_cases hx : x = k
    · subst hx
      have : l.filter (fun q => decide (q.1 = x)) = [] := by
        rw [List.filter_eq_nil_iff]
        intro q hq hqx
        rw [decide_eq_true_eq] at hqx
        exact h.1 (List.mem_map.2 ⟨q, hq, hqx⟩)
      simp [this]
    · rw [if_neg (by simpa using hx), beq_false_of_ne (fun e => hx e.symm)]
      exact ih h.2

theorem nodup_rekey (p : α → Option γ) (hp : ∀ a a' c, p a = some c → p a' = some c → a = a')
    (l : List (α × β)) (h : (l.map (·.1)).Nodup) :
    ((l.filterMap fun r => (p r.1).map fun c => (c, r.2)).map (·.1)).Nodup := by
  have : (l.filterMap fun r => (p r.1).map fun c => (c, r.2)).map (·.1) = (l.map (·.1)).filterMap p := by
    rw [List.map_filterMap, List.filterMap_map]
    apply List.filterMap_congr
    intro r _
    cases hpr : p r.1 <;> simp [hpr]
  rw [this]
  exact h.filterMap (fun a a' b hb hb' => hp a a' b hb hb')

theorem flatMap_guard (g : α → β) (p : β → Bool) (f : α → List β) (l : List α)
    (h : ∀ a, f a = if p (g a) then [g a] else []) : l.flatMap f = (l.map g).filter p := by
  induction l with
  | nil => rfl
  | cons a l ih =>
    rw [List.flatMap_cons, List.map_cons, List.filter_cons, h, ih]
    split <;> rfl

theorem dedup_filter' [DecidableEq α] (p : α → Bool) (l : List α) : (l.filter p).dedup = l.dedup.filter p := by
  induction l with
  | nil => rfl
  | cons a l ih =>
    rw [List.filter_cons]
    by_cases hp : p a = true
    · rw [if_pos hp]
      by_cases ha : a ∈ l
      · rw [List.dedup_cons_of_mem ha, List.dedup_cons_of_mem (List.mem_filter.2 ⟨ha, hp⟩), ih]
      · rw [List.dedup_cons_of_notMem ha, List.dedup_cons_of_notMem (fun h => ha (List.mem_filter.1 h).1), ih,
          List.filter_cons, if_pos hp]
    · rw [if_neg hp]
      by_cases ha : a ∈ l
      · rw [List.dedup_cons_of_mem ha, ih]
      · rw [List.dedup_cons_of_notMem ha, ih, List.filter_cons, if_neg hp]

end

section
variable {S D G K : Type} [DecidableEq S] [DecidableEq D] [DecidableEq G] [Field K] [LinearOrder K]

theorem baseRows_eq (b : D) (t : DTab S D K) :
    baseRows b t = t.filterMap fun r => ((fun k : S × D => if k.2 = b then some k.1 else none) r.1).map fun c => (c, r.2) := by
  unfold baseRows
  apply List.filterMap_congr
  intro r _
  by_cases h : r.1.2 = b <;> simp [h]

theorem baseRows_lookup (b : D) (t : DTab S D K) (s : S) : (baseRows b t).lookup s = t.lookup (s, b) := by
  rw [baseRows_eq]
  apply lookup_rekey (fun k : S × D => if k.2 = b then some k.1 else none)
  · simp
  · rintro ⟨s', d⟩ h
    by_cases hd : d = b <;> simp_all

theorem baseRows_filter (b : D) (t : DTab S D K) (h : (t.map (·.1)).Nodup) (s : S) :
    (baseRows b t).filter (fun q => decide (q.1 = s)) = (t.lookup (s, b)).toList.map fun v => (s, v) := by
  rw [filter_key_eq, baseRows_lookup]
  rw [baseRows_eq]
  apply nodup_rekey (fun k : S × D => if k.2 = b then some k.1 else none) _ _ h
  rintro ⟨s, d⟩ ⟨s', d'⟩ c h1 h2
  by_cases hd : d = b <;> by_cases hd' : d' = b <;> simp_all

theorem mhBase_eq (b : D) (t : MHTab S D G K) :
    mhBase b t = t.filterMap fun r =>
      ((fun k : S × D × G => if k.2.1 = b then some (k.1, k.2.2) else none) r.1).map fun c => (c, r.2) := by
  unfold mhBase
  apply List.filterMap_congr
  intro r _
  by_cases h : r.1.2.1 = b <;> simp [h]

theorem mhBase_lookup (b : D) (t : MHTab S D G K) (s : S) (g : G) :
    (mhBase b t).lookup (s, g) = t.lookup (s, b, g) := by
  rw [mhBase_eq]
  apply lookup_rekey (fun k : S × D × G => if k.2.1 = b then some (k.1, k.2.2) else none)
  · simp
  · rintro ⟨s', d, g'⟩ h
    by_cases hd : d = b <;> simp_all

theorem mhBase_filter (b : D) (t : MHTab S D G K) (h : (t.map (·.1)).Nodup) (s : S) (g : G) :
    (mhBase b t).filter (fun q => decide (q.1 = (s, g))) = (t.lookup (s, b, g)).toList.map fun v => ((s, g), v) := by
  rw [filter_key_eq, mhBase_lookup]
  rw [mhBase_eq]
  apply nodup_rekey (fun k : S × D × G => if k.2.1 = b then some (k.1, k.2.2) else none) _ _ h
  rintro ⟨s, d, g⟩ ⟨s', d', g'⟩ c h1 h2
  rw [← h2] at h1
  by_cases hd : d = b <;> by_cases hd' : d' = b <;> simp_all

theorem mhLeftJoin_eq (b : D) (t : MHTab S D G K) (h : (t.map (·.1)).Nodup) : mhLeftJoin b t = mhJoin b t := by
  unfold mhLeftJoin mhJoin
  rw [← List.flatMap_singleton' (l := t.map _)]
  rw [List.flatMap_map]
  congr 1
  funext r
  simp only
  rw [mhBase_filter b t h, mhBase_lookup]
  cases t.lookup (r.1.1, b, r.1.2.2) <;> simp

end

end Verif
