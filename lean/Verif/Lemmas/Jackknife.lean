import Verif.Spec.Jackknife
import Verif.Lemmas.Adjust

/-!
# Lemmas for C37 and C38
-/

namespace Verif

section
variable {α β : Type} [BEq α] [LawfulBEq α]

theorem lookup_mem_nodup (l : List (α × β)) (a : α) (b : β) (h : (l.map (·.1)).Nodup) (hm : (a, b) ∈ l) :
    l.lookup a = some b := by
  induction l with
  | nil => cases hm
  | cons r l ih =>
    obtain ⟨x, v⟩ := r
    rw [List.map_cons, List.nodup_cons] at h
    rw [List.lookup_cons]
    rcases List.mem_cons.1 hm with e | hm'
    · rw [Prod.mk.injEq] at e
      obtain ⟨rfl, rfl⟩ := e
      simp
    · have : a ≠ x := by rintro rfl; exact h.1 (List.mem_map.2 ⟨_, hm', rfl⟩)
      rw [beq_false_of_ne this]
      exact ih h.2 hm'

theorem mem_of_lookupL (l : List (α × β)) (a : α) (b : β) (h : l.lookup a = some b) : (a, b) ∈ l := by
  induction l with
  | nil => cases h
  | cons r l ih =>
    obtain ⟨x, v⟩ := r
    rw [List.lookup_cons] at h
    by_cases hx : a = x
    · subst hx
      simp at h
      rw [h]; exact List.mem_cons_self
    · rw [beq_false_of_ne hx] at h
      exact List.mem_cons_of_mem _ (ih h)

end

section
variable {ρ κ X M : Type} [DecidableEq κ]

theorem aggBy_lookup (key : ρ → κ) (f : List ρ → X) (rows : List ρ) (k : κ) [BEq κ] [LawfulBEq κ] :
    (aggBy key f rows).lookup k
      = if k ∈ rows.map key then some (f (rows.filter fun r => decide (key r = k))) else none := by
  unfold aggBy
  rw [lookup_keyed (fun k => f (rows.filter fun r => decide (key r = k)))]
  simp only [List.mem_dedup]

theorem mem_aggBy (key : ρ → κ) (f : List ρ → X) (rows : List ρ) (p : κ × X) :
    p ∈ aggBy key f rows ↔ p.1 ∈ rows.map key ∧ p.2 = f (rows.filter fun r => decide (key r = p.1)) := by
  obtain ⟨k, x⟩ := p
  unfold aggBy
  rw [List.mem_map]
  constructor
  · rintro ⟨k', hk', h⟩
    rw [Prod.mk.injEq] at h
    obtain ⟨rfl, rfl⟩ := h
    exact ⟨List.mem_dedup.1 hk', rfl⟩
  · rintro ⟨h1, h2⟩
    exact ⟨k, List.mem_dedup.2 h1, by dsimp only at h2; rw [h2]⟩

theorem aggBy_keys (key : ρ → κ) (f : List ρ → X) (rows : List ρ) :
    (aggBy key f rows).map (·.1) = (rows.map key).dedup := by
  unfold aggBy
  rw [List.map_map]
  exact List.map_id _

theorem aggBy_nodup (key : ρ → κ) (f : List ρ → X) (rows : List ρ) : ((aggBy key f rows).map (·.1)).Nodup := by
  rw [aggBy_keys]; exact List.nodup_dedup _

/-- Sums of group sums. -/
theorem sum_over_groups [AddCommMonoid M] (key : ρ → κ) (w : ρ → M) (ks : List κ) (h : ks.Nodup) (rows : List ρ) :
    (ks.map fun k => ((rows.filter fun r => decide (key r = k)).map w).sum).sum
      = ((rows.filter fun r => decide (key r ∈ ks)).map w).sum := by
  induction rows with
  | nil => simp
  | cons r rows ih =>
    have hstep : ∀ k, (((r :: rows).filter fun r => decide (key r = k)).map w).sum
        = (if key r = k then w r else 0) + ((rows.filter fun r => decide (key r = k)).map w).sum := by
      intro k
      by_cases hk : key r = k <;> simp [List.filter_cons, hk]
    have hone : (ks.map fun k => if key r = k then w r else 0).sum = if key r ∈ ks then w r else 0 := by
      clear ih hstep
      induction ks with
      | nil => simp
      | cons a ks ih =>
        rw [List.nodup_cons] at h
        rw [List.map_cons, List.sum_cons, ih h.2]
        by_cases ha : key r = a
        · have : key r ∉ ks := by rw [ha]; exact h.1
          simp [ha, this, h.1]
        · simp [ha]
    have hadd : ∀ (f g : κ → M), (ks.map fun k => f k + g k).sum = (ks.map f).sum + (ks.map g).sum := by
      intro f g
      clear ih hone hstep h
      induction ks with
      | nil => simp
      | cons a ks ih => simp only [List.map_cons, List.sum_cons, ih]; rw [add_add_add_comm]
    simp only [hstep]
    rw [hadd, hone, ih]
    by_cases hr : key r ∈ ks <;> simp [List.filter_cons, hr]

/-- The total of the groups chosen by `p`. -/
theorem sum_aggBy [AddCommMonoid M] (key : ρ → κ) (w : ρ → M) (f : List ρ → M) (hf : ∀ rs, f rs = (rs.map w).sum)
    (rows : List ρ) (p : κ → Bool) :
    (((aggBy key f rows).filter fun b => p b.1).map (·.2)).sum = ((rows.filter fun r => p (key r)).map w).sum := by
  have h1 : ((aggBy key f rows).filter fun b => p b.1).map (·.2)
      = ((rows.map key).dedup.filter p).map fun k => ((rows.filter fun r => decide (key r = k)).map w).sum := by
    unfold aggBy
    rw [List.filter_map, List.map_map]
    apply List.map_congr_left
    intro k _
    exact hf _
  rw [h1, sum_over_groups key w _ ((List.nodup_dedup _).filter _)]
  congr 2
  apply List.filter_congr
  intro r hr
  rw [Bool.eq_iff_iff, decide_eq_true_eq, List.mem_filter, List.mem_dedup]
  exact ⟨fun h => h.2, fun h => ⟨List.mem_map.2 ⟨r, hr, rfl⟩, h⟩⟩

theorem sum_filter_split [AddCommMonoid M] (w : ρ → M) (p : ρ → Bool) (l : List ρ) :
    (l.map w).sum = ((l.filter p).map w).sum + ((l.filter fun a => !p a).map w).sum := by
  induction l with
  | nil => simp
  | cons a l ih =>
    by_cases h : p a = true
    · simp [h, ih, add_assoc]
    · simp [h, ih, add_left_comm]

end

section
variable {S U O C F K : Type} [DecidableEq S] [DecidableEq U] [DecidableEq O] [Field K]

theorem JLeaf.py_eq (L : JLeaf C F) (rows : List (JRow S U O C F K)) : L.py rows = (rows.map L.adds).sum := by
  unfold JLeaf.py
  induction rows with
  | nil => simp
  | cons r rows ih =>
    rw [List.map_cons, List.sum_cons, ← ih]
    unfold JLeaf.adds
    cases hL : L.isCount <;> cases hc : r.col L.col <;> simp [hc, add_comm]

theorem JLeaf.sql_isNone (L : JLeaf C F) (rows : List (JRow S U O C F K)) :
    L.sql rows = none ↔ L.isCount = false ∧ ∀ r ∈ rows, r.pass L.flt = true → r.col L.col = none := by
  unfold JLeaf.sql
  cases hL : L.isCount
  · simp only [Bool.false_eq_true, if_false, true_and]
    rw [ite_eq_left_iff]
    simp only [reduceCtorEq, imp_false, not_not, List.isEmpty_iff,
      List.filterMap_eq_nil_iff, JLeaf.rows, List.mem_filter]
    exact ⟨fun h r hr hp => h r ⟨hr, hp⟩, fun h r hr => h r hr.1 hr.2⟩
  · simp

theorem JLeaf.sql_getD (L : JLeaf C F) (rows : List (JRow S U O C F K)) :
    (L.sql rows).getD 0 = ((L.rows rows).map L.adds).sum := by
  rw [← JLeaf.py_eq]
  unfold JLeaf.sql JLeaf.py
  cases hL : L.isCount
  · simp only [Bool.false_eq_true, if_false]
    split
    · next h => rw [List.isEmpty_iff] at h; simp [h]
    · rfl
  · simp

end

end Verif
