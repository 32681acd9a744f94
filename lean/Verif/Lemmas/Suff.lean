import Verif.Spec.Regress
import Mathlib.Data.List.Nodup
import Mathlib.Data.List.NodupEquivFin
import Mathlib.Data.List.Range

namespace Verif

theorem mem_triu {n i j : ℕ} : (i, j) ∈ triu n ↔ i ≤ j ∧ j < n := by
  simp only [triu, List.mem_flatMap, List.mem_range, List.mem_map, Prod.mk.injEq]
  constructor
  · rintro ⟨a, ha, b, hb, rfl, rfl⟩; omega
  · rintro ⟨h, h'⟩; exact ⟨i, by omega, j - i, by omega, rfl, by omega⟩

theorem nodup_triu (n : ℕ) : (triu n).Nodup := by
  rw [triu, List.nodup_flatMap]
  refine ⟨fun i _ => (List.nodup_range).map fun a b h => ?_, ?_⟩
  · simp only [Prod.mk.injEq, true_and] at h; omega
  · refine (List.nodup_range (n := n)).imp ?_
    intro a b hab
    simp only [Function.onFun, List.disjoint_left, List.mem_map, not_exists, not_and, forall_exists_index, and_imp]
    rintro x c _ rfl d _ h
    simp only [Prod.mk.injEq] at h
    exact hab h.1.symm

theorem range_filter_ge (n i : ℕ) : (List.range n).filter (fun j => decide (i ≤ j)) = (List.range (n - i)).map (i + ·) := by
  induction n with
  | zero => simp
  | succ n ih =>
    rw [List.range_succ, List.filter_append, ih]
    by_cases h : i ≤ n
    · have : n + 1 - i = (n - i) + 1 := by omega
      rw [this, List.range_succ, List.map_append]
      simp [h]
    · have e1 : n - i = 0 := by omega
      have e2 : n + 1 - i = 0 := by omega
      simp [h, e1, e2]

theorem triu_map {K : Type} (n : ℕ) (f : ℕ → ℕ → K) : (triu n).map (fun p => f p.1 p.2) = upperTriangle n f := by
  simp [triu, upperTriangle, List.map_flatMap, range_filter_ge, Function.comp_def]

theorem length_triu_aux (n m : ℕ) (h : m ≤ n) :
    2 * ((List.range m).flatMap fun i => (List.range (n - i)).map fun j => (i, i + j)).length + (n - m) * (n - m + 1)
      = n * (n + 1) := by
  induction m with
  | zero => simp
  | succ m ih =>
    have := ih (by omega)
    rw [List.range_succ, List.flatMap_append, List.length_append]
    simp only [List.flatMap_cons, List.flatMap_nil, List.append_nil, List.length_map, List.length_range]
    obtain ⟨d, rfl⟩ : ∃ d, n = m + 1 + d := ⟨n - (m + 1), by omega⟩
    have e1 : m + 1 + d - m = d + 1 := by omega
    have e2 : m + 1 + d - (m + 1) = d := by omega
    rw [e1] at this ⊢
    rw [e2]
    nlinarith

theorem length_triu (n : ℕ) : 2 * (triu n).length = n * (n + 1) := by
  simpa [triu] using length_triu_aux n n le_rfl

theorem sqrt_triangular {n m : ℕ} (h : n * (n + 1) = m) : Nat.sqrt m = n := by
  subst h
  rw [Nat.mul_add, Nat.mul_one]
  exact Nat.sqrt_add_eq n (by omega)

section
variable {K : Type} [Ring K]

theorem assignAll_not_mem (M : ℕ → ℕ → K) : ∀ (l : List ((ℕ × ℕ) × K)) (i j : ℕ), (i, j) ∉ l.map (·.1) →
    assignAll M l i j = M i j := by
  intro l
  induction l generalizing M with
  | nil => intros; rfl
  | cons a l ih =>
    obtain ⟨p, v⟩ := a
    intro i j h
    simp only [List.map_cons, List.mem_cons, not_or] at h
    rw [assignAll, ih _ _ _ h.2]
    simp [h.1]

theorem assignAll_mem (M : ℕ → ℕ → K) : ∀ (l : List ((ℕ × ℕ) × K)) (i j : ℕ) (v : K), (l.map (·.1)).Nodup → ((i, j), v) ∈ l →
    assignAll M l i j = v := by
  intro l
  induction l generalizing M with
  | nil => intro i j v _ h; simp at h
  | cons a l ih =>
    obtain ⟨p, w⟩ := a
    intro i j v hn h
    rw [assignAll]
    simp only [List.map_cons, List.nodup_cons] at hn
    rcases List.mem_cons.1 h with h | h
    · simp only [Prod.mk.injEq] at h
      obtain ⟨rfl, rfl⟩ := h
      rw [assignAll_not_mem _ _ _ _ hn.1]
      simp
    · exact ih _ _ _ _ hn.2 h

/-- `symmetrize_triangular` on a list of the right length. -/
theorem symmetrize_triu (n : ℕ) (f : ℕ → ℕ → K) : ∃ M, symmetrize ((triu n).map fun p => f p.1 p.2) = some (n, M) ∧
    ∀ i j, i ≤ j → j < n → M i j = f i j ∧ M j i = f i j := by
  have hl : 2 * ((triu n).map fun p => f p.1 p.2).length = n * (n + 1) := by simpa using length_triu n
  have hs : Nat.sqrt (2 * ((triu n).map fun p => f p.1 p.2).length) = n := sqrt_triangular hl.symm
  refine ⟨_, by rw [symmetrize, hs]; simp only [hl]; rw [if_neg (by simp)], ?_⟩
  have hz : (triu n).zip ((triu n).map fun p => f p.1 p.2) = (triu n).map fun p => (p, f p.1 p.2) := by
    have := List.zip_map' (f := fun p : ℕ × ℕ => p) (g := fun p : ℕ × ℕ => f p.1 p.2) (l := triu n)
    simpa using this
  have hkeys : ((triu n).map fun p => (p, f p.1 p.2)).map (·.1) = triu n := by simp [Function.comp_def]
  intro i j hij hj
  rw [hz]
  have h1 : assignAll (fun _ _ => (0 : K)) ((triu n).map fun p => (p, f p.1 p.2)) i j = f i j := by
    refine assignAll_mem _ _ _ _ _ (by rw [hkeys]; exact nodup_triu n) ?_
    simp only [List.mem_map]
    exact ⟨(i, j), mem_triu.2 ⟨hij, hj⟩, rfl⟩
  by_cases he : i = j
  · subst he
    simp [h1]
  · have h2 : assignAll (fun _ _ => (0 : K)) ((triu n).map fun p => (p, f p.1 p.2)) j i = 0 := by
      refine assignAll_not_mem _ _ _ _ ?_
      rw [hkeys, mem_triu]; omega
    simp [h1, h2, he, Ne.symm he]

end

end Verif
