import Verif.Lemmas.Traverse

/-!
# C44: tree traversal
-/

namespace Verif

/-- **C44** `traverse` yields exactly the nodes of the tree (numbers only if asked). -/
theorem C44_traverse_complete (root : M) (consts : Bool) (p : Path) (m : M) :
    (p, m) ∈ root.traverse consts ↔ IsNode root p m ∧ (m.isConst = true → consts = true) := by
  unfold M.traverse
  rw [mem_bfs]
  simp only [List.mem_singleton, exists_eq_left, List.nil_append]
  constructor
  · rintro ⟨h1, p', h2, rfl⟩; exact ⟨h2, h1⟩
  · rintro ⟨h1, h2⟩; exact ⟨h2, p, h1, rfl⟩

/-- **C44** Every node is yielded once. -/
theorem C44_traverse_once (root : M) (consts : Bool) :
    ((root.traverse consts).map Prod.fst).Nodup :=
  bfs_nodup consts _ (List.pairwise_singleton _ _)

/-- **C44** Parents come before their children. -/
theorem C44_parent_before_child (root : M) (consts : Bool) (a b : List (Path × M)) (p : Path)
    (i : Nat) (c : M) (h : root.traverse consts = a ++ (p ++ [i], c) :: b) :
    ∃ m, (p, m) ∈ a := by
  rcases bfs_parent_first consts _ a b p i c h with ⟨x, hx, e⟩ | h
  · simp only [List.mem_singleton] at hx
    subst hx
    simp at e
  · exact h

/-- **C44** `get_leaf_metrics` yields exactly the nodes without children. -/
theorem C44_leaves (root : M) (consts : Bool) (p : Path) (m : M) :
    (p, m) ∈ root.leafMetrics consts ↔
      IsNode root p m ∧ m.children = [] ∧ (m.isConst = true → consts = true) := by
  unfold M.leafMetrics
  rw [List.mem_filter, C44_traverse_complete, List.isEmpty_iff]
  tauto

/-! ### Concrete case -/

example : (M.comp .mul (.const 2) (.list [.leaf (.sum "x") [], .leaf (.count "x") []] []) []).traverse
    false = [([], .comp .mul (.const 2) (.list [.leaf (.sum "x") [], .leaf (.count "x") []] []) []),
      ([1], .list [.leaf (.sum "x") [], .leaf (.count "x") []] []),
      ([1, 0], .leaf (.sum "x") []), ([1, 1], .leaf (.count "x") [])] := by
  simp [M.traverse, bfs, M.isConst, M.childrenAt, M.children]

end Verif
