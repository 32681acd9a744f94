import Verif.Model.Metric

/-!
# Walking over a metric tree
-/

namespace Verif

/-- `metric.children` (numbers of arithmetic included). -/
def M.children : M → List M
  | .const _ => []
  | .leaf _ _ => []
  | .comp _ l r _ => [l, r]
  | .list ms _ => ms
  | .oper _ c _ => [c]

/-- Is it a number rather than a `Metric`? -/
def M.isConst : M → Bool
  | .const _ => true
  | _ => false

/-- Identity of a node: the child positions on the way from the root. (Python
objects that occur twice in one tree are visited once per occurrence.) -/
abbrev Path := List Nat

/-- The children of the node at `p`, with their identities. -/
def M.childrenAt (p : Path) (m : M) : List (Path × M) :=
  m.children.zipIdx.map (fun x => (p ++ [x.2], x.1))

theorem M.sizeOf_children (m : M) : (m.children.map sizeOf).sum < sizeOf m := by
  cases m with
  | const q => simp [M.children]
  | leaf k wh => simp [M.children]
  | comp op l r wh => simp [M.children]; omega
  | oper o c wh => simp [M.children]; omega
  | list ms wh =>
    have : ∀ ms : List M, (ms.map sizeOf).sum < sizeOf ms := by
      intro ms
      induction ms with
      | nil => simp
      | cons m ms ih => simp; omega
    have := this ms
    simp [M.children]; omega

/-- Termination measure. -/
noncomputable def queueSize (q : List (Path × M)) : Nat := (q.map (fun x => sizeOf x.2)).sum

/-- `Metric.traverse` (/repo/metrics.py:944-952): take the first of the queue, append
its children to the queue, yield it (numbers only with `include_constants`). -/
def bfs (consts : Bool) : List (Path × M) → List (Path × M)
  | [] => []
  | (p, m) :: q =>
      if m.isConst && !consts then bfs consts (q ++ m.childrenAt p)
      else (p, m) :: bfs consts (q ++ m.childrenAt p)
termination_by q => queueSize q
decreasing_by
  all_goals
    have h := m.sizeOf_children
    simp only [queueSize, M.childrenAt, List.map_append, List.sum_append, List.map_map,
      List.map_cons, List.sum_cons]
    have e : (List.map ((fun x : Path × M => sizeOf x.2) ∘ fun x : M × Nat => (p ++ [x.2], x.1))
        m.children.zipIdx) = m.children.map sizeOf := by
      rw [show ((fun x : Path × M => sizeOf x.2) ∘ fun x : M × Nat => (p ++ [x.2], x.1))
        = sizeOf ∘ Prod.fst from rfl, ← List.map_map, List.zipIdx_map_fst]
    rw [e]
    omega

/-- `metric.traverse(include_constants=consts)`. -/
def M.traverse (m : M) (consts : Bool) : List (Path × M) := bfs consts [([], m)]

/-- `get_leaf_metrics` (/repo/utils.py:205-210). -/
def M.leafMetrics (m : M) (consts : Bool) : List (Path × M) :=
  (m.traverse consts).filter (fun x => x.2.children.isEmpty)

end Verif
