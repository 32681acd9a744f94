import Verif.Model.Fingerprint

/-!
# Drawing the tree: `to_dot`

Models /repo/metrics.py:905-952. An object has an address (`id(m)`); an object that occurs at several places of the tree occurs there with
one address. The text of the drawing is not modelled: what pydot is given is (nodes with labels, edges, strict or not).
-/

namespace Verif

/-- What a tree of metrics consists of: metrics, and other operands of an arithmetic (numbers). `name` is `m.name`, `wheres` the
conditions `m.where_` (`None` is the empty list), `text` is `str(m)`. -/
inductive DObj where
  | other (addr : ℕ) (text : String)
  | metric (addr : ℕ) (name : String) (wheres : List String) (children : List DObj)

/-- `id(m)`. -/
def DObj.addr : DObj → ℕ
  | .other a _ => a
  | .metric a _ _ _ => a

/-- `m.children` for a metric; others have none. -/
def DObj.children : DObj → List DObj
  | .other _ _ => []
  | .metric _ _ _ cs => cs

/-- The label (/repo/metrics.py:930-932). -/
def DObj.label : DObj → String
  | .other _ t => t
  | .metric _ n ws _ =>
      match Fp.whereText ws with
      | some w => if w = "" then n else n ++ " where " ++ w
      | none => n

theorem DObj.sizeOf_children_sum (o : DObj) : (o.children.map sizeOf).sum < sizeOf o := by
  have h : ∀ cs : List DObj, (cs.map sizeOf).sum < sizeOf cs := by
    intro cs
    induction cs with
    | nil => simp
    | cons m ms ih => simp; omega
  cases o with
  | other a t => simp [DObj.children]
  | metric a n ws cs => have := h cs; simp [DObj.children]; omega

theorem DObj.sizeOf_lt_of_child {o c : DObj} (h : c ∈ o.children) : sizeOf c < sizeOf o := by
  have key : ∀ cs : List DObj, c ∈ cs → sizeOf c ≤ (cs.map sizeOf).sum := by
    intro cs
    induction cs with
    | nil => simp
    | cons d ds ih =>
      intro h
      rcases List.mem_cons.1 h with rfl | h
      · simp
      · have := ih h; simp; omega
  exact lt_of_le_of_lt (key _ h) o.sizeOf_children_sum

/-- `traverse(include_constants=True)` on a queue (/repo/metrics.py:944-952). -/
def walk : List DObj → List DObj
  | [] => []
  | o :: q => o :: walk (q ++ o.children)
termination_by q => (q.map sizeOf).sum
decreasing_by
  have := o.sizeOf_children_sum
  simp only [List.map_append, List.sum_append, List.map_cons, List.sum_cons]
  omega

/-- The nodes added to the drawing, in their order (/repo/metrics.py:929-933). -/
def DObj.dotNodes (o : DObj) : List (ℕ × String) := (walk [o]).map fun m => (m.addr, m.label)

mutual

/-- `add_edges` (/repo/metrics.py:935-939). -/
def DObj.dotEdges : DObj → List (ℕ × ℕ)
  | .other _ _ => []
  | .metric a _ _ cs => DObj.dotEdgesAll a cs

/-- The loop of `add_edges`. -/
def DObj.dotEdgesAll (a : ℕ) : List DObj → List (ℕ × ℕ)
  | [] => []
  | c :: cs => (a, c.addr) :: (c.dotEdges ++ DObj.dotEdgesAll a cs)

end

/-- Two edges of an undirected graph that join the same two nodes. -/
def sameEdge (e f : ℕ × ℕ) : Prop := e = f ∨ e = (f.2, f.1)

instance (e f : ℕ × ℕ) : Decidable (sameEdge e f) := by unfold sameEdge; infer_instance

/-- What a strict graph keeps of the edges: the first of those that join the same two nodes (`strict=strict`, :928). -/
def strictEdges : List (ℕ × ℕ) → List (ℕ × ℕ)
  | [] => []
  | e :: es => e :: (strictEdges es).filter fun f => ¬ sameEdge e f

/-- The edges one sees (/repo/metrics.py:916-942). -/
def DObj.drawn (strict : Bool) (o : DObj) : List (ℕ × ℕ) := if strict then strictEdges o.dotEdges else o.dotEdges

end Verif
