import Verif.Model.Build

/-!
# Specification for C79: the metric that a variable stands for

A metric is a tree. A reference stands for the tree that is found by following the references.
-/

namespace Verif

/-- Metrics as values. -/
inductive MT where
  | node (i : Info) (children : List MT)
  | num (q : ℤ)

mutual
/-- The object at `r` stands for this tree. -/
inductive HasTree (h : Heap) : ℕ → MT → Prop
  | mk {r : ℕ} {o : MObj} {ts : List MT} : h[r]? = some o → HasTrees h o.children ts → HasTree h r (.node o.info ts)
/-- These children stand for these trees. -/
inductive HasTrees (h : Heap) : List Slot → List MT → Prop
  | nil : HasTrees h [] []
  | num {q cs ts} : HasTrees h cs ts → HasTrees h (.num q :: cs) (.num q :: ts)
  | ref {r cs t ts} : HasTree h r t → HasTrees h cs ts → HasTrees h (.ref r :: cs) (t :: ts)
end

mutual
/-- Every operation in the tree has a child: the metric can be computed. -/
def MT.complete : MT → Prop
  | .node i ts => (i.isOp = true → ts ≠ []) ∧ allComplete ts
  | .num _ => True
/-- All of them. -/
def allComplete : List MT → Prop
  | [] => True
  | t :: ts => t.complete ∧ allComplete ts
end

/-- The name of a metric. -/
def MT.name : MT → String
  | .node i _ => i.name
  | .num q => toString q

/-- The metric with these conditions added to its filter. -/
def MT.filtered (acc : List String) : MT → MT
  | .num q => .num q
  | .node i ts => .node { i with wh := if acc = [] then i.wh else Verif.addWhere i.wh acc } ts

mutual
/-- Filters moved to the leaves, with `acc` from above. -/
def MT.pushed (acc : List String) : MT → MT
  | .num q => .num q
  | .node i [] => .node { i with wh := if acc = [] then i.wh else Verif.addWhere i.wh acc } []
  | .node i (t :: ts) => .node { i with wh := [] } (pushedAll (if acc = [] then i.wh else Verif.addWhere i.wh acc) (t :: ts))
/-- All children. -/
def pushedAll (acc : List String) : List MT → List MT
  | [] => []
  | t :: ts => t.pushed acc :: pushedAll acc ts
end

/-- The objects that make up a metric. -/
inductive Within (h : Heap) : ℕ → ℕ → Prop
  | here (r : ℕ) : Within h r r
  | child {r c s : ℕ} {o : MObj} : h[r]? = some o → .ref c ∈ o.children → Within h c s → Within h r s

/-- The step changes no object of an earlier metric by itself. -/
def Cmd.pure : Cmd → Prop
  | .addWhere _ _ | .rename _ _ => False
  | _ => True

/-- The variable stands for this metric. -/
def World.Metric (w : World) (v : ℕ) (t : MT) : Prop := ∃ r, w.vars[v]? = some r ∧ HasTree w.heap r t

/-- No step of the history changes an object of the metric `v` by itself. -/
def Untouched (n v : ℕ) : World → List Cmd → Prop
  | _, [] => True
  | w, c :: cs =>
    (∀ m conds name, c = .addWhere m conds ∨ c = .rename m name →
      ∀ rm rv, w.vars[m]? = some rm → w.vars[v]? = some rv → ¬ Within w.heap rv rm) ∧
    ∀ w', step n w c = some w' → Untouched n v w' cs

end Verif
