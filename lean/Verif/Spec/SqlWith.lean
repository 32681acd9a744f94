import Verif.Model.SqlWith

/-!
# Specification for C24
-/

namespace Verif

/-- The query `q1` answers everything the query `q` asks: same data, filter and groups, both or neither
select DISTINCT, and every expression of `q` is selected. -/
def Qry.Answers (q1 q : Qry) : Prop :=
  q1.key = q.key ∧ q1.distinct = q.distinct ∧ ∀ c ∈ q.cols, c.expr ∈ q1.cols.map SCol.expr

/-- The stored table `t'` can be read in place of `t`: the same text, or a query that answers it. -/
def WTbl.Serves (t' t : WTbl) : Prop :=
  match t with
  | .raw x => t' = .raw x
  | .sql q => ∃ q1, t' = .sql q1 ∧ q1.Answers q

/-- A table before and after: unchanged, or a query that got further columns at the end. -/
def WTbl.Extends (t t' : WTbl) : Prop :=
  t' = t ∨ ∃ q q', t = .sql q ∧ t' = .sql q' ∧ q'.key = q.key ∧ q'.order = q.order ∧
    q'.distinct = q.distinct ∧ q.cols <+: q'.cols

/-- One request to the WITH clause. -/
inductive WOp where
  | add (al : Txt) (t : WTbl)
  | merge (al : Txt) (q : Qry)

/-- The table requested. -/
def WOp.table : WOp → WTbl
  | .add _ t => t
  | .merge _ q => .sql q

/-- Carrying out one request. -/
def WOp.run (w : With) : WOp → Option (With × Txt)
  | .add al t => addOne w al t
  | .merge al q => mergeTable w al q

/-- A sequence of requests: the WITH clause afterwards and the names returned. -/
def runOps : With → List WOp → Option (With × List Txt)
  | w, [] => some (w, [])
  | w, op :: ops =>
      match op.run w with
      | none => none
      | some (w1, n) =>
          match runOps w1 ops with
          | none => none
          | some (w2, ns) => some (w2, n :: ns)

/-- Names are unique. -/
def With.namesOk (w : With) : Prop := (w.map Prod.fst).Nodup

end Verif
