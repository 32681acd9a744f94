import Verif.Spec.SqlFlatten

/-!
# C26 Query flattening preserves the result
-/

namespace Verif
variable {R C : Type}

theorem qholds_append (a b : List (R → Bool)) (r : R) : qholds (a ++ b) r = (qholds a r && qholds b r) := by
  simp [qholds]

theorem filter_qholds_append (a b : List (R → Bool)) (rows : List R) :
    rows.filter (qholds (a ++ b)) = (rows.filter (qholds a)).filter (qholds b) := by
  rw [List.filter_filter]
  congr 1
  funext r
  rw [qholds_append, Bool.and_comm]

theorem filter_qholds_nil (rows : List R) : rows.filter (qholds []) = rows := by
  rw [List.filter_eq_self]
  intro r _
  rfl

/-- One level: the query object built over a query object. -/
theorem mkSql_run (db : Db R C) (cols : List C) (cond : List (R → Bool)) (grp ord : List C) (q : SqlQ R C)
    (h1 : cols = [] → grp = [] ∧ (cond = [] ∨ (q.cols = [] ∧ q.grp = [])))
    (h2 : cols ≠ [] → q.cols = [] → q.grp = []) :
    ((mkSql cols cond grp ord (.query q)).run db).Perm
      (db.sort ord (db.sel cols grp ((q.run db).filter (qholds cond)))) := by
  obtain ⟨icols, icond, igrp, iord, isrc⟩ := q
  simp only [SqlQ.cols, SqlQ.grp] at h1 h2
  unfold mkSql
  by_cases hc : cols = []
  · subst hc
    obtain ⟨rfl, h⟩ := h1 rfl
    simp only [List.isEmpty_nil, if_true, SqlQ.cols, SqlQ.cond, SqlQ.grp, SqlQ.ord, SqlQ.src, SqlQ.run]
    rw [db.sel_star]
    refine List.Perm.trans ?_ (db.sort_perm _ _).symm
    rcases h with rfl | ⟨rfl, rfl⟩
    · rw [List.append_nil, filter_qholds_nil]
    · rw [db.sel_star, db.sel_star, filter_qholds_append]
      refine (db.sort_perm _ _).trans ?_
      exact ((db.sort_perm _ _).symm.filter _)
  · have hce : cols.isEmpty = false := by cases cols <;> simp_all
    by_cases hi : icols = []
    · subst hi
      have hg := h2 hc rfl
      subst hg
      simp only [hce, Bool.false_eq_true, if_false, List.isEmpty_nil, if_true, SqlQ.cols, SqlQ.cond, SqlQ.src,
        SqlQ.run]
      refine (db.sort_perm _ _).trans (List.Perm.trans ?_ (db.sort_perm _ _).symm)
      apply db.sel_perm
      rw [db.sel_star, filter_qholds_append]
      exact ((db.sort_perm _ _).symm.filter _)
    · have hie : icols.isEmpty = false := by cases icols <;> simp_all
      simp only [hce, hie, Bool.false_eq_true, if_false, SqlQ.cols, SqlQ.run, Src.run]
      exact List.Perm.refl _

/-- **C26** For every query written as any number of nested SELECTs, under `Written.safe` at
each level, the flattened query object returns the rows the nested SELECTs ask for (as a bag of rows; only the
order may differ, since an inner ORDER BY is dropped and an outer one may be). For every database.
Missing: the cases excluded by `Written.safe`, in which it is false (next two theorems). -/
theorem C26_flatten_partial (db : Db R C) (q : Written R C) (h : q.safe) :
    (q.build.run db).Perm (q.rows db) := by
  induction q with
  | table rows => exact List.Perm.refl _
  | select cols cond grp ord src ih =>
    obtain ⟨hs, h⟩ := h
    have ih := ih hs
    rw [Written.build, Written.rows, Src.run]
    cases hb : src.build with
    | table rows =>
      rw [hb] at ih
      unfold mkSql
      rw [SqlQ.run]
      exact (db.sort_perm _ _).trans
        ((db.sel_perm _ _ _ _ (ih.filter _)).trans (db.sort_perm _ _).symm)
    | query q =>
      rw [hb] at ih h
      refine (mkSql_run db cols cond grp ord q h.1 h.2).trans ?_
      exact (db.sort_perm _ _).trans
        ((db.sel_perm _ _ _ _ (ih.filter _)).trans (db.sort_perm _ _).symm)

/-! ### Witnesses -/

/-- A database of rows with two numbers (group, value). Columns: the group, the sum and the number of rows. Not
all of SQL, but what it computes is what SQL computes: `sum ... GROUP BY group` and so on. -/
inductive DCol | group | sum | count
  deriving DecidableEq

/-- Groups in order of their number, below a bound. -/
def demoSel : List DCol → List DCol → List (Nat × Nat) → List (Nat × Nat)
  | [], [], rows => rows
  | [.sum], [.group], rows => (List.range 3).filterMap fun g =>
      if (rows.filter (·.1 == g)).isEmpty then none else some (g, ((rows.filter (·.1 == g)).map (·.2)).sum)
  | [], [.group], rows => (List.range 3).filterMap fun g =>
      if (rows.filter (·.1 == g)).isEmpty then none else some (g, 0)
  | [.count], [], rows => [(0, rows.length)]
  | _, _, _ => []

theorem demoSel_perm (cols grp : List DCol) (rows rows' : List (Nat × Nat)) (h : rows.Perm rows') :
    (demoSel cols grp rows).Perm (demoSel cols grp rows') := by
  have hs : ∀ g : Nat, ((rows.filter (·.1 == g)).map (·.2)).sum = ((rows'.filter (·.1 == g)).map (·.2)).sum :=
    fun g => ((h.filter _).map _).sum_nat
  have he : ∀ g : Nat, (rows.filter (·.1 == g)).isEmpty = (rows'.filter (·.1 == g)).isEmpty := fun g => by
    have := (h.filter (·.1 == g)).length_eq
    cases h1 : rows.filter (·.1 == g) <;> cases h2 : rows'.filter (·.1 == g) <;> simp_all
  unfold demoSel
  split
  · exact h
  · simp only [hs, he]; exact List.Perm.refl _
  · simp only [he]; exact List.Perm.refl _
  · rw [h.length_eq]
  · exact List.Perm.refl _

def demoDb : Db (Nat × Nat) DCol where
  sel := demoSel
  sort _ rows := rows
  sel_star _ := rfl
  sel_perm := demoSel_perm
  sort_perm _ _ := List.Perm.refl _

/-- **C26** (violated) `SELECT * FROM (SELECT group, sum(value) AS value FROM t GROUP BY group) WHERE value > 5`
is flattened to a query that filters the rows before they are added up: instead of the group with sum 6 nothing is
returned. -/
theorem C26_filter_violation :
    let q : Written (Nat × Nat) DCol := .select [] [fun r => decide (5 < r.2)] [] []
      (.select [.sum] [] [.group] [] (.table [(1, 3), (1, 3), (2, 4)]))
    q.rows demoDb = [(1, 6)] ∧ q.build.run demoDb = [] := by
  decide

/-- **C26** (violated) `SELECT COUNT(*) FROM (SELECT group FROM t GROUP BY group)` is flattened to a count of
all rows: 3 instead of 2 groups. -/
theorem C26_groupby_violation :
    let q : Written (Nat × Nat) DCol := .select [.count] [] [] []
      (.select [] [] [.group] [] (.table [(1, 3), (1, 3), (2, 4)]))
    q.rows demoDb = [(0, 2)] ∧ q.build.run demoDb = [(0, 3)] := by
  decide

/-- The hypothesis is met by a query as meterstick builds it (a filter below an aggregation), and
flattening does something. -/
example :
    let q : Written (Nat × Nat) DCol := .select [.sum] [fun r => decide (r.1 < 2)] [.group]
      [] (.select [] [fun r => decide (3 < r.2)] [] [] (.select [] [] [] [] (.table [(1, 3), (1, 4), (2, 4)])))
    q.safe ∧ q.rows demoDb = [(1, 4)] ∧ q.build.run demoDb = [(1, 4)] := by
  refine ⟨⟨⟨⟨trivial, trivial⟩, ?_, ?_⟩, ?_, ?_⟩, by decide, by decide⟩ <;> intros <;>
    simp_all [Written.build, mkSql, SqlQ.cols, SqlQ.grp]

end Verif
