import Verif.Model.SqlFlatten

/-!
# Specification for C26

What queries return. The database's way to compute columns is a parameter: `sel cols grp rows` are the rows
that SELECT `cols` ... GROUP BY `grp` makes of the filtered rows, `sort ord rows` puts them in order.
-/

namespace Verif
variable {R C : Type}

/-- A database: the only assumptions are that `SELECT *` without GROUP BY returns the rows, that the order of
the rows read has no influence on which rows are returned, and that ORDER BY only reorders. -/
structure Db (R C : Type) where
  sel : List C → List C → List R → List R
  sort : List C → List R → List R
  sel_star : ∀ rows, sel [] [] rows = rows
  sel_perm : ∀ cols grp rows rows', rows.Perm rows' → (sel cols grp rows).Perm (sel cols grp rows')
  sort_perm : ∀ ord rows, (sort ord rows).Perm rows

/-- The conditions hold of the row. -/
def qholds (cond : List (R → Bool)) (r : R) : Bool := cond.all (· r)

mutual
/-- The rows a query returns. -/
def SqlQ.run (db : Db R C) : SqlQ R C → List R
  | .mk cols cond grp ord src => db.sort ord (db.sel cols grp ((src.run db).filter (qholds cond)))
def Src.run (db : Db R C) : Src R C → List R
  | .table rows => rows
  | .query q => q.run db
end

/-- A query as it is written down: a table, or SELECT over another query. -/
inductive Written (R C : Type) where
  | table (rows : List R)
  | select (cols : List C) (cond : List (R → Bool)) (grp ord : List C) (src : Written R C)

/-- The rows asked for: the inner query is computed first. -/
def Written.rows (db : Db R C) : Written R C → List R
  | .table rows => rows
  | .select cols cond grp ord src => db.sort ord (db.sel cols grp ((src.rows db).filter (qholds cond)))

/-- The query object built for it, flattened level by level. -/
def Written.build : Written R C → Src R C
  | .table rows => .table rows
  | .select cols cond grp ord src => .query (mkSql cols cond grp ord src.build)

/-- Where flattening is right: a SELECT * over a query has no GROUP BY of its own, and no filter unless the
query inside is a SELECT * without GROUP BY; a query without columns inside another one has no
GROUP BY. -/
def Written.safe : Written R C → Prop
  | .table _ => True
  | .select cols cond grp _ src => src.safe ∧
      match src.build with
      | .table _ => True
      | .query q => (cols = [] → grp = [] ∧ (cond = [] ∨ (q.cols = [] ∧ q.grp = []))) ∧
          (cols ≠ [] → q.cols = [] → q.grp = [])

end Verif
