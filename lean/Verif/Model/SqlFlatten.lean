import Mathlib.Data.List.Perm.Basic

/-!
# Flattening of a query over a query

`Sql.__init__`, /repo/sql.py:700-737, printed by /repo/sql.py:768-789. `R` is the type of rows and `C`
that of columns. Not modelled: WITH clauses (C24) and the alias of the inner query.
-/

namespace Verif

mutual
/-- A query object: columns, filters, GROUP BY, ORDER BY and FROM. A filter is the condition it stands for. -/
inductive SqlQ (R C : Type) where
  | mk (cols : List C) (cond : List (R → Bool)) (grp ord : List C) (src : Src R C)
/-- What a query reads: a table or a query object. -/
inductive Src (R C : Type) where
  | table (rows : List R)
  | query (q : SqlQ R C)
end

variable {R C : Type}

def SqlQ.cols : SqlQ R C → List C | .mk c _ _ _ _ => c
def SqlQ.cond : SqlQ R C → List (R → Bool) | .mk _ w _ _ _ => w
def SqlQ.grp : SqlQ R C → List C | .mk _ _ g _ _ => g
def SqlQ.ord : SqlQ R C → List C | .mk _ _ _ o _ => o
def SqlQ.src : SqlQ R C → Src R C | .mk _ _ _ _ s => s

/-- `Sql(columns, from_data, where, groupby, orderby)` with the consolidation of /repo/sql.py:727-737. -/
def mkSql (cols : List C) (cond : List (R → Bool)) (grp ord : List C) (src : Src R C) : SqlQ R C :=
  match src with
  | .table _ => .mk cols cond grp ord src
  | .query q =>
      if cols.isEmpty then .mk q.cols (q.cond ++ cond) q.grp q.ord q.src
      else if q.cols.isEmpty then .mk cols (q.cond ++ cond) grp ord q.src
      else .mk cols cond grp ord src

end Verif
