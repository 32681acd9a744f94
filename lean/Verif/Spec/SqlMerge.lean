import Verif.Model.SqlWith

/-!
# Specification for C27

What a query returns: one row per group; the groups depend on FROM, WHERE, GROUP BY and WITH only (`Qry.key`);
the value of a column in a group depends on its expression and these only. Everything else about the
database is a parameter.
-/

namespace Verif

/-- A database, for queries without DISTINCT. -/
structure Db2 (G V : Type) where
  groups : Txt → List G
  value : Txt → Txt → G → V

variable {G V : Type}

/-- The row for one group: name and value of each column. -/
def Qry.row (db : Db2 G V) (q : Qry) (g : G) : List (Option (Option Txt) × V) :=
  q.cols.map fun c => (c.alias, db.value q.key c.expr g)

/-- The rows returned (before ORDER BY). -/
def Qry.rows (db : Db2 G V) (q : Qry) : List (List (Option (Option Txt) × V)) := (db.groups q.key).map (q.row db)

end Verif
