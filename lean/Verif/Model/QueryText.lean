import Verif.Model.SqlAlias
import Verif.Model.CondText

/-!
# The text of a query

`Sql`, `Columns`, `Datasource`, `Datasources` and `Join` as they are printed: /repo/sql.py:188-202, 241-311, 401-565,
568-578, 693-789. `none` as a text: printing raises. The consolidation in `Sql.__init__` is in `Verif.mkSql` (C26), the
renaming of tables of WITH clauses in C24; the objects here are what these leave.
-/

namespace Verif

/-- A piece of text, as characters. -/
@[irreducible] def qt (s : String) : Txt := s.toList

/-- Python's `sep.join(l)`. -/
def joinTxt (sep : Txt) : List Txt → Txt
  | [] => []
  | [a] => a
  | a :: b :: l => a ++ sep ++ joinTxt sep (b :: l)

/-- Python's `sub in text`. -/
def hasInfix (sub : Txt) : Txt → Bool
  | [] => sub.isEmpty
  | c :: cs => sub.isPrefixOf (c :: cs) || hasInfix sub cs

/-- `Datasource.is_table` (/repo/sql.py:503-507). Simplification: `strip` removes blanks, tabs and line breaks,
`upper` acts on ASCII letters. -/
def isTable (t : Txt) : Bool :=
  let u := t.map Char.toUpper
  !(qt "SELECT").isPrefixOf (u.dropWhile fun c => c = ' ' ∨ c = '\n' ∨ c = '\t') &&
    !hasInfix (qt "WITH ") u && !hasInfix (qt "WITH\n") u

/-- The JOINs that are accepted (/repo/sql.py:541-543). -/
inductive TJoin where
  | plain | inner | full | fullOuter | left | leftOuter | right | rightOuter | cross

/-- The text before the second table (/repo/sql.py:554). -/
def TJoin.text : TJoin → Txt
  | .plain => qt "JOIN"
  | .inner => qt "INNER JOIN"
  | .full => qt "FULL JOIN"
  | .fullOuter => qt "FULL OUTER JOIN"
  | .left => qt "LEFT JOIN"
  | .leftOuter => qt "LEFT OUTER JOIN"
  | .right => qt "RIGHT JOIN"
  | .rightOuter => qt "RIGHT OUTER JOIN"
  | .cross => qt "CROSS JOIN"

mutual
/-- A query object (/repo/sql.py:693-737): WITH, GROUP BY, the other columns, whether they are distinct, FROM, the
conditions, ORDER BY. -/
inductive TSql where
  | mk (withs : TWith) (grp cols : List SCol) (distinct : Bool) (src : TSrc) (wh : List Txt) (ord : List SCol)
/-- A data source (/repo/sql.py:491-565): a text, a query, or a join, which can have conditions or columns to join on. -/
inductive TSrc where
  | text (t : Txt) (al : Option Txt)
  | query (q : TSql) (al : Option Txt)
  | join (l : TSrc) (kind : TJoin) (r : TSrc) (on : List Txt) (using' : List Txt)
/-- The tables of a WITH clause (/repo/sql.py:568-578): names with query objects. -/
inductive TWith where
  | nil
  | cons (name : Txt) (q : TSql) (rest : TWith)
end

/-- `str(Column)` (/repo/sql.py:305-311). A column without a name has none given and none made
(`auto_alias=False`). -/
def printCol (c : SCol) : Option Txt :=
  match c.raw with
  | none => some c.expr
  | some _ =>
    match c.alias with
    | none => none
    | some none => some c.expr
    | some (some a) => if c.expr = a then some c.expr else some (c.expr ++ (qt " AS " ++ a))

/-- `Columns.as_groupby` (/repo/sql.py:489-490); a missing name raises. -/
def groupbyText (cols : List SCol) : Option Txt :=
  match cols.mapM (fun c => c.alias.join) with
  | none => none
  | some as => some (joinTxt (qt ", ") as)

/-- The items of SELECT (/repo/sql.py:476-482, 770-771). -/
def selectText (all : List SCol) : Option Txt :=
  if all.isEmpty then some (qt "*")
  else
    match all.mapM printCol with
    | none => none
    | some ts => some (joinTxt (qt ",\n") (ts.map (qt "  " ++ ·)))

/-- `str(Filters)` (/repo/sql.py:188-202); `le` is the order `sorted` uses. -/
def whereText (le : Txt → Txt → Bool) (wh : List Txt) : Txt := joinTxt (qt " AND ") ((wh.map filterText).mergeSort le)

/-- With the alias (/repo/sql.py:526-528). -/
def aliasedText (t : Txt) : Option Txt → Txt
  | none => t
  | some a => t ++ (qt " AS " ++ a)

/-- In parentheses unless it is a table (/repo/sql.py:527). -/
def tableText (t : Txt) : Txt := if isTable t then t else qt "(" ++ (t ++ qt ")")

/-- GROUP BY (/repo/sql.py:775-782). -/
def groupClause (distinct : Bool) (grp cols : List SCol) : Option Txt :=
  if distinct then
    if grp.isEmpty then
      match groupbyText cols with
      | none => none
      | some t => some (qt "\nGROUP BY " ++ t)
    else none
  else if grp.isEmpty then some []
  else
    match groupbyText grp with
    | none => none
    | some t => some (qt "\nGROUP BY " ++ t)

/-- ORDER BY (/repo/sql.py:783-784). -/
def orderClause (ord : List SCol) : Option Txt :=
  if ord.isEmpty then some []
  else
    match groupbyText ord with
    | none => none
    | some t => some (qt "\nORDER BY " ++ t)

/-- WHERE (/repo/sql.py:774). -/
def whereClause (le : Txt → Txt → Bool) (wh : List Txt) : Txt :=
  if wh.isEmpty then [] else qt "\nWHERE\n" ++ whereText le wh

/-- ON and USING (/repo/sql.py:556-560). -/
def joinCond (le : Txt → Txt → Bool) (on using' : List Txt) : Txt :=
  if on.isEmpty then
    if using'.isEmpty then [] else qt "\nUSING (" ++ (joinTxt (qt ", ") using' ++ qt ")")
  else qt "\nON " ++ whereText le on

/-- Is the source a join. -/
def TSrc.isJoin : TSrc → Bool
  | .join .. => true
  | _ => false

mutual
/-- `str(Sql)` (/repo/sql.py:768-789). `addColumns` renames a column that has the name of a GROUP BY column
(`all_columns`, :739-741). -/
def TSql.print (le : Txt → Txt → Bool) : TSql → Option Txt
  | .mk ws grp cols distinct src wh ord =>
    match ws.print le, addColumns grp cols, src.print le with
    | some w, some (all, cols'), some (isTab, f) =>
      match selectText all, groupClause distinct grp cols', orderClause ord with
      | some s, some g, some o =>
        some ((if w.isEmpty then [] else qt "WITH\n" ++ (joinTxt (qt ",\n") w ++ qt "\n")) ++ (qt "SELECT\n" ++ (s ++
          (qt "\nFROM" ++ ((if isTab then qt " " else qt "\n") ++ (f ++ (whereClause le wh ++ (g ++ o))))))))
      | _, _, _ => none
    | _, _, _ => none
/-- `str` of a data source (/repo/sql.py:526-528, 551-561), with `is_table` (:503-507), which for a join is about its own
text. The tables of a join are copies of the data sources: a join as a table of a join is in parentheses unless its text
looks like a table. -/
def TSrc.print (le : Txt → Txt → Bool) : TSrc → Option (Bool × Txt)
  | .text t al => some (isTable t, aliasedText (tableText t) al)
  | .query q al =>
    match q.print le with
    | none => none
    | some t => some (isTable t, aliasedText (tableText t) al)
  | .join l kind r on using' =>
    match l.print le, r.print le with
    | some (_, a), some (_, b) =>
      let a' := if l.isJoin then tableText a else a
      let b' := if r.isJoin then tableText b else b
      let t := if a' = b' then a' else a' ++ (qt "\n" ++ (kind.text ++ (qt "\n" ++ (b' ++ joinCond le on using'))))
      some (isTable t, t)
    | _, _ => none
/-- The tables of a WITH clause (/repo/sql.py:509-521, 693-694). A text that looks like a table raises. -/
def TWith.print (le : Txt → Txt → Bool) : TWith → Option (List Txt)
  | .nil => some []
  | .cons name q rest =>
    match q.print le, rest.print le with
    | some t, some r => if isTable t then none else some ((name ++ (qt " AS (" ++ (t ++ qt ")"))) :: r)
    | _, _ => none
end

/-! ## The expression of a column -/

/-- What a column is made of (/repo/sql.py:241-262): the pieces of `fn`, which has a text before the first `{}`, and then
for every `{}` or `{i}` the index and the text that follows; the arguments; the filters; and the window. Simplification:
of the columns to partition and order by only the expressions, which is all that is used (:289-294). -/
structure TCol where
  first : Txt
  holes : List (ℕ × Txt)
  args : List Txt
  filters : List Txt
  partition : Option (List Txt)
  order : Option (List Txt)
  frame : Option Txt

/-- An argument with the filters (/repo/sql.py:299-300). -/
def argText (le : Txt → Txt → Bool) (filters : List Txt) (c : Txt) : Txt :=
  if filters.isEmpty then c else qt "IF(" ++ (whereText le filters ++ (qt ", " ++ (c ++ qt ", NULL)")))

/-- `fn.format(*column)` (/repo/sql.py:301); an index that is too large raises. -/
def fillText (args : List Txt) : List (ℕ × Txt) → Option Txt
  | [] => some []
  | (i, l) :: hs =>
    match args[i]?, fillText args hs with
    | some a, some r => some (a ++ (l ++ r))
    | _, _ => none

/-- PARTITION BY (/repo/sql.py:288-292). -/
def partitionText : Option (List Txt) → Txt
  | none => []
  | some p => if p.isEmpty then [] else qt "PARTITION BY " ++
      joinTxt (qt ", ") (p.map fun c => qt "CAST(" ++ (c ++ qt " AS STRING)"))

/-- ORDER BY (/repo/sql.py:293-294). -/
def orderText : Option (List Txt) → Txt
  | none => []
  | some p => if p.isEmpty then [] else qt "ORDER BY " ++ joinTxt (qt ", ") p

/-- OVER (/repo/sql.py:285-297). -/
def overText (c : TCol) : Txt :=
  if c.partition.isNone && c.order.isNone && c.frame.isNone then []
  else qt " OVER (" ++ (joinTxt (qt " ")
    ([partitionText c.partition, orderText c.order, c.frame.getD []].filter (!·.isEmpty)) ++ qt ")")

/-- `Column.expression` (/repo/sql.py:282-303). -/
def TCol.expr (le : Txt → Txt → Bool) (c : TCol) : Option Txt :=
  match fillText (c.args.map (argText le c.filters)) c.holes with
  | none => none
  | some r => some (c.first ++ r ++ overText c)

end Verif
