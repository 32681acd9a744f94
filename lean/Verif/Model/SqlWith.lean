import Verif.Model.SqlAlias

/-!
# The tables of a WITH clause

/repo/sql.py:30-67 and 575-691, 739-789.
-/

namespace Verif

/-- The trailing digits of a text: `re.search(r'([0-9]+)$', alias)` (/repo/sql.py:61). -/
def trailDigits (a : Txt) : Txt := (a.reverse.takeWhile Char.isDigit).reverse
/-- The text before them. -/
def beforeDigits (a : Txt) : Txt := (a.reverse.dropWhile Char.isDigit).reverse

/-- `add_suffix` (/repo/sql.py:58-67). -/
def addSuffix (al : Txt) : Txt :=
  let a := stripC '`' al
  if trailDigits a = [] then a ++ "_1".toList
  else beforeDigits a ++ Nat.toDigits 10 (Nat.ofDigitChars 10 (trailDigits a) 0 + 1)

/-- A query object. `key` stands for the text of FROM, WHERE, GROUP BY and WITH; the text of the
query is determined by `key`, `order`, `distinct` and the printed columns. Not modelled: the renaming of
columns by printing when a GROUP BY column has the same name (/repo/sql.py:739-741). -/
structure Qry where
  key : Txt
  order : Txt
  distinct : Bool
  cols : List SCol
  deriving DecidableEq

/-- The text of a column determines expression and name (/repo/sql.py:305-311). -/
def SCol.text (c : SCol) : Txt × Option (Option Txt) := (c.expr, c.alias)

/-- Two queries print the same (`SqlComponent.__eq__`, /repo/sql.py:109-110). -/
def Qry.same (a b : Qry) : Bool :=
  a.key == b.key && a.order == b.order && a.distinct == b.distinct &&
    a.cols.map SCol.text == b.cols.map SCol.text

/-- `is_compatible` (/repo/sql.py:30-55). -/
def Qry.compatible (a b : Qry) : Bool := a.key == b.key && !a.distinct && !b.distinct

/-- `Sql.merge` (/repo/sql.py:747-766): `none` if a column name raises; `some none` if the queries
cannot be merged; else the receiver and the columns of the argument afterwards. -/
def Qry.merge (a b : Qry) : Option (Option (Qry × List SCol)) :=
  if a.same b then some (some (a, b.cols))
  else if !a.compatible b then some none
  else match addColumns a.cols b.cols with
    | none => none
    | some (cols, cs) => some (some ({ a with cols := cols }, cs))

/-- The children of `Datasources`: names and tables in insertion order. In this module a table is either
raw text, given as its words, or a query object. -/
inductive WTbl where
  | raw (t : List Txt)
  | sql (q : Qry)
  deriving DecidableEq

/-- Tables print the same. A raw text and a query object are taken to be different. -/
def WTbl.same : WTbl → WTbl → Bool
  | .raw a, .raw b => a == b
  | .sql a, .sql b => a.same b
  | _, _ => false

abbrev With := List (Txt × WTbl)

/-- `Datasources.add` of one data source (/repo/sql.py:666-677); `fuel` bounds the recursion,
`Verif.C24_add_terminates`. -/
def addTable (w : With) : Nat → Txt → WTbl → Option (With × Txt)
  | 0, _, _ => none
  | fuel + 1, al, t =>
      match w.lookup al with
      | none =>
          match w.find? (fun p => p.2.same t) with
          | none => some (w ++ [(al, t)], al)
          | some p => some (w, p.1)
      | some t0 =>
          if t.same t0 then some (w, al)
          else addTable w fuel (addSuffix al) t

/-- Adding one table, with fuel that suffices. -/
def addOne (w : With) (al : Txt) (t : WTbl) : Option (With × Txt) := addTable w (w.length + 2) al t

/-- The `while new_child.alias in self.children` loop of `merge` (/repo/sql.py:631-632). -/
def freeName (w : With) : Nat → Txt → Option Txt
  | 0, _ => none
  | fuel + 1, al => if (w.lookup al).isSome then freeName w fuel (addSuffix al) else some al

/-- Replacing the table stored under a name (the target query is changed in place). -/
def setTable (w : With) (a : Txt) (t : WTbl) : With :=
  w.map fun p => if p.1 = a then (p.1, t) else p

/-- The search for a table to merge into, in order, skipping the name tried first
(/repo/sql.py:619-630). -/
def mergeInto (w : With) (q : Qry) (skip : Txt) : With → Option (Option (With × Txt))
  | [] => some none
  | (a, t) :: rest =>
      match t with
      | .raw _ => mergeInto w q skip rest
      | .sql q0 =>
          if a = skip then mergeInto w q skip rest
          else match q0.merge q with
            | none => none
            | some none => mergeInto w q skip rest
            | some (some (q1, _)) => some (some (setTable w a (.sql q1), a))

/-- `Datasources.merge` of a query under a name (/repo/sql.py:617-634). -/
def mergeTable (w : With) (al : Txt) (q : Qry) : Option (With × Txt) :=
  let fresh : Option (With × Txt) :=
    match mergeInto w q al w with
    | none => none
    | some (some r) => some r
    | some none =>
        match freeName w (w.length + 2) al with
        | none => none
        | some n => some (w ++ [(n, .sql q)], n)
  match w.lookup al with
  | some (.sql q0) =>
      match q0.merge q with
      | none => none
      | some none => fresh
      | some (some (q1, _)) => some (setTable w al (.sql q1), al)
  | _ => fresh


/-- `re.sub(r'\b%s\b' % original_alias, new_alias, str(d2.table))` (/repo/sql.py:689-690) on words. -/
def renameWord (a b : Txt) (t : List Txt) : List Txt := t.map fun x => if x = a then b else x

/-- `Datasources.extend` for tables given as text (/repo/sql.py:679-691). The first argument is the
number of tables left. -/
def extendWith : Nat → With → List (Txt × List Txt) → Option With
  | _, w, [] => some w
  | 0, _, _ => none
  | n + 1, w, (a, t) :: rest =>
      match addOne w a (.raw t) with
      | none => none
      | some (w', b) =>
          extendWith n w' (if b = a then rest else rest.map fun p => (p.1, renameWord a b p.2))

/-- The names of the tables of the other clause before and after: `add` changes `d.alias` in place (/repo/sql.py:671-676, 679-691). -/
def extendNames : Nat → With → List (Txt × List Txt) → Option (List (Txt × Txt))
  | _, _, [] => some []
  | 0, _, _ => none
  | n + 1, w, (a, t) :: rest =>
      match addOne w a (.raw t) with
      | none => none
      | some (w', b) =>
          (extendNames n w' (if b = a then rest else rest.map fun p => (p.1, renameWord a b p.2))).map ((a, b) :: ·)

end Verif
