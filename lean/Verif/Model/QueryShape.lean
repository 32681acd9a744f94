import Verif.Model.Names

/-!
# Which columns the generated queries select

`get_sql_and_with_clause` of the metrics, lists, arithmetic and operations: /repo/metrics.py:1268-1357, 1511-1637, 1676-1690, 1981-2035,
/repo/operations.py:227-269, 345-395, 436-529, /repo/diversity.py:38-97, /repo/sql.py:30-55, 401-480, 580-634.

Simplifications. A subquery stands where the code writes the name of its entry of the WITH clause (for those names see C24); what the code
does by extending such an entry, `Q.merge` does to the subquery. Of an expression only the columns it reads are kept. The alias of a column is
its name, without escaping and suffixes (C21, C22). The filter of the whole tree, which every innermost query has, is left out.
-/

namespace Verif

/-- A column that an expression reads: of the only source or of all sources, or of the source with a number. -/
inductive QRef where
  | plain (n : String)
  | src (i : ℕ) (n : String)
  deriving DecidableEq, Repr

/-- A selected column: a column of the source under its own name, or an expression. -/
inductive QCol where
  | id (n : String)
  | calc (name : String) (reads : List QRef)
  deriving DecidableEq, Repr

/-- The alias. -/
def QCol.name : QCol → String
  | .id n => n
  | .calc n _ => n

/-- `set_alias` (/repo/sql.py:276-278). -/
def QCol.setName (c : QCol) (n : String) : QCol :=
  match c with
  | .id m => .calc n [.plain m]
  | .calc _ rs => .calc n rs

/-- What the column reads. -/
def QCol.reads : QCol → List QRef
  | .id n => [.plain n]
  | .calc _ rs => rs

/-- A source of rows: the table, a query, a join. `wh` are comparisons of columns to values, `neg` negates their conjunction. -/
inductive Q where
  | table (name : String) (cols : List String)
  | sel (grp : List String) (cols : List QCol) (wh : List (String × String)) (neg : Bool) (from_ : Q)
  | join (using_ : List String) (l r : Q)
  deriving DecidableEq, Repr

/-- The object of class `Sql` (/repo/sql.py:697-737). -/
structure QS where
  grp : List String
  cols : List QCol
  wh : List (String × String) := []
  neg : Bool := false
  from_ : Q
  deriving DecidableEq, Repr

/-- The query as a source. -/
def QS.toQ (q : QS) : Q := .sel q.grp q.cols q.wh q.neg q.from_

/-- The columns of the result in order: `all_columns` (/repo/sql.py:739-741). -/
def QS.allNames (q : QS) : List String := q.grp ++ q.cols.map QCol.name

/-- The columns of one query are added to those of another one (/repo/sql.py:432-468): index columns that are selected already are not
selected again. -/
def mergeCols (a b : List QCol) : List QCol :=
  a ++ b.filter fun c => match c with
    | .id n => decide (QCol.id n ∉ a)
    | .calc _ _ => true

/-- Two sources that are compatible get the columns of both (/repo/sql.py:30-55, 580-634, 747-766). -/
def Q.merge : Q → Q → Option Q
  | .table n cs, .table n' cs' => if n = n' ∧ cs = cs' then some (.table n cs) else none
  | .sel g cs w neg f, .sel g' cs' w' neg' f' =>
    if g = g' ∧ w = w' ∧ neg = neg' then (f.merge f').map (.sel g (mergeCols cs cs') w neg ·) else none
  | .join u l r, .join u' l' r' =>
    if u = u' then
      match l.merge l', r.merge r' with
      | some a, some b => some (.join u a b)
      | _, _ => none
    else none
  | _, _ => none

/-- `Sql.merge` (/repo/sql.py:747-766). -/
def QS.merge (a b : QS) : Option QS :=
  if a.grp = b.grp ∧ a.wh = b.wh ∧ a.neg = b.neg then
    (a.from_.merge b.from_).map fun f => { a with cols := mergeCols a.cols b.cols, from_ := f }
  else none

/-- What stays the same during the generation of a query: the table, the aliases of the index columns, and those index columns that are not
simply a column of the table (such as `a.b`, with the alias `a_point_b`). -/
structure QCtx where
  table : Q
  idx : List String
  odd : List String := []

/-- `c in indexes`: columns are compared as text, `AS` included (/repo/sql.py:109-110, 153). -/
def QCtx.isIdx (E : QCtx) : QCol → Bool
  | .id n => decide (n ∈ E.idx) && decide (n ∉ E.odd)
  | .calc _ _ => false

/-- `c.alias in idx_aliases`. -/
def QCtx.named (E : QCtx) (c : QCol) : Bool := decide (c.name ∈ E.idx)

/-- `as` from the beginning again and again, `n` elements (`itertools.cycle`). -/
def cycleTo (n : ℕ) (as : List QCol) : List QCol := (List.range n).filterMap fun i => as[i % as.length]?

/-- The pairs of columns (/repo/metrics.py:1589-1591, 1609-1611). -/
def colPairs (as bs : List QCol) : List (QCol × QCol) :=
  match bs with
  | [b] => as.map (·, b)
  | bs => (cycleTo bs.length as).zip bs

/-- `columns.add` for the columns of two merged queries (/repo/metrics.py:1592-1598). -/
def zipMerged (E : QCtx) (tmpl : String → String → String) : List QCol → List (QCol × QCol) → List QCol
  | acc, [] => acc
  | acc, (a, b) :: ps =>
    if E.named a then zipMerged E tmpl (if a ∈ acc then acc else acc ++ [a]) ps
    else zipMerged E tmpl (acc ++ [.calc (tmpl a.name b.name) (a.reads ++ b.reads)]) ps

/-- `query.columns[-1].set_alias(self.name)` if one column is not an index column (/repo/metrics.py:1623-1624). -/
def nameLast (E : QCtx) (name : String) (cols : List QCol) : List QCol :=
  if (cols.filter fun c => !E.isIdx c).length = 1 then
    match cols.getLast? with
    | some c => cols.dropLast ++ [c.setName name]
    | none => cols
  else cols

/-- The columns that are not index columns get new names, one after the other. -/
def setNames (E : QCtx) : List QCol → List String → List QCol
  | [], _ => []
  | c :: cs, ns =>
    if E.isIdx c then c :: setNames E cs ns
    else match ns with
      | n :: ns => c.setName n :: setNames E cs ns
      | [] => c :: setNames E cs []

/-- `rename_columns` in a query; none where it raises (/repo/metrics.py:1626-1635). -/
def renameQ (E : QCtx) (columns : Option (List String)) (cols : List QCol) : Option (List QCol) :=
  match columns with
  | none => some cols
  | some l =>
    if l.isEmpty then some cols
    else if l.length = (cols.filter fun c => !E.isIdx c).length then some (setNames E cols l) else none

/-- The names that index the rows of a query (/repo/metrics.py:1564-1574). -/
def QS.idxNames (q : QS) (nvals : ℕ) : List String :=
  q.grp ++ if nvals = 0 then [] else (q.cols.take (q.cols.length - nvals)).map QCol.name

/-- Two children of an arithmetic node that are both metrics (/repo/metrics.py:1543-1621). -/
def compSql (E : QCtx) (tmpl col : String → String → String) (q0 q1 : QS) : Option QS :=
  let v0 := q0.cols.filter fun c => !E.named c
  let v1 := q1.cols.filter fun c => !E.named c
  if v0.length ≠ 1 ∧ v1.length ≠ 1 ∧ v0.length ≠ v1.length then none
  else
    let idx0 := q0.idxNames v0.length
    let idx1 := q1.idxNames v1.length
    let sub0 := idx0.all fun x => decide (x ∈ idx1)
    let sub1 := idx1.all fun x => decide (x ∈ idx0)
    if !sub0 && !sub1 then none
    else
      let merged := if (sub0 && sub1) = true ∧ q0.grp = q1.grp ∧ q0.wh = q1.wh ∧ q0.neg = q1.neg then q0.from_.merge q1.from_ else none
      match merged with
      | some f => some { q0 with cols := zipMerged E tmpl [] (colPairs q0.cols q1.cols), from_ := f }
      | none =>
        let using_ := if sub0 && sub1 then E.idx else if idx0.length < idx1.length then idx0 else idx1
        some { grp := [], from_ := .join using_ q0.toQ q1.toQ
               cols := E.idx.map QCol.id ++
                 (colPairs v0 v1).map fun p => .calc (col p.1.name p.2.name) [.src 0 p.1.name, .src 1 p.2.name] }

/-- The query of a child is merged into the first query that is compatible, or is a new one; its number is returned
(/repo/metrics.py:1302-1312, /repo/sql.py:618-634). -/
def place (q : QS) : List QS → List QS × ℕ
  | [] => ([q], 0)
  | g :: gs =>
    match g.merge q with
    | some g' => (g' :: gs, 0)
    | none => let r := place q gs; (g :: r.1, r.2 + 1)

/-- All children. -/
def placeAll : List QS → List QS → List QS × List ℕ
  | gs, [] => (gs, [])
  | gs, q :: qs =>
    let r := place q gs
    let s := placeAll r.1 qs
    (s.1, r.2 :: s.2)

/-- The join of all queries in order (/repo/metrics.py:1325-1339). -/
def joinQ (using_ : List String) : List QS → Option Q
  | [] => none
  | g :: gs => some (gs.foldl (fun a q => .join using_ a q.toQ) g.toQ)

/-- `rename_columns` of a list, for the columns after the index columns; none where it raises (/repo/metrics.py:1348-1356). -/
def renameAll (columns : Option (List String)) (cols : List QCol) : Option (List QCol) :=
  match columns with
  | none => some cols
  | some l =>
    if l.isEmpty then some cols else if l.length = cols.length then some (List.zipWith QCol.setName cols l) else none

/-- A list of metrics (/repo/metrics.py:1300-1357). -/
def listSql (E : QCtx) (columns : Option (List String)) (qs : List QS) : Option QS := do
  let r := placeAll [] qs
  match r.1 with
  | [g] => some g
  | gs =>
    let f ← joinQ E.idx gs
    let cols := (qs.zip r.2).flatMap fun p =>
      (p.1.cols.filter fun c => match c with
        | .id n => decide (n ∉ E.idx)
        | .calc _ _ => true).map fun c => QCol.calc c.name [.src p.2 c.name]
    some { grp := [], cols := E.idx.map QCol.id ++ (← renameAll columns cols), from_ := f }

/-- `alias[len('Distribution of '):]` if it starts so (/repo/diversity.py:44-48). -/
def stripDist (s : String) : String :=
  if "Distribution of ".toList <+: s.toList then String.ofList (s.toList.drop "Distribution of ".toList.length) else s

/-- `Distribution.get_sql_and_with_clause` after the query of the child (/repo/operations.py:257-270). -/
def distSql (split over : List String) (q : QS) : QS :=
  let all := split ++ over
  { grp := [], from_ := q.toQ
    cols := all.map QCol.id ++
      ((q.cols.filter fun c => decide (c.name ∉ all)).map fun c =>
        .calc ("Distribution of " ++ c.name) (.plain c.name :: split.map .plain)) }

/-- `CumulativeDistribution.get_sql_and_with_clause` (/repo/operations.py:366-393); `order` are the columns to order by. -/
def cumulativeSql (E : QCtx) (split order : List String) (d : QS) : QS :=
  { grp := [], from_ := d.toQ
    cols := E.idx.map QCol.id ++
      ((d.cols.filter fun c => decide (c ∉ E.idx.map QCol.id)).map fun c =>
        .calc ("Cumulative " ++ c.name) (.plain c.name :: (split ++ order).map .plain)) }

/-- `l[-n:]`. -/
def lastN {α : Type} (n : Int) (l : List α) : List α :=
  if 0 < n then l.drop (l.length - n.toNat) else l.drop (-n).toNat

/-- `Comparison.get_sql_and_with_clause` after the query of the child (/repo/operations.py:490-529). -/
def comparisonSql (E : QCtx) (cond : List (String × String)) (includeBase : Bool) (tmpl : String → String) (raw : QS) : QS :=
  let condCols := cond.map Prod.fst
  let baseCols := raw.allNames.filter fun n => decide (n ∉ condCols)
  let base : QS := { grp := [], cols := baseCols.map .id, wh := cond, from_ := raw.toQ }
  let n : Int := raw.allNames.length - E.idx.length
  { grp := []
    cols := E.idx.map .id ++
      List.zipWith (fun r b => QCol.calc (tmpl r) [.src 0 r, .src 1 b]) (lastN n raw.allNames) (lastN n baseCols)
    wh := if includeBase then [] else cond
    neg := !includeBase
    from_ := .join (E.idx.filter fun i => decide (i ∉ condCols)) raw.toQ base.toQ }

/-- `HHI.get_sql_and_with_clause` (/repo/diversity.py:38-51, 70-95; Entropy, TopK and Nxx have the same columns). -/
def diversitySql (E : QCtx) (split over : List String) (tmpl : String → String) (d : QS) : QS :=
  let d' : QS := { d with cols := d.cols.map fun c => if stripDist c.name = c.name then c else c.setName (stripDist c.name) }
  { grp := E.idx, from_ := d'.toQ
    cols := (d'.cols.filter fun c => decide (c.name ∉ split ++ over)).map fun c => .calc (tmpl c.name) [.plain c.name] }

mutual
/-- `get_extra_idx`, none where it raises (/repo/utils.py:151-174). -/
def NM.idx : NM → Option (List String)
  | .const _ => some []
  | .leaf _ _ _ => some []
  | .comp _ _ _ l r _ => do
    let a ← l.idx
    let b ← r.idx
    if l.isConst then some b else if r.isConst then some a else if a = b then some a else none
  | .list ms _ => idxAll ms
  | .oper o c => do return o.ownIdx ++ (← c.idx)
/-- The common index of several metrics. -/
def idxAll : List NM → Option (List String)
  | [] => some []
  | [m] => m.idx
  | m :: m' :: ms => do
    let a ← m.idx
    let b ← idxAll (m' :: ms)
    if a = b then some a else none
end

mutual
/-- `get_sql_and_with_clause` with `split` as `split_by`. None where it raises. -/
def NM.query (E : QCtx) : NM → List String → Option QS
  | .const _, _ => none
  | .leaf n reads flt, split =>
    match flt with
    | none => some { grp := split, cols := [.calc n (reads.map .plain)], from_ := E.table }
    | some f =>
      let sub : QS := { grp := [], cols := (split ++ reads.filter fun c => decide (c ∉ split)).map .id, wh := f, from_ := E.table }
      some { grp := split, cols := [.calc n (reads.map .plain)], from_ := sub.toQ }
  | .comp tmpl col name l r columns, split => do
    let q ←
      if l.isConst then do
        let q ← r.query E split
        some { q with cols := q.cols.map fun c => if E.isIdx c then c else .calc (col l.name c.name) c.reads }
      else if r.isConst then do
        let q ← l.query E split
        some { q with cols := q.cols.map fun c => if E.isIdx c then c else .calc (col c.name r.name) c.reads }
      else do compSql E tmpl col (← l.query E split) (← r.query E split)
    return { q with cols := ← renameQ E columns (nameLast E name q.cols) }
  | .list ms columns, split => do
    let _ ← idxAll ms
    listSql E columns (← queryAll E ms split)
  | .oper (.dist over _) c, split => do return distSql split over (← c.query E (split ++ over))
  | .oper (.cumulative over _) c, split => do
    return cumulativeSql E split (over ++ (← c.idx)) (distSql split over (← c.query E (split ++ over)))
  | .oper (.comparison cond inc tmpl) c, split => do
    return comparisonSql E cond inc tmpl (← c.query E (split ++ cond.map Prod.fst))
  | .oper (.diversity over tmpl) c, split => do
    return diversitySql E split over tmpl (distSql split over (← c.query E (split ++ over)))
/-- The queries of several metrics. -/
def queryAll (E : QCtx) : List NM → List String → Option (List QS)
  | [], _ => some []
  | m :: ms, split => do return (← m.query E split) :: (← queryAll E ms split)
end

/-- `compute_on_sql_sql_mode`: the first columns of the result are the index, whatever their names (/repo/metrics.py:676-689). -/
def QS.valueNames (E : QCtx) (q : QS) : List String := q.allNames.drop E.idx.length

/-- One column alone is reduced to a series, which gets the name of the metric (/repo/metrics.py:399-402, 632-640, 661-674). -/
def nameSingle (name : String) (cs : List String) : List String := if cs.length = 1 then [name] else cs

/-- The names of the columns of `compute_on_sql`: a list renames its columns at the end (/repo/metrics.py:1168-1192), and a single column of a
metric that is not an operation gets the metric's name. -/
def NM.onSqlNames (E : QCtx) (m : NM) (split : List String) : Option (List String) := do
  let cs := (← m.query E split).valueNames E
  match m with
  | .list _ columns => renameTo columns (nameSingle m.name cs)
  | .oper _ _ => some cs
  | _ => some (nameSingle m.name cs)

end Verif
