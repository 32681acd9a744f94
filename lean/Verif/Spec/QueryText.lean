import Verif.Model.QueryText

/-!
# Specification for C83: how a database reads a query

The lexical rules and the grammar of SELECT statements, for any texts; nothing here mentions how texts are made, except
`TSql.meaning`, which says what is to be read. Expressions, conditions and tables are token sequences with balanced
parentheses; reserved words end them outside of parentheses.
-/

namespace Verif

/-- Tokens. -/
inductive QTok where
  | word (w : Txt)
  | quoted (q : Char) (s : Txt)
  | sym (c : Char)
  deriving DecidableEq

/-- Characters of words. -/
def qWord (c : Char) : Bool := c.isAlphanum || c = '_'
/-- Quotation marks. -/
def qQuote (c : Char) : Bool := c = '"' || c = '\'' || c = '`'
/-- Blanks. -/
def qBlank (c : Char) : Bool := c = ' ' || c = '\n' || c = '\t'

/-- Where the lexer is. -/
inductive QMode where
  | start
  | inWord (acc : Txt)
  | inStr (q : Char) (acc : Txt)
  | esc (q : Char) (acc : Txt)

/-- A character outside of words and strings. -/
def qStart (ts : List QTok) (c : Char) : List QTok × QMode :=
  if qBlank c then (ts, .start)
  else if qQuote c then (ts, .inStr c [])
  else if qWord c then (ts, .inWord [c])
  else (ts ++ [.sym c], .start)

/-- One character. -/
def qStep (s : List QTok × QMode) (c : Char) : List QTok × QMode :=
  match s.2 with
  | .start => qStart s.1 c
  | .inWord acc => if qWord c then (s.1, .inWord (c :: acc)) else qStart (s.1 ++ [.word acc.reverse]) c
  | .inStr q acc =>
    if c = q then (s.1 ++ [.quoted q acc.reverse], .start)
    else if c = '\\' then (s.1, .esc q acc) else (s.1, .inStr q (c :: acc))
  | .esc q acc => (s.1, .inStr q (c :: '\\' :: acc))

/-- The end of the text. -/
def qEnd (s : List QTok × QMode) : Option (List QTok) :=
  match s.2 with
  | .start => some s.1
  | .inWord acc => some (s.1 ++ [.word acc.reverse])
  | _ => none

/-- The tokens of a text; `none` if a string is not closed. -/
def qLex (t : Txt) : Option (List QTok) := qEnd (t.foldl qStep ([], .start))

/-- Reserved words. -/
def qReserved (w : Txt) : Bool :=
  w.map Char.toUpper ∈ ["SELECT", "FROM", "WHERE", "GROUP", "ORDER", "WITH", "AS", "JOIN", "ON", "USING", "LEFT",
    "RIGHT", "FULL", "INNER", "CROSS", "OUTER", "BY"].map String.toList

/-- Does a token end an expression, outside of parentheses. -/
def qStops : QTok → Bool
  | .word w => qReserved w
  | .sym c => c = ',' || c = ')'
  | .quoted .. => false

/-- The longest expression a token sequence starts with, and the rest; `d` parentheses are open, and all have to be
closed. -/
def takeExpr : ℕ → List QTok → Option (List QTok × List QTok)
  | 0, [] => some ([], [])
  | _ + 1, [] => none
  | 0, t :: ts =>
    if qStops t then some ([], t :: ts)
    else (takeExpr (if t = .sym '(' then 1 else 0) ts).map fun r => (t :: r.1, r.2)
  | d + 1, t :: ts =>
    (takeExpr (if t = .sym '(' then d + 2 else if t = .sym ')' then d else d + 1) ts).map fun r => (t :: r.1, r.2)

/-- The given reserved word comes next. -/
def nextW (k : String) : List QTok → Option (List QTok)
  | .word w :: ts => if w.map Char.toUpper = k.toList then some ts else none
  | _ => none

/-- The given character comes next. -/
def nextS (c : Char) : List QTok → Option (List QTok)
  | .sym d :: ts => if c = d then some ts else none
  | _ => none

/-- A name comes next. -/
def nextName : List QTok → Option (Txt × List QTok)
  | .word w :: ts => if qReserved w then none else some (w, ts)
  | _ => none

/-- Names with commas between. -/
def rNames (ts : List QTok) : Option (List Txt × List QTok) := do
  let (a, ts) ← nextName ts
  match nextS ',' ts with
  | none => pure ([a], ts)
  | some ts =>
    let (as, ts) ← rNames ts
    pure (a :: as, ts)
partial_fixpoint

/-- `AS name`, if it comes next. -/
def rAlias (ts : List QTok) : Option (Option Txt × List QTok) :=
  match nextW "AS" ts with
  | none => some (none, ts)
  | some ts =>
    match nextName ts with
    | none => none
    | some (a, ts) => some (some a, ts)

/-- An expression, at least one token long. -/
def rExpr (ts : List QTok) : Option (List QTok × List QTok) :=
  match takeExpr 0 ts with
  | none => none
  | some r => if r.1.isEmpty then none else some r

/-- The name of a selected expression: the one given, or the expression itself if it is a name. -/
def itemName (e : List QTok) : Option Txt → Option Txt
  | some a => some a
  | none =>
    match e with
    | [.word w] => some w
    | _ => none

/-- The selected expressions with the names of their columns. -/
def rItems (ts : List QTok) : Option (List (List QTok × Option Txt) × List QTok) := do
  let (e, ts) ← rExpr ts
  let (a, ts) ← rAlias ts
  match nextS ',' ts with
  | none => pure ([(e, itemName e a)], ts)
  | some ts =>
    let (l, ts) ← rItems ts
    pure ((e, itemName e a) :: l, ts)
partial_fixpoint

/-- The kinds of JOIN. -/
inductive QJoin where
  | inner | full | left | right | cross
  deriving DecidableEq

/-- What a join is on. -/
inductive QCond where
  | nothing
  | on (e : List QTok)
  | using' (names : List Txt)
  deriving DecidableEq

mutual
/-- A statement as it is read: named subqueries, columns, source, condition, GROUP BY, ORDER BY. -/
inductive QAst where
  | mk (withs : List (Txt × QAst)) (items : List (List QTok × Option Txt)) (src : QSrc) (cond : Option (List QTok))
      (grp ord : List Txt)
/-- A source as it is read. -/
inductive QSrc where
  | table (t : List QTok) (al : Option Txt)
  | sub (q : QAst) (al : Option Txt)
  | join (l : QSrc) (kind : QJoin) (r : QSrc) (c : QCond)
end

/-- Is it a join. -/
def QSrc.isJoin : QSrc → Bool
  | .join .. => true
  | _ => false

/-- JOIN with what stands before it. -/
def rKind (ts : List QTok) : Option (QJoin × List QTok) :=
  let outer (k : QJoin) (ts : List QTok) : Option (QJoin × List QTok) :=
    let ts := (nextW "OUTER" ts).getD ts
    (nextW "JOIN" ts).map fun ts => (k, ts)
  match nextW "JOIN" ts with
  | some ts => some (.inner, ts)
  | none =>
    match nextW "INNER" ts with
    | some ts => (nextW "JOIN" ts).map fun ts => (.inner, ts)
    | none =>
      match nextW "CROSS" ts with
      | some ts => (nextW "JOIN" ts).map fun ts => (.cross, ts)
      | none =>
        match nextW "FULL" ts with
        | some ts => outer .full ts
        | none =>
          match nextW "LEFT" ts with
          | some ts => outer .left ts
          | none =>
            match nextW "RIGHT" ts with
            | some ts => outer .right ts
            | none => none

/-- ON or USING, if it comes next. -/
def rCond (ts : List QTok) : Option (QCond × List QTok) :=
  match nextW "ON" ts with
  | some ts => (rExpr ts).map fun r => (.on r.1, r.2)
  | none =>
    match nextW "USING" ts with
    | none => some (.nothing, ts)
    | some ts =>
      match nextS '(' ts with
      | none => none
      | some ts =>
        match rNames ts with
        | none => none
        | some (as, ts) => (nextS ')' ts).map fun ts => (.using' as, ts)

/-- WHERE with its condition, if it comes next. -/
def rWhere (ts : List QTok) : Option (Option (List QTok) × List QTok) :=
  match nextW "WHERE" ts with
  | none => some (none, ts)
  | some ts => (rExpr ts).map fun r => (some r.1, r.2)

/-- `k BY names`, if it comes next. -/
def rBy (k : String) (ts : List QTok) : Option (List Txt × List QTok) :=
  match nextW k ts with
  | none => some ([], ts)
  | some ts =>
    match nextW "BY" ts with
    | none => none
    | some ts => rNames ts

mutual
/-- A statement and what follows it. -/
def rStmt (ts : List QTok) : Option (QAst × List QTok) :=
  match nextW "WITH" ts with
  | none => rSelect [] ts
  | some ts => do
    let (ws, ts) ← rWiths ts
    rSelect ws ts
partial_fixpoint
/-- `name AS (statement)` with commas between. -/
def rWiths (ts : List QTok) : Option (List (Txt × QAst) × List QTok) := do
  let (a, ts) ← nextName ts
  let ts ← nextW "AS" ts
  let ts ← nextS '(' ts
  let (q, ts) ← rStmt ts
  let ts ← nextS ')' ts
  match nextS ',' ts with
  | none => pure ([(a, q)], ts)
  | some ts =>
    let (ws, ts) ← rWiths ts
    pure ((a, q) :: ws, ts)
partial_fixpoint
/-- SELECT .. FROM .. WHERE .. GROUP BY .. ORDER BY. -/
def rSelect (ws : List (Txt × QAst)) (ts : List QTok) : Option (QAst × List QTok) := do
  let ts ← nextW "SELECT" ts
  let (items, ts) ← rItems ts
  let ts ← nextW "FROM" ts
  let (s, ts) ← rSource ts
  let (w, ts) ← rWhere ts
  let (g, ts) ← rBy "GROUP" ts
  let (o, ts) ← rBy "ORDER" ts
  pure (.mk ws items s w g o, ts)
partial_fixpoint
/-- What stands after FROM. -/
def rSource (ts : List QTok) : Option (QSrc × List QTok) := do
  let (p, ts) ← rPrim ts
  rJoins p ts
partial_fixpoint
/-- The joins that follow a source. -/
def rJoins (l : QSrc) (ts : List QTok) : Option (QSrc × List QTok) :=
  match rKind ts with
  | none => some (l, ts)
  | some (k, ts) => do
    let (r, ts) ← rPrim ts
    let (c, ts) ← rCond ts
    rJoins (.join l k r c) ts
partial_fixpoint
/-- A table, or a statement or a join in parentheses. -/
def rPrim (ts : List QTok) : Option (QSrc × List QTok) :=
  match nextS '(' ts with
  | some ts =>
    if (nextW "SELECT" ts).isSome || (nextW "WITH" ts).isSome then do
      let (q, ts) ← rStmt ts
      let ts ← nextS ')' ts
      let (a, ts) ← rAlias ts
      pure (.sub q a, ts)
    else do
      let (s, ts) ← rSource ts
      let ts ← nextS ')' ts
      if s.isJoin then pure (s, ts) else none
  | none => do
    let (e, ts) ← rExpr ts
    let (a, ts) ← rAlias ts
    pure (.table e a, ts)
partial_fixpoint
end

/-- A text is read as a statement, to its end. -/
def ReadsQuery (t : Txt) (a : QAst) : Prop := ∃ ts, qLex t = some ts ∧ rStmt ts = some (a, [])

/-- The statement a text is read as, if any. -/
def readText (t : Txt) : Option QAst :=
  match qLex t with
  | none => none
  | some ts =>
    match rStmt ts with
    | some (a, []) => some a
    | _ => none

/-! ## What a query object says -/

/-- The tokens of a text. -/
def toksOf (t : Txt) : List QTok := (qLex t).getD []

/-- Token sequences with a separator between. -/
def joinToks (sep : List QTok) : List (List QTok) → List QTok
  | [] => []
  | [a] => a
  | a :: b :: l => a ++ sep ++ joinToks sep (b :: l)

/-- The name of a column of the result. -/
def colName (c : SCol) : Txt := (c.alias.join).getD []

/-- A column: its expression and its name; a column without a name has that of its expression, if that is a name. -/
def colMeaning (c : SCol) : List QTok × Option Txt :=
  (toksOf c.expr, if c.raw = none then itemName (toksOf c.expr) none else some (colName c))

/-- Conditions: all of them, with AND between, in some order. -/
def condMeaning (le : Txt → Txt → Bool) (wh : List Txt) : List QTok :=
  joinToks [.word "AND".toList] (((wh.map filterText).mergeSort le).map toksOf)

/-- The kind of a join. -/
def TJoin.meaning : TJoin → QJoin
  | .plain | .inner => .inner
  | .full | .fullOuter => .full
  | .left | .leftOuter => .left
  | .right | .rightOuter => .right
  | .cross => .cross

/-- What a join is on. -/
def joinMeaning (le : Txt → Txt → Bool) (on using' : List Txt) : QCond :=
  if on = [] then if using' = [] then .nothing else .using' using' else .on (condMeaning le on)

mutual
/-- What a query object says: the named subqueries; the GROUP BY columns and the other ones under their names (which
differ: `addColumns` renames a column with the name of an earlier one, C22); everything if there are none; the source;
the conditions; the names to group by, which are those of all columns if these are to be distinct; the names to order
by. -/
def TSql.meaning (le : Txt → Txt → Bool) : TSql → QAst
  | .mk ws grp cols distinct src wh ord =>
    let p := (addColumns grp cols).getD ([], [])
    .mk (ws.meaning le)
      (if p.1 = [] then [([.sym '*'], none)] else p.1.map colMeaning)
      (src.meaning le)
      (if wh = [] then none else some (condMeaning le wh))
      ((if distinct then p.2 else grp).map colName)
      (ord.map colName)
def TSrc.meaning (le : Txt → Txt → Bool) : TSrc → QSrc
  | .text t al =>
    match readText t with
    | some a => .sub a al
    | none => .table (toksOf t) al
  | .query q al => .sub (q.meaning le) al
  | .join l kind r on using' => .join (l.meaning le) kind.meaning (r.meaning le) (joinMeaning le on using')
def TWith.meaning (le : Txt → Txt → Bool) : TWith → List (Txt × QAst)
  | .nil => []
  | .cons name q rest => (name, q.meaning le) :: rest.meaning le
end

/-! ## Which texts may be put into a query -/

/-- The number of open parentheses after the tokens; `none` if a token stands outside of parentheses where an expression
would end. -/
def qDepth : ℕ → List QTok → Option ℕ
  | d, [] => some d
  | 0, t :: ts => if qStops t then none else qDepth (if t = .sym '(' then 1 else 0) ts
  | d + 1, t :: ts => qDepth (if t = .sym '(' then d + 2 else if t = .sym ')' then d else d + 1) ts

/-- An expression: closed strings, balanced parentheses, no reserved words or commas outside of parentheses. -/
def ExprOK (t : Txt) : Prop := ∃ ts, qLex t = some ts ∧ ts ≠ [] ∧ qDepth 0 ts = some 0

/-- A name. -/
def NameTok (a : Txt) : Prop := a ≠ [] ∧ (∀ c ∈ a, qWord c = true) ∧ qReserved a = false

/-- A column with a name. -/
def Named (c : SCol) : Prop := c.raw ≠ none ∧ ∃ a, c.alias = some (some a) ∧ NameTok a

/-- A table: an expression that is not in parentheses, and does not begin with SELECT or contain WITH. -/
def TableOK (t : Txt) : Prop := ExprOK t ∧ isTable t = true ∧ (toksOf t).head? ≠ some (.sym '(')

/-- A query given as text: it is a statement, and is recognized as one. -/
def QueryOK (t : Txt) : Prop := (∃ a, ReadsQuery t a) ∧ isTable t = false

/-- How a source is printed as a table of a join. -/
def TSrc.operand (le : Txt → Txt → Bool) (s : TSrc) : Option Txt :=
  (s.print le).map fun p => if s.isJoin then tableText p.2 else p.2

mutual
/-- The texts in a query object are expressions, names, tables and statements; distinct columns are not grouped otherwise; the second
table of a join is not a join, and not the first. -/
def TSql.WF (le : Txt → Txt → Bool) : TSql → Prop
  | .mk ws grp cols distinct src wh ord =>
    ws.WF le ∧ src.WF le ∧
    (∃ all cols', addColumns grp cols = some (all, cols') ∧
      (∀ c ∈ all, ExprOK c.expr ∧ (c.raw = none ∨ Named c)) ∧
      (distinct = true → grp = [] ∧ cols' ≠ [] ∧ ∀ c ∈ cols', Named c)) ∧
    (∀ c ∈ grp, Named c) ∧ (∀ c ∈ ord, Named c) ∧ (∀ w ∈ wh, ExprOK (filterText w))
def TSrc.WF (le : Txt → Txt → Bool) : TSrc → Prop
  | .text t al => (TableOK t ∨ QueryOK t) ∧ ∀ a ∈ al, NameTok a
  | .query q al => q.WF le ∧ ∀ a ∈ al, NameTok a
  | .join l _ r on using' => l.WF le ∧ r.WF le ∧ r.isJoin = false ∧ l.operand le ≠ r.operand le ∧
      (∀ w ∈ on, ExprOK (filterText w)) ∧ ∀ a ∈ using', NameTok a
def TWith.WF (le : Txt → Txt → Bool) : TWith → Prop
  | .nil => True
  | .cons name q rest => NameTok name ∧ q.WF le ∧ rest.WF le
end

/-! ## The expression of a column -/

/-- An argument: under the filters it counts where they hold, and is NULL elsewhere. -/
def argMeaning (le : Txt → Txt → Bool) (filters : List Txt) (c : Txt) : List QTok :=
  if filters = [] then toksOf c
  else [.word "IF".toList, .sym '('] ++ condMeaning le filters ++ [.sym ','] ++ toksOf c ++
    [.sym ',', .word "NULL".toList, .sym ')']

/-- The pieces of the function with the arguments between. -/
def fillMeaning (args : List (List QTok)) (holes : List (ℕ × Txt)) : List QTok :=
  holes.flatMap fun h => (args[h.1]?).getD [] ++ toksOf h.2

/-- PARTITION BY, every expression as a string. -/
def partitionMeaning (p : List Txt) : List QTok :=
  if p = [] then []
  else [.word "PARTITION".toList, .word "BY".toList] ++ joinToks [.sym ',']
    (p.map fun c => [.word "CAST".toList, .sym '('] ++ toksOf c ++ [.word "AS".toList, .word "STRING".toList, .sym ')'])

/-- ORDER BY. -/
def orderMeaning (p : List Txt) : List QTok :=
  if p = [] then []
  else [.word "ORDER".toList, .word "BY".toList] ++ joinToks [.sym ','] (p.map toksOf)

/-- The window, if one is given. -/
def overMeaning (c : TCol) : List QTok :=
  if c.partition = none ∧ c.order = none ∧ c.frame = none then []
  else [.word "OVER".toList, .sym '('] ++ (partitionMeaning (c.partition.getD []) ++ orderMeaning (c.order.getD []) ++
    toksOf (c.frame.getD [])) ++ [.sym ')']

/-- The expression a column stands for. -/
def TCol.meaning (le : Txt → Txt → Bool) (c : TCol) : List QTok :=
  toksOf c.first ++ fillMeaning (c.args.map (argMeaning le c.filters)) c.holes ++ overMeaning c

/-- The pieces of a function after its arguments do not run into these: a piece begins with a blank or a character like
`)`, and ends so if an argument follows. -/
def PiecesOK : List (ℕ × Txt) → Prop
  | [] => True
  | [(_, l)] => (∃ ts, qLex l = some ts) ∧ ∀ c ∈ l.head?, qWord c = false
  | (_, l) :: h :: hs =>
    (∃ ts, l.foldl qStep ([], .start) = (ts, .start)) ∧ (∃ c, l.head? = some c ∧ qWord c = false) ∧ PiecesOK (h :: hs)

/-- Texts in parentheses: closed strings, balanced parentheses; commas and reserved words are allowed. -/
def InnerOK (t : Txt) : Prop := ∃ ts, qLex t = some ts ∧ qDepth 1 ts = some 1

/-- The function has all of its arguments, is an expression when names stand for these, and the other texts are
expressions. -/
structure TCol.WF (c : TCol) : Prop where
  first : ∃ ts, qLex c.first = some ts ∧ (c.holes ≠ [] → c.first.foldl qStep ([], .start) = (ts, .start))
  given : ∀ h ∈ c.holes, h.1 < c.args.length
  pieces : PiecesOK c.holes
  nonempty : toksOf c.first ++ fillMeaning (c.args.map fun _ => [.word "x".toList]) c.holes ≠ []
  depth : qDepth 0 (toksOf c.first ++ fillMeaning (c.args.map fun _ => [.word "x".toList]) c.holes) = some 0
  args : ∀ a ∈ c.args, ExprOK a
  filters : ∀ w ∈ c.filters, ExprOK (filterText w)
  partition : ∀ p ∈ c.partition, ∀ e ∈ p, ExprOK e
  order : ∀ p ∈ c.order, ∀ e ∈ p, ExprOK e
  frame : ∀ f ∈ c.frame, InnerOK f

end Verif
