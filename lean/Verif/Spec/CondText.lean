import Verif.Model.CondText

/-!
# Specification for C78: how a database reads a condition

The lexical rules and the precedence of GoogleSQL for the fragment in question: names, integers, strings in
double quotes with backslash escapes, comparisons, NOT, AND, OR, parentheses, CASE with WHEN and ELSE. Nothing here
mentions the code. Truth has three values, `none` is NULL.
-/

namespace Verif

/-- Tokens of SQL. -/
inductive STok where
  | word (w : List Char)
  | num (n : ℕ)
  | str (s : List Char)
  | ne
  /-- `<`, `<=`, `>`, `>=`. -/
  | ord (greater orEqual : Bool)
  | sym (c : Char)
  deriving DecidableEq

/-- Letters a name may start with. -/
def wordStart (c : Char) : Bool := c.isAlpha || c = '_'
/-- Characters of a name. -/
def wordChar (c : Char) : Bool := c.isAlpha || c.isDigit || c = '_'

/-- Where the lexer is. -/
inductive LexState where
  | start
  | inWord (acc : List Char)
  | inNum (acc : List Char)
  | inStr (acc : List Char)
  | escape (acc : List Char)
  | bang
  | angle (greater : Bool)
  | equal
  deriving DecidableEq

/-- One character outside of any token: the token it is, if it is one, and the state after it. -/
def lexStart (c : Char) : Option (List STok × LexState) :=
  if c = ' ' ∨ c = '\n' then some ([], .start)
  else if c = '"' then some ([], .inStr [])
  else if c = '!' then some ([], .bang)
  else if c.isDigit then some ([], .inNum [c])
  else if wordStart c then some ([], .inWord [c])
  else if c ∈ ['=', '(', ')', '-'] then some ([.sym c], .start)
  else if c = '<' ∨ c = '>' then some ([], .angle (decide (c = '>')))
  else none

/-- The same for a condition that is written for a DataFrame: an equal sign is written twice. -/
def pyStart (c : Char) : Option (List STok × LexState) := if c = '=' then some ([], .equal) else lexStart c

/-- What an escaped character stands for. -/
def escaped (c : Char) : Option Char :=
  if c = 'n' then some '\n' else if c = 't' then some '\t'
  else if c = '"' ∨ c = '\\' ∨ c = '\'' then some c else none

/-- The tokens of a text, `none` if it has none (an open string, a line break in a string, an unknown
escape or character); `start` says what a character outside of any token begins. -/
def lexFrom (start : Char → Option (List STok × LexState)) : LexState → List Char → Option (List STok)
  | .start, [] => some []
  | .inWord acc, [] => some [.word acc.reverse]
  | .inNum acc, [] => some [.num (Nat.ofDigitChars 10 acc.reverse 0)]
  | .angle g, [] => some [.ord g false]
  | .inStr _, [] | .escape _, [] | .bang, [] | .equal, [] => none
  | .start, c :: cs =>
    match start c with
    | none => none
    | some (ts, st) => (lexFrom start st cs).map (ts ++ ·)
  | .inWord acc, c :: cs =>
    if wordChar c then lexFrom start (.inWord (c :: acc)) cs
    else match start c with
      | none => none
      | some (ts, st) => (lexFrom start st cs).map (.word acc.reverse :: ts ++ ·)
  | .inNum acc, c :: cs =>
    if c.isDigit then lexFrom start (.inNum (c :: acc)) cs
    else match start c with
      | none => none
      | some (ts, st) => (lexFrom start st cs).map (.num (Nat.ofDigitChars 10 acc.reverse 0) :: ts ++ ·)
  | .inStr acc, c :: cs =>
    if c = '"' then (lexFrom start .start cs).map (.str acc.reverse :: ·)
    else if c = '\\' then lexFrom start (.escape acc) cs
    else if c = '\n' then none
    else lexFrom start (.inStr (c :: acc)) cs
  | .escape acc, c :: cs =>
    match escaped c with
    | none => none
    | some d => lexFrom start (.inStr (d :: acc)) cs
  | .bang, c :: cs => if c = '=' then (lexFrom start .start cs).map (.ne :: ·) else none
  | .angle g, c :: cs =>
    if c = '=' then (lexFrom start .start cs).map (.ord g true :: ·)
    else match start c with
      | none => none
      | some (ts, st) => (lexFrom start st cs).map (.ord g false :: ts ++ ·)
  | .equal, c :: cs => if c = '=' then (lexFrom start .start cs).map (.sym '=' :: ·) else none

/-- Is it a keyword (in any case). -/
def keyword (w : List Char) : Bool :=
  w.map Char.toUpper ∈ ["AND", "OR", "NOT", "CASE", "WHEN", "THEN", "ELSE", "END", "DESC"].map String.toList

/-- The word is this keyword. -/
def isKw (w : List Char) (k : String) : Bool := w.map Char.toUpper = k.toList

/-- One side of a comparison. -/
inductive COperand where
  | col (c : List Char)
  | lit (v : CVal)
  deriving DecidableEq

/-- Conditions. -/
inductive SCond where
  | eq (a b : COperand)
  | ne (a b : COperand)
  | ord (greater orEqual : Bool) (a b : COperand)
  | not (c : SCond)
  | and (a b : SCond)
  | or (a b : SCond)
  deriving DecidableEq

/-- The rest `- n - m ...` of a difference of integers. -/
def pMinus : ℤ → List STok → ℤ × List STok
  | a, .sym '-' :: .num n :: ts => pMinus (a - n) ts
  | a, ts => (a, ts)

/-- One side of a comparison: a name, a string, or a difference of integers. -/
def pOperand : List STok → Option (COperand × List STok)
  | .word w :: ts => if keyword w then none else some (.col w, ts)
  | .str s :: ts => some (.lit (.str s), ts)
  | .num n :: ts => let r := pMinus n ts; some (.lit (.int r.1), r.2)
  | .sym '-' :: .num n :: ts => let r := pMinus (-(n : ℤ)) ts; some (.lit (.int r.1), r.2)
  | _ => none

/-- A comparison. -/
def pCompare (ts : List STok) : Option (SCond × List STok) :=
  match pOperand ts with
  | some (a, .sym '=' :: ts) =>
    match pOperand ts with
    | some (b, ts) => some (.eq a b, ts)
    | none => none
  | some (a, .ne :: ts) =>
    match pOperand ts with
    | some (b, ts) => some (.ne a b, ts)
    | none => none
  | some (a, .ord g e :: ts) =>
    match pOperand ts with
    | some (b, ts) => some (.ord g e a b, ts)
    | none => none
  | _ => none

mutual
/-- NOT, parentheses, comparisons; `n` bounds the depth. -/
def pNot : ℕ → List STok → Option (SCond × List STok)
  | 0, _ => none
  | n + 1, .sym '(' :: ts =>
    match pOr n ts with
    | some (c, .sym ')' :: ts) => some (c, ts)
    | _ => none
  | n + 1, .word w :: ts =>
    if isKw w "NOT" then
      match pNot n ts with
      | some (c, ts) => some (.not c, ts)
      | none => none
    else pCompare (.word w :: ts)
  | _ + 1, ts => pCompare ts
/-- AND binds tighter than OR. -/
def pAnd : ℕ → List STok → Option (SCond × List STok)
  | 0, _ => none
  | n + 1, ts =>
    match pNot n ts with
    | some (c, .word w :: ts) =>
      if isKw w "AND" then
        match pAnd n ts with
        | some (d, ts) => some (.and c d, ts)
        | none => none
      else some (c, .word w :: ts)
    | r => r
/-- OR. -/
def pOr : ℕ → List STok → Option (SCond × List STok)
  | 0, _ => none
  | n + 1, ts =>
    match pAnd n ts with
    | some (c, .word w :: ts) =>
      if isKw w "OR" then
        match pOr n ts with
        | some (d, ts) => some (.or c d, ts)
        | none => none
      else some (c, .word w :: ts)
    | r => r
end

/-- The database reads the text as this condition: all tokens are used. -/
def ReadsAs (text : List Char) (c : SCond) : Prop :=
  ∃ ts n, lexFrom lexStart .start text = some ts ∧ pOr n ts = some (c, [])

/-- A DataFrame reads the text as this condition. -/
def PyReads (text : List Char) (c : SCond) : Prop :=
  ∃ ts n, lexFrom pyStart .start text = some ts ∧ pOr n ts = some (c, [])

/-- The strings that occur in a condition. -/
def COperand.strings : COperand → List (List Char)
  | .lit (.str s) => [s]
  | _ => []

/-- The strings that occur in a condition. -/
def SCond.strings : SCond → List (List Char)
  | .eq a b | .ne a b | .ord _ _ a b => a.strings ++ b.strings
  | .not c => c.strings
  | .and a b | .or a b => a.strings ++ b.strings

/-- A row: names to values, `none` for NULL. -/
abbrev CRow := List Char → Option CVal

/-- The value of one side. -/
def COperand.eval (r : CRow) : COperand → Option CVal
  | .col c => r c
  | .lit v => some v

/-- One value before another: numbers by size, texts by their characters, dates by time. Values of different kinds have no order. -/
def CVal.before : CVal → CVal → Option Bool
  | .int a, .int b => some (decide (a < b))
  | .str a, .str b => some (decide (a < b))
  | .date a b c, .date d e f => some (decide ([a, b, c] < [d, e, f]))
  | _, _ => none

/-- `<`, `<=`, `>` and `>=`. -/
def CVal.compare (greater orEqual : Bool) (x y : CVal) : Option Bool :=
  match greater, orEqual with
  | false, false => x.before y
  | true, false => y.before x
  | false, true => (y.before x).map (!·)
  | true, true => (x.before y).map (!·)

/-- Three-valued logic. -/
def SCond.eval (r : CRow) : SCond → Option Bool
  | .eq a b => (a.eval r).bind fun x => (b.eval r).map fun y => decide (x = y)
  | .ne a b => (a.eval r).bind fun x => (b.eval r).map fun y => decide (x ≠ y)
  | .ord g e a b => (a.eval r).bind fun x => (b.eval r).bind fun y => x.compare g e y
  | .not c => (c.eval r).map (!·)
  | .and a b =>
    match a.eval r, b.eval r with
    | some false, _ => some false
    | _, some false => some false
    | some true, some true => some true
    | _, _ => none
  | .or a b =>
    match a.eval r, b.eval r with
    | some true, _ => some true
    | _, some true => some true
    | some false, some false => some false
    | _, _ => none

/-- How `df.query` judges a row: two values of truth, a missing value is different from everything and not comparable. -/
def SCond.query (r : CRow) : SCond → Bool
  | .eq a b =>
    match a.eval r, b.eval r with
    | some x, some y => decide (x = y)
    | _, _ => false
  | .ne a b =>
    match a.eval r, b.eval r with
    | some x, some y => decide (x ≠ y)
    | _, _ => true
  | .ord g e a b =>
    match a.eval r, b.eval r with
    | some x, some y => x.compare g e y = some true
    | _, _ => false
  | .not c => !c.query r
  | .and a b => a.query r && b.query r
  | .or a b => a.query r || b.query r

/-- Every value that the condition looks at is there, and values are compared with values of their kind. -/
def SCond.complete (r : CRow) : SCond → Prop
  | .eq a b | .ne a b => a.eval r ≠ none ∧ b.eval r ≠ none
  | .ord g e a b => ∃ x y, a.eval r = some x ∧ b.eval r = some y ∧ x.compare g e y ≠ none
  | .not c => c.complete r
  | .and a b | .or a b => a.complete r ∧ b.complete r

/-- A condition that denies nothing: no `!=` and no NOT. -/
def SCond.positive : SCond → Prop
  | .eq _ _ | .ord _ _ _ _ => True
  | .ne _ _ | .not _ => False
  | .and a b | .or a b => a.positive ∧ b.positive

/-- WHERE keeps the row. -/
def SCond.keeps (c : SCond) (r : CRow) : Prop := c.eval r = some true

/-- `CASE col WHEN v₁ THEN n₁ ... ELSE m END`. -/
structure SCase where
  col : List Char
  whens : List (CVal × ℕ)
  other : ℕ
  desc : Bool
  deriving DecidableEq

/-- The part from the first WHEN on. -/
def pWhens : ℕ → List STok → Option (List (CVal × ℕ) × ℕ × Bool)
  | 0, _ => none
  | n + 1, .word w :: ts =>
    if isKw w "WHEN" then
      match pOperand ts with
      | some (.lit v, .word t :: .num i :: ts) =>
        if isKw t "THEN" then (pWhens n ts).map fun r => ((v, i) :: r.1, r.2) else none
      | _ => none
    else if isKw w "ELSE" then
      match ts with
      | [.num i, .word e] => if isKw e "END" then some ([], i, false) else none
      | [.num i, .word e, .word d] => if isKw e "END" ∧ isKw d "DESC" then some ([], i, true) else none
      | _ => none
    else none
  | _ + 1, _ => none

/-- The database reads the text as this CASE. -/
def ReadsCase (text : List Char) (c : SCase) : Prop :=
  ∃ k w ts n, lexFrom lexStart .start text = some (.word k :: .word w :: ts) ∧ isKw k "CASE" ∧ keyword w = false ∧
    c.col = w ∧ pWhens n ts = some (c.whens, c.other, c.desc)

/-- The value of a CASE: that of the first WHEN that is equal. -/
def SCase.eval (r : CRow) (c : SCase) : ℕ :=
  match c.whens.find? fun p => r c.col = some p.1 with
  | some p => p.2
  | none => c.other

/-- A name that is a word and no keyword. -/
def NameOK (c : List Char) : Prop :=
  (∃ a as, c = a :: as ∧ wordStart a = true ∧ ∀ x ∈ as, wordChar x = true) ∧ keyword c = false

/-- A value that needs no escape: an integer, or a string without quotes, backslashes, line breaks that
does not begin with a dollar sign. -/
def PlainVal : CVal → Prop
  | .str s => s.head? ≠ some '$' ∧ ∀ c ∈ s, c ≠ '"' ∧ c ≠ '\\' ∧ c ≠ '\n'
  | .int _ => True
  | .date _ _ _ => False

/-- No two equal signs in a row. -/
def NoEqEq : CVal → Prop
  | .str s => ¬ ['=', '='] <:+: s
  | _ => True

/-- Columns and values that need no escape. -/
def ColsOK (kvs : List (List Char × CVal)) : Prop := ∀ p ∈ kvs, NameOK p.1 ∧ PlainVal p.2

/-- A unit of the kind that the query expects, a number or a string that needs no escape. -/
def LooOK (numeric : Bool) : CVal → Prop
  | .int _ => numeric = true
  | .str s => numeric = false ∧ ∀ c ∈ s, c ≠ '"' ∧ c ≠ '\\' ∧ c ≠ '\n'
  | .date _ _ _ => False

end Verif
