import Verif.Model.SqlArith

/-!
# Specification for C25

The value of Python arithmetic on columns, and how SQL reads a text: a recursive descent parser
with the usual precedence (unary minus, then `*` and `/`, then `+` and `-`, all to the left) and an evaluator.
A value is `none` for NULL. NULL is propagated by every operation; `IF` takes its third argument
unless the condition is true.
-/

namespace Verif
variable {K : Type} [Field K] [DecidableEq K]

/-- An operation on values that propagates NULL. -/
def op2 (f : K → K → K) : Option K → Option K → Option K
  | some a, some b => some (f a b)
  | _, _ => none

/-- An operation that may itself give NULL (`SAFE.` functions). -/
def op2? (f : K → K → Option K) : Option K → Option K → Option K
  | some a, some b => f a b
  | _, _ => none

/-- The intended value, given the values of the columns and the power function of the database. -/
def CE.val (env : Nat → Option K) (pw : K → K → Option K) : CE K → Option K
  | .col i _ => env i
  | .num ng v _ => some (if ng then -v else v)
  | .add a b => op2 (· + ·) (a.val env pw) (b.val env pw)
  | .sub a b => op2 (· - ·) (a.val env pw) (b.val env pw)
  | .mul a b => op2 (· * ·) (a.val env pw) (b.val env pw)
  | .neg a => (a.val env pw).map (- ·)
  | .div a b => op2? (fun x y => if y = 0 then none else some (x / y)) (a.val env pw) (b.val env pw)
  | .pow a b => op2? pw (a.val env pw) (b.val env pw)

/-- Syntax trees of SQL. -/
inductive SE (K : Type) where
  | atom (i : Nat) | num (v : K) | null
  | add (a b : SE K) | sub (a b : SE K) | mul (a b : SE K) | div (a b : SE K) | neg (a : SE K)
  /-- `IF(c = 0, a, b)` -/
  | ifz (c a b : SE K)
  | power (a b : SE K) | sqrt (a : SE K)

/-- Evaluation; the outer `none` is a runtime error, which a division by zero is. -/
def SE.eval (env : Nat → Option K) (pw : K → K → Option K) (sq : K → Option K) : SE K → Option (Option K)
  | .atom i => some (env i)
  | .num v => some (some v)
  | .null => some none
  | .add a b => do let x ← a.eval env pw sq; let y ← b.eval env pw sq; pure (op2 (· + ·) x y)
  | .sub a b => do let x ← a.eval env pw sq; let y ← b.eval env pw sq; pure (op2 (· - ·) x y)
  | .mul a b => do let x ← a.eval env pw sq; let y ← b.eval env pw sq; pure (op2 (· * ·) x y)
  | .div a b => do
      let x ← a.eval env pw sq
      let y ← b.eval env pw sq
      if x ≠ none ∧ y = some 0 then none else pure (op2 (· / ·) x y)
  | .neg a => do let x ← a.eval env pw sq; pure (x.map (- ·))
  | .ifz c a b => do
      let x ← c.eval env pw sq
      if x = some 0 then a.eval env pw sq else b.eval env pw sq
  | .power a b => do let x ← a.eval env pw sq; let y ← b.eval env pw sq; pure (op2? pw x y)
  | .sqrt a => do let x ← a.eval env pw sq; pure (x.bind sq)

/-- What the parser is reading. -/
inductive Mode (K : Type) where
  | expr | term | unary | prim
  | exprRest (acc : SE K) | termRest (acc : SE K)

/-- The parser: the tree read and the remaining tokens. `fuel` bounds the depth of the recursion. -/
def parse : Nat → Mode K → List (ATok K) → Option (SE K × List (ATok K))
  | 0, _, _ => none
  | n + 1, .expr, ts => do
      let (t, r) ← parse n .term ts
      parse n (.exprRest t) r
  | n + 1, .exprRest acc, ts =>
      match ts with
      | .plus :: r => do
          let (t, r) ← parse n .term r
          parse n (.exprRest (.add acc t)) r
      | .bminus :: r => do
          let (t, r) ← parse n .term r
          parse n (.exprRest (.sub acc t)) r
      | .uminus :: r => do
          let (t, r) ← parse n .term r
          parse n (.exprRest (.sub acc t)) r
      | _ => some (acc, ts)
  | n + 1, .term, ts => do
      let (t, r) ← parse n .unary ts
      parse n (.termRest t) r
  | n + 1, .termRest acc, ts =>
      match ts with
      | .times :: r => do
          let (t, r) ← parse n .unary r
          parse n (.termRest (.mul acc t)) r
      | .slash :: r => do
          let (t, r) ← parse n .unary r
          parse n (.termRest (.div acc t)) r
      | _ => some (acc, ts)
  | n + 1, .unary, ts =>
      match ts with
      | .bminus :: r => do
          let (t, r) ← parse n .unary r
          pure (.neg t, r)
      | .uminus :: r => do
          let (t, r) ← parse n .unary r
          pure (.neg t, r)
      | _ => parse n .prim ts
  | n + 1, .prim, ts =>
      match ts with
      | .atom i _ :: r => some (.atom i, r)
      | .num v _ :: r => some (.num v, r)
      | .kwNull :: r => some (.null, r)
      | .lpar :: r => do
          let (t, r) ← parse n .expr r
          match r with
          | .rpar :: r => some (t, r)
          | _ => none
      | .kwSqrt :: r => do
          let (t, r) ← parse n .expr r
          match r with
          | .rpar :: r => some (.sqrt t, r)
          | _ => none
      | .kwPower :: r => do
          let (t, r) ← parse n .expr r
          match r with
          | .comma :: r => do
              let (u, r) ← parse n .expr r
              match r with
              | .rpar :: r => some (.power t u, r)
              | _ => none
          | _ => none
      | .kwIf :: r => do
          let (c, r) ← parse n .expr r
          match r with
          | .eqZero :: .comma :: r => do
              let (t, r) ← parse n .expr r
              match r with
              | .comma :: r => do
                  let (u, r) ← parse n .expr r
                  match r with
                  | .rpar :: r => some (.ifz c t u, r)
                  | _ => none
              | _ => none
          | _ => none
      | _ => none

/-- The text is read as the tree. -/
def Reads (ts : List (ATok K)) (t : SE K) : Prop := ∃ n, parse n .expr ts = some (t, [])

/-- The text contains the start of a comment, `--`. -/
def Comment : List (ATok K) → Prop
  | .uminus :: .uminus :: _ => True
  | .uminus :: .bminus :: _ => True
  | _ :: ts => Comment ts
  | [] => False

/-- Expressions that arise in Python: a number is only ever combined with a column. -/
def CE.wf : CE K → Prop
  | .col _ _ => True
  | .num _ _ _ => False
  | .neg a => a.wf
  | .add a b | .sub a b | .mul a b | .div a b | .pow a b =>
      (a.wf ∧ (b.wf ∨ b.isNum)) ∨ (a.isNum ∧ b.wf)

end Verif
