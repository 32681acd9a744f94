import Verif.Model.Metric

/-!
# Changing the unit of measurement

A column in dollars and one in cents, metres and feet: every number of column `v` is multiplied by `s v`.
-/

namespace Verif

/-- A row with the columns in other units. -/
def inUnits (s : String → Rat) (r : Row) : Row := fun v => (r v).map fun x => s v * x

/-- A table with the columns in other units. -/
def Frame.scale (f : Frame) (s : String → Rat) : Frame := { f with rows := f.rows.map (inUnits s) }

/-- A result in another unit: infinite and missing ones stay. -/
def PyVal.scale (c : Rat) : PyVal → PyVal
  | .fin q => .fin (c * q)
  | .pinf => .pinf
  | .ninf => .ninf
  | .nan => .nan

/-- A column of results in another unit; the index stays. -/
def Tbl.scale (c : Rat) (t : Tbl) : Tbl := t.map fun p => (p.1, p.2.scale c)

/-- A result table in another unit. -/
def Res.scale (c : Rat) : Res → Res
  | .num q => .num (c * q)
  | .tbl ex cs => .tbl ex (cs.map (Tbl.scale c))

/-- The outcome in another unit: an error stays. -/
def scaleOutcome (c : Rat) : Except Err Res → Except Err Res
  | .ok r => .ok (r.scale c)
  | .error e => .error e

/-- The unit of an aggregation: that of its column, the product for products, none for counts. -/
def Leaf.unit (s : String → Rat) : Leaf → Rat
  | .sum v | .mean v | .max v | .min v => s v
  | .count _ | .countDistinct _ => 1
  | .dot v w _ => s v * s w
  | .wmean v _ => s v

/-- The filters do not depend on the units. -/
def SameFilter (env : Env) (s : String → Rat) (wh : List String) : Prop := ∀ w ∈ wh, ∀ r, env.query w (inUnits s r) = env.query w r

/-- `HasUnit env s m c`: by the rules of dimensional analysis `m` is multiplied by `c` when the columns are by `s`. Sums,
differences and lists have parts of one unit, products and quotients of any; numbers, shares and relative changes have none. -/
inductive HasUnit (env : Env) (s : String → Rat) : M → Rat → Prop
  | const (q) : HasUnit env s (.const q) 1
  | leaf (k wh) : SameFilter env s wh → HasUnit env s (.leaf k wh) (k.unit s)
  | add {l r c} (wh) : HasUnit env s l c → HasUnit env s r c → SameFilter env s wh → HasUnit env s (.comp .add l r wh) c
  | sub {l r c} (wh) : HasUnit env s l c → HasUnit env s r c → SameFilter env s wh → HasUnit env s (.comp .sub l r wh) c
  | mul {l r c d} (wh) : HasUnit env s l c → HasUnit env s r d → SameFilter env s wh → HasUnit env s (.comp .mul l r wh) (c * d)
  | div {l r c d} (wh) : HasUnit env s l c → HasUnit env s r d → SameFilter env s wh → HasUnit env s (.comp .div l r wh) (c / d)
  | neg {l r c d} (wh) : HasUnit env s l c → HasUnit env s r d → SameFilter env s wh → HasUnit env s (.comp .neg l r wh) c
  | list {ms c} (wh) : 0 < c → (∀ m ∈ ms, HasUnit env s m c) → SameFilter env s wh → HasUnit env s (.list ms wh) c
  | absChange {cond base incl m c} (wh) : HasUnit env s m c → (∀ v ∈ cond, s v = 1) → SameFilter env s wh →
      HasUnit env s (.oper (.absChange cond base incl) m wh) c
  | pctChange {cond base incl m c} (wh) : HasUnit env s m c → (∀ v ∈ cond, s v = 1) → SameFilter env s wh →
      HasUnit env s (.oper (.pctChange cond base incl) m wh) 1
  | dist {over m c} (wh) : HasUnit env s m c → (∀ v ∈ over, s v = 1) → SameFilter env s wh → HasUnit env s (.oper (.dist over) m wh) 1
  | hhi {over m c} (wh) : HasUnit env s m c → (∀ v ∈ over, s v = 1) → SameFilter env s wh → HasUnit env s (.oper (.hhi over) m wh) 1

end Verif
