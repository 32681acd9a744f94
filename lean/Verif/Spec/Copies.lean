import Verif.Spec.Units

/-!
# Data given several times

`pd.concat([df] * n)`.
-/

namespace Verif

/-- A list `n` times in a row. -/
def nTimes {α : Type} (n : Nat) (rs : List α) : List α := (List.replicate n rs).flatten

/-- A table whose rows are there `n` times. -/
def Frame.copies (f : Frame) (n : Nat) : Frame := { f with rows := nTimes n f.rows }

/-- How an aggregation grows with `n` copies of the data: totals and counts do, averages, extremes and numbers of different values
do not. -/
def Leaf.growth (n : Nat) : Leaf → Rat
  | .sum _ | .count _ => n
  | .mean _ | .max _ | .min _ | .countDistinct _ | .wmean _ _ => 1
  | .dot _ _ normalize => if normalize then 1 else n

/-- `Grows n m c`: the result of `m` on `n` copies of the data is `c` times that on the data, by the formula of `m`. Sums, differences
and lists have parts that grow alike; products and quotients any; numbers, shares and relative changes do not grow. -/
inductive Grows (n : Nat) : M → Rat → Prop
  | const (q) : Grows n (.const q) 1
  | leaf (k wh) : Grows n (.leaf k wh) (k.growth n)
  | add {l r c} (wh) : Grows n l c → Grows n r c → Grows n (.comp .add l r wh) c
  | sub {l r c} (wh) : Grows n l c → Grows n r c → Grows n (.comp .sub l r wh) c
  | mul {l r c d} (wh) : Grows n l c → Grows n r d → Grows n (.comp .mul l r wh) (c * d)
  | div {l r c d} (wh) : Grows n l c → Grows n r d → Grows n (.comp .div l r wh) (c / d)
  | pow {l r} (wh) : Grows n l 1 → Grows n r 1 → Grows n (.comp .pow l r wh) 1
  | neg {l r c d} (wh) : Grows n l c → Grows n r d → Grows n (.comp .neg l r wh) c
  | list {ms c} (wh) : 0 < c → (∀ m ∈ ms, Grows n m c) → Grows n (.list ms wh) c
  | absChange {cond base incl m c} (wh) : Grows n m c → Grows n (.oper (.absChange cond base incl) m wh) c
  | pctChange {cond base incl m c} (wh) : Grows n m c → Grows n (.oper (.pctChange cond base incl) m wh) 1
  | dist {over m c} (wh) : Grows n m c → Grows n (.oper (.dist over) m wh) 1
  | hhi {over m c} (wh) : Grows n m c → Grows n (.oper (.hhi over) m wh) 1

end Verif
