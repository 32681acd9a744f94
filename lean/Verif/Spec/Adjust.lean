import Verif.Model.Adjust

/-!
# Specification for C36
-/

namespace Verif
variable {S D K : Type} [DecidableEq S] [DecidableEq D] [Field K] [LinearOrder K]

/-- A constant is added to the covariate, possibly a different one in each slice. -/
def shiftX (δ : S → K) (t : ATab S D K) : ATab S D K := t.map fun r => (r.1, (r.2.1, r.2.2 + δ r.1.1))

def shiftM {p : Nat} (δ : S → Fin p → K) (t : MTab S D K p) : MTab S D K p :=
  t.map fun r => (r.1, (r.2.1, fun j => r.2.2 j + δ r.1.1 j))

/-- The change without adjustment: of the averages of `y` over the strata. -/
def plainAvg (t : ATab S D K) : DTab S D K :=
  (cellKeys t).map fun k => (k, some (avgL ((cellXY t k).map (·.1))))

/-- In each slice the covariate has the same average under all conditions. -/
def Balanced (t : ATab S D K) : Prop :=
  ∃ m : S → K, ∀ k ∈ t.map (·.1), avgL ((cellXY t k).map (·.2)) = m k.1

/-- The squared loss of a linear model. -/
def sqLoss {p : Nat} (th : Fin p → K) (c : K) (l : List (K × (Fin p → K))) : K :=
  (l.map fun r => (r.1 - c - ∑ j, th j * r.2 j) ^ 2).sum

/-- The fit minimises the squared loss (on rows that are not empty). -/
def LeastSquares {p : Nat} (fit : Fit K p) : Prop :=
  ∀ l, l ≠ [] → ∀ th c, sqLoss (fit l).1 (fit l).2 l ≤ sqLoss th c l

/-- As `plainAvg` and `Balanced`, with several covariates. -/
def plainAvgM {p : Nat} (t : MTab S D K p) : DTab S D K :=
  ((t.map (·.1)).dedup).map fun k => (k, some (avgL ((cellM t k).map (·.1))))

def BalancedM {p : Nat} (t : MTab S D K p) : Prop :=
  ∃ m : S → Fin p → K, ∀ k ∈ t.map (·.1), avgX (cellM t k) = m k.1

/-- `th` is the slope of a regression of `y` on `x` with an intercept: with a suitable intercept no other line has a
smaller squared loss, and the slope of every line that is as good is `th`. -/
def IsSlope (th : K) (l : List (K × K)) : Prop :=
  (∃ c, ∀ th' c', (l.map fun p => (p.1 - c - th * p.2) ^ 2).sum ≤ (l.map fun p => (p.1 - c' - th' * p.2) ^ 2).sum) ∧
  ∀ th' c', (∀ th'' c'', (l.map fun p => (p.1 - c' - th' * p.2) ^ 2).sum ≤
    (l.map fun p => (p.1 - c'' - th'' * p.2) ^ 2).sum) → th' = th

/-- A table with one covariate as a table with several. -/
def oneCov (t : ATab S D K) : MTab S D K 1 := t.map fun r => (r.1, (r.2.1, fun _ => r.2.2))

end Verif
