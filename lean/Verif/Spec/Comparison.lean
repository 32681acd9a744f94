import Verif.Model.Comparison

/-!
# Specification for C34 and C35
-/

namespace Verif
variable {S D G K : Type} [DecidableEq S] [DecidableEq D] [DecidableEq G] [Field K]

/-- The value of the baseline in a slice, if it has a row there and is not missing. -/
def baseVal (t : DTab S D K) (b : D) (s : S) : Option K := (t.lookup (s, b)).join

/-- Percent change, defined unless the base is missing or zero. -/
def pctChangeOf (v base : Option K) [DecidableEq K] : Option K :=
  match v, base with
  | some v, some base => if base = 0 then none else some ((v - base) / base * 100)
  | _, _ => none

/-- Absolute change. -/
def absOf (v base : Option K) : Option K :=
  match v, base with
  | some v, some base => some (v - base)
  | _, _ => none

/-- One stratum of a comparison: numerator and denominator of the condition (`a`, `c`) and of the baseline
(`b`, `d`). -/
structure Stratum (K : Type) where
  a : K
  c : K
  b : K
  d : K

/-- The Mantel-Haenszel ratio as a percent change. -/
def mhValue (l : List (Stratum K)) : K :=
  ((l.map fun x => x.a * x.d / (x.c + x.d)).sum / (l.map fun x => x.b * x.c / (x.c + x.d)).sum - 1) * 100

/-- The strata in which a condition can be compared with the baseline in a slice: both have a row with numbers there,
and the two denominators do not add up to zero. -/
def strataOf [DecidableEq K] (t : MHTab S D G K) (b : D) (s : S) (d : D) : List (Stratum K) :=
  t.filterMap fun r =>
    if r.1.1 = s ∧ r.1.2.1 = d then
      match r.2, t.lookup (s, b, r.1.2.2) with
      | (some a, some c), some (some b, some d) => if c + d = 0 then none else some ⟨a, c, b, d⟩
      | _, _ => none
    else none

end Verif
