import Verif.Model.Distribution

/-!
# Specification for C28-C33
-/

namespace Verif
variable {S C K : Type} [DecidableEq S] [Field K]

/-- The values present in a slice of the child's result. -/
def presentVals (t : DTab S C K) (s : S) : List K := t.filterMap fun r => if r.1.1 = s then r.2 else none

/-- Their total. -/
def sliceTotal (t : DTab S C K) (s : S) : K := (presentVals t s).sum

/-- The rows of a slice: category and value. -/
def sliceRows (t : DTab S C K) (s : S) : List (C × Option K) :=
  t.filterMap fun r => if r.1.1 = s then some (r.1.2, r.2) else none

/-- The combined share of some of the values of a list. -/
def shareOf (sub vs : List K) : K := sub.sum / vs.sum

/-- What the mode means for two rows, the first of which comes earlier. -/
def ordered [LinearOrder C] [LinearOrder K] (mode : CumMode C) (asc : Bool) (a b : C × K) : Prop :=
  match mode with
  | .over => if asc then a.1 ≤ b.1 else b.1 ≤ a.1
  | .custom order => if asc then order.idxOf a.1 ≤ order.idxOf b.1 else order.idxOf b.1 ≤ order.idxOf a.1
  | .byValue => if asc then a.2 ≤ b.2 else b.2 ≤ a.2

/-- The running shares of rows in a given order: the value of a row is the sum of the values up to it, divided by the
total. -/
def runningShare (arr : List (C × K)) : List (C × Option K) :=
  (arr.map (·.1)).zip ((List.range arr.length).map fun i =>
    some (((arr.map (·.2)).take (i + 1)).sum / (arr.map (·.2)).sum))

/-- The mode lists every category of the slice: automatic unless there is a custom order. -/
def listsAll (mode : CumMode C) (cats : List C) : Prop :=
  match mode with
  | .custom order => order.Nodup ∧ ∀ c ∈ cats, c ∈ order
  | _ => True

end Verif
