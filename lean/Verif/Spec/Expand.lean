import Verif.Model.Expand

/-!
# Specification for C17-C19: textbook statistics of rows without missing values

Independent of the expansion. Nothing here mentions equivalents.
-/

namespace Verif

/-- The number in a column (only used where it is present). -/
noncomputable def ECol.get (v : ECol) (r : RRow) : ℝ := (v.eval r).getD 0

/-- Sum over rows. -/
noncomputable def tot (rs : List RRow) (f : RRow → ℝ) : ℝ := (rs.map f).sum

/-- Weighted mean `Σ w x / Σ w`. -/
noncomputable def wavg (rs : List RRow) (w x : RRow → ℝ) : ℝ := tot rs (fun r => w r * x r) / tot rs w

/-- Weighted cross moment about the weighted means, `Σ w (x - x̄) (y - ȳ)`. -/
noncomputable def crossM (rs : List RRow) (w x y : RRow → ℝ) : ℝ :=
  tot rs fun r => w r * (x r - wavg rs w x) * (y r - wavg rs w y)

/-- Number of rows. -/
noncomputable def nrows (rs : List RRow) : ℝ := (rs.length : ℝ)

/-- An optional weight column, all ones if absent. -/
noncomputable def wt? (w : Option ECol) (r : RRow) : ℝ :=
  match w with
  | none => 1
  | some c => c.get r

open Classical in
/-- Variance with degrees of freedom correction: `Σ w (x - x̄)² / (Σ w - ddof)`, undefined unless the
denominator is positive and there is something to average. Without weights, `w = 1` and `Σ w` is the number of rows. -/
noncomputable def tbVariance (rs : List RRow) (w : RRow → ℝ) (ddof : ℝ) (x : RRow → ℝ) : Option ℝ :=
  if 0 < tot rs w ∧ 0 < tot rs w - ddof then some (crossM rs w x x / (tot rs w - ddof)) else none

/-- Standard deviation. -/
noncomputable def tbSD (rs : List RRow) (w : RRow → ℝ) (ddof : ℝ) (x : RRow → ℝ) : Option ℝ :=
  (tbVariance rs w ddof x).map Real.sqrt

open Classical in
/-- `numpy.cov` with frequency weights `f` and observation weights `a` (numpy's documentation):
with `w = f a` and `v₁ = Σ w`, it is `Σ w (x - x̄) (y - ȳ) / (v₁ - ddof * Σ w a / v₁)`. Without observation
weights `a = 1`, so the denominator is `Σ f - ddof`; without any, it is `n - ddof`. -/
noncomputable def tbCov (rs : List RRow) (f a : RRow → ℝ) (ddof : ℝ) (x y : RRow → ℝ) : Option ℝ :=
  let w := fun r => f r * a r
  let v1 := tot rs w
  let fact := v1 - ddof * tot rs (fun r => w r * a r) / v1
  if 0 < v1 ∧ 0 < fact then some (crossM rs w x y / fact) else none

open Classical in
/-- Pearson correlation `Σ w (x - x̄) (y - ȳ) / (√(Σ w (x - x̄)²) √(Σ w (y - ȳ)²))`, undefined if there is
no weight or a column is constant. -/
noncomputable def tbCorr (rs : List RRow) (w x y : RRow → ℝ) : Option ℝ :=
  if 0 < tot rs w ∧ crossM rs w x x ≠ 0 ∧ crossM rs w y y ≠ 0 then
    some (crossM rs w x y / (Real.sqrt (crossM rs w x x) * Real.sqrt (crossM rs w y y)))
  else none

open Classical in
/-- The textbook value of every leaf metric on rows without missing values. -/
noncomputable def textbook (sem : ESem) : SLeaf → List RRow → Option ℝ
  | .sum v, rs => some (tot rs v.get)
  | .count _ false, rs => some (nrows rs)
  | .count v true, rs => some ((rs.map v.get).toFinset.card : ℝ)
  | .max v, rs => (rs.map v.get).max?
  | .min v, rs => (rs.map v.get).min?
  | .other i, rs => sem.other i rs
  | .dot v w false, rs => some (tot rs fun r => v.get r * w.get r)
  | .dot v w true, rs =>
      if rs = [] then none else some (tot rs (fun r => v.get r * w.get r) / nrows rs)
  | .mean v none, rs => if rs = [] then none else some (tot rs v.get / nrows rs)
  | .mean v (some w), rs => if tot rs w.get = 0 then none else some (wavg rs w.get v.get)
  | .variance v unb w, rs => tbVariance rs (wt? w) (if unb then 1 else 0) v.get
  | .sd v unb w, rs => tbSD rs (wt? w) (if unb then 1 else 0) v.get
  | .cv v unb, rs => do
      let s ← tbSD rs (fun _ => 1) (if unb then 1 else 0) v.get
      if tot rs v.get = 0 then none else some (s / (tot rs v.get / nrows rs))
  | .corr v w wt, rs => tbCorr rs (wt? wt) v.get w.get
  | .cov v w bias ddof wt fw, rs =>
      tbCov rs (wt? fw) (wt? wt) ((ddof.getD (if bias then 0 else 1) : ℤ) : ℝ) v.get w.get

/-- The columns an auxiliary column is built from. -/
def ECol.bases : ECol → List String
  | .base c => [c]
  | .mul a b => a.bases ++ b.bases
  | .sq a => a.bases

/-- The data columns and the weight columns of a leaf. -/
def SLeaf.cols : SLeaf → List ECol
  | .sum v | .count v _ | .max v | .min v | .cv v _ => [v]
  | .other _ => []
  | .dot v w _ => [v, w]
  | .mean v w | .variance v _ w | .sd v _ w => v :: w.toList
  | .corr v w wt => v :: w :: wt.toList
  | .cov v w _ _ wt fw => v :: w :: (wt.toList ++ fw.toList)

/-- The weight columns of a leaf. -/
def SLeaf.weights : SLeaf → List ECol
  | .mean _ _ => []
  | .variance _ _ w | .sd _ _ w | .corr _ _ w => w.toList
  | .cov _ _ _ _ wt fw => wt.toList ++ fw.toList
  | _ => []

mutual
/-- The leaves of a tree. -/
def ET.leaves : ET → List SLeaf
  | .const _ => []
  | .leaf k _ _ => [k]
  | .comp _ l r _ _ => l.leaves ++ r.leaves
  | .node _ cs _ _ => ET.leavesL cs
/-- The leaves of several trees. -/
def ET.leavesL : List ET → List SLeaf
  | [] => []
  | c :: cs => c.leaves ++ ET.leavesL cs
end

/-- Metrics that have no equivalent: Sum, Count, Max, Min, and the other leaves without one. -/
def SLeaf.elementary : SLeaf → Prop
  | .sum _ | .count _ _ | .max _ | .min _ | .other _ => True
  | _ => False

/-- Name and filter of the root. -/
def ET.nameOf : ET → Option String
  | .const _ => none
  | .leaf _ n _ | .comp _ _ _ n _ | .node _ _ n _ => n
/-- The filter of the root. -/
def ET.whereOf : ET → List Nat
  | .const _ => []
  | .leaf _ _ w | .comp _ _ _ _ w | .node _ _ _ w => w

/-- Data without missing values in the columns `C`, with no negative entry in the (weight) columns
`W`. -/
def CleanOn (C W : List String) (rs : List RRow) : Prop :=
  ∀ r ∈ rs, (∀ c ∈ C, (r c).isSome) ∧ ∀ c ∈ W, ∀ x, r c = some x → 0 ≤ x

/-- The tree reads only columns in `C` and weights with columns in `W`. -/
def ET.reads (C W : List String) (t : ET) : Prop :=
  ∀ k ∈ t.leaves, (∀ v ∈ k.cols, ∀ c ∈ v.bases, c ∈ C) ∧ (∀ v ∈ k.weights, ∀ c ∈ v.bases, c ∈ W)

/-- Metrics with children use them only through their values on data of the same kind. -/
def NodesExtensional (sem : ESem) (C W : List String) : Prop :=
  ∀ tag (fs gs : List (List RRow → Option ℝ)),
    List.Forall₂ (fun f g => ∀ rs, CleanOn C W rs → f rs = g rs) fs gs →
    ∀ rs, CleanOn C W rs → sem.node tag fs rs = sem.node tag gs rs

end Verif
