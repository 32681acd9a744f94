import Verif.Model.Metric

/-!
# The columns a metric names
-/

namespace Verif

/-- Two rows are the same in the columns of `S`. -/
def RowSameIn (S : String → Prop) (r r' : Row) : Prop := ∀ v, S v → r v = r' v

/-- Two tables have the same columns of `S`, with the same values row by row; other columns may be missing, added or different. -/
structure Frame.SameIn (S : String → Prop) (f f' : Frame) : Prop where
  cols : ∀ v, S v → (v ∈ f.cols ↔ v ∈ f'.cols)
  rows : List.Forall₂ (RowSameIn S) f.rows f'.rows

/-- The filters look at columns of `S` only. -/
def FiltersIn (env : Env) (S : String → Prop) (wh : List String) : Prop := ∀ w ∈ wh, ∀ r r', RowSameIn S r r' → env.query w r = env.query w r'

/-- Every column that the metric names, in aggregations, operations and filters, is in `S`. -/
inductive NamesOnly (env : Env) (S : String → Prop) : M → Prop
  | const (q) : NamesOnly env S (.const q)
  | leaf {k wh} : (∀ v ∈ k.vars, S v) → FiltersIn env S wh → NamesOnly env S (.leaf k wh)
  | comp {op l r wh} : NamesOnly env S l → NamesOnly env S r → FiltersIn env S wh → NamesOnly env S (.comp op l r wh)
  | list {ms wh} : (∀ m ∈ ms, NamesOnly env S m) → FiltersIn env S wh → NamesOnly env S (.list ms wh)
  | oper {o m wh} : NamesOnly env S m → (∀ v ∈ o.splitBy, S v) → FiltersIn env S wh → NamesOnly env S (.oper o m wh)

end Verif
