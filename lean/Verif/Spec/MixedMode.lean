import Verif.Model.MixedMode
import Verif.Spec.SqlAgree

/-!
# Tables that are the same but for the order of rows; the nodes a computation reaches
-/

namespace Verif

/-- The same rows, perhaps in another order; no index value twice. -/
def Tbl.Same (t t' : Tbl) : Prop := t.Perm t' ∧ (t.map Prod.fst).Nodup

/-- The same columns with the same index levels, each with the same rows. -/
def Res.Same : Res → Res → Prop
  | .num a, .num b => a = b
  | .tbl ex cs, .tbl ex' cs' => ex = ex' ∧ List.Forall₂ Tbl.Same cs cs'
  | _, _ => False

/-- `compute_on` of the first node on the first table with the first split asks for `compute_on` of the second on the second: every
node filters the table by its `where`, an operation adds its columns to the split. -/
inductive Reach (env : Env) : M → Frame → List String → M → Frame → List String → Prop
  | here (m f sb) : Reach env m f sb m f sb
  | left {op l r wh f sb n f' sb'} : Reach env l (f.query env wh) sb n f' sb' → Reach env (.comp op l r wh) f sb n f' sb'
  | right {op l r wh f sb n f' sb'} : Reach env r (f.query env wh) sb n f' sb' → Reach env (.comp op l r wh) f sb n f' sb'
  | item {ms wh f sb m n f' sb'} : m ∈ ms → Reach env m (f.query env wh) sb n f' sb' → Reach env (.list ms wh) f sb n f' sb'
  | child {o c wh f sb n f' sb'} : Reach env c (f.query env wh) (sb ++ o.splitBy) n f' sb' →
      Reach env (.oper o c wh) f sb n f' sb'

/-- No list in the tree hides a failing child. -/
def NoneFails (env : Env) (m : M) (f : Frame) (sb : List String) : Prop :=
  ∀ ms wh f' sb', Reach env m f sb (.list ms wh) f' sb' →
    ∀ c ∈ ms, ∃ r, c.run env (f'.query env wh) sb' = .ok r

/-- Where a query of one aggregation gives what pandas gives: no missing group keys, a value in each group for sums (NULL against 0),
no weights that add up to 0 (NULL against infinity). -/
def LeafFits (env : Env) (m : M) (f : Frame) (sb : List String) : Prop :=
  ∀ k wh f' sb', Reach env m f sb (.leaf k wh) f' sb' →
    (∀ r ∈ (f'.query env wh).rows, ∀ c ∈ sb', r c ≠ none) ∧
    ∀ v ∈ groupKeys sb' (f'.query env wh).rows,
      k.hasValues (rowsAt sb' v (f'.query env wh).rows) ∧ (k.agg (rowsAt sb' v (f'.query env wh).rows)).isInf = false

end Verif
