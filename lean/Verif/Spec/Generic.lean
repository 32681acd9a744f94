import Verif.Model.Generic
import Verif.Spec.HashKey

/-!
# What a metric defined by its `compute()` should give

Without any cache: `value`. And the conditions under which the cache is expected not to matter: `Well`.
-/

namespace Verif.Gen

open Fp

variable {V : Type}

/-- The results of a function on each of the slices, or the first error. -/
def onSlices (f : Key → Except Exn V) : List Key → Except Exn (List (Key × V))
  | [] => .ok []
  | k :: ks =>
    match f k with
    | .error e => .error e
    | .ok v =>
      match onSlices f ks with
      | .error e => .error e
      | .ok cs => .ok ((k, v) :: cs)

/-- The results of the slices put together, if none failed. -/
def together (P : Pd V) (sb : List String) : Except Exn (List (Key × V)) → Except Exn V
  | .error e => .error e
  | .ok cs => finish P sb cs

/-- The result by the children, or if that is not implemented, the other one. -/
def unlessDone (r other : Except Exn V) : Except Exn V := if notImpl r then other else r

section
variable (env : Env) (P : Pd V)

mutual
/-- The result of a metric on data, computed afresh: the body runs on the rows that pass the filters, or on each slice of them. -/
def UM.value : UM V → List String → List Row → Except Exn V
  | .whole _ wh prog, sb, rows => Prog.value (prog sb (filt env wh rows)) (filt env wh rows)
  | .sliced _ wh first prog, sb, rows =>
    unlessDone (Prog.value (first sb (filt env wh rows)) (filt env wh rows))
      (if sb = [] then Prog.value (prog (filt env wh rows)) (filt env wh rows)
      else together P sb (onSlices
        (fun k => Prog.value (prog (rowsAt sb k (filt env wh rows))) (rowsAt sb k (filt env wh rows)))
        (sortedKeys sb (filt env wh rows))))
/-- The result of a body where every helper is computed afresh. -/
def Prog.value : Prog V → List Row → Except Exn V
  | .ret v, _ => .ok v
  | .raise e, _ => .error e
  | .ask m sb k, rows => Prog.value (k (UM.value m sb rows)) rows
end

variable (F : AV → List String → List Row → Except Exn V) (C : Set String) (dn : ℕ)

mutual
/-- The metric `m` is well behaved when it is computed with `sb` on a slice of the data on which the columns `D` are fixed, under a
key that says `ks` for the split:
* its fingerprint determines what it computes from filtered data (`F`) and contains only small numbers (multiples of 1/dn);
* every split is by columns in `C`;
* a helper is not asked to split by columns all of which are fixed;
* a helper is asked without split only if the columns of the running split are fixed. -/
def UM.Well : UM V → Set String → List String → List String → Prop
  | .whole fp _ prog, D, ks, sb => fp.small dn ∧ (∀ c ∈ sb, c ∈ C) ∧
      (∀ rows, F fp sb rows = Prog.value env P (prog sb rows) rows) ∧ ∀ rows, Prog.Well (prog sb rows) D ks
  | .sliced fp _ first prog, D, ks, sb => fp.small dn ∧ (∀ c ∈ sb, c ∈ C) ∧
      (∀ rows, F fp sb rows = unlessDone (Prog.value env P (first sb rows) rows)
        (if sb = [] then Prog.value env P (prog rows) rows
        else together P sb
          (onSlices (fun k => Prog.value env P (prog (rowsAt sb k rows)) (rowsAt sb k rows)) (sortedKeys sb rows)))) ∧
      (∀ rows, Prog.Well (first sb rows) D ks) ∧ ∀ rows, Prog.Well (prog rows) (D ∪ {c | c ∈ sb}) ks
@[inherit_doc UM.Well] def Prog.Well : Prog V → Set String → List String → Prop
  | .ret _, _, _ => True
  | .raise _, _, _ => True
  | .ask m sb k, D, ks => (if sb = [] then ∀ c ∈ ks, c ∈ D else ∃ c ∈ sb, c ∉ D) ∧
      UM.Well m D (if sb = [] then ks else sb) sb ∧ ∀ r, Prog.Well (k r) D ks
end

end

/-- All values of the split columns are multiples of 1/dn below (2^61 - 1)/dn in size, other than -1. -/
def SmallKeys (dn : ℕ) (C : Set String) (rows : List Row) : Prop := ∀ r ∈ rows, ∀ c ∈ C, ∀ q, r c = some q → (AV.num q).small dn

/-- A body that only returns or raises. -/
def ofResult : Except Exn V → Prog V
  | .ok v => .ret v
  | .error e => .raise e

/-- A metric as given by a `compute()` without helpers: `f` of the rows of the slice, or an exception. -/
def plainMetric (fp : AV) (wh : List String) (f : List Row → Except Exn V) : UM V :=
  .sliced fp wh (fun _ _ => .raise .notImplemented) fun rows => ofResult (f rows)

end Verif.Gen
