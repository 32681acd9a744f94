import Verif.Model.Frame

/-!
# Specification of C14: which row is the `n`-th

Stated by counting, without sorting.
-/

namespace Verif

/-- `x` is earlier than `r` when the column `by_` is read in ascending/descending order. -/
def earlier (asc : Bool) (by_ : String) (x r : Row) : Prop :=
  ∃ a b, x by_ = some a ∧ r by_ = some b ∧ (if asc then a < b else b < a)

instance (asc : Bool) (by_ : String) (x r : Row) : Decidable (earlier asc by_ x r) :=
  match hx : x by_, hr : r by_ with
  | some a, some b =>
      decidable_of_iff (if asc then a < b else b < a) ⟨fun h => ⟨a, b, hx, hr, h⟩, fun ⟨a', b', h1, h2, h⟩ => by
        rw [hx] at h1; rw [hr] at h2; cases h1; cases h2; exact h⟩
  | none, _ => .isFalse (fun ⟨_, _, h, _⟩ => by rw [hx] at h; cases h)
  | some _, none => .isFalse (fun ⟨_, _, _, h, _⟩ => by rw [hr] at h; cases h)

/-- `r` can be called the `n`-th of `rows` (0-based from the front for `n ≥ 0`,
`-1` being the last for `n < 0`). With ties several rows qualify. -/
def IsNth (asc : Bool) (by_ : String) (n : Int) (rows : List Row) (r : Row) : Prop :=
  r ∈ rows ∧
  match n with
  | .ofNat k =>
      (rows.filter (fun x => earlier asc by_ x r)).length ≤ k ∧
      k < (rows.filter (fun x => !decide (earlier asc by_ r x))).length
  | .negSucc k =>
      (rows.filter (fun x => earlier asc by_ r x)).length ≤ k ∧
      k < (rows.filter (fun x => !decide (earlier asc by_ x r))).length

/-- There are enough rows for an `n`-th one. -/
def HasNth (n : Int) (rows : List Row) : Prop :=
  match n with
  | .ofNat k => k < rows.length
  | .negSucc k => k < rows.length

end Verif
