import Verif.Model.QueryShape

/-!
# Which queries a database accepts

A query may read only what its source offers: a table its columns, a subquery the columns that it selects or groups by, a join the columns of
both sides. `USING` needs its columns on both sides.
-/

namespace Verif

/-- The source offers a column of that name. -/
def Q.sees : Q → String → Prop
  | .table _ cs, n => n ∈ cs
  | .sel g cs _ _ _, n => n ∈ g ∨ n ∈ cs.map QCol.name
  | .join _ l r, n => l.sees n ∨ r.sees n

/-- How many sources a join joins. -/
def Q.width : Q → ℕ
  | .join _ l _ => l.width + 1
  | _ => 1

/-- Source number `i` of a join `((a JOIN b) JOIN c) …` offers a column of that name. -/
def Q.seesAt : Q → ℕ → String → Prop
  | .join _ l r, i, n => if i < l.width then l.seesAt i n else i = l.width ∧ r.sees n
  | .table t cs, i, n => i = 0 ∧ (Q.table t cs).sees n
  | .sel g cs w neg f, i, n => i = 0 ∧ (Q.sel g cs w neg f).sees n

/-- The column that an expression reads is there. -/
def Q.reads (q : Q) : QRef → Prop
  | .plain n => q.sees n
  | .src i n => q.seesAt i n

/-- The database accepts the query: everything that is read is there, at every depth. -/
def Q.Valid : Q → Prop
  | .table _ _ => True
  | .sel g cs w _ f =>
    f.Valid ∧ (∀ n ∈ g, f.sees n) ∧ (∀ c ∈ cs, ∀ x ∈ c.reads, f.reads x) ∧ (∀ p ∈ w, f.sees p.1)
  | .join u l r => l.Valid ∧ r.Valid ∧ ∀ n ∈ u, l.sees n ∧ r.sees n

instance Q.decSees : ∀ (q : Q) (n : String), Decidable (q.sees n)
  | .table _ cs, n => inferInstanceAs (Decidable (n ∈ cs))
  | .sel g cs _ _ _, n => inferInstanceAs (Decidable (n ∈ g ∨ n ∈ cs.map QCol.name))
  | .join _ l r, n =>
    have := Q.decSees l n
    have := Q.decSees r n
    inferInstanceAs (Decidable (l.sees n ∨ r.sees n))

instance Q.decSeesAt : ∀ (q : Q) (i : ℕ) (n : String), Decidable (q.seesAt i n)
  | .table t cs, i, n => inferInstanceAs (Decidable (i = 0 ∧ (Q.table t cs).sees n))
  | .sel g cs w neg f, i, n => inferInstanceAs (Decidable (i = 0 ∧ (Q.sel g cs w neg f).sees n))
  | .join _ l r, i, n =>
    have := Q.decSeesAt l i n
    inferInstanceAs (Decidable (if i < l.width then l.seesAt i n else i = l.width ∧ r.sees n))

instance (q : Q) : ∀ x : QRef, Decidable (q.reads x)
  | .plain n => inferInstanceAs (Decidable (q.sees n))
  | .src i n => inferInstanceAs (Decidable (q.seesAt i n))

instance Q.decValid : ∀ q : Q, Decidable q.Valid
  | .table _ _ => isTrue trivial
  | .sel g cs w neg f =>
    have := Q.decValid f
    inferInstanceAs (Decidable (f.Valid ∧ (∀ n ∈ g, f.sees n) ∧ (∀ c ∈ cs, ∀ x ∈ c.reads, f.reads x) ∧ (∀ p ∈ w, f.sees p.1)))
  | .join u l r =>
    have := Q.decValid l
    have := Q.decValid r
    inferInstanceAs (Decidable (l.Valid ∧ r.Valid ∧ ∀ n ∈ u, l.sees n ∧ r.sees n))

end Verif
