import Verif.Model.HashKey

/-!
# Hashes that do not collide
-/

namespace Verif.Fp

/-- No two texts, tuples or items have the same hash by accident. (No 64 bit hash is like this; the hypothesis separates accidents
from the collisions of numbers that Python fixes.) -/
structure PyHash.Ideal {H : Type} (h : PyHash H) : Prop where
  text_inj : ∀ a b, h.text a = h.text b → a = b
  tuple_inj : ∀ a b, h.tuple a = h.tuple b → a = b
  items_inj : ∀ a b, h.items a = h.items b → a = b
  ofInt_inj : ∀ a b, h.ofInt a = h.ofInt b → a = b
  text_tuple : ∀ a b, h.text a ≠ h.tuple b
  text_items : ∀ a b, h.text a ≠ h.items b
  text_ofInt : ∀ a b, h.text a ≠ h.ofInt b
  tuple_items : ∀ a b, h.tuple a ≠ h.items b
  tuple_ofInt : ∀ a b, h.tuple a ≠ h.ofInt b
  items_ofInt : ∀ a b, h.items a ≠ h.ofInt b

mutual
/-- All the numbers in the value are multiples of 1/dn below (2^61 - 1)/dn in size, and none is -1. For dn = 1 these are the integers
below 2^61 - 1; for dn = 2^56 they are all numbers below 31 with 56 binary places, such as the float 0.1. -/
def AV.small (dn : ℕ) : AV → Prop
  | .str _ => True
  | .num q => q ≠ -1 ∧ ∃ n : ℤ, q = n / dn ∧ n.natAbs < 2 ^ 61 - 1
  | .tup l => AV.smalls dn l
  | .dict d => ∀ k, AV.smallo dn (d k)
@[inherit_doc AV.small] def AV.smalls (dn : ℕ) : List AV → Prop
  | [] => True
  | a :: as => a.small dn ∧ AV.smalls dn as
@[inherit_doc AV.small] def AV.smallo (dn : ℕ) : Option AV → Prop
  | none => True
  | some a => a.small dn
end

/-- All the numbers in the key. -/
def HKey.small (dn : ℕ) (k : HKey) : Prop := k.metric.small dn ∧ k.key.small dn ∧ ∀ p ∈ k.slice, p.2.small dn

/-- A possible denominator. -/
def Denominator (dn : ℕ) : Prop := 0 < dn ∧ dn < 2 ^ 61 - 1

end Verif.Fp
