import Verif.Spec.HashKey
import Mathlib.NumberTheory.LucasLehmer
import Mathlib.Algebra.Field.ZMod
import Mathlib.Tactic.FieldSimp
import Mathlib.Tactic.NormNum

/-! # The hash of a number -/

namespace Verif.Fp

theorem prime61 : Nat.Prime (2 ^ 61 - 1) :=
  lucas_lehmer_sufficiency _ (by norm_num) (by norm_num)

/-- The residue. -/
noncomputable def ratRes (P : ℕ) (q : ℚ) : ℕ :=
  if P ∣ q.den then 314159 else ((q.num.natAbs : ZMod P) * (q.den : ZMod P)⁻¹).val

theorem ratHash_eq (q : ℚ) : ratHash q
    = if q.num.sign * (ratRes (2 ^ 61 - 1) q : ℤ) = -1 then -2 else q.num.sign * (ratRes (2 ^ 61 - 1) q : ℤ) := rfl

theorem den_dvd_of_eq {q : ℚ} {n : ℤ} {d : ℕ} (hq : q = n / d) : q.den ∣ d := by
  have := Rat.den_dvd n d
  rw [Rat.divInt_eq_div, show ((n : ℚ) / ((d : ℤ) : ℚ)) = q by rw [hq]; norm_cast] at this
  exact_mod_cast this

theorem ratRes_cast {P : ℕ} [hP : Fact P.Prime] {q : ℚ} {n : ℤ} {d : ℕ} (hd : ¬ P ∣ d) (hq : q = n / d) :
    (ratRes P q : ZMod P) = (n.natAbs : ZMod P) * (d : ZMod P)⁻¹ := by
  have hd0 : d ≠ 0 := by rintro rfl; exact hd (dvd_zero _)
  have hdv : q.den ∣ d := den_dvd_of_eq hq
  have hnd : ¬ P ∣ q.den := fun h => hd (h.trans hdv)
  have hcross : q.num * d = n * q.den := by
    have h1 : (q.num : ℚ) / q.den = n / d := by rw [Rat.num_div_den, hq]
    have h2 : (q.den : ℚ) ≠ 0 := by exact_mod_cast q.den_ne_zero
    have h3 : (d : ℚ) ≠ 0 := by exact_mod_cast hd0
    rw [div_eq_div_iff h2 h3] at h1
    exact_mod_cast h1
  have hnat : q.num.natAbs * d = n.natAbs * q.den := by
    have := congrArg Int.natAbs hcross
    simpa [Int.natAbs_mul] using this
  have hz : (q.num.natAbs : ZMod P) * d = n.natAbs * q.den := by exact_mod_cast congrArg (Nat.cast (R := ZMod P)) hnat
  have z1 : (d : ZMod P) ≠ 0 := by rwa [Ne, ZMod.natCast_eq_zero_iff]
  have z2 : (q.den : ZMod P) ≠ 0 := by rwa [Ne, ZMod.natCast_eq_zero_iff]
  rw [ratRes, if_neg hnd, ZMod.natCast_val, ZMod.cast_id]
  field_simp
  linear_combination hz

theorem ratRes_lt {P : ℕ} [hP : Fact P.Prime] {q : ℚ} (h : ¬ P ∣ q.den) : ratRes P q < P := by
  rw [ratRes, if_neg h]
  exact ZMod.val_lt _

theorem cast_inj {P a b : ℕ} (ha : a < P) (hb : b < P) (h : (a : ZMod P) = b) : a = b := by
  rw [ZMod.natCast_eq_natCast_iff] at h
  exact Nat.ModEq.eq_of_lt_of_lt h ha hb

/-- A number of the grid and its residue. -/
theorem grid {P : ℕ} [hP : Fact P.Prime] {q : ℚ} {n : ℤ} {dn : ℕ} (h0 : 0 < dn) (h1 : dn < P) (hq : q = n / dn)
    (hn : n.natAbs < P) : ratRes P q < P ∧ (∀ m : ℕ, m < P → (ratRes P q * dn ≡ m [MOD P] ↔ n.natAbs = m)) ∧ q.num.sign = n.sign := by
  have hd : ¬ P ∣ dn := fun h => absurd (Nat.le_of_dvd h0 h) (by omega)
  have hc := ratRes_cast hd hq
  have z1 : (dn : ZMod P) ≠ 0 := by rwa [Ne, ZMod.natCast_eq_zero_iff]
  have hnd : ¬ P ∣ q.den := fun h => hd (h.trans (den_dvd_of_eq hq))
  refine ⟨ratRes_lt hnd, fun m hm => ?_, ?_⟩
  · rw [← ZMod.natCast_eq_natCast_iff, Nat.cast_mul, hc, mul_assoc, inv_mul_cancel₀ z1, mul_one]
    exact ⟨cast_inj hn hm, fun h => by rw [h]⟩
  · have hdq : (0 : ℚ) < dn := by exact_mod_cast h0
    rcases lt_trichotomy n 0 with h | h | h
    · have : q < 0 := by rw [hq]; exact div_neg_of_neg_of_pos (by exact_mod_cast h) hdq
      rw [Int.sign_eq_neg_one_of_neg h, Int.sign_eq_neg_one_of_neg (Rat.num_neg.mpr this)]
    · subst h
      rw [hq]
      simp
    · have : 0 < q := by rw [hq]; exact div_pos (by exact_mod_cast h) hdq
      rw [Int.sign_eq_one_of_pos h, Int.sign_eq_one_of_pos (Rat.num_pos.mpr this)]

theorem ratHash_inj {dn : ℕ} (hd : Denominator dn) {q q' : ℚ} (h : (AV.num q).small dn) (h' : (AV.num q').small dn)
    (e : ratHash q = ratHash q') : q = q' := by
  haveI : Fact (Nat.Prime (2 ^ 61 - 1)) := ⟨prime61⟩
  obtain ⟨h1, n, hq, hn⟩ := h
  obtain ⟨h1', n', hq', hn'⟩ := h'
  have hdq : (dn : ℚ) ≠ 0 := by exact_mod_cast hd.1.ne'
  have key : ∀ {q : ℚ} {n : ℤ}, q ≠ -1 → q = n / dn → n.natAbs < 2 ^ 61 - 1 → ratHash q = n.sign * (ratRes (2 ^ 61 - 1) q : ℤ) := by
    intro q n h1 hq hn
    obtain ⟨g1, g2, g3⟩ := grid hd.1 hd.2 hq hn
    rw [ratHash_eq, g3, if_neg]
    intro hneg
    apply h1
    have hs : n.sign = -1 ∧ ratRes (2 ^ 61 - 1) q = 1 := by
      rcases Int.sign_trichotomy n with hs | hs | hs <;> rw [hs] at hneg <;> refine ⟨?_, ?_⟩ <;> omega
    have : n.natAbs = dn := (g2 dn hd.2).mp (by rw [hs.2, one_mul])
    have hn' : n = -dn := by
      have := Int.sign_eq_neg_one_iff_neg.mp hs.1
      omega
    rw [hq, hn']
    push_cast
    rw [neg_div, div_self hdq]
  rw [key h1 hq hn, key h1' hq' hn'] at e
  obtain ⟨g1, g2, -⟩ := grid hd.1 hd.2 hq hn
  obtain ⟨g1', g2', -⟩ := grid hd.1 hd.2 hq' hn'
  have z : ∀ {q : ℚ} {n : ℤ}, (∀ m : ℕ, m < 2 ^ 61 - 1 → (ratRes (2 ^ 61 - 1) q * dn ≡ m [MOD 2 ^ 61 - 1] ↔ n.natAbs = m)) →
      n ≠ 0 → ratRes (2 ^ 61 - 1) q ≠ 0 := by
    intro q n g hn h0
    have := (g 0 (by norm_num)).mp (by rw [h0, zero_mul])
    omega
  have hsame : ratRes (2 ^ 61 - 1) q = ratRes (2 ^ 61 - 1) q' → n.natAbs = n'.natAbs := by
    intro hr
    rw [← g2 _ hn', hr, g2' _ hn']
  have : n = n' := by
    rcases Int.sign_trichotomy n with hs | hs | hs <;> rcases Int.sign_trichotomy n' with hs' | hs' | hs' <;>
      rw [hs, hs'] at e
    · have := hsame (by omega)
      have := Int.sign_eq_one_iff_pos.mp hs
      have := Int.sign_eq_one_iff_pos.mp hs'
      omega
    · have := Int.sign_eq_one_iff_pos.mp hs
      have := z g2 (by omega)
      omega
    · have := Int.sign_eq_one_iff_pos.mp hs
      have := z g2 (by omega)
      omega
    · have := Int.sign_eq_one_iff_pos.mp hs'
      have := z g2' (by omega)
      omega
    · rw [Int.sign_eq_zero_iff_zero.mp hs, Int.sign_eq_zero_iff_zero.mp hs']
    · have := Int.sign_eq_neg_one_iff_neg.mp hs'
      have := z g2' (by omega)
      omega
    · have := Int.sign_eq_neg_one_iff_neg.mp hs
      have := z g2 (by omega)
      omega
    · have := Int.sign_eq_neg_one_iff_neg.mp hs
      have := z g2 (by omega)
      omega
    · have := hsame (by omega)
      have := Int.sign_eq_neg_one_iff_neg.mp hs
      have := Int.sign_eq_neg_one_iff_neg.mp hs'
      omega
  rw [hq, hq', this]

/-- Numbers whose numerators differ by a multiple of the modulus. -/
theorem ratHash_modEq {n n' d : ℕ} (hd : ¬ 2 ^ 61 - 1 ∣ d) (h : n ≡ n' [MOD 2 ^ 61 - 1]) (hn : n ≠ 0) (hn' : n' ≠ 0) :
    ratHash ((n : ℚ) / d) = ratHash ((n' : ℚ) / d) := by
  haveI : Fact (Nat.Prime (2 ^ 61 - 1)) := ⟨prime61⟩
  have hd0 : d ≠ 0 := by rintro rfl; exact hd (dvd_zero _)
  have hdq : (0 : ℚ) < d := by exact_mod_cast Nat.pos_of_ne_zero hd0
  have hs : ∀ n : ℕ, n ≠ 0 → ((n : ℚ) / d).num.sign = 1 := fun n hn =>
    Int.sign_eq_one_of_pos (Rat.num_pos.mpr (div_pos (by exact_mod_cast Nat.pos_of_ne_zero hn) hdq))
  have hz : ∀ n : ℕ, (n : ℚ) / d = ((n : ℤ) : ℚ) / d := fun n => by rw [Int.cast_natCast]
  have hlt : ∀ n : ℕ, ratRes (2 ^ 61 - 1) ((n : ℚ) / d) < 2 ^ 61 - 1 := by
    intro n
    exact ratRes_lt fun h => hd (h.trans (den_dvd_of_eq (hz n)))
  have he : ratRes (2 ^ 61 - 1) ((n : ℚ) / d) = ratRes (2 ^ 61 - 1) ((n' : ℚ) / d) := by
    refine cast_inj (hlt n) (hlt n') ?_
    rw [ratRes_cast (n := n) hd (hz n), ratRes_cast (n := n') hd (hz n'), Int.natAbs_natCast, Int.natAbs_natCast,
      (ZMod.natCast_eq_natCast_iff _ _ _).mpr h]
  rw [ratHash_eq, ratHash_eq, hs n hn, hs n' hn', he]

/-- Integers of ordinary size are their own hash, except -1. -/
theorem ratHash_int {n : ℤ} (h : n.natAbs < 2 ^ 61 - 1) : ratHash n = if n = -1 then -2 else n := by
  haveI : Fact (Nat.Prime (2 ^ 61 - 1)) := ⟨prime61⟩
  obtain ⟨g1, g2, g3⟩ := grid (P := 2 ^ 61 - 1) (q := n) (n := n) (dn := 1) one_pos (by norm_num) (by simp) h
  have e : ratRes (2 ^ 61 - 1) n = n.natAbs := by
    have := (g2 _ g1).mp (by rw [mul_one])
    exact this.symm
  rw [ratHash_eq, g3, e, Int.sign_mul_natAbs]

end Verif.Fp
