import Verif.Model.SqlWith
import Verif.Lemmas.SqlAlias
import Mathlib.Data.List.DropRight
import Mathlib.Data.List.Nodup

/-!
# Lemmas for C24
-/

namespace Verif

/-- The number at the end of a name. -/
def nameNum (a : Txt) : Nat := Nat.ofDigitChars 10 (trailDigits (stripC '`' a)) 0

theorem head_dropWhile_neg {α} (p : α → Bool) (l : List α) (x : α) (xs : List α)
    (h : l.dropWhile p = x :: xs) : p x = false := by
  induction l with
  | nil => cases h
  | cons a l ih =>
    rw [List.dropWhile_cons] at h
    split at h
    · exact ih h
    · cases h; simp_all

theorem dropWhile_id {α} (p : α → Bool) (l : List α) (h : ∀ x xs, l = x :: xs → p x = false) :
    l.dropWhile p = l := by
  cases l with
  | nil => rfl
  | cons a l => rw [List.dropWhile_cons, h a l rfl]; rfl

theorem stripC_eq_self (ch : Char) (s : Txt) (h1 : ∀ x xs, s = x :: xs → (x == ch) = false)
    (h2 : ∀ x xs, s.reverse = x :: xs → (x == ch) = false) : stripC ch s = s := by
  unfold stripC
  rw [dropWhile_id _ _ h1, dropWhile_id _ _ h2, List.reverse_reverse]

theorem stripC_head (ch : Char) (s : Txt) (x : Char) (xs : Txt) (h : stripC ch s = x :: xs) :
    (x == ch) = false := by
  unfold stripC at h
  have h1 : ((s.dropWhile (· == ch)).reverse.dropWhile (· == ch)).reverse <+: s.dropWhile (· == ch) := by
    rw [← List.reverse_suffix, List.reverse_reverse]
    exact List.dropWhile_suffix _
  rw [h] at h1
  obtain ⟨t, ht⟩ := h1
  exact head_dropWhile_neg (· == ch) s x (xs ++ t) (by rw [← ht]; rfl)

theorem takeWhile_append_all {α} (p : α → Bool) (a b : List α) (ha : ∀ x ∈ a, p x)
    (hb : ∀ x xs, b = x :: xs → p x = false) : (a ++ b).takeWhile p = a := by
  induction a with
  | nil =>
    cases b with
    | nil => rfl
    | cons y b => simp [hb y b rfl]
  | cons x a ih =>
    rw [List.cons_append, List.takeWhile_cons, ha x (by simp)]
    simp [ih (fun y hy => ha y (by simp [hy]))]

theorem trailDigits_append (x ds : Txt) (hds : ∀ d ∈ ds, d.isDigit)
    (hx : ∀ y ys, x.reverse = y :: ys → y.isDigit = false) : trailDigits (x ++ ds) = ds := by
  unfold trailDigits
  rw [List.reverse_append, takeWhile_append_all _ _ _ (by simpa using hds) hx, List.reverse_reverse]

theorem beforeDigits_last (a : Txt) (y : Char) (ys : Txt) (h : (beforeDigits a).reverse = y :: ys) :
    y.isDigit = false := by
  unfold beforeDigits at h
  rw [List.reverse_reverse] at h
  exact head_dropWhile_neg _ _ _ _ h

theorem beforeDigits_prefix (a : Txt) : beforeDigits a <+: a := by
  unfold beforeDigits
  rw [← List.reverse_suffix, List.reverse_reverse]
  exact List.dropWhile_suffix _

theorem digit_ne_tick {d : Char} (h : d.isDigit) : (d == '`') = false := by
  rw [beq_eq_false_iff_ne]
  rintro rfl
  revert h; decide

theorem addSuffix_shape (x ds : Txt) (hne : ds ≠ []) (hds : ∀ d ∈ ds, d.isDigit)
    (hx : ∀ y ys, x.reverse = y :: ys → y.isDigit = false)
    (hh : ∀ y ys, x = y :: ys → (y == '`') = false) :
    nameNum (x ++ ds) = Nat.ofDigitChars 10 ds 0 := by
  unfold nameNum
  rw [stripC_eq_self, trailDigits_append x ds hds hx]
  · intro y ys h
    cases x with
    | nil => exact digit_ne_tick (hds y (by rw [List.nil_append] at h; rw [h]; simp))
    | cons z zs => cases h; exact hh _ zs rfl
  · intro y ys h
    rw [List.reverse_append] at h
    cases hr : ds.reverse with
    | nil => exact absurd (List.reverse_eq_nil_iff.1 hr) hne
    | cons z zs =>
      rw [hr] at h
      cases h
      exact digit_ne_tick (hds y (by rw [← List.mem_reverse, hr]; simp))

/-- Each suffixed name has the next number, so no name is tried twice. -/
theorem nameNum_addSuffix (al : Txt) : nameNum (addSuffix al) = nameNum al + 1 := by
  have hhead : ∀ y ys, stripC '`' al = y :: ys → (y == '`') = false := stripC_head '`' al
  unfold addSuffix
  simp only
  split
  · rename_i h
    have h0 : nameNum al = 0 := by unfold nameNum; rw [h]; rfl
    rw [h0, show stripC '`' al ++ "_1".toList = (stripC '`' al ++ ['_']) ++ ['1'] by simp]
    rw [addSuffix_shape]
    · rfl
    · simp
    · intro d hd; rw [List.mem_singleton.1 hd]; rfl
    · intro y ys h; rw [List.reverse_append] at h; cases h; rfl
    · intro y ys h
      cases hs : stripC '`' al with
      | nil => rw [hs] at h; cases h; rfl
      | cons z zs => rw [hs] at h; cases h; exact hhead _ _ hs
  · rw [addSuffix_shape]
    · rw [Nat.ofDigitChars_ten_toDigits]; rfl
    · exact Nat.toDigits_ne_nil
    · exact fun d hd => Nat.isDigit_of_mem_toDigits (by decide) (by decide) hd
    · exact beforeDigits_last _
    · intro y ys h
      obtain ⟨t, ht⟩ := beforeDigits_prefix (stripC '`' al)
      exact hhead y (ys ++ t) (by rw [← ht, h]; rfl)

/-- The names tried. -/
def suffixed (al : Txt) : Nat → Txt
  | 0 => al
  | n + 1 => suffixed (addSuffix al) n

theorem nameNum_suffixed (n : Nat) : ∀ al, nameNum (suffixed al n) = nameNum al + n := by
  induction n with
  | zero => intro al; rfl
  | succ n ih => intro al; rw [suffixed, ih, nameNum_addSuffix]; omega

/-- Among `n` names and more than `n` attempts one is free. -/
theorem exists_free (names : List Txt) (al : Txt) (k : Nat) (hk : names.length < k)
    (h : ∀ i < k, suffixed al i ∈ names) : False := by
  have h3 : (List.ofFn fun i : Fin k => suffixed al i).Nodup := by
    rw [List.nodup_ofFn]
    intro i j hij
    have := congrArg nameNum hij
    simp only [nameNum_suffixed] at this
    exact Fin.ext (by omega)
  have h4 : (List.ofFn fun i : Fin k => suffixed al i) ⊆ names := by
    intro x hx
    obtain ⟨i, rfl⟩ := List.mem_ofFn.1 hx
    exact h i i.2
  have h5 := (h3.subperm h4).length_le
  rw [List.length_ofFn] at h5
  omega

theorem with_lookup_mem {w : With} {a : Txt} : (w.lookup a).isSome ↔ a ∈ w.map Prod.fst := by
  induction w with
  | nil => simp [List.lookup]
  | cons p w ih =>
    rw [List.lookup_cons]
    by_cases h : a = p.1
    · subst h; simp
    · simp [h, ih, beq_eq_false_iff_ne.2 h]

theorem lookup_none_notMem {w : With} {a : Txt} (h : w.lookup a = none) : a ∉ w.map Prod.fst := by
  intro hm
  rw [← with_lookup_mem, h] at hm
  cases hm

theorem lookup_append_new {w : With} {a : Txt} (t : WTbl) (h : w.lookup a = none) :
    (w ++ [(a, t)]).lookup a = some t := by
  rw [List.lookup_append, h]
  simp [List.lookup]

theorem lookup_of_find {w : With} (hnd : (w.map Prod.fst).Nodup) {p : Txt × WTbl} (hp : p ∈ w) :
    w.lookup p.1 = some p.2 := by
  induction w with
  | nil => cases hp
  | cons q w ih =>
    rw [List.map_cons, List.nodup_cons] at hnd
    rw [List.lookup_cons]
    rcases List.mem_cons.1 hp with rfl | hp
    · simp
    · have : p.1 ≠ q.1 := fun h => hnd.1 (h ▸ List.mem_map.2 ⟨p, hp, rfl⟩)
      rw [beq_eq_false_iff_ne.2 this]
      exact ih hnd.2 hp

theorem addTable_none {w : With} : ∀ (fuel : Nat) (al : Txt) (t : WTbl), addTable w fuel al t = none →
    ∀ i < fuel, suffixed al i ∈ w.map Prod.fst := by
  intro fuel
  induction fuel with
  | zero => intro al t _ i hi; omega
  | succ fuel ih =>
    intro al t h i hi
    rw [addTable] at h
    cases hl : w.lookup al with
    | none =>
      rw [hl] at h
      simp only at h
      split at h <;> cases h
    | some t0 =>
      rw [hl] at h
      simp only at h
      split at h
      · cases h
      · cases i with
        | zero => exact with_lookup_mem.1 (by rw [suffixed, hl]; rfl)
        | succ i => exact ih _ _ h i (by omega)

theorem freeName_none {w : With} : ∀ (fuel : Nat) (al : Txt), freeName w fuel al = none →
    ∀ i < fuel, suffixed al i ∈ w.map Prod.fst := by
  intro fuel
  induction fuel with
  | zero => intro al _ i hi; omega
  | succ fuel ih =>
    intro al h i hi
    rw [freeName] at h
    split at h
    · rename_i hl
      cases i with
      | zero => exact with_lookup_mem.1 hl
      | succ i => exact ih _ h i (by omega)
    · cases h

theorem freeName_spec {w : With} : ∀ (fuel : Nat) (al n : Txt), freeName w fuel al = some n →
    w.lookup n = none := by
  intro fuel
  induction fuel with
  | zero => intro al n h; cases h
  | succ fuel ih =>
    intro al n h
    rw [freeName] at h
    split at h
    · exact ih _ _ h
    · rename_i hl
      cases h
      exact Option.not_isSome_iff_eq_none.1 hl

end Verif
