import Verif.Lemmas.SqlAlias
import Verif.Spec.SqlAlias

/-!
# C21 Every generated alias is a valid identifier
# C22 Selected columns have unique names and none is lost
# C23 A name always refers to the column it was given to
-/

namespace Verif

/-! ## C21 -/

theorem escape_cases {a b : Txt} (h : escapeAlias a = some b) :
    (b = a ∧ (a = [] ∨ ∀ c ∈ specialChars, c ∉ a)) ∨
      ((∃ c ∈ specialChars, c ∈ a) ∧ ∃ d t, escBody a = d :: t ∧
        ((d.isDigit ∧ b = "col_".toList ++ d :: t) ∨ (d.isDigit = false ∧ b = d :: t))) := by
  rw [escapeAlias_eq] at h
  split at h
  · rename_i hc; cases h; exact Or.inl ⟨rfl, hc⟩
  · rename_i hc
    right
    refine ⟨?_, ?_⟩
    · by_contra hn
      exact hc (Or.inr fun c hcs hca => hn ⟨c, hcs, hca⟩)
    · cases hb : escBody a with
      | nil => rw [hb] at h; cases h
      | cons d t =>
        rw [hb] at h
        simp only at h
        refine ⟨d, t, rfl, ?_⟩
        split at h
        · rename_i hd; cases h; exact Or.inl ⟨hd, rfl⟩
        · rename_i hd; cases h; exact Or.inr ⟨by simpa using hd, rfl⟩

/-- **C21** No special character is left in an escaped alias. -/
theorem C21_no_special (a b : Txt) (h : escapeAlias a = some b) : ∀ c ∈ b, c ∉ specialChars := by
  intro c hc hs
  rcases escape_cases h with ⟨rfl, h1 | h1⟩ | ⟨_, d, t, hb, ⟨_, rfl⟩ | ⟨_, rfl⟩⟩
  · rw [h1] at hc; cases hc
  · exact h1 c hs hc
  · rcases List.mem_append.1 hc with hc | hc
    · have : ∀ c ∈ "col_".toList, c ∉ specialChars := by decide
      exact this c hc hs
    · exact escBody_no_special a c (by rw [hb]; exact hc) hs
  · exact escBody_no_special a c (by rw [hb]; exact hc) hs

/-- **C21** Escaping twice is escaping once. -/
theorem C21_idempotent (a b : Txt) (h : escapeAlias a = some b) : escapeAlias b = some b := by
  rw [escapeAlias_eq, if_pos]
  exact Or.inr fun c hc hb => C21_no_special a b h c hb hc

theorem ascii_split (c : Char) (hp : Printable c) : c ∈ specialChars ∨ IdentChar c := by
  have key : ∀ n : Nat, n < 127 → 32 ≤ n → Char.ofNat n ∈ specialChars ∨
      (Char.ofNat n).isAlphanum ∨ Char.ofNat n = '_' := by decide
  have := key c.toNat hp.2 hp.1
  rwa [Char.ofNat_toNat] at this

theorem escChar_subset (a : Txt) (ha : ∀ c ∈ a, Printable c) : ∀ c ∈ escBody a, IdentChar c := by
  intro c hc
  have hns := escBody_no_special a c hc
  have h1 := stripC_subset _ _ _ (stripC_subset _ _ _ (replUU_subset _ _ hc))
  obtain ⟨x, hx, hcx⟩ := List.mem_flatMap.1 h1
  by_cases hxs : x ∈ specialChars
  · have : ∀ x ∈ specialChars, ∀ c ∈ escChar x, c.isAlphanum ∨ c = '_' := by decide
    exact this x hxs c hcx
  · rw [escChar_plain x hxs, List.mem_singleton] at hcx
    subst hcx
    exact (ascii_split c (ha c hx)).resolve_left hns

/-- **C21** For every name of printable ASCII characters the alias has only letters, digits and
underscores. -/
theorem C21_identifier_chars (a b : Txt) (ha : ∀ c ∈ a, Printable c) (h : escapeAlias a = some b) :
    ∀ c ∈ b, IdentChar c := by
  intro c hc
  rcases escape_cases h with ⟨rfl, h1 | h1⟩ | ⟨_, d, t, hb, ⟨_, rfl⟩ | ⟨_, rfl⟩⟩
  · rw [h1] at hc; cases hc
  · exact (ascii_split c (ha c hc)).resolve_left fun hs => h1 c hs hc
  · rcases List.mem_append.1 hc with hc | hc
    · have : ∀ c ∈ "col_".toList, c.isAlphanum ∨ c = '_' := by decide
      exact this c hc
    · exact escChar_subset a ha c (by rw [hb]; exact hc)
  · exact escChar_subset a ha c (by rw [hb]; exact hc)

/-- **C21** (partial) An alias begins with a digit only if the name does and has no special
character. Missing: names such as `1` or `2x`, which are left as they are (next theorem). -/
theorem C21_no_leading_digit_partial (a b : Txt) (h : escapeAlias a = some b)
    (hn : (∃ c ∈ specialChars, c ∈ a) ∨ ∀ c, a.head? = some c → c.isDigit = false) :
    ∀ c, b.head? = some c → c.isDigit = false := by
  intro c hc
  rcases escape_cases h with ⟨rfl, h1⟩ | ⟨_, d, t, hb, ⟨_, rfl⟩ | ⟨hd, rfl⟩⟩
  · rcases hn with ⟨x, hx, hxb⟩ | hn
    · rcases h1 with h1 | h1
      · rw [h1] at hxb; cases hxb
      · exact absurd hxb (h1 x hx)
    · exact hn c hc
  · simp at hc; subst hc; decide
  · simp at hc; subst hc; exact hd

/-- **C21** (violated) The name `1` is used as an alias unchanged. -/
theorem C21_leading_digit_violation : escapeAlias "1".toList = some "1".toList := by decide

/-- **C21** (violated) Characters outside ASCII, and tabs, are left in. -/
theorem C21_other_chars_violation : escapeAlias "é\t(x)".toList = some "é\t_x".toList := by decide

/-- **C21** (violated) A name made of special characters only has no alias: the code fails. -/
theorem C21_no_alias_violation : escapeAlias "(%)".toList ≠ none ∧ escapeAlias "(?)".toList = none := by
  decide

theorem dropWhile_ne_nil_of_mem {p : Char → Bool} {s : Txt} {c : Char} (h : c ∈ s) (hp : p c = false) :
    c ∈ s.dropWhile p := by
  induction s with
  | nil => cases h
  | cons x s ih =>
    rw [List.dropWhile_cons]
    split
    · rename_i hx
      rcases List.mem_cons.1 h with rfl | h
      · rw [hp] at hx; cases hx
      · exact ih h
    · exact h

theorem mem_stripC {ch c : Char} {s : Txt} (h : c ∈ s) (hc : c ≠ ch) : c ∈ stripC ch s := by
  unfold stripC
  have hp : (c == ch) = false := by simpa using hc
  exact List.mem_reverse.2 (dropWhile_ne_nil_of_mem
    (List.mem_reverse.2 (dropWhile_ne_nil_of_mem h hp)) hp)

theorem mem_replUU {c : Char} (hc : c ≠ '_') : ∀ (s : Txt), c ∈ s → c ∈ replUU s
  | [], h => h
  | [_], h => h
  | a :: b :: t, h => by
      rw [replUU]
      split
      · rename_i hab
        have : c ∈ t := by
          simp only [List.mem_cons] at h
          rcases h with rfl | rfl | h
          · exact absurd hab.1 hc
          · exact absurd hab.2 hc
          · exact h
        exact List.mem_cons_of_mem _ (mem_replUU hc t this)
      · rcases List.mem_cons.1 h with rfl | h
        · simp
        · exact List.mem_cons_of_mem _ (mem_replUU hc (b :: t) h)

/-- **C21** Every name with at least one character that is neither special nor an underscore has an
alias, and the character is in it. -/
theorem C21_defined (a : Txt) (c : Char) (hc : c ∈ a) (hs : c ∉ specialChars) (hu : c ≠ '_') :
    ∃ b, escapeAlias a = some b ∧ c ∈ b := by
  have hsp : c ≠ ' ' := fun h => hs (h ▸ (by decide : ' ' ∈ specialChars))
  rw [escapeAlias_eq]
  split
  · exact ⟨a, rfl, hc⟩
  · have : c ∈ escBody a := by
      unfold escBody
      refine mem_replUU hu _ (mem_stripC (mem_stripC (List.mem_flatMap.2 ⟨c, hc, ?_⟩) hu) hsp)
      rw [escChar_plain c hs]; simp
    cases hb : escBody a with
    | nil => rw [hb] at this; cases this
    | cons d t =>
      rw [hb] at this
      simp only
      split
      · exact ⟨_, rfl, List.mem_append.2 (Or.inr this)⟩
      · exact ⟨_, rfl, this⟩

/-- Some aliases. -/
example : escapeAlias "90% CI of sum(x) - 1".toList = some "col_90_pct_CI_of_sum_x_minus_1".toList ∧
    escapeAlias "ctr".toList = some "ctr".toList ∧
    (∀ c ∈ "90% CI of sum(x) - 1".toList, Printable c) := by
  refine ⟨by decide, by decide, by unfold Printable; decide⟩

end Verif
