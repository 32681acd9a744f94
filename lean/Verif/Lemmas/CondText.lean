import Verif.Spec.CondText
import Mathlib.Tactic.Common
import Mathlib.Tactic.Push
import Mathlib.Data.List.Chain

/-! # Lemmas for C78: lexing and parsing -/

namespace Verif

/-! ## Lexing -/

/-- The text goes on with something that does not belong to a word or a number. -/
def Delim (rest : List Char) : Prop := ∀ c, rest.head? = some c → wordChar c = false ∧ c ≠ '='

theorem lex_endWord (acc : List Char) (rest : List Char) (h : Delim rest) :
    lexFrom lexStart (.inWord acc) rest = (lexFrom lexStart .start rest).map (STok.word acc.reverse :: ·) := by
  cases rest with
  | nil => simp [lexFrom]
  | cons c cs =>
    have hc := (h c rfl).1
    conv_lhs => rw [lexFrom, if_neg (by simp [hc])]
    conv_rhs => rw [lexFrom]
    cases lexStart c with
    | none => rfl
    | some p =>
      simp only [Option.map_map]
      rfl

theorem lex_inWord : ∀ (w acc rest : List Char), (∀ x ∈ w, wordChar x = true) → Delim rest →
    lexFrom lexStart (.inWord acc) (w ++ rest) = (lexFrom lexStart .start rest).map (STok.word (acc.reverse ++ w) :: ·)
  | [], acc, rest, _, h => by simpa using lex_endWord acc rest h
  | x :: w, acc, rest, hw, h => by
      rw [List.cons_append, lexFrom, if_pos (hw x List.mem_cons_self),
        lex_inWord w (x :: acc) rest (fun y hy => hw y (List.mem_cons_of_mem _ hy)) h]
      simp

theorem digit_word {c : Char} (h : c.isDigit = true) : wordChar c = true := by
  simp [wordChar, h]

theorem lex_endNum (acc : List Char) (rest : List Char) (h : Delim rest) :
    lexFrom lexStart (.inNum acc) rest
      = (lexFrom lexStart .start rest).map (STok.num (Nat.ofDigitChars 10 acc.reverse 0) :: ·) := by
  cases rest with
  | nil => simp [lexFrom]
  | cons c cs =>
    have hc := (h c rfl).1
    conv_lhs => rw [lexFrom, if_neg (fun hd => by rw [digit_word hd] at hc; cases hc)]
    conv_rhs => rw [lexFrom]
    cases lexStart c with
    | none => rfl
    | some p =>
      simp only [Option.map_map]
      rfl

theorem lex_inNum : ∀ (w acc rest : List Char), (∀ x ∈ w, x.isDigit = true) → Delim rest →
    lexFrom lexStart (.inNum acc) (w ++ rest)
      = (lexFrom lexStart .start rest).map (STok.num (Nat.ofDigitChars 10 (acc.reverse ++ w) 0) :: ·)
  | [], acc, rest, _, h => by simpa using lex_endNum acc rest h
  | x :: w, acc, rest, hw, h => by
      rw [List.cons_append, lexFrom, if_pos (hw x List.mem_cons_self),
        lex_inNum w (x :: acc) rest (fun y hy => hw y (List.mem_cons_of_mem _ hy)) h]
      simp

theorem lex_inStr : ∀ (s acc rest : List Char), (∀ c ∈ s, c ≠ '"' ∧ c ≠ '\\' ∧ c ≠ '\n') →
    lexFrom lexStart (.inStr acc) (s ++ '"' :: rest)
      = (lexFrom lexStart .start rest).map (STok.str (acc.reverse ++ s) :: ·)
  | [], acc, rest, _ => by simp [lexFrom]
  | x :: s, acc, rest, hs => by
      obtain ⟨h1, h2, h3⟩ := hs x List.mem_cons_self
      rw [List.cons_append, lexFrom, if_neg h1, if_neg h2, if_neg h3,
        lex_inStr s (x :: acc) rest fun c hc => hs c (List.mem_cons_of_mem _ hc)]
      simp

theorem lex_space (rest : List Char) : lexFrom lexStart .start (' ' :: rest) = lexFrom lexStart .start rest := by
  rw [lexFrom]
  have : lexStart ' ' = some ([], .start) := by decide
  rw [this]
  simp

theorem lex_newline (rest : List Char) : lexFrom lexStart .start ('\n' :: rest) = lexFrom lexStart .start rest := by
  rw [lexFrom]
  have : lexStart '\n' = some ([], .start) := by decide
  rw [this]
  simp

theorem lex_sym (c : Char) (hc : c = '=' ∨ c = '(' ∨ c = ')' ∨ c = '-') (rest : List Char) :
    lexFrom lexStart .start (c :: rest) = (lexFrom lexStart .start rest).map (STok.sym c :: ·) := by
  rw [lexFrom]
  have : lexStart c = some ([.sym c], .start) := by rcases hc with rfl | rfl | rfl | rfl <;> decide
  rw [this]
  rfl

theorem lex_ne (rest : List Char) :
    lexFrom lexStart .start ('!' :: '=' :: rest) = (lexFrom lexStart .start rest).map (STok.ne :: ·) := by
  rw [lexFrom]
  have : lexStart '!' = some ([], .bang) := by decide
  rw [this]
  simp [lexFrom, Function.comp_def]

theorem alpha_ne {c : Char} (h : wordStart c = true) :
    c ≠ ' ' ∧ c ≠ '\n' ∧ c ≠ '"' ∧ c ≠ '!' ∧ c.isDigit = false := by
  refine ⟨?_, ?_, ?_, ?_, ?_⟩
  · rintro rfl; exact absurd h (by decide)
  · rintro rfl; exact absurd h (by decide)
  · rintro rfl; exact absurd h (by decide)
  · rintro rfl; exact absurd h (by decide)
  · by_contra hd
    have hd : c.isDigit = true := by simpa using hd
    simp only [wordStart, Char.isAlpha, Char.isUpper, Char.isLower, Bool.or_eq_true, Bool.and_eq_true,
      decide_eq_true_eq] at h
    simp only [Char.isDigit, Bool.and_eq_true, decide_eq_true_eq] at hd
    rcases h with (h | h) | h
    · have h1 := h.1
      have h2 := hd.2
      simp only [UInt32.le_iff_toNat_le] at *
      have : (65 : ℕ) ≤ 57 := le_trans h1 h2
      omega
    · have h1 := h.1
      have h2 := hd.2
      simp only [UInt32.le_iff_toNat_le] at *
      have : (97 : ℕ) ≤ 57 := le_trans h1 h2
      omega
    · subst h
      exact absurd hd (by decide)

theorem start_char {c : Char} (h : wordStart c = true) : wordChar c = true := by
  simp only [wordStart, wordChar, Bool.or_eq_true] at h ⊢
  tauto

theorem lex_word (w rest : List Char) (hw : ∃ a as, w = a :: as ∧ wordStart a = true ∧ ∀ x ∈ as, wordChar x = true)
    (h : Delim rest) :
    lexFrom lexStart .start (w ++ rest) = (lexFrom lexStart .start rest).map (STok.word w :: ·) := by
  obtain ⟨a, as, rfl, ha, has⟩ := hw
  obtain ⟨h1, h2, h3, h4, h5⟩ := alpha_ne ha
  rw [List.cons_append, lexFrom]
  have : lexStart a = some ([], .inWord [a]) := by
    unfold lexStart
    rw [if_neg (by tauto), if_neg h3, if_neg h4, if_neg (by simp [h5]), if_pos ha]
  rw [this]
  simp only [List.nil_append]
  rw [lex_inWord as [a] rest has h]
  simp [Function.comp_def]

theorem lex_str (s rest : List Char) (hs : ∀ c ∈ s, c ≠ '"' ∧ c ≠ '\\' ∧ c ≠ '\n') :
    lexFrom lexStart .start ('"' :: s ++ '"' :: rest) = (lexFrom lexStart .start rest).map (STok.str s :: ·) := by
  rw [List.cons_append, lexFrom]
  have : lexStart '"' = some ([], .inStr []) := by decide
  rw [this]
  simp only [List.nil_append]
  rw [lex_inStr s [] rest hs]
  simp [Function.comp_def]

theorem toDigits_isDigit (n : ℕ) : ∀ x ∈ Nat.toDigits 10 n, x.isDigit = true := by
  intro x hx
  exact Nat.isDigit_of_mem_toDigits (by decide) (by decide) hx

theorem lex_nat (n : ℕ) (rest : List Char) (h : Delim rest) :
    lexFrom lexStart .start (Nat.toDigits 10 n ++ rest) = (lexFrom lexStart .start rest).map (STok.num n :: ·) := by
  have hd := toDigits_isDigit n
  have hv : Nat.ofDigitChars 10 (Nat.toDigits 10 n) 0 = n := Nat.ofDigitChars_ten_toDigits
  cases hds : Nat.toDigits 10 n with
  | nil => exact absurd hds Nat.toDigits_ne_nil
  | cons a as =>
    rw [hds] at hd hv
    have ha := hd a List.mem_cons_self
    rw [List.cons_append, lexFrom]
    have : lexStart a = some ([], .inNum [a]) := by
      unfold lexStart
      rw [if_neg (by rintro (rfl | rfl) <;> revert ha <;> decide),
        if_neg (by rintro rfl; revert ha; decide), if_neg (by rintro rfl; revert ha; decide), if_pos ha]
    rw [this]
    simp only [List.nil_append]
    rw [lex_inNum as [a] rest (fun x hx => hd x (List.mem_cons_of_mem _ hx)) h]
    simp only [List.reverse_cons, List.reverse_nil, List.nil_append, List.singleton_append, hv]
    simp [Function.comp_def]

/-- The tokens of a value. -/
def valToks : CVal → List STok
  | .str s => [.str s]
  | .int n => if n < 0 then [.sym '-', .num n.natAbs] else [.num n.natAbs]
  | .date _ _ _ => []

theorem lex_int (n : ℤ) (rest : List Char) (h : Delim rest) :
    lexFrom lexStart .start (intText n ++ rest) = (lexFrom lexStart .start rest).map (valToks (.int n) ++ ·) := by
  by_cases hn : n < 0
  · have e : valToks (.int n) = [.sym '-', .num n.natAbs] := if_pos hn
    rw [e, show intText n = '-' :: Nat.toDigits 10 n.natAbs from if_pos hn, List.cons_append,
      lex_sym '-' (by simp), lex_nat _ _ h]
    simp only [Option.map_map]
    rfl
  · have e : valToks (.int n) = [.num n.natAbs] := if_neg hn
    rw [e, show intText n = Nat.toDigits 10 n.natAbs from if_neg hn, lex_nat _ _ h]
    rfl

theorem lex_val (v : CVal) (hv : PlainVal v) (rest : List Char) (h : Delim rest) :
    lexFrom lexStart .start (formatToCondition v ++ rest) = (lexFrom lexStart .start rest).map (valToks v ++ ·) := by
  cases v with
  | str s =>
    obtain ⟨h1, h2⟩ := hv
    simp only [formatToCondition]
    rw [if_neg h1, List.append_assoc, List.singleton_append, lex_str s rest h2]
    rfl
  | int n => exact lex_int n rest h
  | date _ _ _ => exact hv.elim

/-! ## Parsing -/

mutual
theorem pNot_mono : ∀ (n : ℕ) (ts : List STok) (r), pNot n ts = some r → pNot (n + 1) ts = some r
  | 0, _, _, h => by simp [pNot] at h
  | n + 1, ts, r, h => by
      unfold pNot at h ⊢
      split at h
      · cases h
      · rename_i n' ts' heq
        cases heq
        split at h
        · rename_i c ts'' hp
          rw [pOr_mono n _ _ hp]
          exact h
        · cases h
      · rename_i n' w ts' heq
        cases heq
        split at h
        · rename_i hk
          rw [if_pos hk]
          split at h
          · rename_i c ts'' hp
            rw [pNot_mono n _ _ hp]
            exact h
          · cases h
        · rename_i hk
          rw [if_neg hk]
          exact h
      · exact h
theorem pAnd_mono : ∀ (n : ℕ) (ts : List STok) (r), pAnd n ts = some r → pAnd (n + 1) ts = some r
  | 0, _, _, h => by simp [pAnd] at h
  | n + 1, ts, r, h => by
      rw [pAnd] at h ⊢
      cases hp : pNot n ts with
      | none => rw [hp] at h; cases h
      | some q =>
        rw [hp] at h
        rw [pNot_mono n _ _ hp]
        obtain ⟨c, ts'⟩ := q
        cases ts' with
        | nil => exact h
        | cons t ts' =>
          cases t with
          | word w =>
            simp only at h ⊢
            split at h
            · rename_i hk
              rw [if_pos hk]
              split at h
              · rename_i d ts'' hp2
                rw [pAnd_mono n _ _ hp2]
                exact h
              · cases h
            · rename_i hk
              rw [if_neg hk]
              exact h
          | _ => exact h
theorem pOr_mono : ∀ (n : ℕ) (ts : List STok) (r), pOr n ts = some r → pOr (n + 1) ts = some r
  | 0, _, _, h => by simp [pOr] at h
  | n + 1, ts, r, h => by
      rw [pOr] at h ⊢
      cases hp : pAnd n ts with
      | none => rw [hp] at h; cases h
      | some q =>
        rw [hp] at h
        rw [pAnd_mono n _ _ hp]
        obtain ⟨c, ts'⟩ := q
        cases ts' with
        | nil => exact h
        | cons t ts' =>
          cases t with
          | word w =>
            simp only at h ⊢
            split at h
            · rename_i hk
              rw [if_pos hk]
              split at h
              · rename_i d ts'' hp2
                rw [pOr_mono n _ _ hp2]
                exact h
              · cases h
            · rename_i hk
              rw [if_neg hk]
              exact h
          | _ => exact h
end

theorem pOr_le {n m : ℕ} (hnm : n ≤ m) {ts : List STok} {r} (h : pOr n ts = some r) : pOr m ts = some r := by
  induction hnm with
  | refl => exact h
  | step _ ih => exact pOr_mono _ _ _ ih

/-- A text is read in at most one way. -/
theorem reads_unique {text : List Char} {c d : SCond} (h : ReadsAs text c) (h' : ReadsAs text d) : c = d := by
  obtain ⟨ts, n, h1, h2⟩ := h
  obtain ⟨ts', m, h3, h4⟩ := h'
  rw [h1] at h3
  cases h3
  have a := pOr_le (Nat.le_max_left n m) h2
  have b := pOr_le (Nat.le_max_right n m) h4
  rw [a] at b
  cases b
  rfl

end Verif
