import Verif.Lemmas.CondTextParse

/-! # Lemmas for C78: the conditions of the user -/

namespace Verif

/-! ## More text after a text -/

theorem lex_append : ∀ (t : List Char) (st : LexState) (toks : List STok), lexFrom lexStart st t = some toks →
    ∀ rest, Delim rest → lexFrom lexStart st (t ++ rest) = (lexFrom lexStart .start rest).map (toks ++ ·)
  | [], st, toks, h, rest, hr => by
      cases st with
      | start => simp only [lexFrom, Option.some.injEq] at h; subst h; simp
      | inWord acc =>
        simp only [lexFrom, Option.some.injEq] at h
        subst h
        exact lex_endWord acc rest hr
      | inNum acc =>
        simp only [lexFrom, Option.some.injEq] at h
        subst h
        exact lex_endNum acc rest hr
      | angle g =>
        simp only [lexFrom, Option.some.injEq] at h
        subst h
        cases rest with
        | nil => simp [lexFrom]
        | cons c cs =>
          rw [List.nil_append]
          conv_lhs => rw [lexFrom, if_neg (hr c rfl).2]
          conv_rhs => rw [lexFrom]
          cases lexStart c with
          | none => rfl
          | some p =>
            simp only [Option.map_map]
            rfl
      | _ => simp [lexFrom] at h
  | c :: t, st, toks, h, rest, hr => by
      have step : ∀ (pre : List STok) (o : Option (List STok × LexState)),
          (match o with
            | none => none
            | some (ts, st) => (lexFrom lexStart st t).map (pre ++ ts ++ ·)) = some toks →
          (match o with
            | none => none
            | some (ts, st) => (lexFrom lexStart st (t ++ rest)).map (pre ++ ts ++ ·))
            = (lexFrom lexStart .start rest).map (toks ++ ·) := by
        intro pre o ho
        cases o with
        | none => cases ho
        | some p =>
          obtain ⟨ts, st'⟩ := p
          simp only at ho ⊢
          obtain ⟨us, h1, h2⟩ := Option.map_eq_some_iff.1 ho
          rw [lex_append t st' us h1 rest hr, Option.map_map]
          congr 1
          funext x
          simp [Function.comp, ← h2]
      have one : ∀ (tok : STok) (st' : LexState), (lexFrom lexStart st' t).map (tok :: ·) = some toks →
          (lexFrom lexStart st' (t ++ rest)).map (tok :: ·) = (lexFrom lexStart .start rest).map (toks ++ ·) := by
        intro tok st' ho
        obtain ⟨us, h1, h2⟩ := Option.map_eq_some_iff.1 ho
        rw [lex_append t st' us h1 rest hr, Option.map_map]
        congr 1
        funext x
        simp [Function.comp, ← h2]
      cases st with
      | start =>
        simp only [List.cons_append, lexFrom] at h ⊢
        exact step [] _ h
      | inWord acc =>
        simp only [List.cons_append, lexFrom] at h ⊢
        split at h
        · rename_i hc
          rw [if_pos hc]
          exact lex_append t _ _ h rest hr
        · rename_i hc
          rw [if_neg hc]
          exact step [.word acc.reverse] _ h
      | inNum acc =>
        simp only [List.cons_append, lexFrom] at h ⊢
        split at h
        · rename_i hc
          rw [if_pos hc]
          exact lex_append t _ _ h rest hr
        · rename_i hc
          rw [if_neg hc]
          exact step [.num (Nat.ofDigitChars 10 acc.reverse 0)] _ h
      | inStr acc =>
        simp only [List.cons_append, lexFrom] at h ⊢
        split at h
        · rename_i hc
          rw [if_pos hc]
          exact one _ _ h
        · rename_i hc
          rw [if_neg hc]
          split at h
          · rename_i hc
            rw [if_pos hc]
            exact lex_append t _ _ h rest hr
          · rename_i hc
            rw [if_neg hc]
            split at h
            · cases h
            · rename_i hc
              rw [if_neg hc]
              exact lex_append t _ _ h rest hr
      | escape acc =>
        simp only [List.cons_append, lexFrom] at h ⊢
        cases he : escaped c with
        | none => rw [he] at h; cases h
        | some d =>
          rw [he] at h
          exact lex_append t _ _ h rest hr
      | bang =>
        simp only [List.cons_append, lexFrom] at h ⊢
        split at h
        · rename_i hc
          rw [if_pos hc]
          exact one _ _ h
        · cases h
      | angle g =>
        simp only [List.cons_append, lexFrom] at h ⊢
        split at h
        · rename_i hc
          rw [if_pos hc]
          exact one _ _ h
        · rename_i hc
          rw [if_neg hc]
          exact step [.ord g false] _ h
      | equal =>
        simp only [List.cons_append, lexFrom] at h ⊢
        split at h
        · rename_i hc
          rw [if_pos hc]
          exact one _ _ h
        · cases h

theorem pMinus_append : ∀ (ts : List STok) (a b : ℤ) (r : List STok), pMinus a ts = (b, r) →
    ∀ rest, CloseTok rest → pMinus a (ts ++ rest) = (b, r ++ rest) := by
  intro ts
  induction ts using List.twoStepInduction with
  | nil =>
    intro a b r h rest hr
    simp only [pMinus, Prod.mk.injEq] at h
    obtain ⟨rfl, rfl⟩ := h
    exact pMinus_end a rest hr.endTok
  | singleton t =>
    intro a b r h rest hr
    have h0 : pMinus a [t] = (a, [t]) := by
      unfold pMinus
      split
      · rename_i heq; cases heq
      · rfl
    rw [h0] at h
    cases h
    unfold pMinus
    split
    · rename_i n ts heq
      have := hr (.num n) (by
        simp only [List.cons_append, List.nil_append, List.cons.injEq] at heq
        rw [heq.2]
        rfl)
      cases this
    · rfl
  | cons_cons t u ts ih _ =>
    intro a b r h rest hr
    unfold pMinus at h
    split at h
    · rename_i n ts' heq
      cases heq
      have := ih _ _ _ h rest hr
      simp only [List.cons_append, pMinus]
      exact this
    · rename_i hno
      cases h
      unfold pMinus
      split
      · rename_i n ts' heq
        simp only [List.cons_append, List.cons.injEq] at heq
        obtain ⟨rfl, rfl, _⟩ := heq
        exact (hno n ts rfl).elim
      · rfl

theorem pOperand_append (ts : List STok) (o : COperand) (r : List STok) (h : pOperand ts = some (o, r))
    (rest : List STok) (hr : CloseTok rest) : pOperand (ts ++ rest) = some (o, r ++ rest) := by
  unfold pOperand at h
  split at h
  · rename_i w ts
    simp only [List.cons_append, pOperand]
    split at h
    · cases h
    · rename_i hk
      cases h
      rw [if_neg hk]
  · cases h
    rfl
  · rename_i n ts
    simp only [Option.some.injEq, Prod.mk.injEq] at h
    obtain ⟨rfl, rfl⟩ := h
    simp only [List.cons_append, pOperand]
    rw [pMinus_append ts n _ _ rfl rest hr]
  · rename_i n ts
    simp only [Option.some.injEq, Prod.mk.injEq] at h
    obtain ⟨rfl, rfl⟩ := h
    simp only [List.cons_append, pOperand]
    rw [pMinus_append ts _ _ _ rfl rest hr]
  · cases h

theorem pCompare_append (ts : List STok) (c : SCond) (r : List STok) (h : pCompare ts = some (c, r))
    (rest : List STok) (hr : CloseTok rest) : pCompare (ts ++ rest) = some (c, r ++ rest) := by
  unfold pCompare at h ⊢
  split at h
  · rename_i a ts' h1
    rw [pOperand_append _ _ _ h1 rest hr]
    simp only [List.cons_append]
    split at h
    · rename_i b ts'' h2
      rw [pOperand_append _ _ _ h2 rest hr]
      cases h
      rfl
    · cases h
  · rename_i a ts' h1
    rw [pOperand_append _ _ _ h1 rest hr]
    simp only [List.cons_append]
    split at h
    · rename_i b ts'' h2
      rw [pOperand_append _ _ _ h2 rest hr]
      cases h
      rfl
    · cases h
  · rename_i a g e ts' h1
    rw [pOperand_append _ _ _ h1 rest hr]
    simp only [List.cons_append]
    split at h
    · rename_i b ts'' h2
      rw [pOperand_append _ _ _ h2 rest hr]
      cases h
      rfl
    · cases h
  · cases h

theorem pNot_other {n : ℕ} {ts : List STok} (h1 : ∀ us, ts = .sym '(' :: us → False)
    (h2 : ∀ w us, ts = .word w :: us → False) : pNot (n + 1) ts = pCompare ts := by
  unfold pNot
  split
  · rename_i heq; cases heq
  · rename_i heq; exact (h1 _ rfl).elim
  · rename_i heq; exact (h2 _ _ rfl).elim
  · rfl

theorem pCompare_nil : pCompare [] = none := rfl

mutual
theorem pNot_append : ∀ (n : ℕ) (ts : List STok) (c : SCond) (r : List STok), pNot n ts = some (c, r) →
    ∀ rest, CloseTok rest → pNot n (ts ++ rest) = some (c, r ++ rest)
  | 0, _, _, _, h, _, _ => by simp [pNot] at h
  | n + 1, ts, c, r, h, rest, hr => by
      unfold pNot at h
      split at h
      · cases h
      · rename_i n' ts' heq
        cases heq
        split at h
        · rename_i c' ts'' hp
          cases h
          have := pOr_append n _ _ _ hp rest hr
          simp only [List.cons_append, pNot]
          rw [this]
          rfl
        · cases h
      · rename_i n' w ts' heq
        cases heq
        simp only [List.cons_append, pNot]
        split at h
        · rename_i hk
          rw [if_pos hk]
          split at h
          · rename_i c' ts'' hp
            cases h
            rw [pNot_append n _ _ _ hp rest hr]
          · cases h
        · rename_i hk
          rw [if_neg hk]
          exact pCompare_append _ _ _ h rest hr
      · rename_i ts _ _ _ _ h1 h2
        cases ts with
        | nil => rw [pCompare_nil] at h; cases h
        | cons t ts =>
          rw [pNot_other]
          · exact pCompare_append _ _ _ h rest hr
          · intro us e
            simp only [List.cons_append, List.cons.injEq] at e
            exact h1 ts (by rw [e.1])
          · intro w us e
            simp only [List.cons_append, List.cons.injEq] at e
            exact h2 w ts (by rw [e.1])
theorem pAnd_append : ∀ (n : ℕ) (ts : List STok) (c : SCond) (r : List STok), pAnd n ts = some (c, r) →
    ∀ rest, CloseTok rest → pAnd n (ts ++ rest) = some (c, r ++ rest)
  | 0, _, _, _, h, _, _ => by simp [pAnd] at h
  | n + 1, ts, c, r, h, rest, hr => by
      rw [pAnd] at h
      cases hp : pNot n ts with
      | none => rw [hp] at h; cases h
      | some q =>
        obtain ⟨c', ts'⟩ := q
        rw [hp] at h
        have ha := pNot_append n ts c' ts' hp rest hr
        cases ts' with
        | nil =>
          cases h
          exact pAnd_of_pNot ha fun _ _ e => (close_not_word hr e).elim
        | cons t ts' =>
          cases t with
          | word w =>
            rw [pAnd, ha]
            simp only [List.cons_append] at h ⊢
            split at h
            · rename_i hk
              rw [if_pos hk]
              split at h
              · rename_i d ts'' hp2
                cases h
                rw [pAnd_append n _ _ _ hp2 rest hr]
              · cases h
            · rename_i hk
              rw [if_neg hk]
              cases h
              rfl
          | _ =>
            cases h
            exact pAnd_of_pNot ha fun _ _ e => by cases e
theorem pOr_append : ∀ (n : ℕ) (ts : List STok) (c : SCond) (r : List STok), pOr n ts = some (c, r) →
    ∀ rest, CloseTok rest → pOr n (ts ++ rest) = some (c, r ++ rest)
  | 0, _, _, _, h, _, _ => by simp [pOr] at h
  | n + 1, ts, c, r, h, rest, hr => by
      rw [pOr] at h
      cases hp : pAnd n ts with
      | none => rw [hp] at h; cases h
      | some q =>
        obtain ⟨c', ts'⟩ := q
        rw [hp] at h
        have ha := pAnd_append n ts c' ts' hp rest hr
        cases ts' with
        | nil =>
          cases h
          exact pOr_of_pAnd ha fun _ _ e => (close_not_word hr e).elim
        | cons t ts' =>
          cases t with
          | word w =>
            rw [pOr, ha]
            simp only [List.cons_append] at h ⊢
            split at h
            · rename_i hk
              rw [if_pos hk]
              split at h
              · rename_i d ts'' hp2
                cases h
                rw [pOr_append n _ _ _ hp2 rest hr]
              · cases h
            · rename_i hk
              rw [if_neg hk]
              cases h
              rfl
          | _ =>
            cases h
            exact pOr_of_pAnd ha fun _ _ e => by cases e
end

/-- What is read alone is read in the same way in parentheses. -/
theorem ReadsAs.good {t : List Char} {c : SCond} (h : ReadsAs t c) : GoodText t c := by
  obtain ⟨ts, n, h1, h2⟩ := h
  exact ⟨ts, n, fun rest hr => lex_append t .start ts h1 rest hr, fun rest hr => pOr_append n ts c [] h2 rest hr⟩

/-! ## Strings in the tokens are strings in the condition -/

theorem pMinus_mem : ∀ (ts : List STok) (a : ℤ) (s : List Char), STok.str s ∈ ts → STok.str s ∈ (pMinus a ts).2 := by
  intro ts
  induction ts using List.twoStepInduction with
  | nil => intro a s h; cases h
  | singleton t =>
    intro a s h
    unfold pMinus
    split
    · rename_i heq; cases heq
    · exact h
  | cons_cons t u ts ih _ =>
    intro a s h
    unfold pMinus
    split
    · rename_i n ts' heq
      cases heq
      refine ih _ s ?_
      simpa using h
    · exact h

theorem pOperand_mem {ts : List STok} {o : COperand} {r : List STok} (h : pOperand ts = some (o, r)) (s : List Char)
    (hs : STok.str s ∈ ts) : s ∈ o.strings ∨ STok.str s ∈ r := by
  unfold pOperand at h
  split at h
  · split at h
    · cases h
    · cases h
      right
      simpa using hs
  · cases h
    rcases List.mem_cons.1 hs with hs | hs
    · cases hs
      exact Or.inl (by simp [COperand.strings])
    · exact Or.inr hs
  · cases h
    right
    exact pMinus_mem _ _ _ (by simpa using hs)
  · cases h
    right
    exact pMinus_mem _ _ _ (by simpa using hs)
  · cases h

theorem pCompare_mem {ts : List STok} {c : SCond} {r : List STok} (h : pCompare ts = some (c, r)) (s : List Char)
    (hs : STok.str s ∈ ts) : s ∈ c.strings ∨ STok.str s ∈ r := by
  unfold pCompare at h
  split at h
  · rename_i a ts' h1
    split at h
    · rename_i b ts'' h2
      cases h
      rcases pOperand_mem h1 s hs with h | h
      · exact Or.inl (by simp [SCond.strings, h])
      · rcases pOperand_mem h2 s (by simpa using h) with h | h
        · exact Or.inl (by simp [SCond.strings, h])
        · exact Or.inr h
    · cases h
  · rename_i a ts' h1
    split at h
    · rename_i b ts'' h2
      cases h
      rcases pOperand_mem h1 s hs with h | h
      · exact Or.inl (by simp [SCond.strings, h])
      · rcases pOperand_mem h2 s (by simpa using h) with h | h
        · exact Or.inl (by simp [SCond.strings, h])
        · exact Or.inr h
    · cases h
  · rename_i a g e ts' h1
    split at h
    · rename_i b ts'' h2
      cases h
      rcases pOperand_mem h1 s hs with h | h
      · exact Or.inl (by simp [SCond.strings, h])
      · rcases pOperand_mem h2 s (by simpa using h) with h | h
        · exact Or.inl (by simp [SCond.strings, h])
        · exact Or.inr h
    · cases h
  · cases h

mutual
theorem pNot_mem : ∀ (n : ℕ) (ts : List STok) (c : SCond) (r : List STok), pNot n ts = some (c, r) →
    ∀ s, STok.str s ∈ ts → s ∈ c.strings ∨ STok.str s ∈ r
  | 0, _, _, _, h, _, _ => by simp [pNot] at h
  | n + 1, ts, c, r, h, s, hs => by
      unfold pNot at h
      split at h
      · cases h
      · rename_i n' ts' heq
        cases heq
        split at h
        · rename_i c' ts'' hp
          cases h
          rcases pOr_mem n _ _ _ hp s (by simpa using hs) with h | h
          · exact Or.inl h
          · exact Or.inr (by simpa using h)
        · cases h
      · rename_i n' w ts' heq
        cases heq
        split at h
        · split at h
          · rename_i c' ts'' hp
            cases h
            exact pNot_mem n _ _ _ hp s (by simpa using hs)
          · cases h
        · exact pCompare_mem h s hs
      · exact pCompare_mem h s hs
theorem pAnd_mem : ∀ (n : ℕ) (ts : List STok) (c : SCond) (r : List STok), pAnd n ts = some (c, r) →
    ∀ s, STok.str s ∈ ts → s ∈ c.strings ∨ STok.str s ∈ r
  | 0, _, _, _, h, _, _ => by simp [pAnd] at h
  | n + 1, ts, c, r, h, s, hs => by
      rw [pAnd] at h
      split at h
      · rename_i c' w ts' hp
        have ha := pNot_mem n _ _ _ hp s hs
        split at h
        · split at h
          · rename_i d ts'' hp2
            cases h
            rcases ha with ha | ha
            · exact Or.inl (by simp [SCond.strings, ha])
            · rcases pAnd_mem n _ _ _ hp2 s (by simpa using ha) with h | h
              · exact Or.inl (by simp [SCond.strings, h])
              · exact Or.inr h
          · cases h
        · cases h
          exact ha
      · exact pNot_mem n _ _ _ h s hs
theorem pOr_mem : ∀ (n : ℕ) (ts : List STok) (c : SCond) (r : List STok), pOr n ts = some (c, r) →
    ∀ s, STok.str s ∈ ts → s ∈ c.strings ∨ STok.str s ∈ r
  | 0, _, _, _, h, _, _ => by simp [pOr] at h
  | n + 1, ts, c, r, h, s, hs => by
      rw [pOr] at h
      split at h
      · rename_i c' w ts' hp
        have ha := pAnd_mem n _ _ _ hp s hs
        split at h
        · split at h
          · rename_i d ts'' hp2
            cases h
            rcases ha with ha | ha
            · exact Or.inl (by simp [SCond.strings, ha])
            · rcases pOr_mem n _ _ _ hp2 s (by simpa using ha) with h | h
              · exact Or.inl (by simp [SCond.strings, h])
              · exact Or.inr h
          · cases h
        · cases h
          exact ha
      · exact pAnd_mem n _ _ _ h s hs
end

/-! ## Double equal signs -/

theorem dropEqEq_cons {c : Char} (h : c ≠ '=') (t : List Char) : dropEqEq (c :: t) = c :: dropEqEq t := by
  conv_lhs => unfold dropEqEq
  split
  · rename_i heq; cases heq; exact absurd rfl h
  · rename_i heq; cases heq; rfl
  · rename_i heq; cases heq

theorem dropEqEq_eq {t : List Char} (h : t.head? ≠ some '=') : dropEqEq ('=' :: t) = '=' :: dropEqEq t := by
  conv_lhs => unfold dropEqEq
  split
  · rename_i heq; cases heq; exact absurd rfl h
  · rename_i heq; cases heq; rfl
  · rename_i heq; cases heq

theorem dropEqEq_two (t : List Char) : dropEqEq ('=' :: '=' :: t) = '=' :: dropEqEq t := by
  rw [dropEqEq]

/-- No string among the tokens has two equal signs in a row. -/
def StrOK (toks : List STok) : Prop := ∀ s, STok.str s ∈ toks → ¬ ['=', '='] <:+: s

/-- A string goes on to its end. -/
theorem inStr_prefix {start : Char → Option (List STok × LexState)} : ∀ (t : List Char) (acc : List Char) (toks : List STok),
    (lexFrom start (.inStr acc) t = some toks ∨ lexFrom start (.escape acc) t = some toks) →
    ∃ s us, toks = .str (acc.reverse ++ s) :: us
  | [], acc, toks, h => by simp [lexFrom] at h
  | c :: t, acc, toks, h => by
      rcases h with h | h
      · simp only [lexFrom] at h
        split at h
        · obtain ⟨us, _, h2⟩ := Option.map_eq_some_iff.1 h
          exact ⟨[], us, by simp [← h2]⟩
        · split at h
          · exact inStr_prefix t acc toks (Or.inr h)
          · split at h
            · cases h
            · obtain ⟨s, us, e⟩ := inStr_prefix t (c :: acc) toks (Or.inl h)
              exact ⟨c :: s, us, by simp [e]⟩
      · simp only [lexFrom] at h
        split at h
        · cases h
        · rename_i d _
          obtain ⟨s, us, e⟩ := inStr_prefix t (d :: acc) toks (Or.inl h)
          exact ⟨d :: s, us, by simp [e]⟩

/-- The state of the lexer at which an equal sign is an equality. -/
def Outside : LexState → Prop
  | .start | .inWord _ | .inNum _ => True
  | _ => False

/-- The tokens that are pending in a state. -/
def pending : LexState → List STok
  | .inWord acc => [.word acc.reverse]
  | .inNum acc => [.num (Nat.ofDigitChars 10 acc.reverse 0)]
  | _ => []

theorem outside_eq {start : Char → Option (List STok × LexState)} (st : LexState) (h : Outside st) (t : List Char) :
    lexFrom start st ('=' :: t)
      = match start '=' with
        | none => none
        | some (ts, st') => (lexFrom start st' t).map (pending st ++ ts ++ ·) := by
  cases st with
  | start => rw [lexFrom]; rfl
  | inWord acc => rw [lexFrom, if_neg (by decide)]; rfl
  | inNum acc => rw [lexFrom, if_neg (by decide)]; rfl
  | _ => exact h.elim

/-- The token that an equal sign completes. -/
def eqTok : LexState → Option STok
  | .bang => some .ne
  | .angle g => some (.ord g true)
  | _ => none

theorem eqTok_eq {start : Char → Option (List STok × LexState)} {st : LexState} {τ : STok} (h : eqTok st = some τ) (t : List Char) :
    lexFrom start st ('=' :: t) = (lexFrom start .start t).map (τ :: ·) := by
  cases st with
  | bang => cases h; rw [lexFrom, if_pos rfl]
  | angle g => cases h; rw [lexFrom, if_pos rfl]
  | _ => cases h

theorem pyStart_ne {c : Char} (h : c ≠ '=') : pyStart c = lexStart c := if_neg h

theorem py_main : ∀ (k : ℕ) (t : List Char), t.length ≤ k → ∀ (st : LexState) (toks : List STok), StrOK toks →
    lexFrom pyStart st t = some toks →
    (st ≠ .equal → lexFrom lexStart st (dropEqEq t) = some toks) ∧
    (st = .start → ∀ st', Outside st' →
      lexFrom lexStart st' (dropEqEq ('=' :: t)) = some (pending st' ++ .sym '=' :: toks)) ∧
    (st = .start → ∀ st' τ, eqTok st' = some τ → lexFrom lexStart st' (dropEqEq ('=' :: t)) = some (τ :: toks)) := by
  intro k
  induction k with
  | zero =>
    intro t ht st toks _ h
    cases t with
    | cons c t => simp at ht
    | nil =>
      refine ⟨fun hst => ?_, fun hst st' ho => ?_, fun hst st' τ hτ => ?_⟩
      · cases st with
        | equal => exact absurd rfl hst
        | _ => simpa [lexFrom, dropEqEq] using h
      · subst hst
        simp only [lexFrom, Option.some.injEq] at h
        subst h
        rw [dropEqEq_eq (by simp), outside_eq st' ho, show lexStart '=' = some ([.sym '='], .start) from rfl]
        simp [dropEqEq, lexFrom]
      · subst hst
        simp only [lexFrom, Option.some.injEq] at h
        subst h
        rw [dropEqEq_eq (by simp), eqTok_eq hτ]
        rfl
  | succ k ih =>
    intro t ht st toks hok h
    -- first part
    have first : ∀ (t : List Char), t.length ≤ k + 1 → ∀ (st : LexState) (toks : List STok), StrOK toks →
        lexFrom pyStart st t = some toks → st ≠ .equal → lexFrom lexStart st (dropEqEq t) = some toks := by
      intro t ht st toks hok h hst
      cases t with
      | nil =>
        cases st with
        | equal => exact absurd rfl hst
        | _ => simpa [lexFrom, dropEqEq] using h
      | cons c t =>
        have ht' : t.length ≤ k := by simpa using ht
        by_cases hc : c = '='
        · subst hc
          have outside : Outside st → lexFrom lexStart st (dropEqEq ('=' :: t)) = some toks := by
            intro ho
            rw [outside_eq st ho, show pyStart '=' = some ([], .equal) from rfl] at h
            simp only [List.append_nil] at h
            obtain ⟨us, h1, h2⟩ := Option.map_eq_some_iff.1 h
            cases t with
            | nil => simp [lexFrom] at h1
            | cons d t =>
              simp only [lexFrom] at h1
              split at h1
              · rename_i hd
                subst hd
                obtain ⟨vs, h3, h4⟩ := Option.map_eq_some_iff.1 h1
                rw [dropEqEq_two, outside_eq st ho, show lexStart '=' = some ([.sym '='], .start) from rfl]
                simp only
                have hlen : t.length ≤ k := by simp at ht'; omega
                have hv : StrOK vs := fun s hs => hok s (by rw [← h2, ← h4]; simp [hs])
                rw [(ih t hlen .start vs hv h3).1 (by simp)]
                simp [← h2, ← h4]
              · cases h1
          cases st with
          | start => exact outside trivial
          | inWord acc => exact outside trivial
          | inNum acc => exact outside trivial
          | bang =>
            simp only [lexFrom, if_true] at h
            obtain ⟨us, h1, h2⟩ := Option.map_eq_some_iff.1 h
            have hu : StrOK us := fun s hs => hok s (by rw [← h2]; simp [hs])
            rw [(ih t ht' .start us hu h1).2.2 rfl .bang .ne rfl, h2]
          | angle g =>
            simp only [lexFrom, if_true] at h
            obtain ⟨us, h1, h2⟩ := Option.map_eq_some_iff.1 h
            have hu : StrOK us := fun s hs => hok s (by rw [← h2]; simp [hs])
            rw [(ih t ht' .start us hu h1).2.2 rfl (.angle g) _ rfl, h2]
          | equal => exact absurd rfl hst
          | escape acc =>
            simp only [lexFrom, show escaped '=' = none from rfl] at h
            cases h
          | inStr acc =>
            have h0 := h
            simp only [lexFrom] at h
            rw [if_neg (by decide), if_neg (by decide), if_neg (by decide)] at h
            have hne : t.head? ≠ some '=' := by
              intro he
              cases t with
              | nil => cases he
              | cons d t =>
                cases he
                simp only [lexFrom] at h
                rw [if_neg (by decide), if_neg (by decide), if_neg (by decide)] at h
                obtain ⟨s, us, e⟩ := inStr_prefix t _ toks (Or.inl h)
                refine hok _ (by rw [e]; exact List.mem_cons_self) ?_
                exact ⟨acc.reverse, s, by simp⟩
            rw [dropEqEq_eq hne, lexFrom, if_neg (by decide), if_neg (by decide), if_neg (by decide)]
            exact (ih t ht' _ toks hok h).1 (by simp)
        · rw [dropEqEq_cons hc]
          have step : ∀ (pre : List STok) (o : Option (List STok × LexState)),
              (∀ ts st', o = some (ts, st') → st' ≠ .equal) →
              (match o with
                | none => none
                | some (ts, st) => (lexFrom pyStart st t).map (pre ++ ts ++ ·)) = some toks →
              (match o with
                | none => none
                | some (ts, st) => (lexFrom lexStart st (dropEqEq t)).map (pre ++ ts ++ ·)) = some toks := by
            intro pre o he ho
            cases o with
            | none => cases ho
            | some p =>
              obtain ⟨ts, st'⟩ := p
              simp only at ho ⊢
              obtain ⟨us, h1, h2⟩ := Option.map_eq_some_iff.1 ho
              have hu : StrOK us := fun s hs => hok s (by rw [← h2]; simp [hs])
              rw [(ih t ht' st' us hu h1).1 (he _ _ rfl)]
              simpa using h2
          have hstart : ∀ ts st', lexStart c = some (ts, st') → st' ≠ .equal := by
            intro ts st' h
            unfold lexStart at h
            split_ifs at h <;> cases h <;> simp
          cases st with
          | start =>
            rw [lexFrom, pyStart_ne hc] at h
            rw [lexFrom]
            exact step [] _ hstart h
          | inWord acc =>
            rw [lexFrom, pyStart_ne hc] at h
            rw [lexFrom]
            split at h
            · rename_i hw
              rw [if_pos hw]
              exact (ih t ht' _ toks hok h).1 (by simp)
            · rename_i hw
              rw [if_neg hw]
              exact step [.word acc.reverse] _ hstart h
          | inNum acc =>
            rw [lexFrom, pyStart_ne hc] at h
            rw [lexFrom]
            split at h
            · rename_i hw
              rw [if_pos hw]
              exact (ih t ht' _ toks hok h).1 (by simp)
            · rename_i hw
              rw [if_neg hw]
              exact step [.num (Nat.ofDigitChars 10 acc.reverse 0)] _ hstart h
          | inStr acc =>
            simp only [lexFrom] at h ⊢
            split at h
            · rename_i hq
              rw [if_pos hq]
              obtain ⟨us, h1, h2⟩ := Option.map_eq_some_iff.1 h
              have hu : StrOK us := fun s hs => hok s (by rw [← h2]; simp [hs])
              rw [(ih t ht' .start us hu h1).1 (by simp)]
              simpa using h2
            · rename_i hq
              rw [if_neg hq]
              split at h
              · rename_i hb
                rw [if_pos hb]
                exact (ih t ht' _ toks hok h).1 (by simp)
              · rename_i hb
                rw [if_neg hb]
                split at h
                · cases h
                · rename_i hn
                  rw [if_neg hn]
                  exact (ih t ht' _ toks hok h).1 (by simp)
          | escape acc =>
            simp only [lexFrom] at h ⊢
            cases he : escaped c with
            | none => rw [he] at h; cases h
            | some d =>
              rw [he] at h
              exact (ih t ht' _ toks hok h).1 (by simp)
          | bang =>
            simp only [lexFrom] at h
            rw [if_neg hc] at h
            cases h
          | angle g =>
            rw [lexFrom, pyStart_ne hc, if_neg hc] at h
            rw [lexFrom, if_neg hc]
            exact step [.ord g false] _ hstart h
          | equal => exact absurd rfl hst
    refine ⟨first t ht st toks hok h, fun hst st' ho => ?_, fun hst st' τ hτ => ?_⟩
    · subst hst
      by_cases hh : t.head? = some '='
      · cases t with
        | nil => cases hh
        | cons d t =>
          cases hh
          rw [outside_eq .start trivial, show pyStart '=' = some ([], .equal) from rfl] at h
          obtain ⟨us, h1, h2⟩ := Option.map_eq_some_iff.1 h
          cases t with
          | nil => simp [lexFrom] at h1
          | cons e t =>
            simp only [lexFrom] at h1
            split at h1
            · rename_i he
              subst he
              obtain ⟨vs, h3, h4⟩ := Option.map_eq_some_iff.1 h1
              have hv : StrOK vs := fun s hs => hok s (by rw [← h2, ← h4]; simp [hs])
              have hlen : t.length ≤ k := by simp at ht; omega
              rw [dropEqEq_two, outside_eq st' ho, show lexStart '=' = some ([.sym '='], .start) from rfl]
              simp only
              rw [(ih t hlen .start vs hv h3).2.1 rfl .start trivial]
              simp [← h2, ← h4, pending]
            · cases h1
      · rw [dropEqEq_eq hh, outside_eq st' ho, show lexStart '=' = some ([.sym '='], .start) from rfl]
        simp only
        rw [first t ht .start toks hok h (by simp)]
        simp
    · subst hst
      by_cases hh : t.head? = some '='
      · cases t with
        | nil => cases hh
        | cons d t =>
          cases hh
          rw [outside_eq .start trivial, show pyStart '=' = some ([], .equal) from rfl] at h
          obtain ⟨us, h1, h2⟩ := Option.map_eq_some_iff.1 h
          cases t with
          | nil => simp [lexFrom] at h1
          | cons e t =>
            simp only [lexFrom] at h1
            split at h1
            · rename_i he
              subst he
              obtain ⟨vs, h3, h4⟩ := Option.map_eq_some_iff.1 h1
              have hv : StrOK vs := fun s hs => hok s (by rw [← h2, ← h4]; simp [hs])
              have hlen : t.length ≤ k := by simp at ht; omega
              rw [dropEqEq_two, eqTok_eq hτ, (ih t hlen .start vs hv h3).2.1 rfl .start trivial]
              simp [← h2, ← h4, pending]
            · cases h1
      · rw [dropEqEq_eq hh, eqTok_eq hτ, first t ht .start toks hok h (by simp)]
        simp

/-- A condition written for a DataFrame is read by the database in the same way. -/
theorem PyReads.reads {t : List Char} {c : SCond} (h : PyReads t c) (hs : ∀ s ∈ c.strings, ¬ ['=', '='] <:+: s) :
    ReadsAs (dropEqEq t) c := by
  obtain ⟨ts, n, h1, h2⟩ := h
  have hok : StrOK ts := fun s hm => by
    rcases pOr_mem n ts c [] h2 s hm with h | h
    · exact hs s h
    · cases h
  exact ⟨ts, n, (py_main t.length t le_rfl .start ts hok h1).1 (by simp), h2⟩

theorem pyReads_of (n : ℕ) {t : List Char} {c : SCond} (h : (lexFrom pyStart .start t).bind (pOr n) = some (c, [])) :
    PyReads t c := by
  obtain ⟨ts, h1, h2⟩ := Option.bind_eq_some_iff.1 h
  exact ⟨ts, n, h1, h2⟩

end Verif
