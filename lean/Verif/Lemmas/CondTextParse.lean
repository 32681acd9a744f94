import Verif.Lemmas.CondText
import Mathlib.Tactic.Linarith

/-! # Lemmas for C78: what the texts of the code are read as -/

namespace Verif

/-! ## No double equal signs -/

/-- Not both are equal signs. -/
def NotEqEq (a b : Char) : Prop := ¬ (a = '=' ∧ b = '=')

theorem dropEqEq_id : ∀ (t : List Char), t.IsChain NotEqEq → dropEqEq t = t
  | [], _ => rfl
  | [c], _ => by
      unfold dropEqEq
      split
      · rename_i h; cases h
      · rename_i h; cases h; rfl
      · rename_i h; cases h
  | a :: b :: t, h => by
      rw [List.isChain_cons_cons] at h
      unfold dropEqEq
      split
      · rename_i heq
        cases heq
        exact absurd ⟨rfl, rfl⟩ h.1
      · rename_i heq
        cases heq
        rw [dropEqEq_id (b :: t) h.2]
      · rename_i heq; cases heq

theorem chain_mid {a b : List Char} {x : Char} (hx : x ≠ '=') (ha : a.IsChain NotEqEq) (hb : b.IsChain NotEqEq) :
    (a ++ x :: b).IsChain NotEqEq := by
  rw [List.isChain_append]
  refine ⟨ha, ?_, ?_⟩
  · rw [List.isChain_cons]
    exact ⟨fun y _ h => hx h.1, hb⟩
  · intro y _ z hz h
    simp only [List.head?_cons, Option.mem_def, Option.some.injEq] at hz
    exact hx (hz.trans h.2)

theorem chain_of_not_mem : ∀ (t : List Char), '=' ∉ t → t.IsChain NotEqEq
  | [], _ => .nil
  | a :: t, h => by
      rw [List.isChain_cons]
      exact ⟨fun y _ e => h (by rw [← e.1]; exact List.mem_cons_self),
        chain_of_not_mem t fun ht => h (List.mem_cons_of_mem _ ht)⟩

theorem chain_of_noEqEq : ∀ (t : List Char), ¬ ['=', '='] <:+: t → t.IsChain NotEqEq
  | [], _ => .nil
  | [_], _ => .singleton _
  | a :: b :: t, h => by
      rw [List.isChain_cons_cons]
      refine ⟨?_, chain_of_noEqEq (b :: t) fun hi => h (hi.trans (List.suffix_cons a _).isInfix)⟩
      rintro ⟨rfl, rfl⟩
      exact h ⟨[], t, rfl⟩

theorem name_noEq {c : List Char} (h : NameOK c) : '=' ∉ c := by
  obtain ⟨⟨a, as, rfl, ha, has⟩, _⟩ := h
  intro hm
  rcases List.mem_cons.1 hm with rfl | hm
  · exact absurd ha (by decide)
  · exact absurd (has _ hm) (by decide)

theorem digits_noEq (n : ℕ) : '=' ∉ Nat.toDigits 10 n := fun h => absurd (toDigits_isDigit n _ h) (by decide)

theorem intText_noEq (n : ℤ) : '=' ∉ intText n := by
  unfold intText
  split
  · intro h
    rcases List.mem_cons.1 h with h | h
    · exact absurd h (by decide)
    · exact digits_noEq _ h
  · exact digits_noEq _

theorem chain_val (v : CVal) (hv : PlainVal v) (he : NoEqEq v) : (formatToCondition v).IsChain NotEqEq := by
  cases v with
  | str s =>
    simp only [formatToCondition]
    rw [if_neg hv.1]
    exact chain_mid (a := []) (by decide) .nil (chain_mid (b := []) (by decide) (chain_of_noEqEq s he) .nil)
  | int n => exact chain_of_not_mem _ (intText_noEq n)
  | date _ _ _ => exact hv.elim

/-! ## Comparisons -/

/-- What may follow a comparison. -/
def EndTok (ts : List STok) : Prop := ∀ t, ts.head? = some t → t = .sym ')' ∨ ∃ w, t = .word w

/-- What may follow a condition. -/
def CloseTok (ts : List STok) : Prop := ∀ t, ts.head? = some t → t = .sym ')'

theorem CloseTok.endTok {ts : List STok} (h : CloseTok ts) : EndTok ts := fun t ht => Or.inl (h t ht)

theorem pMinus_end (a : ℤ) (ts : List STok) (h : EndTok ts) : pMinus a ts = (a, ts) := by
  unfold pMinus
  split
  · rename_i n ts
    rcases h _ rfl with h | ⟨w, h⟩ <;> simp at h
  · rfl

theorem pOperand_val (v : CVal) (hv : PlainVal v) (ts : List STok) (h : EndTok ts) :
    pOperand (valToks v ++ ts) = some (.lit v, ts) := by
  cases v with
  | str s => rfl
  | int n =>
    by_cases hn : n < 0
    · rw [show valToks (.int n) = [.sym '-', .num n.natAbs] from if_pos hn]
      simp only [List.cons_append, List.nil_append, pOperand, pMinus_end _ ts h]
      rw [show -((n.natAbs : ℕ) : ℤ) = n by omega]
    · rw [show valToks (.int n) = [.num n.natAbs] from if_neg hn]
      simp only [List.cons_append, List.nil_append, pOperand, pMinus_end _ ts h]
      rw [show ((n.natAbs : ℕ) : ℤ) = n by omega]
  | date _ _ _ => exact hv.elim

/-- `col = v` or `col != v`. -/
def atomText (b : Bool) (p : List Char × CVal) : List Char :=
  p.1 ++ (if b then " = ".toList else " != ".toList) ++ formatToCondition p.2
/-- Its tokens. -/
def atomToks (b : Bool) (p : List Char × CVal) : List STok :=
  .word p.1 :: (if b then .sym '=' else .ne) :: valToks p.2
/-- What it means. -/
def atomCond (b : Bool) (p : List Char × CVal) : SCond :=
  if b then .eq (.col p.1) (.lit p.2) else .ne (.col p.1) (.lit p.2)

theorem delim_cons {c : Char} {cs : List Char} (h : wordChar c = false ∧ c ≠ '=') : Delim (c :: cs) := by
  intro d hd
  cases hd
  exact h

theorem delim_nil : Delim [] := fun _ h => by cases h

theorem lex_atom (b : Bool) (p : List Char × CVal) (hn : NameOK p.1) (hv : PlainVal p.2) (rest : List Char)
    (h : Delim rest) :
    lexFrom lexStart .start (atomText b p ++ rest) = (lexFrom lexStart .start rest).map (atomToks b p ++ ·) := by
  cases b with
  | true =>
    simp only [atomText, if_true, List.append_assoc]
    rw [show " = ".toList ++ (formatToCondition p.2 ++ rest) = ' ' :: '=' :: ' ' :: (formatToCondition p.2 ++ rest) from rfl,
      lex_word p.1 _ hn.1 (delim_cons (c := ' ') (by decide)),
      lex_space, lex_sym '=' (by simp), lex_space, lex_val p.2 hv rest h]
    simp only [Option.map_map]
    rfl
  | false =>
    simp only [atomText, Bool.false_eq_true, if_false, List.append_assoc]
    rw [show " != ".toList ++ (formatToCondition p.2 ++ rest) = ' ' :: '!' :: '=' :: ' ' :: (formatToCondition p.2 ++ rest) from rfl,
      lex_word p.1 _ hn.1 (delim_cons (c := ' ') (by decide)),
      lex_space, lex_ne, lex_space, lex_val p.2 hv rest h]
    simp only [Option.map_map]
    rfl

theorem kw_not {w : List Char} {k : String} (h : keyword w = false)
    (hk : k.toList ∈ ["AND", "OR", "NOT", "CASE", "WHEN", "THEN", "ELSE", "END", "DESC"].map String.toList) :
    isKw w k = false := by
  by_contra hc
  have hc : isKw w k = true := by simpa using hc
  simp only [isKw, decide_eq_true_eq] at hc
  simp only [keyword, hc, hk, decide_true] at h
  cases h

theorem pNot_atom (b : Bool) (p : List Char × CVal) (hn : NameOK p.1) (hv : PlainVal p.2) (n : ℕ) (ts : List STok)
    (h : EndTok ts) : pNot (n + 1) (atomToks b p ++ ts) = some (atomCond b p, ts) := by
  have hk := kw_not (k := "NOT") hn.2 (by decide)
  have ho : ∀ us, pOperand (STok.word p.1 :: us) = some (.col p.1, us) := fun us => by
    simp [pOperand, hn.2]
  have hp : pNot (n + 1) (atomToks b p ++ ts) = pCompare (atomToks b p ++ ts) := by
    simp only [atomToks, List.cons_append, pNot, hk, Bool.false_eq_true, if_false]
  rw [hp, pCompare]
  simp only [atomToks, List.cons_append, ho]
  cases b with
  | true =>
    simp only [if_true]
    rw [pOperand_val p.2 hv ts h]
    rfl
  | false =>
    simp only [Bool.false_eq_true, if_false]
    rw [pOperand_val p.2 hv ts h]
    rfl

/-! ## Chains of AND and of OR -/

/-- The tokens of `p₀ kw p₁ kw p₂ ...`. -/
def chainToks (kw : List Char) (b : Bool) : List Char × CVal → List (List Char × CVal) → List STok
  | p, [] => atomToks b p
  | p, q :: qs => atomToks b p ++ STok.word kw :: chainToks kw b q qs

/-- The condition. -/
def chainCond (op : SCond → SCond → SCond) (b : Bool) : List Char × CVal → List (List Char × CVal) → SCond
  | p, [] => atomCond b p
  | p, q :: qs => op (atomCond b p) (chainCond op b q qs)

theorem lex_chain (kw : List Char) (hkw : ∃ a as, kw = a :: as ∧ wordStart a = true ∧ ∀ x ∈ as, wordChar x = true)
    (b : Bool) : ∀ (qs : List (List Char × CVal)) (p : List Char × CVal), ColsOK (p :: qs) → ∀ rest, Delim rest →
    lexFrom lexStart .start (joinText (' ' :: kw ++ [' ']) ((p :: qs).map (atomText b)) ++ rest)
      = (lexFrom lexStart .start rest).map (chainToks kw b p qs ++ ·)
  | [], p, h, rest, hr => lex_atom b p (h p List.mem_cons_self).1 (h p List.mem_cons_self).2 rest hr
  | q :: qs, p, h, rest, hr => by
      obtain ⟨h1, h2⟩ := h p List.mem_cons_self
      have ih := lex_chain kw hkw b qs q (fun x hx => h x (List.mem_cons_of_mem _ hx)) rest hr
      simp only [List.map_cons] at ih
      simp only [List.map_cons, joinText, List.append_assoc, List.cons_append, List.nil_append] at ih ⊢
      rw [lex_atom b p h1 h2 _ (delim_cons (c := ' ') (by decide)), lex_space,
        lex_word kw _ hkw (delim_cons (c := ' ') (by decide)), lex_space, ih]
      simp only [Option.map_map, chainToks]
      congr 1
      funext x
      simp [Function.comp]

theorem endTok_word (w : List Char) (ts : List STok) : EndTok (.word w :: ts) := by
  intro t ht
  cases ht
  exact Or.inr ⟨w, rfl⟩

theorem pAnd_of_pNot {n : ℕ} {ts rest : List STok} {c : SCond} (h : pNot n ts = some (c, rest))
    (hr : ∀ w us, rest = .word w :: us → isKw w "AND" = false) : pAnd (n + 1) ts = some (c, rest) := by
  rw [pAnd, h]
  split
  · rename_i heq
    cases heq
    rw [if_neg (by simp [hr _ _ rfl])]
  · rfl

theorem pOr_of_pAnd {n : ℕ} {ts rest : List STok} {c : SCond} (h : pAnd n ts = some (c, rest))
    (hr : ∀ w us, rest = .word w :: us → isKw w "OR" = false) : pOr (n + 1) ts = some (c, rest) := by
  rw [pOr, h]
  split
  · rename_i heq
    cases heq
    rw [if_neg (by simp [hr _ _ rfl])]
  · rfl

theorem close_not_word {ts us : List STok} {w : List Char} (h : CloseTok ts) (e : ts = .word w :: us) : False := by
  subst e
  have := h _ rfl
  cases this

theorem pAnd_chain (b : Bool) : ∀ (qs : List (List Char × CVal)) (p : List Char × CVal), ColsOK (p :: qs) →
    ∀ rest, CloseTok rest →
      pAnd (qs.length + 2) (chainToks "AND".toList b p qs ++ rest) = some (chainCond .and b p qs, rest)
  | [], p, h, rest, hr =>
      pAnd_of_pNot (pNot_atom b p (h p List.mem_cons_self).1 (h p List.mem_cons_self).2 0 rest hr.endTok)
        fun _ _ e => (close_not_word hr e).elim
  | q :: qs, p, h, rest, hr => by
      have ih := pAnd_chain b qs q (fun x hx => h x (List.mem_cons_of_mem _ hx)) rest hr
      simp only [chainToks, List.append_assoc, List.cons_append, List.length_cons]
      rw [pAnd, pNot_atom b p (h p List.mem_cons_self).1 (h p List.mem_cons_self).2 _ _ (endTok_word _ _)]
      simp only
      rw [if_pos (by decide), ih]
      rfl

theorem pOr_andChain (b : Bool) (qs : List (List Char × CVal)) (p : List Char × CVal) (h : ColsOK (p :: qs))
    (rest : List STok) (hr : CloseTok rest) :
    pOr (qs.length + 3) (chainToks "AND".toList b p qs ++ rest) = some (chainCond .and b p qs, rest) :=
  pOr_of_pAnd (pAnd_chain b qs p h rest hr) fun _ _ e => (close_not_word hr e).elim

theorem pOr_orChain (b : Bool) : ∀ (qs : List (List Char × CVal)) (p : List Char × CVal), ColsOK (p :: qs) →
    ∀ rest, CloseTok rest →
      pOr (qs.length + 3) (chainToks "OR".toList b p qs ++ rest) = some (chainCond .or b p qs, rest)
  | [], p, h, rest, hr =>
      pOr_of_pAnd (pAnd_of_pNot (pNot_atom b p (h p List.mem_cons_self).1 (h p List.mem_cons_self).2 0 rest hr.endTok)
        fun _ _ e => (close_not_word hr e).elim) fun _ _ e => (close_not_word hr e).elim
  | q :: qs, p, h, rest, hr => by
      have ih := pOr_orChain b qs q (fun x hx => h x (List.mem_cons_of_mem _ hx)) rest hr
      simp only [chainToks, List.append_assoc, List.cons_append, List.length_cons]
      have ha := pAnd_of_pNot (pNot_atom b p (h p List.mem_cons_self).1 (h p List.mem_cons_self).2 (qs.length + 1)
        (STok.word "OR".toList :: (chainToks "OR".toList b q qs ++ rest)) (endTok_word _ _)) (by
          intro w us e
          cases e
          decide)
      rw [pOr, ha]
      simp only
      rw [if_pos (by decide), ih]
      rfl

/-! ## Texts that are read as a condition, alone or in parentheses -/

/-- The text is read as `c`, whatever comes after it. -/
def GoodText (t : List Char) (c : SCond) : Prop :=
  ∃ toks n, (∀ rest, Delim rest → lexFrom lexStart .start (t ++ rest) = (lexFrom lexStart .start rest).map (toks ++ ·)) ∧
    ∀ rest, CloseTok rest → pOr n (toks ++ rest) = some (c, rest)

theorem GoodText.reads {t : List Char} {c : SCond} (h : GoodText t c) : ReadsAs t c := by
  obtain ⟨toks, n, h1, h2⟩ := h
  refine ⟨toks, n, ?_, ?_⟩
  · have := h1 [] delim_nil
    simpa [lexFrom] using this
  · have := h2 [] (fun _ h => by cases h)
    simpa using this

theorem reads_of (n : ℕ) {t : List Char} {c : SCond} (h : (lexFrom lexStart .start t).bind (pOr n) = some (c, [])) :
    ReadsAs t c := by
  obtain ⟨ts, h1, h2⟩ := Option.bind_eq_some_iff.1 h
  exact ⟨ts, n, h1, h2⟩

instance (c : SCond) (r : CRow) : Decidable (c.keeps r) := inferInstanceAs (Decidable (_ = _))

theorem pNot_paren {n : ℕ} {toks rest : List STok} {c : SCond}
    (h : pOr n (toks ++ .sym ')' :: rest) = some (c, .sym ')' :: rest)) :
    pNot (n + 1) (.sym '(' :: toks ++ .sym ')' :: rest) = some (c, rest) := by
  rw [List.cons_append, pNot, h]
  rfl

theorem close_close (rest : List STok) : CloseTok (.sym ')' :: rest) := by
  intro t ht
  cases ht
  rfl

theorem GoodText.paren {t : List Char} {c : SCond} (h : GoodText t c) : GoodText ('(' :: t ++ [')']) c := by
  obtain ⟨toks, n, h1, h2⟩ := h
  refine ⟨.sym '(' :: toks ++ [.sym ')'], n + 3, fun rest _ => ?_, fun rest hr => ?_⟩
  · have e : ('(' :: t ++ [')']) ++ rest = '(' :: (t ++ ')' :: rest) := by simp
    rw [e, lex_sym '(' (by simp), h1 _ (delim_cons (by decide)), lex_sym ')' (by simp)]
    simp only [Option.map_map]
    congr 1
    funext x
    simp [Function.comp]
  · have e : (STok.sym '(' :: toks ++ [STok.sym ')']) ++ rest = STok.sym '(' :: toks ++ STok.sym ')' :: rest := by simp
    rw [e]
    exact pOr_of_pAnd (pAnd_of_pNot (pNot_paren (h2 _ (close_close _)))
      fun _ _ e => (close_not_word hr e).elim) fun _ _ e => (close_not_word hr e).elim

theorem GoodText.not {t : List Char} {c : SCond} (h : GoodText t c) : GoodText ("NOT (".toList ++ t ++ [')']) (.not c) := by
  obtain ⟨toks, n, h1, h2⟩ := h
  refine ⟨.word "NOT".toList :: .sym '(' :: toks ++ [.sym ')'], n + 4, fun rest _ => ?_, fun rest hr => ?_⟩
  · have e : ("NOT (".toList ++ t ++ [')']) ++ rest = "NOT".toList ++ ' ' :: '(' :: (t ++ ')' :: rest) := by simp
    rw [e, lex_word "NOT".toList _ ⟨'N', ['O', 'T'], rfl, by decide, by decide⟩ (delim_cons (by decide)), lex_space,
      lex_sym '(' (by simp), h1 _ (delim_cons (by decide)), lex_sym ')' (by simp)]
    simp only [Option.map_map]
    congr 1
    funext x
    simp [Function.comp]
  · have e : (STok.word "NOT".toList :: STok.sym '(' :: toks ++ [STok.sym ')']) ++ rest
        = STok.word "NOT".toList :: (STok.sym '(' :: toks ++ STok.sym ')' :: rest) := by simp
    rw [e]
    have hn : pNot (n + 2) (STok.word "NOT".toList :: (STok.sym '(' :: toks ++ STok.sym ')' :: rest))
        = some (.not c, rest) := by
      rw [pNot, if_pos (by decide), pNot_paren (h2 _ (close_close _))]
    exact pOr_of_pAnd (pAnd_of_pNot hn
      fun _ _ e => (close_not_word hr e).elim) fun _ _ e => (close_not_word hr e).elim

/-- The printed filter is read as the condition. -/
theorem GoodText.filter {t : List Char} {c : SCond} (h : GoodText t c) (ht : t.IsChain NotEqEq) : ReadsAs (filterText t) c := by
  unfold filterText
  simp only
  rw [dropEqEq_id t ht]
  split
  · exact h.paren.reads
  · exact h.reads

/-! ## The conditions of the code -/

theorem baseCond_eq (p : List Char × CVal) (qs : List (List Char × CVal)) :
    baseCond (p :: qs) = joinText (' ' :: "AND".toList ++ [' ']) ((p :: qs).map (atomText true)) := rfl

theorem mhExcludeCond_eq (p : List Char × CVal) (qs : List (List Char × CVal)) :
    mhExcludeCond (p :: qs) = joinText (' ' :: "OR".toList ++ [' ']) ((p :: qs).map (atomText false)) := rfl

theorem good_base (p : List Char × CVal) (qs : List (List Char × CVal)) (h : ColsOK (p :: qs)) :
    GoodText (baseCond (p :: qs)) (chainCond .and true p qs) :=
  ⟨chainToks "AND".toList true p qs, qs.length + 3,
    fun rest hr => by
      rw [baseCond_eq]
      exact lex_chain "AND".toList ⟨'A', ['N', 'D'], rfl, by decide, by decide⟩ true qs p h rest hr,
    fun rest hr => pOr_andChain true qs p h rest hr⟩

theorem good_mh (p : List Char × CVal) (qs : List (List Char × CVal)) (h : ColsOK (p :: qs)) :
    GoodText (mhExcludeCond (p :: qs)) (chainCond .or false p qs) :=
  ⟨chainToks "OR".toList false p qs, qs.length + 3,
    fun rest hr => by
      rw [mhExcludeCond_eq]
      exact lex_chain "OR".toList ⟨'O', ['R'], rfl, by decide, by decide⟩ false qs p h rest hr,
    fun rest hr => pOr_orChain false qs p h rest hr⟩

theorem chain_atom (b : Bool) (p : List Char × CVal) (hn : NameOK p.1) (hv : PlainVal p.2) (he : NoEqEq p.2) :
    (atomText b p).IsChain NotEqEq := by
  have h1 := chain_of_not_mem _ (name_noEq hn)
  have h2 := chain_val _ hv he
  cases b with
  | true =>
    have e : atomText true p = (p.1 ++ ' ' :: ['=']) ++ ' ' :: formatToCondition p.2 := by
      simp [atomText]
    rw [e]
    exact chain_mid (by decide) (chain_mid (by decide) h1 (.singleton _)) h2
  | false =>
    have e : atomText false p = (p.1 ++ ' ' :: ['!', '=']) ++ ' ' :: formatToCondition p.2 := by
      simp [atomText]
    rw [e]
    exact chain_mid (by decide) (chain_mid (by decide) h1 (chain_mid (a := []) (by decide) .nil (.singleton _))) h2

theorem chain_join (kw : List Char) (hkw : '=' ∉ kw) : ∀ (ts : List (List Char)), (∀ t ∈ ts, t.IsChain NotEqEq) →
    (joinText (' ' :: kw ++ [' ']) ts).IsChain NotEqEq
  | [], _ => .nil
  | [t], h => h t List.mem_cons_self
  | t :: u :: ts, h => by
      have ih := chain_join kw hkw (u :: ts) fun x hx => h x (List.mem_cons_of_mem _ hx)
      have e : joinText (' ' :: kw ++ [' ']) (t :: u :: ts)
          = (t ++ ' ' :: kw) ++ ' ' :: joinText (' ' :: kw ++ [' ']) (u :: ts) := by
        simp [joinText]
      rw [e]
      exact chain_mid (by decide) (chain_mid (by decide) (h t List.mem_cons_self) (chain_of_not_mem _ hkw)) ih

theorem chain_base (p : List Char × CVal) (qs : List (List Char × CVal)) (h : ColsOK (p :: qs))
    (he : ∀ x ∈ p :: qs, NoEqEq x.2) : (baseCond (p :: qs)).IsChain NotEqEq := by
  rw [baseCond_eq]
  refine chain_join _ (by decide) _ fun t ht => ?_
  obtain ⟨x, hx, rfl⟩ := List.mem_map.1 ht
  exact chain_atom true x (h x hx).1 (h x hx).2 (he x hx)

theorem chain_mh (p : List Char × CVal) (qs : List (List Char × CVal)) (h : ColsOK (p :: qs))
    (he : ∀ x ∈ p :: qs, NoEqEq x.2) : (mhExcludeCond (p :: qs)).IsChain NotEqEq := by
  rw [mhExcludeCond_eq]
  refine chain_join _ (by decide) _ fun t ht => ?_
  obtain ⟨x, hx, rfl⟩ := List.mem_map.1 ht
  exact chain_atom false x (h x hx).1 (h x hx).2 (he x hx)

theorem chain_notBase (p : List Char × CVal) (qs : List (List Char × CVal)) (h : ColsOK (p :: qs))
    (he : ∀ x ∈ p :: qs, NoEqEq x.2) : (notBaseCond (p :: qs)).IsChain NotEqEq := by
  have e : notBaseCond (p :: qs) = "NOT ".toList ++ '(' :: (baseCond (p :: qs) ++ ')' :: []) := by
    simp [notBaseCond]
  rw [e]
  exact chain_mid (by decide) (chain_of_not_mem _ (by decide)) (chain_mid (by decide) (chain_base p qs h he) .nil)

/-! ## What they mean -/

theorem eval_atom_true (r : CRow) (p : List Char × CVal) :
    (atomCond true p).eval r = (r p.1).map fun x => decide (x = p.2) := by
  simp [atomCond, SCond.eval, COperand.eval, Option.map_eq_bind, Function.comp_def]

theorem eval_atom_false (r : CRow) (p : List Char × CVal) :
    (atomCond false p).eval r = (r p.1).map fun x => decide (x ≠ p.2) := by
  simp [atomCond, SCond.eval, COperand.eval, Option.map_eq_bind, Function.comp_def]

theorem and_true (r : CRow) (a b : SCond) :
    (SCond.and a b).eval r = some true ↔ a.eval r = some true ∧ b.eval r = some true := by
  simp only [SCond.eval]
  rcases a.eval r with _ | _ | _ <;> rcases b.eval r with _ | _ | _ <;> simp

theorem and_false (r : CRow) (a b : SCond) :
    (SCond.and a b).eval r = some false ↔ a.eval r = some false ∨ b.eval r = some false := by
  simp only [SCond.eval]
  rcases a.eval r with _ | _ | _ <;> rcases b.eval r with _ | _ | _ <;> simp

theorem or_true (r : CRow) (a b : SCond) :
    (SCond.or a b).eval r = some true ↔ a.eval r = some true ∨ b.eval r = some true := by
  simp only [SCond.eval]
  rcases a.eval r with _ | _ | _ <;> rcases b.eval r with _ | _ | _ <;> simp

theorem keeps_base (r : CRow) : ∀ (qs : List (List Char × CVal)) (p : List Char × CVal),
    (chainCond .and true p qs).eval r = some true ↔ ∀ x ∈ p :: qs, r x.1 = some x.2
  | [], p => by simp [chainCond, eval_atom_true]
  | q :: qs, p => by
      rw [chainCond, and_true, keeps_base r qs q, eval_atom_true]
      simp

theorem drops_base (r : CRow) : ∀ (qs : List (List Char × CVal)) (p : List Char × CVal),
    (chainCond .and true p qs).eval r = some false ↔ ∃ x ∈ p :: qs, ∃ v, r x.1 = some v ∧ v ≠ x.2
  | [], p => by simp [chainCond, eval_atom_true]
  | q :: qs, p => by
      rw [chainCond, and_false, drops_base r qs q, eval_atom_true]
      simp

theorem keeps_mh (r : CRow) : ∀ (qs : List (List Char × CVal)) (p : List Char × CVal),
    (chainCond .or false p qs).eval r = some true ↔ ∃ x ∈ p :: qs, ∃ v, r x.1 = some v ∧ v ≠ x.2
  | [], p => by simp [chainCond, eval_atom_false]
  | q :: qs, p => by
      rw [chainCond, or_true, keeps_mh r qs q, eval_atom_false]
      simp

/-! ## Leave-one-out -/

theorem looCond_int (unit : List Char) (n : ℤ) : looCond unit true (.int n) = atomText false (unit, .int n) := rfl

theorem good_loo (unit : List Char) (hu : NameOK unit) (numeric : Bool) (v : CVal) (hv : LooOK numeric v) :
    GoodText (looCond unit numeric v) (.ne (.col unit) (.lit v)) := by
  cases v with
  | int n =>
    cases (show numeric = true from hv)
    have h : ColsOK [(unit, CVal.int n)] := fun p hp => by
      rw [List.mem_singleton.1 hp]
      exact ⟨hu, trivial⟩
    exact good_mh (unit, .int n) [] h
  | str s =>
    obtain ⟨rfl, hs⟩ := hv
    refine ⟨[.word unit, .ne, .str s], 3, fun rest hr => ?_, fun rest hr => ?_⟩
    · have e : looCond unit false (.str s) ++ rest = unit ++ ' ' :: '!' :: '=' :: ' ' :: ('"' :: s ++ '"' :: rest) := by
        simp [looCond, CVal.text]
      rw [e, lex_word unit _ hu.1 (delim_cons (by decide)), lex_space, lex_ne, lex_space, lex_str s rest hs]
      simp only [Option.map_map]
      rfl
    · have hk := kw_not (k := "NOT") hu.2 (by decide)
      have hn : pNot 1 ([STok.word unit, .ne, .str s] ++ rest) = some (.ne (.col unit) (.lit (.str s)), rest) := by
        simp [pNot, hk, pCompare, pOperand, hu.2]
      exact pOr_of_pAnd (pAnd_of_pNot hn fun _ _ e => (close_not_word hr e).elim)
        fun _ _ e => (close_not_word hr e).elim
  | date _ _ _ => exact hv.elim

theorem keeps_ne (r : CRow) (unit : List Char) (v : CVal) :
    (SCond.ne (.col unit) (.lit v)).eval r = some true ↔ ∃ w, r unit = some w ∧ w ≠ v := by
  cases h : r unit <;> simp [SCond.eval, COperand.eval, h]

/-! ## CASE -/

/-- The tokens of the WHEN lines. -/
def whenToks : ℕ → List CVal → List STok
  | _, [] => []
  | i, v :: vs => .word "WHEN".toList :: valToks v ++ .word "THEN".toList :: .num i :: whenToks (i + 1) vs

theorem lex_kw (k : List Char) (hk : ∃ a as, k = a :: as ∧ wordStart a = true ∧ ∀ x ∈ as, wordChar x = true)
    (rest : List Char) : lexFrom lexStart .start (k ++ ' ' :: rest) = (lexFrom lexStart .start rest).map (STok.word k :: ·) := by
  rw [lex_word k _ hk (delim_cons (by decide)), lex_space]

theorem lex_when (i : ℕ) (v : CVal) (hv : PlainVal v) (rest : List Char) (hr : Delim rest) :
    lexFrom lexStart .start ("WHEN ".toList ++ formatToCondition v ++ " THEN ".toList ++ Nat.toDigits 10 i ++ rest)
      = (lexFrom lexStart .start rest).map
          (STok.word "WHEN".toList :: valToks v ++ STok.word "THEN".toList :: STok.num i :: ·) := by
  have e : "WHEN ".toList ++ formatToCondition v ++ " THEN ".toList ++ Nat.toDigits 10 i ++ rest
      = "WHEN".toList ++ ' ' :: (formatToCondition v ++ ' ' :: ("THEN".toList ++ ' ' :: (Nat.toDigits 10 i ++ rest))) := by
    simp
  rw [e, lex_kw "WHEN".toList ⟨'W', ['H', 'E', 'N'], rfl, by decide, by decide⟩, lex_val v hv _ (delim_cons (by decide)),
    lex_space, lex_kw "THEN".toList ⟨'T', ['H', 'E', 'N'], rfl, by decide, by decide⟩, lex_nat i rest hr]
  simp only [Option.map_map]
  rfl

theorem lex_whens : ∀ (vs : List CVal) (i : ℕ), (∀ v ∈ vs, PlainVal v) → ∀ rest,
    lexFrom lexStart .start (joinText ['\n'] (whenLines i vs) ++ '\n' :: rest)
      = (lexFrom lexStart .start rest).map (whenToks i vs ++ ·)
  | [], i, _, rest => by
      simp only [whenLines, joinText, List.nil_append, lex_newline, whenToks]
      simp
  | [v], i, h, rest => by
      simp only [whenLines, joinText]
      rw [lex_when i v (h v List.mem_cons_self) _ (delim_cons (by decide)), lex_newline]
      simp [whenToks]
  | v :: w :: vs, i, h, rest => by
      have ih := lex_whens (w :: vs) (i + 1) (fun x hx => h x (List.mem_cons_of_mem _ hx)) rest
      have e : joinText ['\n'] (whenLines i (v :: w :: vs)) ++ '\n' :: rest
          = ("WHEN ".toList ++ formatToCondition v ++ " THEN ".toList ++ Nat.toDigits 10 i)
            ++ '\n' :: (joinText ['\n'] (whenLines (i + 1) (w :: vs)) ++ '\n' :: rest) := by
        simp [whenLines, joinText]
      rw [e, lex_when i v (h v List.mem_cons_self) _ (delim_cons (by decide)), lex_newline, ih]
      simp only [Option.map_map]
      congr 1
      funext x
      simp [Function.comp, whenToks]

theorem lex_end (desc : Bool) : lexFrom lexStart .start ("END".toList ++ (if desc then " DESC".toList else []))
    = some (.word "END".toList :: (if desc then [.word "DESC".toList] else [])) := by
  cases desc <;> rfl

theorem lex_case (col : List Char) (hc : NameOK col) (order : List CVal) (h : ∀ v ∈ order, PlainVal v) (asc : Bool) :
    lexFrom lexStart .start (caseText col order asc)
      = some (.word "CASE".toList :: .word col :: (whenToks 0 order
          ++ [.word "ELSE".toList, .num order.length, .word "END".toList]
          ++ (if asc then [] else [.word "DESC".toList]))) := by
  have e : caseText col order asc = "CASE".toList ++ ' ' :: (col ++ '\n' :: (joinText ['\n'] (whenLines 0 order)
      ++ '\n' :: ("ELSE".toList ++ ' ' :: (Nat.toDigits 10 order.length
        ++ '\n' :: ("END".toList ++ (if !asc then " DESC".toList else [])))))) := by
    have e4 : (if asc = true then [] else " DESC".toList) = (if (!asc) = true then " DESC".toList else []) := by
      cases asc <;> rfl
    unfold caseText
    rw [e4]
    generalize joinText ['\n'] (whenLines 0 order) = J
    generalize Nat.toDigits 10 order.length = D
    generalize (if (!asc) = true then " DESC".toList else []) = T
    simp only [List.append_assoc]
    rfl
  rw [e, lex_kw "CASE".toList ⟨'C', ['A', 'S', 'E'], rfl, by decide, by decide⟩, lex_word col _ hc.1 (delim_cons (by decide)),
    lex_newline, lex_whens order 0 h, lex_kw "ELSE".toList ⟨'E', ['L', 'S', 'E'], rfl, by decide, by decide⟩,
    lex_nat _ _ (delim_cons (by decide)), lex_newline, lex_end]
  cases asc <;> simp [Function.comp_def]

/-- The pairs of the WHEN lines. -/
def whenPairs : ℕ → List CVal → List (CVal × ℕ)
  | _, [] => []
  | i, v :: vs => (v, i) :: whenPairs (i + 1) vs

theorem parse_whens (m : ℕ) (asc : Bool) : ∀ (vs : List CVal) (i : ℕ), (∀ v ∈ vs, PlainVal v) →
    pWhens (vs.length + 1) (whenToks i vs ++ [.word "ELSE".toList, .num m, .word "END".toList]
      ++ (if asc then [] else [.word "DESC".toList])) = some (whenPairs i vs, m, !asc)
  | [], i, _ => by cases asc <;> rfl
  | v :: vs, i, h => by
      have ih := parse_whens m asc vs (i + 1) fun x hx => h x (List.mem_cons_of_mem _ hx)
      simp only [whenToks, List.cons_append, List.append_assoc, List.length_cons] at ih ⊢
      have hw : ∀ (n : ℕ) (ts : List STok), pWhens (n + 1) (STok.word "WHEN".toList :: ts)
          = match pOperand ts with
            | some (.lit v, .word t :: .num i :: ts) =>
              if isKw t "THEN" then (pWhens n ts).map fun r => ((v, i) :: r.1, r.2) else none
            | _ => none := fun n ts => by
        have hk : isKw "WHEN".toList "WHEN" = true := by decide
        simp only [pWhens, hk, if_true]
        rfl
      rw [hw, pOperand_val v (h v List.mem_cons_self) _ (endTok_word _ _)]
      simp only
      rw [if_pos (by decide), ih]
      rfl

theorem find_pairs (x : Option CVal) : ∀ (vs : List CVal) (i : ℕ),
    ((whenPairs i vs).find? fun p => x = some p.1)
      = if vs.findIdx (fun v => x = some v) < vs.length
        then (x.map fun w => (w, i + vs.findIdx fun v => x = some v)) else none
  | [], i => by simp [whenPairs]
  | v :: vs, i => by
      by_cases hx : x = some v
      · subst hx
        simp [whenPairs, List.findIdx_cons]
      · have hd : decide (x = some v) = false := by simp [hx]
        rw [whenPairs, List.find?_cons_of_neg (by simp [hx]), find_pairs x vs (i + 1), List.findIdx_cons, hd]
        simp only [cond_false, List.length_cons, Nat.add_lt_add_iff_right]
        congr 2
        funext w
        simp [Nat.add_assoc, Nat.add_comm]

end Verif
