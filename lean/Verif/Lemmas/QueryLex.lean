import Verif.Spec.QueryText

/-!
# Lemmas for C83: tokens of texts put together
-/

namespace Verif

/-- Tokens found before are kept in front. -/
theorem qStep_pre (pre ts : List QTok) (m : QMode) (c : Char) :
    qStep (pre ++ ts, m) c = (pre ++ (qStep (ts, m) c).1, (qStep (ts, m) c).2) := by
  have hs : ∀ us, qStart (pre ++ us) c = (pre ++ (qStart us c).1, (qStart us c).2) := by
    intro us
    unfold qStart
    split_ifs <;> simp
  unfold qStep
  cases m with
  | start => exact hs ts
  | inWord acc =>
    simp only
    split_ifs
    · rfl
    · rw [List.append_assoc]; exact hs _
  | inStr q acc =>
    simp only
    split_ifs <;> simp
  | esc q acc => rfl

theorem qFold_pre (b : Txt) : ∀ (pre ts : List QTok) (m : QMode),
    b.foldl qStep (pre ++ ts, m) = (pre ++ (b.foldl qStep (ts, m)).1, (b.foldl qStep (ts, m)).2) := by
  induction b with
  | nil => intro pre ts m; rfl
  | cons c b ih =>
    intro pre ts m
    rw [List.foldl_cons, List.foldl_cons, qStep_pre, ih]

theorem qEnd_pre (pre ts : List QTok) (m : QMode) : qEnd (pre ++ ts, m) = (qEnd (ts, m)).map (pre ++ ·) := by
  cases m <;> simp [qEnd]

/-- After a text that ends outside of words and strings, the rest is read as if it stood alone. -/
theorem qLex_start {a b : Txt} {ts : List QTok} (h : a.foldl qStep ([], .start) = (ts, .start)) :
    qLex (a ++ b) = (qLex b).map (ts ++ ·) := by
  unfold qLex
  rw [List.foldl_append, h]
  have := qFold_pre b ts [] .start
  rw [List.append_nil] at this
  rw [this, qEnd_pre]

/-- The text begins with a character that ends a word, or is empty. -/
def SepTxt (b : Txt) : Prop := ∀ c ∈ b.head?, qWord c = false

theorem SepTxt.nil : SepTxt [] := by simp [SepTxt]
theorem SepTxt.cons {c : Char} {cs : Txt} (h : qWord c = false) : SepTxt (c :: cs) := by simpa [SepTxt] using h
theorem SepTxt.append {a b : Txt} (ha : SepTxt a) (hb : SepTxt b) : SepTxt (a ++ b) := by
  cases a with
  | nil => exact hb
  | cons c cs => exact ha

/-- A text and what stands behind it, if that does not continue its last word. -/
theorem qLex_append {a b : Txt} {ts : List QTok} (h : qLex a = some ts) (hb : SepTxt b) :
    qLex (a ++ b) = (qLex b).map (ts ++ ·) := by
  cases b with
  | nil =>
    have : qLex [] = some [] := rfl
    rw [List.append_nil, h, this]
    simp
  | cons c b =>
    have hc : qWord c = false := hb c (by simp)
    have hkey : (c :: b).foldl qStep (a.foldl qStep ([], .start)) = (c :: b).foldl qStep (ts, .start) := by
      rw [List.foldl_cons, List.foldl_cons]
      unfold qLex at h
      generalize a.foldl qStep ([], .start) = s at h
      obtain ⟨us, m⟩ := s
      congr 1
      cases m with
      | start => simp only [qEnd, Option.some.injEq] at h; rw [h]
      | inWord acc =>
        simp only [qEnd, Option.some.injEq] at h
        unfold qStep
        simp only [hc, Bool.false_eq_true, if_false]
        rw [h]
      | inStr q acc => simp [qEnd] at h
      | esc q acc => simp [qEnd] at h
    unfold qLex
    rw [List.foldl_append, hkey]
    have := qFold_pre (c :: b) ts [] .start
    rw [List.append_nil] at this
    rw [this, qEnd_pre]

theorem qLex_word {a : Txt} (h1 : a ≠ []) (h2 : ∀ c ∈ a, qWord c = true) : qLex a = some [.word a] := by
  have aux : ∀ (b acc : Txt), (∀ c ∈ b, qWord c = true) →
      b.foldl qStep ([], .inWord acc) = ([], .inWord (b.reverse ++ acc)) := by
    intro b
    induction b with
    | nil => intro acc _; rfl
    | cons c b ih =>
      intro acc h
      rw [List.foldl_cons]
      have : qStep ([], .inWord acc) c = ([], .inWord (c :: acc)) := by
        unfold qStep
        simp only [h c (by simp), if_true]
      rw [this, ih _ (fun x hx => h x (by simp [hx]))]
      simp
  have hw : ∀ c, qWord c = true → qBlank c = false ∧ qQuote c = false := by
    intro c hc
    constructor
    · by_contra hb
      simp only [qBlank, Bool.not_eq_false, Bool.or_eq_true, decide_eq_true_eq] at hb
      rcases hb with (rfl | rfl) | rfl <;> revert hc <;> decide
    · by_contra hb
      simp only [qQuote, Bool.not_eq_false, Bool.or_eq_true, decide_eq_true_eq] at hb
      rcases hb with (rfl | rfl) | rfl <;> revert hc <;> decide
  cases a with
  | nil => exact absurd rfl h1
  | cons c b =>
    unfold qLex
    rw [List.foldl_cons]
    obtain ⟨e1, e2⟩ := hw c (h2 c (by simp))
    have : qStep ([], .start) c = ([], .inWord [c]) := by
      unfold qStep qStart
      simp [e1, e2, h2 c (by simp)]
    rw [this, aux b [c] (fun x hx => h2 x (by simp [hx]))]
    simp [qEnd]

theorem NameTok.lex {a : Txt} (h : NameTok a) : qLex a = some [.word a] := qLex_word h.1 h.2.1

/-- Texts with a separator between. -/
theorem qLex_join {sep : Txt} {st : List QTok} (hs : sep.foldl qStep ([], .start) = (st, .start)) (hsep : SepTxt sep)
    (hne : sep ≠ []) : ∀ (l : List Txt) (tss : List (List QTok)), l.map qLex = tss.map some →
    qLex (joinTxt sep l) = some (joinToks st tss) := by
  intro l
  induction l with
  | nil =>
    intro tss h
    cases tss with
    | nil => rfl
    | cons => simp at h
  | cons a l ih =>
    intro tss h
    cases tss with
    | nil => simp at h
    | cons t tss =>
      rw [List.map_cons, List.map_cons, List.cons.injEq] at h
      cases l with
      | nil =>
        cases tss with
        | nil => exact h.1
        | cons => simp at h
      | cons b l =>
        cases tss with
        | nil => simp at h
        | cons u tss =>
          have := ih (u :: tss) h.2
          rw [joinTxt, joinToks, List.append_assoc, qLex_append h.1, qLex_start hs, this]
          · simp
          · cases sep with
            | nil => exact absurd rfl hne
            | cons c cs => exact hsep

theorem toksOf_eq {t : Txt} {ts : List QTok} (h : qLex t = some ts) : toksOf t = ts := by
  unfold toksOf; rw [h]; rfl

/-! ## Expressions -/

theorem takeExpr_append (e : List QTok) : ∀ (d d' : ℕ) (rest : List QTok), qDepth d e = some d' →
    takeExpr d (e ++ rest) = (takeExpr d' rest).map fun r => (e ++ r.1, r.2) := by
  induction e with
  | nil => intro d d' rest h; simp only [qDepth, Option.some.injEq] at h; subst h; simp
  | cons t e ih =>
    intro d d' rest h
    cases d with
    | zero =>
      rw [qDepth] at h
      split_ifs at h with h1 h2
      · rw [List.cons_append, takeExpr, if_neg h1, if_pos h2]
        rw [ih 1 d' rest h, Option.map_map]
        rfl
      · rw [List.cons_append, takeExpr, if_neg h1, if_neg h2]
        rw [ih 0 d' rest h, Option.map_map]
        rfl
    | succ d =>
      rw [qDepth] at h
      rw [List.cons_append, takeExpr, ih _ d' rest h, Option.map_map]
      rfl

/-- What may stand behind an expression. -/
def StopTok (ts : List QTok) : Prop := ∀ t ∈ ts.head?, qStops t = true

theorem rExpr_append {e rest : List QTok} (he : qDepth 0 e = some 0) (hne : e ≠ []) (hr : StopTok rest) :
    rExpr (e ++ rest) = some (e, rest) := by
  have h0 : takeExpr 0 rest = some ([], rest) := by
    cases rest with
    | nil => rfl
    | cons t ts => rw [takeExpr, if_pos (hr t (by simp))]
  unfold rExpr
  rw [takeExpr_append e 0 0 rest he, h0]
  simp [hne]

theorem qDepth_append (a b : List QTok) : ∀ d, qDepth d (a ++ b) = (qDepth d a).bind fun d' => qDepth d' b := by
  induction a with
  | nil => intro d; rfl
  | cons t a ih =>
    intro d
    cases d with
    | zero =>
      rw [List.cons_append, qDepth, qDepth]
      split_ifs
      · rfl
      · exact ih 1
      · exact ih 0
    | succ d => rw [List.cons_append, qDepth, qDepth, ih]

theorem qDepth_join {st : List QTok} (hst : qDepth 0 st = some 0) : ∀ (tss : List (List QTok)),
    (∀ t ∈ tss, qDepth 0 t = some 0) → qDepth 0 (joinToks st tss) = some 0 := by
  intro tss
  induction tss with
  | nil => intro _; rfl
  | cons a l ih =>
    intro h
    cases l with
    | nil => exact h a (by simp)
    | cons b l =>
      rw [joinToks, qDepth_append, qDepth_append, h a (by simp)]
      simp only [Option.bind_some, hst]
      exact ih (fun t ht => h t (by simp only [List.mem_cons] at ht ⊢; exact Or.inr ht))

theorem joinToks_ne {st : List QTok} : ∀ (tss : List (List QTok)), tss ≠ [] → (∀ t ∈ tss, t ≠ []) →
    joinToks st tss ≠ [] := by
  intro tss hne h
  cases tss with
  | nil => exact absurd rfl hne
  | cons a l =>
    cases l with
    | nil => exact h a (by simp)
    | cons b l =>
      rw [joinToks]
      simp [h a (by simp)]

/-- The conditions of a query. -/
theorem whereText_lex (le : Txt → Txt → Bool) (wh : List Txt) (hne : wh ≠ []) (h : ∀ w ∈ wh, ExprOK (filterText w)) :
    qLex (whereText le wh) = some (condMeaning le wh) ∧ condMeaning le wh ≠ [] ∧
      qDepth 0 (condMeaning le wh) = some 0 := by
  have hm : ∀ w ∈ (wh.map filterText).mergeSort le, ExprOK w := by
    intro w hw
    rw [List.mem_mergeSort] at hw
    obtain ⟨x, hx, rfl⟩ := List.mem_map.1 hw
    exact h x hx
  have hs : (qt " AND ").foldl qStep ([], .start) = ([.word "AND".toList], .start) := by
    unfold qt; rfl
  refine ⟨?_, ?_, ?_⟩
  · unfold whereText condMeaning
    apply qLex_join hs
    · unfold qt; exact SepTxt.cons (by decide)
    · unfold qt; simp
    · rw [List.map_map]
      apply List.map_congr_left
      intro w hw
      obtain ⟨ts, h1, _⟩ := hm w hw
      rw [h1, Function.comp_apply, toksOf_eq h1]
  · apply joinToks_ne
    · intro h0
      rw [List.map_eq_nil_iff] at h0
      have := congrArg List.length h0
      rw [List.length_mergeSort, List.length_map] at this
      exact hne (List.length_eq_zero_iff.1 this)
    · intro t ht
      obtain ⟨w, hw, rfl⟩ := List.mem_map.1 ht
      obtain ⟨ts, h1, h2, _⟩ := hm w hw
      rw [toksOf_eq h1]; exact h2
  · apply qDepth_join
    · rw [qDepth, if_neg (by decide), if_neg (by decide)]; rfl
    · intro t ht
      obtain ⟨w, hw, rfl⟩ := List.mem_map.1 ht
      obtain ⟨ts, h1, _, h3⟩ := hm w hw
      rw [toksOf_eq h1]; exact h3

end Verif
