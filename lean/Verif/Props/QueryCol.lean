import Verif.Props.QueryText

/-!
# C83: the expression of a column is read as what the column says
-/

namespace Verif

/-- More open parentheses change nothing. -/
theorem qDepth_shift (k : ℕ) (ts : List QTok) : ∀ d d', qDepth d ts = some d' → qDepth (d + k) ts = some (d' + k) := by
  induction ts with
  | nil => intro d d' h; simp only [qDepth, Option.some.injEq] at h ⊢; rw [h]
  | cons t ts ih =>
    intro d d' h
    cases d with
    | zero =>
      rw [qDepth] at h
      split_ifs at h with h1 h2
      · cases k with
        | zero => rw [qDepth, if_neg h1, if_pos h2]; exact h
        | succ k =>
          rw [Nat.zero_add, qDepth, if_pos h2]
          have := ih _ _ h
          rwa [show 1 + (k + 1) = k + 2 by omega] at this
      · cases k with
        | zero => rw [qDepth, if_neg h1, if_neg h2]; exact h
        | succ k =>
          have h3 : t ≠ .sym ')' := by
            rintro rfl
            exact h1 rfl
          rw [Nat.zero_add, qDepth, if_neg h2, if_neg h3]
          have := ih _ _ h
          rwa [Nat.zero_add] at this
    | succ d =>
      rw [qDepth] at h
      rw [show d + 1 + k = (d + k) + 1 by omega, qDepth]
      split_ifs at h ⊢ with h1 h2
      · have := ih _ _ h
        rwa [show d + 2 + k = d + k + 2 by omega] at this
      · exact ih _ _ h
      · have := ih _ _ h
        rwa [show d + 1 + k = d + k + 1 by omega] at this

theorem qDepth_word (w : String) (hw : qReserved w.toList = false) (d : ℕ) : qDepth d [.word w.toList] = some d := by
  cases d with
  | zero => simp [qDepth, qStops, hw]
  | succ d => simp [qDepth]

/-- Expressions can stand where names stand. -/
theorem fill_depth (B : List (List QTok)) (hB : ∀ b ∈ B, qDepth 0 b = some 0) :
    ∀ (hs : List (ℕ × Txt)) (d d' : ℕ), (∀ h ∈ hs, h.1 < B.length) →
      qDepth d (fillMeaning (B.map fun _ => [.word "x".toList]) hs) = some d' → qDepth d (fillMeaning B hs) = some d' := by
  intro hs
  induction hs with
  | nil => intro d d' _ h; exact h
  | cons h hs ih =>
    intro d d' hlt hd
    have hi := hlt h (by simp)
    unfold fillMeaning at hd ⊢
    rw [List.flatMap_cons, List.append_assoc, qDepth_append] at hd ⊢
    rw [List.getElem?_map, List.getElem?_eq_getElem hi] at hd
    rw [List.getElem?_eq_getElem hi]
    simp only [Option.map_some, Option.getD_some] at hd ⊢
    rw [qDepth_word "x" (by decide)] at hd
    have hb := qDepth_shift d _ _ _ (hB _ (List.getElem_mem hi))
    rw [Nat.zero_add] at hb
    rw [hb]
    simp only [Option.bind_some] at hd ⊢
    rw [qDepth_append] at hd ⊢
    cases hm : qDepth d (toksOf h.2) with
    | none => rw [hm] at hd; cases hd
    | some m =>
      rw [hm] at hd
      simp only [Option.bind_some] at hd ⊢
      exact ih m d' (fun x hx => hlt x (by simp [hx])) hd

theorem fill_lex (A : List Txt) (B : List (List QTok)) (hAB : A.map qLex = B.map some) :
    ∀ hs : List (ℕ × Txt), (∀ h ∈ hs, h.1 < A.length) → PiecesOK hs →
      ∃ r, fillText A hs = some r ∧ qLex r = some (fillMeaning B hs) := by
  have hlen : A.length = B.length := by simpa using congrArg List.length hAB
  have hget : ∀ i (hi : i < A.length), qLex A[i] = some (B[i]'(hlen ▸ hi)) := by
    intro i hi
    have : (A.map qLex)[i]? = (B.map some)[i]? := by rw [hAB]
    simpa [hi, hlen ▸ hi] using this
  intro hs
  induction hs with
  | nil => intro _ _; exact ⟨[], rfl, rfl⟩
  | cons h hs ih =>
    intro hlt hok
    obtain ⟨i, l⟩ := h
    have hi : i < A.length := hlt (i, l) (by simp)
    cases hs with
    | nil =>
      obtain ⟨⟨ts, hl⟩, hsep⟩ := hok
      refine ⟨A[i] ++ (l ++ []), ?_, ?_⟩
      · simp [fillText, hi]
      · rw [List.append_nil, qLex_append (hget i hi) hsep, hl]
        simp [fillMeaning, hlen ▸ hi, toksOf_eq hl]
    | cons h' hs' =>
      obtain ⟨⟨ts, hl⟩, ⟨c, hc, hcw⟩, hrest⟩ := hok
      obtain ⟨r, hr1, hr2⟩ := ih (fun x hx => hlt x (by simp only [List.mem_cons] at hx ⊢; exact Or.inr hx)) hrest
      have hll : qLex l = some ts := by
        unfold qLex; rw [hl]; rfl
      refine ⟨A[i] ++ (l ++ r), ?_, ?_⟩
      · rw [fillText, hr1]
        simp [hi]
      · rw [qLex_append (hget i hi), qLex_start hl, hr2]
        · unfold fillMeaning
          rw [List.flatMap_cons]
          simp [hlen ▸ hi, toksOf_eq hll]
        · cases l with
          | nil => cases hc
          | cons x xs =>
            cases hc
            exact SepTxt.cons hcw

/-- Nothing between. -/
theorem joinToks_nil : ∀ l : List (List QTok), joinToks [] l = l.flatten
  | [] => rfl
  | [a] => by simp [joinToks]
  | a :: b :: l => by rw [joinToks, joinToks_nil (b :: l)]; simp

theorem arg_lex (le : Txt → Txt → Bool) (filters : List Txt) (hf : ∀ w ∈ filters, ExprOK (filterText w)) (a : Txt)
    (ha : ExprOK a) : qLex (argText le filters a) = some (argMeaning le filters a) ∧
      qDepth 0 (argMeaning le filters a) = some 0 ∧ argMeaning le filters a ≠ [] := by
  obtain ⟨ts, h1, h2, h3⟩ := ha
  unfold argText argMeaning
  by_cases hnil : filters = []
  · subst hnil
    simp only [List.isEmpty_nil, if_true]
    rw [toksOf_eq h1]
    exact ⟨h1, h3, h2⟩
  · have : filters.isEmpty = false := by simpa using hnil
    rw [this, if_neg hnil, toksOf_eq h1]
    simp only [Bool.false_eq_true, if_false]
    obtain ⟨w1, -, w3⟩ := whereText_lex le filters hnil hf
    have p1 : (qt "IF(").foldl qStep ([], .start) = ([.word "IF".toList, .sym '('], .start) := by unfold qt; rfl
    have p2 : (qt ", ").foldl qStep ([], .start) = ([.sym ','], .start) := by unfold qt; rfl
    have p3 : qLex (qt ", NULL)") = some [.sym ',', .word "NULL".toList, .sym ')'] := by unfold qt; rfl
    refine ⟨?_, ?_, by simp⟩
    · rw [qLex_start p1, qLex_append w1, qLex_start p2, qLex_append h1, p3]
      · simp
      · unfold qt; exact SepTxt.cons (by decide)
      · unfold qt; exact SepTxt.cons (by decide)
    · have d1 : qDepth 0 [QTok.word "IF".toList, .sym '('] = some 1 := by decide
      have d2 := qDepth_shift 1 _ _ _ w3
      have d3 : qDepth 1 [QTok.sym ','] = some 1 := by decide
      have d4 := qDepth_shift 1 _ _ _ h3
      have d5 : qDepth 1 [QTok.sym ',', .word "NULL".toList, .sym ')'] = some 0 := by decide
      rw [Nat.zero_add] at d2 d4
      rw [qDepth_append, qDepth_append, qDepth_append, qDepth_append, d1]
      simp only [Option.bind_some, d2, d3, d4, d5]

/-- Balanced inside of parentheses, with a comma between. -/
theorem join_inner (l : List (List QTok)) (h : ∀ t ∈ l, qDepth 1 t = some 1) : qDepth 1 (joinToks [.sym ','] l) = some 1 := by
  induction l with
  | nil => rfl
  | cons a l ih =>
    cases l with
    | nil => exact h a (by simp)
    | cons b l =>
      have hc : qDepth 1 [QTok.sym ','] = some 1 := by decide
      rw [joinToks, qDepth_append, qDepth_append, h a (by simp)]
      simp only [Option.bind_some, hc]
      exact ih (fun t ht => h t (by simp only [List.mem_cons] at ht ⊢; exact Or.inr ht))

theorem partition_lex (p : Option (List Txt)) (h : ∀ q ∈ p, ∀ e ∈ q, ExprOK e) :
    qLex (partitionText p) = some (partitionMeaning (p.getD [])) ∧ qDepth 1 (partitionMeaning (p.getD [])) = some 1 ∧
      ((partitionText p).isEmpty = true → partitionMeaning (p.getD []) = []) := by
  cases p with
  | none => exact ⟨rfl, rfl, fun _ => rfl⟩
  | some q =>
    have hq := h q rfl
    simp only [Option.getD_some]
    by_cases hn : q = []
    · subst hn
      exact ⟨rfl, rfl, fun _ => rfl⟩
    · have hemp : q.isEmpty = false := by simpa using hn
      have p1 : (qt "PARTITION BY ").foldl qStep ([], .start) = ([.word "PARTITION".toList, .word "BY".toList], .start) := by
        unfold qt; rfl
      have p2 : (qt ", ").foldl qStep ([], .start) = ([.sym ','], .start) := by unfold qt; rfl
      have p3 : (qt "CAST(").foldl qStep ([], .start) = ([.word "CAST".toList, .sym '('], .start) := by unfold qt; rfl
      have p4 : qLex (qt " AS STRING)") = some [.word "AS".toList, .word "STRING".toList, .sym ')'] := by unfold qt; rfl
      unfold partitionText partitionMeaning
      simp only [hemp, Bool.false_eq_true, if_false, if_neg hn]
      refine ⟨?_, ?_, ?_⟩
      · rw [qLex_start p1, qLex_join p2 _ _ _
          (q.map fun c => [.word "CAST".toList, .sym '('] ++ toksOf c ++ [.word "AS".toList, .word "STRING".toList, .sym ')'])]
        · simp
        · rw [List.map_map, List.map_map]
          apply List.map_congr_left
          intro c hc
          obtain ⟨ts, h1, _⟩ := hq c hc
          simp only [Function.comp]
          rw [qLex_start p3, qLex_append h1, p4, toksOf_eq h1]
          · simp
          · unfold qt; exact SepTxt.cons (by decide)
        · unfold qt; exact SepTxt.cons (by decide)
        · unfold qt; simp
      · have d0 : qDepth 1 [QTok.word "PARTITION".toList, .word "BY".toList] = some 1 := by decide
        rw [qDepth_append, d0]
        simp only [Option.bind_some]
        apply join_inner
        intro t ht
        obtain ⟨c, hc, rfl⟩ := List.mem_map.1 ht
        obtain ⟨ts, h1, _, h3⟩ := hq c hc
        have d1 : qDepth 1 [QTok.word "CAST".toList, .sym '('] = some 2 := by decide
        have d2 := qDepth_shift 2 _ _ _ h3
        have d3 : qDepth 2 [QTok.word "AS".toList, .word "STRING".toList, .sym ')'] = some 1 := by decide
        rw [Nat.zero_add] at d2
        rw [toksOf_eq h1, qDepth_append, qDepth_append, d1]
        simp only [Option.bind_some, d2, d3]
      · unfold qt
        simp

theorem order_lex (p : Option (List Txt)) (h : ∀ q ∈ p, ∀ e ∈ q, ExprOK e) :
    qLex (orderText p) = some (orderMeaning (p.getD [])) ∧ qDepth 1 (orderMeaning (p.getD [])) = some 1 ∧
      ((orderText p).isEmpty = true → orderMeaning (p.getD []) = []) := by
  cases p with
  | none => exact ⟨rfl, rfl, fun _ => rfl⟩
  | some q =>
    have hq := h q rfl
    simp only [Option.getD_some]
    by_cases hn : q = []
    · subst hn
      exact ⟨rfl, rfl, fun _ => rfl⟩
    · have hemp : q.isEmpty = false := by simpa using hn
      have p1 : (qt "ORDER BY ").foldl qStep ([], .start) = ([.word "ORDER".toList, .word "BY".toList], .start) := by
        unfold qt; rfl
      have p2 : (qt ", ").foldl qStep ([], .start) = ([.sym ','], .start) := by unfold qt; rfl
      unfold orderText orderMeaning
      simp only [hemp, Bool.false_eq_true, if_false, if_neg hn]
      refine ⟨?_, ?_, ?_⟩
      · rw [qLex_start p1, qLex_join p2 _ _ _ (q.map toksOf)]
        · simp
        · rw [List.map_map]
          apply List.map_congr_left
          intro c hc
          obtain ⟨ts, h1, _⟩ := hq c hc
          rw [h1, Function.comp_apply, toksOf_eq h1]
        · unfold qt; exact SepTxt.cons (by decide)
        · unfold qt; simp
      · have d0 : qDepth 1 [QTok.word "ORDER".toList, .word "BY".toList] = some 1 := by decide
        rw [qDepth_append, d0]
        simp only [Option.bind_some]
        apply join_inner
        intro t ht
        obtain ⟨c, hc, rfl⟩ := List.mem_map.1 ht
        obtain ⟨ts, h1, _, h3⟩ := hq c hc
        rw [toksOf_eq h1]
        have := qDepth_shift 1 _ _ _ h3
        rwa [Nat.zero_add] at this
      · unfold qt
        simp

theorem over_lex (c : TCol) (h : c.WF) : qLex (overText c) = some (overMeaning c) ∧ qDepth 0 (overMeaning c) = some 0 ∧
    SepTxt (overText c) := by
  unfold overText overMeaning
  have hcond : (c.partition.isNone && c.order.isNone && c.frame.isNone) = true ↔
      (c.partition = none ∧ c.order = none ∧ c.frame = none) := by
    simp [and_assoc]
  by_cases hn : c.partition = none ∧ c.order = none ∧ c.frame = none
  · rw [if_pos (hcond.2 hn), if_pos hn]
    exact ⟨rfl, rfl, SepTxt.nil⟩
  · rw [if_neg (fun h => hn (hcond.1 h)), if_neg hn]
    obtain ⟨a1, a2, a3⟩ := partition_lex c.partition h.partition
    obtain ⟨b1, b2, b3⟩ := order_lex c.order h.order
    have hf : ∃ ts, qLex (c.frame.getD []) = some ts ∧ qDepth 1 ts = some 1 := by
      cases hfr : c.frame with
      | none => exact ⟨[], rfl, rfl⟩
      | some f => exact h.frame f hfr
    obtain ⟨ts, c1, c2⟩ := hf
    have c3 : (c.frame.getD []).isEmpty = true → ts = [] := by
      intro he
      rw [List.isEmpty_iff] at he
      rw [he] at c1
      cases c1
      rfl
    rw [toksOf_eq c1]
    have p1 : (qt " OVER (").foldl qStep ([], .start) = ([.word "OVER".toList, .sym '('], .start) := by unfold qt; rfl
    have p2 : (qt " ").foldl qStep ([], .start) = ([], .start) := by unfold qt; rfl
    have p3 : qLex (qt ")") = some [.sym ')'] := by unfold qt; rfl
    have hj : qLex (joinTxt (qt " ")
        ([partitionText c.partition, orderText c.order, c.frame.getD []].filter (!·.isEmpty))) =
        some (partitionMeaning (c.partition.getD []) ++ orderMeaning (c.order.getD []) ++ ts) := by
      have hsep : SepTxt (qt " ") := by unfold qt; exact SepTxt.cons (by decide)
      have hne : qt " " ≠ [] := by unfold qt; simp
      cases ea : (partitionText c.partition).isEmpty <;> cases eb : (orderText c.order).isEmpty <;>
        cases ec : (c.frame.getD []).isEmpty <;>
        simp only [List.filter, ea, eb, ec, Bool.not_true, Bool.not_false] <;>
        try rw [a3 ea]
      all_goals try rw [b3 eb]
      all_goals try rw [c3 ec]
      · rw [qLex_join p2 hsep hne _ [_, _, _] (by simp [a1, b1, c1]; exact ⟨rfl, rfl, rfl⟩), joinToks_nil]; simp
      · rw [qLex_join p2 hsep hne _ [_, _] (by simp [a1, b1]; exact ⟨rfl, rfl⟩), joinToks_nil]; simp
      · rw [qLex_join p2 hsep hne _ [_, _] (by simp [a1, c1]; exact ⟨rfl, rfl⟩), joinToks_nil]; simp
      · rw [qLex_join p2 hsep hne _ [_] (by simp [a1]; rfl), joinToks_nil]; simp
      · rw [qLex_join p2 hsep hne _ [_, _] (by simp [b1, c1]; exact ⟨rfl, rfl⟩), joinToks_nil]; simp
      · rw [qLex_join p2 hsep hne _ [_] (by simp [b1]; rfl), joinToks_nil]; simp
      · rw [qLex_join p2 hsep hne _ [_] (by simp [c1]; rfl), joinToks_nil]; simp
      · rfl
    refine ⟨?_, ?_, ?_⟩
    · rw [qLex_start p1, qLex_append hj, p3]
      · simp
      · unfold qt; exact SepTxt.cons (by decide)
    · have d1 : qDepth 0 [QTok.word "OVER".toList, .sym '('] = some 1 := by decide
      have d2 : qDepth 1 [QTok.sym ')'] = some 0 := by decide
      rw [qDepth_append, qDepth_append, d1]
      simp only [Option.bind_some, qDepth_append, a2, b2, c2, d2]
    · unfold qt; exact SepTxt.cons (by decide)

/-- **C83** (columns) The text of a column is read as its function with its arguments in place, each of which counts only
where all filters hold, over its window. So it is an expression, which a query can have. -/
theorem C83_column (le : Txt → Txt → Bool) (c : TCol) (h : c.WF) :
    ∃ e, c.expr le = some e ∧ qLex e = some (c.meaning le) ∧ ExprOK e := by
  have hA : (c.args.map (argText le c.filters)).map qLex = (c.args.map (argMeaning le c.filters)).map some := by
    rw [List.map_map, List.map_map]
    apply List.map_congr_left
    intro a ha
    exact (arg_lex le c.filters h.filters a (h.args a ha)).1
  obtain ⟨r, hr1, hr2⟩ := fill_lex _ _ hA c.holes (by simpa using h.given) h.pieces
  obtain ⟨o1, o2, o3⟩ := over_lex c h
  obtain ⟨ts, f1, f2⟩ := h.first
  have hfill : qLex (c.first ++ r) = some (toksOf c.first ++ fillMeaning (c.args.map (argMeaning le c.filters)) c.holes) := by
    rw [toksOf_eq f1]
    by_cases hn : c.holes = []
    · rw [hn] at hr1 ⊢
      cases hr1
      rw [List.append_nil, f1]
      simp [fillMeaning]
    · rw [qLex_start (f2 hn), hr2]
      simp
  have hlex : qLex (c.first ++ r ++ overText c) = some (c.meaning le) := by
    rw [qLex_append hfill o3, o1]
    rfl
  have hdepth : qDepth 0 (c.meaning le) = some 0 := by
    unfold TCol.meaning
    have hd := h.depth
    rw [qDepth_append] at hd
    rw [qDepth_append, qDepth_append]
    cases hm : qDepth 0 (toksOf c.first) with
    | none => rw [hm] at hd; cases hd
    | some m =>
      rw [hm] at hd
      simp only [Option.bind_some] at hd ⊢
      have := fill_depth (c.args.map (argMeaning le c.filters)) (by
        intro b hb
        obtain ⟨a, ha, rfl⟩ := List.mem_map.1 hb
        exact (arg_lex le c.filters h.filters a (h.args a ha)).2.1) c.holes m 0 (by simpa using h.given) (by
        rw [List.map_map]; exact hd)
      rw [this]
      exact o2
  refine ⟨_, by rw [TCol.expr, hr1], hlex, _, hlex, ?_, hdepth⟩
  have hne := h.nonempty
  unfold TCol.meaning
  intro h0
  rw [List.append_eq_nil_iff, List.append_eq_nil_iff] at h0
  obtain ⟨⟨h1, h2⟩, -⟩ := h0
  apply hne
  rw [h1, List.nil_append]
  unfold fillMeaning at h2 ⊢
  rw [List.flatMap_eq_nil_iff] at h2 ⊢
  intro x hx
  exfalso
  have h3 := h2 x hx
  have hi := h.given x hx
  rw [List.append_eq_nil_iff, List.getElem?_map, List.getElem?_eq_getElem hi] at h3
  exact (arg_lex le c.filters h.filters _ (h.args _ (List.getElem_mem hi))).2.2 h3.1

/-- SUM(IF(a OR b, x, NULL) * IF(a OR b, w, NULL)) OVER (PARTITION BY CAST(g AS STRING) ORDER BY x ROWS BETWEEN ..). -/
def exTCol : TCol where
  first := "SUM(".toList
  holes := [(0, " * ".toList), (1, ")".toList)]
  args := ["x".toList, "ABS(w)".toList]
  filters := ["a > 1 OR b IN (1, 2)".toList]
  partition := some ["g".toList]
  order := some ["x".toList]
  frame := some "ROWS BETWEEN UNBOUNDED PRECEDING AND CURRENT ROW".toList

theorem exTCol_wf : exTCol.WF where
  first := ⟨_, rfl, fun _ => rfl⟩
  given := by decide
  pieces := ⟨⟨_, rfl⟩, ⟨_, rfl, by decide⟩, ⟨_, rfl⟩, by decide⟩
  nonempty := by decide
  depth := by decide
  args := by
    intro a ha
    simp only [exTCol, List.mem_cons, List.not_mem_nil, or_false] at ha
    rcases ha with rfl | rfl <;> exact exprB_ok (by decide)
  filters := by
    intro a ha
    simp only [exTCol, List.mem_cons, List.not_mem_nil, or_false] at ha
    subst ha
    exact exprB_ok (by decide)
  partition := by
    intro p hp e he
    cases hp
    simp only [List.mem_cons, List.not_mem_nil, or_false] at he
    subst he
    exact exprB_ok (by decide)
  order := by
    intro p hp e he
    cases hp
    simp only [List.mem_cons, List.not_mem_nil, or_false] at he
    subst he
    exact exprB_ok (by decide)
  frame := by
    intro f hf
    cases hf
    exact ⟨_, rfl, by decide⟩

end Verif
