import Verif.Lemmas.QueryLex

/-!
# Lemmas for C83: reading the clauses
-/

namespace Verif

/-- A reserved word as it is printed. -/
def kw (s : String) : QTok := .word s.toList

theorem nextW_kw (s : String) (ts : List QTok) (h : s.toList.map Char.toUpper = s.toList) :
    nextW s (kw s :: ts) = some ts := by
  unfold nextW kw
  simp [h]

theorem nextW_kw_ne (s k : String) (ts : List QTok) (h : k.toList.map Char.toUpper ≠ s.toList) :
    nextW s (kw k :: ts) = none := by
  unfold nextW kw
  simp [h]

theorem nextW_sym (s : String) (c : Char) (ts : List QTok) : nextW s (.sym c :: ts) = none := rfl
theorem nextS_self (c : Char) (ts : List QTok) : nextS c (.sym c :: ts) = some ts := by simp [nextS]
theorem nextS_ne {c d : Char} (ts : List QTok) (h : c ≠ d) : nextS c (.sym d :: ts) = none := by simp [nextS, h]
theorem nextS_kw (c : Char) (k : String) (ts : List QTok) : nextS c (kw k :: ts) = none := rfl
theorem nextS_word (c : Char) (w : Txt) (ts : List QTok) : nextS c (.word w :: ts) = none := rfl

theorem nextW_name {s : String} {a : Txt} {ts : List QTok} (ha : NameTok a) (hs : qReserved s.toList = true)
    (hu : s.toList.map Char.toUpper = s.toList) : nextW s (.word a :: ts) = none := by
  unfold nextW
  simp only
  rw [if_neg]
  intro h
  have h1 := ha.2.2
  unfold qReserved at h1 hs
  rw [h] at h1
  rw [hu] at hs
  rw [h1] at hs
  cases hs

theorem nextName_ok {a : Txt} {ts : List QTok} (ha : NameTok a) : nextName (.word a :: ts) = some (a, ts) := by
  unfold nextName
  simp [ha.2.2]

/-- What follows a clause: nothing, a closing parenthesis, or one of the given words. -/
def Tail (ks : List String) (ts : List QTok) : Prop :=
  ts = [] ∨ (∃ r, ts = .sym ')' :: r) ∨ ∃ k ∈ ks, ∃ r, ts = kw k :: r

theorem Tail.mono {ks ks' : List String} {ts : List QTok} (h : Tail ks ts) (hk : ks ⊆ ks') : Tail ks' ts := by
  rcases h with h | h | ⟨k, hk', h⟩
  · exact Or.inl h
  · exact Or.inr (Or.inl h)
  · exact Or.inr (Or.inr ⟨k, hk hk', h⟩)

theorem Tail.nextW {ks : List String} {ts : List QTok} (h : Tail ks ts) (s : String)
    (hs : ∀ k ∈ ks, k.toList.map Char.toUpper ≠ s.toList) : nextW s ts = none := by
  rcases h with rfl | ⟨r, rfl⟩ | ⟨k, hk, r, rfl⟩
  · rfl
  · rfl
  · exact nextW_kw_ne s k r (hs k hk)

theorem Tail.comma {ks : List String} {ts : List QTok} (h : Tail ks ts) : nextS ',' ts = none := by
  rcases h with rfl | ⟨r, rfl⟩ | ⟨k, hk, r, rfl⟩
  · rfl
  · exact nextS_ne _ (by decide)
  · rfl

theorem Tail.stop {ks : List String} {ts : List QTok} (h : Tail ks ts) (hk : ∀ k ∈ ks, qReserved k.toList = true) :
    StopTok ts := by
  rcases h with rfl | ⟨r, rfl⟩ | ⟨k, hk', r, rfl⟩
  · simp [StopTok]
  · simp [StopTok, qStops]
  · simpa [StopTok, kw, qStops] using hk k hk'

/-! ## Names -/

/-- Names with commas between, as tokens. -/
def nameToks (as : List Txt) : List QTok := joinToks [.sym ','] (as.map fun a => [.word a])

theorem rNames_ok (as : List Txt) : ∀ (rest : List QTok), as ≠ [] → (∀ a ∈ as, NameTok a) → nextS ',' rest = none →
    rNames (nameToks as ++ rest) = some (as, rest) := by
  induction as with
  | nil => intro rest h; exact absurd rfl h
  | cons a as ih =>
    intro rest _ h hr
    have ha := h a (by simp)
    cases as with
    | nil =>
      rw [rNames]
      simp only [nameToks, List.map_cons, List.map_nil, joinToks, List.cons_append, List.nil_append, nextName_ok ha]
      simp [hr]
    | cons b as =>
      have ih' := ih rest (by simp) (fun x hx => h x (by simp only [List.mem_cons] at hx ⊢; exact Or.inr hx)) hr
      rw [rNames]
      have e : nameToks (a :: b :: as) ++ rest = .word a :: .sym ',' :: (nameToks (b :: as) ++ rest) := by
        simp [nameToks, joinToks]
      rw [e, nextName_ok ha]
      simp only [Option.bind_eq_bind, Option.bind_some, nextS_self]
      rw [ih']
      rfl

theorem nameToks_lex (as : List Txt) (h : ∀ a ∈ as, NameTok a) :
    qLex (joinTxt (qt ", ") as) = some (nameToks as) := by
  unfold nameToks
  apply qLex_join
  · unfold qt; rfl
  · unfold qt; exact SepTxt.cons (by decide)
  · unfold qt; simp
  · rw [List.map_map]
    apply List.map_congr_left
    intro a ha
    rw [(h a ha).lex, Function.comp_apply]

theorem Named.col {c : SCol} (h : Named c) : c.alias = some (some (colName c)) ∧ NameTok (colName c) := by
  obtain ⟨_, a, ha, hn⟩ := h
  have : colName c = a := by unfold colName; rw [ha]; rfl
  rw [this]
  exact ⟨ha, hn⟩

theorem groupbyText_ok (cols : List SCol) (h : ∀ c ∈ cols, Named c) :
    groupbyText cols = some (joinTxt (qt ", ") (cols.map colName)) := by
  have : cols.mapM (fun c => c.alias.join) = some (cols.map colName) := by
    induction cols with
    | nil => rfl
    | cons c cols ih =>
      rw [List.mapM_cons, ih (fun x hx => h x (by simp [hx])), (h c (by simp)).col.1]
      rfl
  unfold groupbyText
  rw [this]

/-- `k BY names` -/
def byToks (k : String) (cols : List SCol) : List QTok :=
  if cols = [] then [] else kw k :: kw "BY" :: nameToks (cols.map colName)

theorem rBy_ok (k : String) (ks : List String) (cols : List SCol) (rest : List QTok) (h : ∀ c ∈ cols, Named c)
    (hk : k.toList.map Char.toUpper = k.toList) (hks : ∀ x ∈ ks, x.toList.map Char.toUpper ≠ k.toList)
    (hr : Tail ks rest) : rBy k (byToks k cols ++ rest) = some (cols.map colName, rest) := by
  unfold rBy byToks
  split_ifs with hc
  · subst hc
    rw [List.nil_append, hr.nextW k hks]
    rfl
  · rw [List.cons_append, nextW_kw _ _ hk]
    simp only
    rw [List.cons_append, nextW_kw _ _ (by decide)]
    apply rNames_ok
    · simpa using hc
    · intro a ha
      obtain ⟨c, hcm, rfl⟩ := List.mem_map.1 ha
      exact (h c hcm).col.2
    · exact hr.comma

theorem byToks_tail (k : String) (ks : List String) (cols : List SCol) (rest : List QTok) (hr : Tail ks rest) :
    Tail (k :: ks) (byToks k cols ++ rest) := by
  unfold byToks
  split_ifs
  · exact hr.mono (by simp)
  · exact Or.inr (Or.inr ⟨k, by simp, _, rfl⟩)

/-- Lexing of `\nORDER BY a, b` -/
theorem by_lex (pre : Txt) (k : String) (hpre : pre.foldl qStep ([], .start) = ([kw k, kw "BY"], .start))
    (cols : List SCol) (hne : cols ≠ []) (h : ∀ c ∈ cols, Named c) :
    qLex (pre ++ joinTxt (qt ", ") (cols.map colName)) = some (byToks k cols) := by
  rw [qLex_start hpre, nameToks_lex]
  · simp [byToks, hne]
  · intro a ha
    obtain ⟨c, hcm, rfl⟩ := List.mem_map.1 ha
    exact (h c hcm).col.2

theorem orderClause_ok (ord : List SCol) (h : ∀ c ∈ ord, Named c) :
    ∃ t, orderClause ord = some t ∧ qLex t = some (byToks "ORDER" ord) ∧ SepTxt t := by
  unfold orderClause
  by_cases hn : ord = []
  · subst hn
    exact ⟨[], rfl, rfl, SepTxt.nil⟩
  · have : ord.isEmpty = false := by simpa using hn
    rw [this, groupbyText_ok ord h]
    refine ⟨_, rfl, ?_, ?_⟩
    · exact by_lex _ "ORDER" (by unfold qt; rfl) ord hn h
    · unfold qt; exact SepTxt.cons (by decide)

theorem groupClause_ok (distinct : Bool) (grp cols : List SCol) (hg : ∀ c ∈ grp, Named c)
    (hd : distinct = true → grp = [] ∧ cols ≠ [] ∧ ∀ c ∈ cols, Named c) :
    ∃ t, groupClause distinct grp cols = some t ∧
      qLex t = some (byToks "GROUP" (if distinct then cols else grp)) ∧ SepTxt t := by
  unfold groupClause
  cases distinct with
  | true =>
    obtain ⟨h1, h2, h3⟩ := hd rfl
    subst h1
    simp only [if_true, List.isEmpty_nil, groupbyText_ok cols h3]
    refine ⟨_, rfl, ?_, ?_⟩
    · exact by_lex _ "GROUP" (by unfold qt; rfl) cols h2 h3
    · unfold qt; exact SepTxt.cons (by decide)
  | false =>
    by_cases hn : grp = []
    · subst hn
      exact ⟨[], rfl, rfl, SepTxt.nil⟩
    · have : grp.isEmpty = false := by simpa using hn
      simp only [Bool.false_eq_true, if_false, this, groupbyText_ok grp hg]
      refine ⟨_, rfl, ?_, ?_⟩
      · exact by_lex _ "GROUP" (by unfold qt; rfl) grp hn hg
      · unfold qt; exact SepTxt.cons (by decide)

/-! ## Conditions -/

/-- WHERE, as tokens. -/
def whereToks (le : Txt → Txt → Bool) (wh : List Txt) : List QTok :=
  if wh = [] then [] else kw "WHERE" :: condMeaning le wh

theorem whereClause_lex (le : Txt → Txt → Bool) (wh : List Txt) (h : ∀ w ∈ wh, ExprOK (filterText w)) :
    qLex (whereClause le wh) = some (whereToks le wh) ∧ SepTxt (whereClause le wh) := by
  unfold whereClause whereToks
  by_cases hn : wh = []
  · subst hn
    exact ⟨rfl, SepTxt.nil⟩
  · have : wh.isEmpty = false := by simpa using hn
    rw [this, if_neg hn]
    simp only [Bool.false_eq_true, if_false]
    constructor
    · have hpre : (qt "\nWHERE\n").foldl qStep ([], .start) = ([kw "WHERE"], .start) := by unfold qt; rfl
      rw [qLex_start hpre, (whereText_lex le wh hn h).1]
      rfl
    · unfold qt; exact SepTxt.cons (by decide)

theorem rWhere_ok (le : Txt → Txt → Bool) (wh : List Txt) (h : ∀ w ∈ wh, ExprOK (filterText w)) (ks : List String)
    (hks : ∀ k ∈ ks, qReserved k.toList = true ∧ k.toList.map Char.toUpper ≠ "WHERE".toList)
    (rest : List QTok) (hr : Tail ks rest) :
    rWhere (whereToks le wh ++ rest) = some (if wh = [] then none else some (condMeaning le wh), rest) := by
  unfold rWhere whereToks
  split_ifs with hn
  · rw [List.nil_append, hr.nextW "WHERE" (fun k hk => (hks k hk).2)]
  · rw [List.cons_append, nextW_kw _ _ (by decide)]
    obtain ⟨_, h2, h3⟩ := whereText_lex le wh hn h
    simp only
    rw [rExpr_append h3 h2 (hr.stop fun k hk => (hks k hk).1)]
    rfl

theorem whereToks_tail (le : Txt → Txt → Bool) (wh : List Txt) (ks : List String) (rest : List QTok)
    (hr : Tail ks rest) : Tail ("WHERE" :: ks) (whereToks le wh ++ rest) := by
  unfold whereToks
  split_ifs
  · exact hr.mono (by simp)
  · exact Or.inr (Or.inr ⟨"WHERE", by simp, _, rfl⟩)

/-! ## Columns -/

/-- A column, as tokens. -/
def itemToks (c : SCol) : List QTok :=
  if c.raw = none ∨ c.expr = colName c then toksOf c.expr else toksOf c.expr ++ [kw "AS", .word (colName c)]

theorem as_lex {a : Txt} (ha : NameTok a) : qLex (qt " AS " ++ a) = some [kw "AS", .word a] := by
  have hpre : (qt " AS ").foldl qStep ([], .start) = ([kw "AS"], .start) := by unfold qt; rfl
  rw [qLex_start hpre, ha.lex]
  rfl

theorem printCol_ok (c : SCol) (he : ExprOK c.expr) (hn : c.raw = none ∨ Named c) :
    ∃ t, printCol c = some t ∧ qLex t = some (itemToks c) := by
  obtain ⟨ts, h1, h2, h3⟩ := he
  unfold printCol itemToks
  rw [toksOf_eq h1]
  rcases hn with hn | hn
  · rw [hn]
    exact ⟨c.expr, rfl, by simp [h1]⟩
  · obtain ⟨r, hr⟩ := Option.ne_none_iff_exists'.1 hn.1
    rw [hr, hn.col.1]
    simp only [reduceCtorEq, false_or]
    split_ifs with h
    · exact ⟨_, rfl, h1⟩
    · refine ⟨_, rfl, ?_⟩
      rw [qLex_append h1, as_lex hn.col.2]
      · rfl
      · unfold qt; exact SepTxt.cons (by decide)

theorem rItems_ok (all : List SCol) : ∀ (rest : List QTok), all ≠ [] →
    (∀ c ∈ all, ExprOK c.expr ∧ (c.raw = none ∨ Named c)) →
    rItems (joinToks [.sym ','] (all.map itemToks) ++ kw "FROM" :: rest) =
      some (all.map colMeaning, kw "FROM" :: rest) := by
  have one : ∀ (c : SCol) (rest : List QTok), ExprOK c.expr → (c.raw = none ∨ Named c) → StopTok rest →
      nextW "AS" rest = none →
      ∃ e a us, rExpr (itemToks c ++ rest) = some (e, us) ∧ rAlias us = some (a, rest) ∧
        (e, itemName e a) = colMeaning c := by
    intro c rest he hn hs has
    obtain ⟨ts, h1, h2, h3⟩ := he
    unfold itemToks colMeaning
    rw [toksOf_eq h1]
    by_cases hraw : c.raw = none
    · rw [if_pos (Or.inl hraw), if_pos hraw]
      exact ⟨ts, none, rest, rExpr_append h3 h2 hs, by unfold rAlias; rw [has], rfl⟩
    · have hnm : Named c := hn.resolve_left hraw
      by_cases hx : c.expr = colName c
      · rw [if_pos (Or.inr hx), if_neg hraw]
        refine ⟨ts, none, rest, rExpr_append h3 h2 hs, by unfold rAlias; rw [has], ?_⟩
        have : ts = [.word (colName c)] := by
          rw [hx, hnm.col.2.lex] at h1
          exact (Option.some.inj h1).symm
        rw [this]
        rfl
      · rw [if_neg (by simp [hraw, hx]), if_neg hraw]
        refine ⟨ts, some (colName c), kw "AS" :: .word (colName c) :: rest, ?_, ?_, rfl⟩
        · rw [List.append_assoc]
          exact rExpr_append h3 h2 (by simp [StopTok, kw, qStops]; decide)
        · unfold rAlias
          rw [nextW_kw _ _ (by decide)]
          simp only
          rw [nextName_ok hnm.col.2]
  induction all with
  | nil => intro rest h; exact absurd rfl h
  | cons c all ih =>
    intro rest _ h
    obtain ⟨he, hn⟩ := h c (by simp)
    cases all with
    | nil =>
      obtain ⟨e, a, us, h1, h2, h3⟩ := one c (kw "FROM" :: rest) he hn (by simp [StopTok, kw, qStops]; decide)
        (nextW_kw_ne _ _ _ (by decide))
      rw [rItems]
      simp only [List.map_cons, List.map_nil, joinToks]
      rw [h1]
      simp only [Option.bind_eq_bind, Option.bind_some, h2]
      rw [nextS_kw, ← h3]
      rfl
    | cons d all =>
      have ih' := ih rest (by simp) (fun x hx => h x (by simp only [List.mem_cons] at hx ⊢; exact Or.inr hx))
      obtain ⟨e, a, us, h1, h2, h3⟩ := one c
        (.sym ',' :: (joinToks [.sym ','] ((d :: all).map itemToks) ++ kw "FROM" :: rest)) he hn
        (by simp [StopTok, qStops]) rfl
      rw [rItems]
      have e0 : joinToks [.sym ','] ((c :: d :: all).map itemToks) ++ kw "FROM" :: rest =
          itemToks c ++ (.sym ',' :: (joinToks [.sym ','] ((d :: all).map itemToks) ++ kw "FROM" :: rest)) := by
        simp [joinToks]
      rw [e0, h1]
      simp only [Option.bind_eq_bind, Option.bind_some, h2, nextS_self]
      rw [ih', List.map_cons (a := c), ← h3]
      rfl

/-- The tokens after SELECT. -/
def selectToks (all : List SCol) : List QTok :=
  if all = [] then [.sym '*'] else joinToks [.sym ','] (all.map itemToks)

theorem selectText_ok (all : List SCol) (h : ∀ c ∈ all, ExprOK c.expr ∧ (c.raw = none ∨ Named c)) :
    ∃ t, selectText all = some t ∧ qLex t = some (selectToks all) := by
  unfold selectText selectToks
  by_cases hn : all = []
  · subst hn
    exact ⟨qt "*", rfl, by unfold qt; rfl⟩
  · have hne : all.isEmpty = false := by simpa using hn
    rw [hne, if_neg hn]
    simp only [Bool.false_eq_true, if_false]
    have : ∃ ts : List Txt, all.mapM printCol = some ts ∧ ts.map qLex = all.map fun c => some (itemToks c) := by
      clear hn hne
      induction all with
      | nil => exact ⟨[], rfl, rfl⟩
      | cons c all ih =>
        obtain ⟨ts, h1, h2⟩ := ih (fun x hx => h x (by simp [hx]))
        obtain ⟨t, h3, h4⟩ := printCol_ok c (h c (by simp)).1 (h c (by simp)).2
        refine ⟨t :: ts, ?_, ?_⟩
        · rw [List.mapM_cons, h3, h1]; rfl
        · rw [List.map_cons, List.map_cons, h4, h2]
    obtain ⟨ts, h1, h2⟩ := this
    rw [h1]
    refine ⟨_, rfl, ?_⟩
    apply qLex_join
    · unfold qt; rfl
    · unfold qt; exact SepTxt.cons (by decide)
    · unfold qt; simp
    · rw [List.map_map, List.map_map]
      have hpre : (qt "  ").foldl qStep ([], .start) = ([], .start) := by unfold qt; rfl
      have : ts.map (qLex ∘ fun x => qt "  " ++ x) = ts.map qLex := by
        apply List.map_congr_left
        intro t _
        rw [Function.comp_apply, qLex_start hpre]
        cases qLex t <;> simp
      rw [this, h2]
      rfl

theorem rItems_select (all : List SCol) (h : ∀ c ∈ all, ExprOK c.expr ∧ (c.raw = none ∨ Named c))
    (rest : List QTok) : rItems (selectToks all ++ kw "FROM" :: rest) =
      some (if all = [] then [([.sym '*'], none)] else all.map colMeaning, kw "FROM" :: rest) := by
  unfold selectToks
  split_ifs with hn
  · have h1 : rExpr ([.sym '*'] ++ kw "FROM" :: rest) = some ([.sym '*'], kw "FROM" :: rest) :=
      rExpr_append (by decide) (by simp) (by simp [StopTok, kw, qStops]; decide)
    rw [rItems, h1]
    have h2 : rAlias (kw "FROM" :: rest) = some (none, kw "FROM" :: rest) := by
      unfold rAlias
      rw [nextW_kw_ne _ _ _ (by decide)]
    simp only [Option.bind_eq_bind, Option.bind_some, h2]
    rw [nextS_kw]
    rfl
  · exact rItems_ok all rest hn h

/-! ## Joins -/

/-- The words of a join. -/
def TJoin.toks : TJoin → List QTok
  | .plain => [kw "JOIN"]
  | .inner => [kw "INNER", kw "JOIN"]
  | .full => [kw "FULL", kw "JOIN"]
  | .fullOuter => [kw "FULL", kw "OUTER", kw "JOIN"]
  | .left => [kw "LEFT", kw "JOIN"]
  | .leftOuter => [kw "LEFT", kw "OUTER", kw "JOIN"]
  | .right => [kw "RIGHT", kw "JOIN"]
  | .rightOuter => [kw "RIGHT", kw "OUTER", kw "JOIN"]
  | .cross => [kw "CROSS", kw "JOIN"]

theorem TJoin.lex (k : TJoin) : qLex k.text = some k.toks := by
  cases k <;> (unfold TJoin.text TJoin.toks qt; rfl)

theorem rKind_ok (k : TJoin) (rest : List QTok) : rKind (k.toks ++ rest) = some (k.meaning, rest) := by
  cases k <;> rfl

theorem TJoin.head (k : TJoin) (rest : List QTok) : StopTok (k.toks ++ rest) ∧ nextW "AS" (k.toks ++ rest) = none := by
  cases k <;> exact ⟨by simp [TJoin.toks, StopTok, kw, qStops]; decide, rfl⟩

/-- ON and USING, as tokens. -/
def joinCondToks (le : Txt → Txt → Bool) (on using' : List Txt) : List QTok :=
  if on = [] then if using' = [] then [] else kw "USING" :: .sym '(' :: (nameToks using' ++ [.sym ')'])
  else kw "ON" :: condMeaning le on

theorem joinCond_lex (le : Txt → Txt → Bool) (on using' : List Txt) (ho : ∀ w ∈ on, ExprOK (filterText w))
    (hu : ∀ a ∈ using', NameTok a) : qLex (joinCond le on using') = some (joinCondToks le on using') ∧
      SepTxt (joinCond le on using') := by
  unfold joinCond joinCondToks
  by_cases hn : on = []
  · subst hn
    simp only [List.isEmpty_nil, if_true]
    by_cases hm : using' = []
    · subst hm; exact ⟨rfl, SepTxt.nil⟩
    · have : using'.isEmpty = false := by simpa using hm
      rw [this, if_neg hm]
      simp only [Bool.false_eq_true, if_false]
      constructor
      · have hpre : (qt "\nUSING (").foldl qStep ([], .start) = ([kw "USING", .sym '('], .start) := by unfold qt; rfl
        have hpost : qLex (qt ")") = some [.sym ')'] := by unfold qt; rfl
        rw [qLex_start hpre, qLex_append (nameToks_lex using' hu), hpost]
        · rfl
        · unfold qt; exact SepTxt.cons (by decide)
      · unfold qt; exact SepTxt.cons (by decide)
  · have : on.isEmpty = false := by simpa using hn
    rw [this, if_neg hn]
    simp only [Bool.false_eq_true, if_false]
    constructor
    · have hpre : (qt "\nON ").foldl qStep ([], .start) = ([kw "ON"], .start) := by unfold qt; rfl
      rw [qLex_start hpre, (whereText_lex le on hn ho).1]
      rfl
    · unfold qt; exact SepTxt.cons (by decide)

theorem rCond_ok (le : Txt → Txt → Bool) (on using' : List Txt) (ho : ∀ w ∈ on, ExprOK (filterText w))
    (hu : ∀ a ∈ using', NameTok a) (rest : List QTok) (hs : StopTok rest) (h1 : nextW "ON" rest = none)
    (h2 : nextW "USING" rest = none) :
    rCond (joinCondToks le on using' ++ rest) = some (joinMeaning le on using', rest) := by
  unfold rCond joinCondToks joinMeaning
  by_cases hn : on = []
  · subst hn
    simp only [if_true]
    by_cases hm : using' = []
    · subst hm
      simp [h1, h2]
    · rw [if_neg hm, if_neg hm]
      rw [List.cons_append, nextW_kw_ne _ _ _ (by decide)]
      simp only
      rw [nextW_kw _ _ (by decide)]
      simp only [List.cons_append, nextS_self]
      rw [List.append_assoc, rNames_ok using' _ hm hu]
      · simp only [List.cons_append, List.nil_append, nextS_self]
        rfl
      · exact nextS_ne _ (by decide)
  · rw [if_neg hn, if_neg hn]
    obtain ⟨_, h3, h4⟩ := whereText_lex le on hn ho
    rw [List.cons_append, nextW_kw _ _ (by decide)]
    simp only
    rw [rExpr_append h4 h3 hs]
    rfl

theorem joinCond_head (le : Txt → Txt → Bool) (on using' : List Txt) (rest : List QTok) (hs : StopTok rest)
    (has : nextW "AS" rest = none) : StopTok (joinCondToks le on using' ++ rest) ∧
      nextW "AS" (joinCondToks le on using' ++ rest) = none := by
  unfold joinCondToks
  split_ifs
  · exact ⟨hs, has⟩
  · exact ⟨by simp [StopTok, kw, qStops]; decide, nextW_kw_ne _ _ _ (by decide)⟩
  · exact ⟨by simp [StopTok, kw, qStops]; decide, nextW_kw_ne _ _ _ (by decide)⟩

end Verif
