import Verif.Lemmas.QueryUser
import Mathlib.Tactic.IntervalCases

/-!
# C83: the text of a query is read as the query
-/

namespace Verif

/-- What may follow a source. -/
structure AfterSrc (rest : List QTok) : Prop where
  stop : StopTok rest
  noAs : nextW "AS" rest = none
  noOn : nextW "ON" rest = none
  noUsing : nextW "USING" rest = none

/-- The alias of a source, as tokens. -/
def aliasToks : Option Txt → List QTok
  | none => []
  | some a => [kw "AS", .word a]

theorem aliased_lex {t : Txt} {ts : List QTok} (h : qLex t = some ts) (al : Option Txt) (ha : ∀ a ∈ al, NameTok a) :
    qLex (aliasedText t al) = some (ts ++ aliasToks al) := by
  cases al with
  | none => simp [aliasedText, aliasToks, h]
  | some a =>
    rw [aliasedText, qLex_append h, as_lex (ha a rfl)]
    · rfl
    · unfold qt; exact SepTxt.cons (by decide)

theorem rAlias_ok (al : Option Txt) (ha : ∀ a ∈ al, NameTok a) (rest : List QTok) (h : nextW "AS" rest = none) :
    rAlias (aliasToks al ++ rest) = some (al, rest) := by
  unfold rAlias
  cases al with
  | none => simp [aliasToks, h]
  | some a =>
    rw [aliasToks, List.cons_append, nextW_kw _ _ (by decide)]
    simp only [List.cons_append, List.nil_append, nextName_ok (ha a rfl)]

theorem aliasToks_stop (al : Option Txt) (rest : List QTok) (h : StopTok rest) : StopTok (aliasToks al ++ rest) := by
  cases al with
  | none => exact h
  | some a => simp [aliasToks, StopTok, kw, qStops]; decide

theorem paren_lex {t : Txt} {ts : List QTok} (h : qLex t = some ts) :
    qLex (qt "(" ++ (t ++ qt ")")) = some (.sym '(' :: (ts ++ [.sym ')'])) := by
  have hpre : (qt "(").foldl qStep ([], .start) = ([.sym '('], .start) := by unfold qt; rfl
  have hpost : qLex (qt ")") = some [.sym ')'] := by unfold qt; rfl
  rw [qLex_start hpre, qLex_append h, hpost]
  · rfl
  · unfold qt; exact SepTxt.cons (by decide)

theorem expr_head {ts : List QTok} (h : qDepth 0 ts = some 0) (hne : ts ≠ []) (s : String)
    (hs : qReserved s.toList = true) (hu : s.toList.map Char.toUpper = s.toList) (rest : List QTok) :
    nextW s (ts ++ rest) = none := by
  cases ts with
  | nil => exact absurd rfl hne
  | cons t ts =>
    cases t with
    | sym c => rfl
    | quoted q x => rfl
    | word w =>
      rw [List.cons_append]
      unfold nextW
      simp only
      rw [if_neg]
      intro hw
      rw [qDepth] at h
      rw [if_pos] at h
      · cases h
      · show qReserved w = true
        unfold qReserved
        unfold qReserved at hs
        rw [hu] at hs
        rw [hw]
        exact hs

/-- A query object is read. -/
def SqlReads (le : Txt → Txt → Bool) (q : TSql) : Prop :=
  ∃ t ts, q.print le = some t ∧ qLex t = some ts ∧ isTable t = false ∧
    (∃ us, ts = kw "SELECT" :: us ∨ ts = kw "WITH" :: us) ∧
    ∀ rest, Tail [] rest → rStmt (ts ++ rest) = some (q.meaning le, rest)

/-- A source is read. -/
def SrcReads (le : Txt → Txt → Bool) (s : TSrc) : Prop :=
  ∃ b t ts, s.print le = some (b, t) ∧ qLex t = some ts ∧
    (∀ rest, nextW "SELECT" (ts ++ rest) = none ∧ nextW "WITH" (ts ++ rest) = none) ∧
    (∀ rest, AfterSrc rest → rSource (ts ++ rest) = rJoins (s.meaning le) rest) ∧
    (s.isJoin = false → ∀ rest, StopTok rest → nextW "AS" rest = none →
      rPrim (ts ++ rest) = some (s.meaning le, rest)) ∧ (s.meaning le).isJoin = s.isJoin

/-- The tables of a WITH clause are read. -/
def WithReads (le : Txt → Txt → Bool) (w : TWith) : Prop :=
  ∃ l tss, w.print le = some l ∧ l.map qLex = tss.map some ∧ (w = .nil → l = []) ∧
    (w ≠ .nil → l ≠ [] ∧ ∀ rest, nextS ',' rest = none →
      rWiths (joinToks [.sym ','] tss ++ rest) = some (w.meaning le, rest))

theorem isTable_select (t : Txt) : isTable (qt "SELECT\n" ++ t) = false := by
  unfold isTable qt
  simp [List.dropWhile]

theorem isTable_with (t : Txt) : isTable (qt "WITH\n" ++ t) = false := by
  have : hasInfix (qt "WITH\n") ((qt "WITH\n" ++ t).map Char.toUpper) = true := by
    unfold qt
    simp [hasInfix, List.isPrefixOf]
  unfold isTable
  simp only [this]
  simp

theorem srcReads_sub (le : Txt → Txt → Bool) (s : TSrc) (b : Bool) (t : Txt) (ts : List QTok) (a : QAst) (al : Option Txt)
    (hp : s.print le = some (b, aliasedText (qt "(" ++ (t ++ qt ")")) al)) (hm : s.meaning le = .sub a al)
    (hj : s.isJoin = false) (h2 : qLex t = some ts)
    (hus : (nextW "SELECT" ts).isSome = true ∨ (nextW "WITH" ts).isSome = true)
    (h5 : ∀ rest, rStmt (ts ++ .sym ')' :: rest) = some (a, .sym ')' :: rest))
    (hal : ∀ a ∈ al, NameTok a) : SrcReads le s := by
  have hprim : ∀ rest, StopTok rest → nextW "AS" rest = none →
      rPrim ((.sym '(' :: (ts ++ [.sym ')']) ++ aliasToks al) ++ rest) = some (s.meaning le, rest) := by
    intro rest hs has
    rw [rPrim, List.cons_append, List.cons_append, nextS_self]
    simp only
    have e : ts ++ [QTok.sym ')'] ++ aliasToks al ++ rest = ts ++ (.sym ')' :: (aliasToks al ++ rest)) := by simp
    have hsel : ((nextW "SELECT" (ts ++ (.sym ')' :: (aliasToks al ++ rest)))).isSome ||
        (nextW "WITH" (ts ++ (.sym ')' :: (aliasToks al ++ rest)))).isSome) = true := by
      rw [nextW_app, nextW_app]
      simpa using hus
    rw [e, if_pos hsel, h5]
    simp only [Option.bind_eq_bind, Option.bind_some, nextS_self]
    rw [rAlias_ok al hal rest has, hm]
    rfl
  refine ⟨_, _, _, hp, aliased_lex (paren_lex h2) al hal, fun rest => ⟨rfl, rfl⟩, ?_, fun _ => hprim, ?_⟩
  · intro rest h
    rw [rSource, hprim rest h.stop h.noAs]
    rfl
  · rw [hm, hj]; rfl

theorem srcReads_query (le : Txt → Txt → Bool) (q : TSql) (al : Option Txt) (hq : SqlReads le q)
    (hal : ∀ a ∈ al, NameTok a) : SrcReads le (.query q al) := by
  obtain ⟨t, ts, h1, h2, h3, ⟨us, hus⟩, h5⟩ := hq
  refine srcReads_sub le _ (isTable t) t ts _ al ?_ (by rw [TSrc.meaning]) rfl h2 ?_
    (fun rest => h5 _ (Or.inr (Or.inl ⟨_, rfl⟩))) hal
  · rw [TSrc.print, h1]
    simp only
    unfold tableText
    rw [if_neg (by simp [h3])]
  · rcases hus with rfl | rfl
    · rw [nextW_kw _ _ (by decide)]; exact Or.inl rfl
    · rw [nextW_kw _ _ (by decide)]; exact Or.inr rfl

theorem readText_eq {t : Txt} {a : QAst} (h : ReadsQuery t a) : readText t = some a := by
  obtain ⟨ts, h1, h2⟩ := h
  unfold readText
  rw [h1]
  simp only [h2]

theorem readText_table {t : Txt} (h : TableOK t) : readText t = none := by
  obtain ⟨⟨ts, h1, h2, h3⟩, -, -⟩ := h
  unfold readText
  rw [h1]
  cases hr : rStmt ts with
  | none => simp only [hr]
  | some r =>
    exfalso
    have e1 := expr_head h3 h2 "SELECT" (by decide) (by decide) []
    have e2 := expr_head h3 h2 "WITH" (by decide) (by decide) []
    rw [List.append_nil] at e1 e2
    rcases rStmt_head hr with h | h
    · rw [e1] at h; cases h
    · rw [e2] at h; cases h

theorem srcReads_text (le : Txt → Txt → Bool) (t : Txt) (al : Option Txt) (ht : TableOK t)
    (hal : ∀ a ∈ al, NameTok a) :
    SrcReads le (.text t al) := by
  have hm : (TSrc.text t al).meaning le = .table (toksOf t) al := by
    rw [TSrc.meaning, readText_table ht]
  obtain ⟨⟨ts, h1, h2, h3⟩, htab, hhead⟩ := ht
  rw [toksOf_eq h1] at hhead
  have hp : (TSrc.text t al).print le = some (isTable t, aliasedText t al) := by
    rw [TSrc.print, tableText, if_pos htab]
  have hprim : ∀ rest, StopTok rest → nextW "AS" rest = none →
      rPrim ((ts ++ aliasToks al) ++ rest) = some ((TSrc.text t al).meaning le, rest) := by
    intro rest hs has
    have hn : nextS '(' (ts ++ aliasToks al ++ rest) = none := by
      cases ts with
      | nil => exact absurd rfl h2
      | cons x xs =>
        cases x with
        | sym c =>
          apply nextS_ne
          intro hc
          apply hhead
          simp [← hc]
        | word w => rfl
        | quoted q s => rfl
    rw [rPrim, hn]
    simp only
    rw [List.append_assoc, rExpr_append h3 h2 (aliasToks_stop al rest hs)]
    simp only [Option.bind_eq_bind, Option.bind_some]
    rw [rAlias_ok al hal rest has]
    rw [hm, toksOf_eq h1]
    rfl
  refine ⟨_, _, ts ++ aliasToks al, hp, aliased_lex h1 al hal, ?_, ?_, fun _ => hprim, ?_⟩
  · intro rest
    rw [List.append_assoc]
    exact ⟨expr_head h3 h2 "SELECT" (by decide) (by decide) _, expr_head h3 h2 "WITH" (by decide) (by decide) _⟩
  · intro rest h
    rw [rSource, hprim rest h.stop h.noAs]
    rfl
  · rw [hm]; rfl

theorem srcReads_usertext (le : Txt → Txt → Bool) (t : Txt) (al : Option Txt) (h : QueryOK t)
    (hal : ∀ a ∈ al, NameTok a) : SrcReads le (.text t al) := by
  obtain ⟨⟨a, hr⟩, hnt⟩ := h
  have hm : (TSrc.text t al).meaning le = .sub a al := by
    rw [TSrc.meaning, readText_eq hr]
  obtain ⟨ts, h1, h2⟩ := hr
  refine srcReads_sub le _ (isTable t) t ts a al ?_ hm rfl h1 (rStmt_head h2) ?_ hal
  · rw [TSrc.print, tableText, if_neg (by simp [hnt])]
  · intro rest
    exact (stmt_app rest).1 ts _ h2

theorem srcReads_join (le : Txt → Txt → Bool) (l : TSrc) (kind : TJoin) (r : TSrc) (on using' : List Txt)
    (hl : SrcReads le l) (hr : SrcReads le r) (hj : r.isJoin = false) (hne : l.operand le ≠ r.operand le)
    (ho : ∀ w ∈ on, ExprOK (filterText w)) (hu : ∀ a ∈ using', NameTok a) : SrcReads le (.join l kind r on using') := by
  obtain ⟨bl, tl, sl, l1, l2, l3, l4, _, l6⟩ := hl
  obtain ⟨br, tr, sr, r1, r2, r3, _, r5, _⟩ := hr
  -- the first table
  have hleft : ∃ sa, qLex (if l.isJoin then tableText tl else tl) = some sa ∧
      (∀ rest, nextW "SELECT" (sa ++ rest) = none ∧ nextW "WITH" (sa ++ rest) = none) ∧
      ∀ rest, AfterSrc rest → rSource (sa ++ rest) = rJoins (l.meaning le) rest := by
    by_cases hlj : l.isJoin = true
    · rw [if_pos hlj]
      unfold tableText
      split_ifs with ht
      · exact ⟨sl, l2, l3, l4⟩
      · refine ⟨_, paren_lex l2, fun rest => ⟨rfl, rfl⟩, fun rest _ => ?_⟩
        rw [rSource, rPrim, List.cons_append, nextS_self]
        simp only
        have e : sl ++ [QTok.sym ')'] ++ rest = sl ++ (.sym ')' :: rest) := by simp
        rw [e, if_neg (by simp [(l3 (.sym ')' :: rest)).1, (l3 (.sym ')' :: rest)).2]),
          l4 (.sym ')' :: rest) ⟨by simp [StopTok, qStops], rfl, rfl, rfl⟩, rJoins]
        have hk : rKind (.sym ')' :: rest) = none := rfl
        rw [hk]
        simp only [Option.bind_eq_bind, Option.bind_some, nextS_self]
        rw [l6, hlj]
        rfl
    · rw [if_neg hlj]
      exact ⟨sl, l2, l3, l4⟩
  obtain ⟨sa, a1, a2, a3⟩ := hleft
  have hneq : (if l.isJoin then tableText tl else tl) ≠ tr := by
    intro h
    apply hne
    unfold TSrc.operand
    rw [l1, r1, hj]
    simpa using h
  obtain ⟨c1, c2⟩ := joinCond_lex le on using' ho hu
  have hp : ∃ b, (TSrc.join l kind r on using').print le = some (b, (if l.isJoin then tableText tl else tl) ++
      (qt "\n" ++ (kind.text ++ (qt "\n" ++ (tr ++ joinCond le on using'))))) := by
    rw [TSrc.print, l1, r1]
    simp only [hj, Bool.false_eq_true, if_false]
    rw [if_neg hneq]
    exact ⟨_, rfl⟩
  obtain ⟨b, hp⟩ := hp
  have hnl : (qt "\n").foldl qStep ([], .start) = ([], .start) := by unfold qt; rfl
  have hnls : ∀ x : Txt, SepTxt (qt "\n" ++ x) := by
    intro x; unfold qt; exact SepTxt.cons (by decide)
  have hlex : qLex ((if l.isJoin then tableText tl else tl) ++
      (qt "\n" ++ (kind.text ++ (qt "\n" ++ (tr ++ joinCond le on using'))))) =
      some (sa ++ (kind.toks ++ (sr ++ joinCondToks le on using'))) := by
    rw [qLex_append a1 (hnls _), qLex_start hnl, qLex_append (TJoin.lex kind) (hnls _), qLex_start hnl,
      qLex_append r2 c2, c1]
    simp
  refine ⟨b, _, _, hp, hlex, ?_, ?_, ?_, ?_⟩
  · intro rest
    rw [List.append_assoc]
    exact a2 _
  · intro rest hrest
    have e : sa ++ (kind.toks ++ (sr ++ joinCondToks le on using')) ++ rest =
        sa ++ (kind.toks ++ (sr ++ (joinCondToks le on using' ++ rest))) := by simp
    obtain ⟨k1, k2⟩ := TJoin.head kind (sr ++ (joinCondToks le on using' ++ rest))
    obtain ⟨j1, j2⟩ := joinCond_head le on using' rest hrest.stop hrest.noAs
    have k3 : AfterSrc (kind.toks ++ (sr ++ (joinCondToks le on using' ++ rest))) :=
      ⟨k1, k2, by cases kind <;> rfl, by cases kind <;> rfl⟩
    rw [e, a3 _ k3, rJoins, rKind_ok]
    simp only
    rw [r5 hj _ j1 j2]
    simp only [Option.bind_eq_bind, Option.bind_some]
    rw [rCond_ok le on using' ho hu rest hrest.stop hrest.noOn hrest.noUsing]
    rw [TSrc.meaning]
    rfl
  · intro h; cases h
  · rw [TSrc.meaning]; rfl

theorem sqlReads_mk (le : Txt → Txt → Bool) (ws : TWith) (grp cols : List SCol) (distinct : Bool) (src : TSrc)
    (wh : List Txt) (ord : List SCol) (hw : WithReads le ws) (hs : SrcReads le src)
    (hcols : ∃ all cols', addColumns grp cols = some (all, cols') ∧
      (∀ c ∈ all, ExprOK c.expr ∧ (c.raw = none ∨ Named c)) ∧
      (distinct = true → grp = [] ∧ cols' ≠ [] ∧ ∀ c ∈ cols', Named c))
    (hg : ∀ c ∈ grp, Named c) (ho : ∀ c ∈ ord, Named c) (hwh : ∀ w ∈ wh, ExprOK (filterText w)) :
    SqlReads le (.mk ws grp cols distinct src wh ord) := by
  obtain ⟨wl, wts, w1, w2, w3, w4⟩ := hw
  obtain ⟨b, tf, sf, f1, f2, f3, f4, _, _⟩ := hs
  obtain ⟨all, cols', hadd, hall, hdis⟩ := hcols
  obtain ⟨sel, s1, s2⟩ := selectText_ok all hall
  obtain ⟨g, g1, g2, g3⟩ := groupClause_ok distinct grp cols' hg hdis
  obtain ⟨o, o1, o2, o3⟩ := orderClause_ok ord ho
  obtain ⟨h1, h2⟩ := whereClause_lex le wh hwh
  set body : Txt := qt "SELECT\n" ++ (sel ++ (qt "\nFROM" ++ ((if b then qt " " else qt "\n") ++
    (tf ++ (whereClause le wh ++ (g ++ o)))))) with hbody
  set G := (if distinct then cols' else grp) with hG
  set btoks : List QTok := kw "SELECT" :: (selectToks all ++ (kw "FROM" :: (sf ++ (whereToks le wh ++
    (byToks "GROUP" G ++ byToks "ORDER" ord))))) with hbtoks
  have hp : (TSql.mk ws grp cols distinct src wh ord).print le =
      some ((if wl.isEmpty then [] else qt "WITH\n" ++ (joinTxt (qt ",\n") wl ++ qt "\n")) ++ body) := by
    rw [TSql.print, w1, hadd, f1]
    simp only
    rw [s1, g1, o1]
  have hbl : qLex body = some btoks := by
    have p1 : (qt "SELECT\n").foldl qStep ([], .start) = ([kw "SELECT"], .start) := by unfold qt; rfl
    have p2 : qLex (qt "\nFROM") = some [kw "FROM"] := by unfold qt; rfl
    have p2s : SepTxt (qt "\nFROM") := by unfold qt; exact SepTxt.cons (by decide)
    have p3 : (if b then qt " " else qt "\n").foldl qStep ([], .start) = ([], .start) := by
      cases b <;> (unfold qt; rfl)
    have p3s : ∀ x, SepTxt ((if b then qt " " else qt "\n") ++ x) := by
      intro x
      cases b <;> (unfold qt; exact SepTxt.cons (by decide))
    have p4 : ∀ x, SepTxt (qt "\nFROM" ++ x) := by
      intro x; unfold qt; exact SepTxt.cons (by decide)
    rw [hbody, qLex_start p1, qLex_append s2 (p4 _), qLex_append p2 (p3s _), qLex_start p3,
      qLex_append f2 (h2.append (g3.append o3)), qLex_append h1 (g3.append o3), qLex_append g2 o3, o2, hbtoks]
    simp
  -- reading SELECT
  have hsel : ∀ (wsm : List (Txt × QAst)) (rest : List QTok), Tail [] rest → rSelect wsm (btoks ++ rest) =
      some (.mk wsm (if all = [] then [([.sym '*'], none)] else all.map colMeaning) (src.meaning le)
        (if wh = [] then none else some (condMeaning le wh)) (G.map colName) (ord.map colName), rest) := by
    intro wsm rest hr
    have t1 : Tail ["ORDER"] (byToks "ORDER" ord ++ rest) := byToks_tail "ORDER" [] ord rest hr
    have t2 : Tail ["GROUP", "ORDER"] (byToks "GROUP" G ++ (byToks "ORDER" ord ++ rest)) :=
      byToks_tail "GROUP" ["ORDER"] G _ t1
    have t3 : Tail ["WHERE", "GROUP", "ORDER"] (whereToks le wh ++ (byToks "GROUP" G ++ (byToks "ORDER" ord ++ rest))) :=
      whereToks_tail le wh _ _ t2
    have hGn : ∀ c ∈ G, Named c := by
      rw [hG]
      cases hd : distinct with
      | true => simpa using (hdis hd).2.2
      | false => simpa using hg
    have e : btoks ++ rest = kw "SELECT" :: (selectToks all ++ kw "FROM" :: (sf ++ (whereToks le wh ++
        (byToks "GROUP" G ++ (byToks "ORDER" ord ++ rest))))) := by
      rw [hbtoks]; simp
    rw [rSelect, e, nextW_kw _ _ (by decide)]
    simp only [Option.bind_eq_bind, Option.bind_some]
    rw [rItems_select all hall]
    simp only [Option.bind_some]
    rw [nextW_kw _ _ (by decide)]
    simp only [Option.bind_some]
    have after : AfterSrc (whereToks le wh ++ (byToks "GROUP" G ++ (byToks "ORDER" ord ++ rest))) :=
      ⟨t3.stop (by decide), t3.nextW _ (by decide), t3.nextW _ (by decide), t3.nextW _ (by decide)⟩
    have hk : rKind (whereToks le wh ++ (byToks "GROUP" G ++ (byToks "ORDER" ord ++ rest))) = none := by
      unfold rKind
      rw [t3.nextW "JOIN" (by decide), t3.nextW "INNER" (by decide), t3.nextW "CROSS" (by decide),
        t3.nextW "FULL" (by decide), t3.nextW "LEFT" (by decide), t3.nextW "RIGHT" (by decide)]
    rw [f4 _ after, rJoins, hk]
    simp only [Option.bind_some]
    rw [rWhere_ok le wh hwh ["GROUP", "ORDER"] (by decide) _ t2]
    simp only [Option.bind_some]
    rw [rBy_ok "GROUP" ["ORDER"] G _ hGn (by decide) (by decide) t1]
    simp only [Option.bind_some]
    rw [rBy_ok "ORDER" [] ord _ ho (by decide) (by decide) hr]
    rfl
  have hmean : ∀ wsm, ws.meaning le = wsm → (TSql.mk ws grp cols distinct src wh ord).meaning le =
      .mk wsm (if all = [] then [([.sym '*'], none)] else all.map colMeaning) (src.meaning le)
        (if wh = [] then none else some (condMeaning le wh)) (G.map colName) (ord.map colName) := by
    intro wsm hwsm
    rw [TSql.meaning, hadd, hwsm]
    rfl
  by_cases hnil : ws = .nil
  · have hwl := w3 hnil
    subst hwl
    refine ⟨_, btoks, hp, hbl, ?_, ⟨_, Or.inl rfl⟩, ?_⟩
    · simp only [List.isEmpty_nil, if_true, List.nil_append]
      rw [hbody]
      exact isTable_select _
    · intro rest hr
      rw [rStmt]
      have : nextW "WITH" (btoks ++ rest) = none := by
        rw [hbtoks, List.cons_append]
        exact nextW_kw_ne _ _ _ (by decide)
      rw [this]
      simp only
      rw [hsel [] rest hr, hmean [] (by rw [hnil, TWith.meaning])]
  · obtain ⟨wne, w5⟩ := w4 hnil
    have hemp : wl.isEmpty = false := by simpa using wne
    rw [hemp] at hp
    simp only [Bool.false_eq_true, if_false] at hp
    have p1 : (qt "WITH\n").foldl qStep ([], .start) = ([kw "WITH"], .start) := by unfold qt; rfl
    have p2 : qLex (joinTxt (qt ",\n") wl) = some (joinToks [.sym ','] wts) := by
      apply qLex_join _ _ _ wl wts w2
      · unfold qt; rfl
      · unfold qt; exact SepTxt.cons (by decide)
      · unfold qt; simp
    have p3 : (qt "\n").foldl qStep ([], .start) = ([], .start) := by unfold qt; rfl
    have p3s : ∀ x, SepTxt (qt "\n" ++ x) := by
      intro x; unfold qt; exact SepTxt.cons (by decide)
    have hlex : qLex (qt "WITH\n" ++ (joinTxt (qt ",\n") wl ++ qt "\n") ++ body) =
        some (kw "WITH" :: (joinToks [.sym ','] wts ++ btoks)) := by
      rw [List.append_assoc, List.append_assoc, qLex_start p1, qLex_append p2 (p3s _), qLex_start p3, hbl]
      simp
    refine ⟨_, _, hp, hlex, ?_, ⟨_, Or.inr rfl⟩, ?_⟩
    · rw [List.append_assoc]
      exact isTable_with _
    · intro rest hr
      rw [rStmt, List.cons_append, nextW_kw _ _ (by decide)]
      simp only
      rw [List.append_assoc, w5 _ (by rw [hbtoks]; rfl)]
      simp only [Option.bind_eq_bind, Option.bind_some]
      rw [hsel _ rest hr, hmean _ rfl]

mutual
theorem sql_reads (le : Txt → Txt → Bool) : ∀ q : TSql, q.WF le → SqlReads le q
  | .mk ws grp cols distinct src wh ord, h => by
    rw [TSql.WF] at h
    obtain ⟨h1, h2, h3, h4, h5, h6⟩ := h
    exact sqlReads_mk le ws grp cols distinct src wh ord (with_reads le ws h1) (src_reads le src h2) h3 h4 h5 h6
theorem src_reads (le : Txt → Txt → Bool) : ∀ s : TSrc, s.WF le → SrcReads le s
  | .text t al, h => by
    rw [TSrc.WF] at h
    rcases h.1 with ht | ht
    · exact srcReads_text le t al ht h.2
    · exact srcReads_usertext le t al ht h.2
  | .query q al, h => by
    rw [TSrc.WF] at h
    exact srcReads_query le q al (sql_reads le q h.1) h.2
  | .join l kind r on using', h => by
    rw [TSrc.WF] at h
    obtain ⟨h1, h2, h3, h4, h5, h6⟩ := h
    exact srcReads_join le l kind r on using' (src_reads le l h1) (src_reads le r h2) h3 h4 h5 h6
theorem with_reads (le : Txt → Txt → Bool) : ∀ w : TWith, w.WF le → WithReads le w
  | .nil, _ => ⟨[], [], by rw [TWith.print], rfl, fun _ => rfl, fun h => absurd rfl h⟩
  | .cons name q rest, h => by
    rw [TWith.WF] at h
    obtain ⟨hn, hq, hr⟩ := h
    obtain ⟨t, ts, q1, q2, q3, -, q5⟩ := sql_reads le q hq
    obtain ⟨l, tss, r1, r2, r3, r4⟩ := with_reads le rest hr
    have hlex : qLex (name ++ (qt " AS (" ++ (t ++ qt ")"))) =
        some (.word name :: kw "AS" :: .sym '(' :: (ts ++ [.sym ')'])) := by
      have p1 : (qt " AS (").foldl qStep ([], .start) = ([kw "AS", .sym '('], .start) := by unfold qt; rfl
      have p2 : qLex (qt ")") = some [.sym ')'] := by unfold qt; rfl
      rw [qLex_append hn.lex, qLex_start p1, qLex_append q2, p2]
      · rfl
      · unfold qt; exact SepTxt.cons (by decide)
      · unfold qt; exact SepTxt.cons (by decide)
    refine ⟨(name ++ (qt " AS (" ++ (t ++ qt ")"))) :: l,
      (.word name :: kw "AS" :: .sym '(' :: (ts ++ [.sym ')'])) :: tss, ?_, ?_, (fun h => nomatch h), (fun _ => ⟨by simp, ?_⟩)⟩
    · rw [TWith.print, q1, r1]
      simp [q3]
    · rw [List.map_cons, List.map_cons, hlex, r2]
    · intro rst hrst
      have hone : ∀ us : List QTok, (do
            let (a, ts) ← nextName (QTok.word name :: kw "AS" :: .sym '(' :: (ts ++ [.sym ')']) ++ us)
            let ts ← nextW "AS" ts
            let ts ← nextS '(' ts
            let (q, ts) ← rStmt ts
            let ts ← nextS ')' ts
            match nextS ',' ts with
            | none => pure ([(a, q)], ts)
            | some ts =>
              let (ws, ts) ← rWiths ts
              pure ((a, q) :: ws, ts)) =
          (match nextS ',' us with
            | none => some ([(name, q.meaning le)], us)
            | some ts => (rWiths ts).bind fun p => some ((name, q.meaning le) :: p.1, p.2)) := by
        intro us
        have e : QTok.word name :: kw "AS" :: .sym '(' :: (ts ++ [.sym ')']) ++ us =
            .word name :: kw "AS" :: .sym '(' :: (ts ++ (.sym ')' :: us)) := by simp
        rw [e, nextName_ok hn]
        simp only [Option.bind_eq_bind, Option.bind_some]
        rw [nextW_kw _ _ (by decide)]
        simp only [Option.bind_some, nextS_self]
        rw [q5 _ (Or.inr (Or.inl ⟨_, rfl⟩))]
        simp only [Option.bind_some, nextS_self]
        rfl
      by_cases hnil : rest = .nil
      · have : l = [] := r3 hnil
        subst this
        have : tss = [] := by
          cases tss with
          | nil => rfl
          | cons => simp at r2
        subst this
        rw [joinToks, rWiths]
        refine (hone rst).trans ?_
        rw [hrst, TWith.meaning, hnil, TWith.meaning]
      · obtain ⟨lne, r5⟩ := r4 hnil
        cases tss with
        | nil =>
          rw [List.map_nil, List.map_eq_nil_iff] at r2
          exact absurd r2 lne
        | cons u us =>
          have e : joinToks [.sym ','] ((.word name :: kw "AS" :: .sym '(' :: (ts ++ [.sym ')'])) :: u :: us) ++ rst =
              .word name :: kw "AS" :: .sym '(' :: (ts ++ [.sym ')']) ++
                (.sym ',' :: (joinToks [.sym ','] (u :: us) ++ rst)) := by
            simp [joinToks]
          rw [e, rWiths]
          refine (hone _).trans ?_
          rw [nextS_self]
          simp only
          rw [r5 rst hrst, TWith.meaning]
          rfl
end

/-- **C83** The text of a query object (with subqueries in WITH and FROM to any depth, joins, filters) is read as what the
object says: the same named subqueries, columns under their names, source, conditions, GROUP BY and ORDER BY.
Missing: what `TSql.WF` excludes, see the violations below. -/
theorem C83_reads_partial (le : Txt → Txt → Bool) (q : TSql) (h : q.WF le) :
    ∃ t, q.print le = some t ∧ ReadsQuery t (q.meaning le) := by
  obtain ⟨t, ts, h1, h2, -, -, h5⟩ := sql_reads le q h
  refine ⟨t, h1, ts, h2, ?_⟩
  have := h5 [] (Or.inl rfl)
  rwa [List.append_nil] at this

/-- A text has at most one reading. -/
theorem C83_reading_unique {t : Txt} {a b : QAst} (ha : ReadsQuery t a) (hb : ReadsQuery t b) : a = b := by
  obtain ⟨ts, h1, h2⟩ := ha
  obtain ⟨us, h3, h4⟩ := hb
  rw [h1] at h3
  cases h3
  rw [h2] at h4
  cases h4
  rfl

/-- The text of a query can be given as a source instead of the query: it is recognized, and says the same. -/
theorem C83_text_source (le : Txt → Txt → Bool) (q : TSql) (h : q.WF le) (t : Txt) (ht : q.print le = some t)
    (al : Option Txt) : QueryOK t ∧ (TSrc.text t al).meaning le = (TSrc.query q al).meaning le := by
  obtain ⟨t', hp, hr⟩ := C83_reads_partial le q h
  obtain ⟨t'', ts, h1, -, h3, -⟩ := sql_reads le q h
  rw [ht] at hp h1
  cases hp
  cases h1
  refine ⟨⟨⟨_, hr⟩, h3⟩, ?_⟩
  rw [TSrc.meaning, TSrc.meaning, readText_eq hr]

/-- A statement given as text that begins with SELECT, in any case, after blanks, is recognized. -/
theorem C83_user_select {t : Txt} {a : QAst} {w : Txt} {ts : List QTok} (h : ReadsQuery t a)
    (h1 : qLex t = some (.word w :: ts)) (hw : w.map Char.toUpper = "SELECT".toList) : QueryOK t := by
  refine ⟨⟨a, h⟩, ?_⟩
  obtain ⟨r, hr⟩ := lex_word_first t w ts h1
  have hd : (t.map Char.toUpper).dropWhile (fun c => c = ' ' ∨ c = '\n' ∨ c = '\t') =
      "SELECT".toList ++ r.map Char.toUpper := by
    have hb : ∀ c : Char, (c.toUpper = ' ' ∨ c.toUpper = '\n' ∨ c.toUpper = '\t') ↔ (c = ' ' ∨ c = '\n' ∨ c = '\t') := by
      intro c
      by_cases h : 97 ≤ c.toNat ∧ c.toNat ≤ 122
      · rw [← Char.ofNat_toNat c]
        generalize c.toNat = n at h
        obtain ⟨h1, h2⟩ := h
        interval_cases n <;> decide
      · have : c.toUpper = c := by
          unfold Char.toUpper
          exact dif_neg h
        rw [this]
    rw [List.dropWhile_map]
    have : ((fun c : Char => decide (c = ' ' ∨ c = '\n' ∨ c = '\t')) ∘ Char.toUpper) =
        fun c : Char => decide (c = ' ' ∨ c = '\n' ∨ c = '\t') := by
      funext c
      simp only [Function.comp, hb]
    rw [this, hr, List.map_append, hw]
  unfold isTable qt
  simp only [hd]
  simp

theorem hasInfix_append (sub : Txt) : ∀ (a b : Txt), hasInfix sub (a ++ (sub ++ b)) = true := by
  intro a b
  induction a with
  | nil =>
    cases sub with
    | nil => cases b <;> simp [hasInfix]
    | cons c cs =>
      rw [List.nil_append, List.cons_append, hasInfix]
      have : (c :: cs).isPrefixOf (c :: (cs ++ b)) = true := by
        rw [List.isPrefixOf_iff_prefix]
        exact ⟨b, rfl⟩
      rw [this, Bool.true_or]
  | cons c cs ih => rw [List.cons_append, hasInfix, ih, Bool.or_true]

/-- A statement given as text that begins with WITH, in any case, after blanks, followed by a blank or a new line, is
recognized. -/
theorem C83_user_with {b w r : Txt} {c : Char} {a : QAst} (h : ReadsQuery (b ++ (w ++ c :: r)) a)
    (hw : w.map Char.toUpper = "WITH".toList) (hc : c = ' ' ∨ c = '\n') : QueryOK (b ++ (w ++ c :: r)) := by
  refine ⟨⟨a, h⟩, ?_⟩
  have hu : (b ++ (w ++ c :: r)).map Char.toUpper =
      b.map Char.toUpper ++ (("WITH".toList ++ [c.toUpper]) ++ r.map Char.toUpper) := by
    rw [List.map_append, List.map_append, hw]
    simp
  unfold isTable
  rcases hc with rfl | rfl
  · have : hasInfix (qt "WITH ") ((b ++ (w ++ ' ' :: r)).map Char.toUpper) = true := by
      rw [hu]
      unfold qt
      exact hasInfix_append _ _ _
    simp only [this]
    simp
  · have : hasInfix (qt "WITH\n") ((b ++ (w ++ '\n' :: r)).map Char.toUpper) = true := by
      rw [hu]
      unfold qt
      exact hasInfix_append _ _ _
    simp only [this]
    simp

/-! ## Where the text is not read as the query -/

/-- SELECT * FROM a table. -/
def fromTable (t : Txt) : TSql := .mk .nil [] [] false (.text t none) [] []

/-- A statement given as text that begins with WITH and is not recognized is printed without parentheses: the text has no
reading. -/
theorem C83_user_with_violated (le : Txt → Txt → Bool) {t w : Txt} {ts : List QTok} (h1 : qLex t = some (.word w :: ts))
    (hw : w.map Char.toUpper = "WITH".toList) (ht : isTable t = true) :
    (fromTable t).print le = some (qt "SELECT\n" ++ (qt "*" ++ (qt "\nFROM" ++ (qt " " ++ t)))) ∧
      ∀ u a, (fromTable t).print le = some u → ¬ ReadsQuery u a := by
  have hp : (fromTable t).print le = some (qt "SELECT\n" ++ (qt "*" ++ (qt "\nFROM" ++ (qt " " ++ t)))) := by
    unfold fromTable
    rw [TSql.print, TSrc.print, TWith.print]
    simp [addColumns, selectText, groupClause, orderClause, whereClause, tableText, ht, aliasedText]
  refine ⟨hp, ?_⟩
  intro u a hu
  rw [hp] at hu
  cases hu
  rintro ⟨us, h3, h2⟩
  have p1 : (qt "SELECT\n").foldl qStep ([], .start) = ([kw "SELECT"], .start) := by unfold qt; rfl
  have p2 : (qt "*").foldl qStep ([], .start) = ([.sym '*'], .start) := by unfold qt; rfl
  have p3 : qLex (qt "\nFROM") = some [kw "FROM"] := by unfold qt; rfl
  have p4 : (qt " ").foldl qStep ([], .start) = ([], .start) := by unfold qt; rfl
  rw [qLex_start p1, qLex_start p2, qLex_append p3 (by unfold qt; exact SepTxt.cons (by decide)), qLex_start p4,
    h1] at h3
  simp only [Option.map_some, List.cons_append, List.nil_append] at h3
  cases h3
  have hres : qReserved w = true := by unfold qReserved; rw [hw]; decide
  have hr : rSource (.word w :: ts) = none := by
    rw [rSource, rPrim, nextS_word]
    simp [rExpr, takeExpr, qStops, hres]
  rw [rStmt, nextW_kw_ne _ _ _ (by decide)] at h2
  simp only at h2
  rw [rSelect, nextW_kw _ _ (by decide)] at h2
  simp only [Option.bind_eq_bind, Option.bind_some] at h2
  have hi : rItems (QTok.sym '*' :: kw "FROM" :: .word w :: ts) =
      some ([([.sym '*'], none)], kw "FROM" :: .word w :: ts) := by
    rw [rItems]
    rfl
  rw [hi] at h2
  simp only [Option.bind_some] at h2
  rw [nextW_kw _ _ (by decide)] at h2
  simp only [Option.bind_some] at h2
  rw [hr] at h2
  cases h2

example : ∃ w ts, qLex "WITH\tT AS (SELECT * FROM data) SELECT * FROM T".toList = some (.word w :: ts) ∧
    w.map Char.toUpper = "WITH".toList ∧ isTable "WITH\tT AS (SELECT * FROM data) SELECT * FROM T".toList = true := by
  refine ⟨_, _, rfl, by decide, ?_⟩
  unfold isTable qt
  decide

/-- A table whose name starts with SELECT is taken for a query, and is printed in parentheses, where only queries and
joins can stand: the text has no reading. -/
theorem C83_select_name_violated (le : Txt → Txt → Bool) (w : Txt) (hw : NameTok w)
    (hs : (qt "SELECT").isPrefixOf (w.map Char.toUpper) = true) :
    (fromTable w).print le = some (qt "SELECT\n" ++ (qt "*" ++ (qt "\nFROM" ++ (qt "\n" ++ (qt "(" ++ (w ++ qt ")")))))) ∧
      ∀ t a, (fromTable w).print le = some t → ¬ ReadsQuery t a := by
  have hnt : isTable w = false := by
    have hne : w.map Char.toUpper ≠ [] := by simpa using hw.1
    have hdrop : (w.map Char.toUpper).dropWhile (fun c => c = ' ' ∨ c = '\n' ∨ c = '\t') = w.map Char.toUpper := by
      cases hu : w.map Char.toUpper with
      | nil => rfl
      | cons c cs =>
        rw [hu] at hs
        unfold qt at hs
        have : c = 'S' := by
          simp [List.isPrefixOf] at hs
          exact hs.1.symm
        subst this
        rfl
    unfold isTable
    simp only [hdrop, hs]
    rfl
  have hp : (fromTable w).print le =
      some (qt "SELECT\n" ++ (qt "*" ++ (qt "\nFROM" ++ (qt "\n" ++ (qt "(" ++ (w ++ qt ")")))))) := by
    unfold fromTable
    rw [TSql.print, TSrc.print, TWith.print]
    simp [addColumns, selectText, groupClause, orderClause, whereClause, tableText, hnt, aliasedText]
  refine ⟨hp, ?_⟩
  intro t a ht
  rw [hp] at ht
  cases ht
  rintro ⟨ts, h1, h2⟩
  have p1 : (qt "SELECT\n").foldl qStep ([], .start) = ([kw "SELECT"], .start) := by unfold qt; rfl
  have p2 : (qt "*").foldl qStep ([], .start) = ([.sym '*'], .start) := by unfold qt; rfl
  have p3 : qLex (qt "\nFROM") = some [kw "FROM"] := by unfold qt; rfl
  have p4 : (qt "\n").foldl qStep ([], .start) = ([], .start) := by unfold qt; rfl
  rw [qLex_start p1, qLex_start p2, qLex_append p3 (by unfold qt; exact SepTxt.cons (by decide)), qLex_start p4,
    paren_lex hw.lex] at h1
  simp only [Option.map_some, List.cons_append, List.nil_append] at h1
  cases h1
  have hsel : nextW "SELECT" [QTok.word w, .sym ')'] = none := nextW_name hw (by decide) (by decide)
  have hwith : nextW "WITH" [QTok.word w, .sym ')'] = none := nextW_name hw (by decide) (by decide)
  have hsrc : rPrim [QTok.word w, .sym ')'] = some (.table [.word w] none, [.sym ')']) := by
    rw [rPrim]
    have he : rExpr ([QTok.word w] ++ [.sym ')']) = some ([.word w], [.sym ')']) :=
      rExpr_append (by simp [qDepth, qStops, hw.2.2]) (by simp) (by simp [StopTok, qStops])
    rw [List.singleton_append] at he
    rw [nextS_word, he]
    rfl
  have hr : rSource (QTok.sym '(' :: [QTok.word w, .sym ')']) = none := by
    rw [rSource, rPrim, nextS_self]
    simp only [hsel, hwith, Option.isSome_none, Bool.or_self, Bool.false_eq_true, if_false]
    have : rSource [QTok.word w, .sym ')'] = some (.table [.word w] none, [.sym ')']) := by
      rw [rSource, hsrc]
      simp only [Option.bind_eq_bind, Option.bind_some]
      rw [rJoins]
      rfl
    rw [this]
    rfl
  rw [rStmt, nextW_kw_ne _ _ _ (by decide)] at h2
  simp only at h2
  rw [rSelect, nextW_kw _ _ (by decide)] at h2
  simp only [Option.bind_eq_bind, Option.bind_some] at h2
  have hi : rItems (QTok.sym '*' :: kw "FROM" :: .sym '(' :: [QTok.word w, .sym ')']) =
      some ([([.sym '*'], none)], kw "FROM" :: .sym '(' :: [QTok.word w, .sym ')']) := by
    rw [rItems]
    rfl
  rw [hi] at h2
  simp only [Option.bind_some] at h2
  rw [nextW_kw _ _ (by decide)] at h2
  simp only [Option.bind_some] at h2
  rw [hr] at h2
  cases h2

example : NameTok "selected_users".toList ∧
    (qt "SELECT").isPrefixOf ("selected_users".toList.map Char.toUpper) = true := by
  unfold qt
  exact ⟨⟨by decide, by decide, by decide⟩, by decide⟩

/-- A join of a table with itself is printed as the table: the text is that of the query on the table alone, whatever the
join, its conditions and columns. -/
theorem C83_self_join_violated (le : Txt → Txt → Bool) (ws : TWith) (grp cols : List SCol) (distinct : Bool)
    (t : Txt) (al : Option Txt) (kind : TJoin) (on using' wh : List Txt) (ord : List SCol) (ht : isTable t = true)
    (hal : isTable (aliasedText t al) = true) :
    (TSql.mk ws grp cols distinct (.join (.text t al) kind (.text t al) on using') wh ord).print le =
      (TSql.mk ws grp cols distinct (.text t al) wh ord).print le ∧
    (TSql.mk ws grp cols distinct (.join (.text t al) kind (.text t al) on using') wh ord).meaning le ≠
      (TSql.mk ws grp cols distinct (.text t al) wh ord).meaning le := by
  constructor
  · have h : (TSrc.join (.text t al) kind (.text t al) on using').print le = (TSrc.text t al).print le := by
      have hb : (TSrc.text t al).print le = some (true, aliasedText t al) := by
        rw [TSrc.print]
        simp [tableText, ht]
      rw [hb, TSrc.print, hb]
      simp [TSrc.isJoin, hal]
    rw [TSql.print, TSql.print, h]
  · intro h
    rw [TSql.meaning, TSql.meaning] at h
    simp only [TSrc.meaning] at h
    cases hr : readText t <;> simp [hr] at h

/-! ## A query that meets the hypotheses -/

/-- A check of `ExprOK`. -/
def exprB (t : Txt) : Bool :=
  match qLex t with
  | none => false
  | some ts => !ts.isEmpty && qDepth 0 ts == some 0

theorem exprB_ok {t : Txt} (h : exprB t = true) : ExprOK t := by
  unfold exprB at h
  cases hl : qLex t with
  | none => rw [hl] at h; cases h
  | some ts =>
    rw [hl] at h
    simp at h
    exact ⟨ts, hl, h.1, h.2⟩

/-- A name as a column. -/
def exCol (s : String) : SCol := ⟨s.toList, some s.toList, 0⟩

/-- WITH T AS (SELECT grp, SUM(x) AS s FROM data WHERE x > 1 GROUP BY grp)
SELECT grp, s / (n) AS ratio FROM T JOIN (SELECT grp, COUNT(*) AS n FROM data GROUP BY grp) AS u USING (grp)
ORDER BY grp. -/
def exQuery : TSql :=
  .mk (.cons "T".toList
        (.mk .nil [exCol "grp"] [⟨"SUM(x)".toList, some "s".toList, 0⟩] false (.text "data".toList none)
          ["x > 1 OR y IN ('a, b', 'c')".toList] []) .nil)
    [] [exCol "grp", ⟨"s / (n)".toList, some "ratio".toList, 0⟩] false
    (.join (.text "T".toList none) .left
      (.query (.mk .nil [exCol "grp"] [⟨"COUNT(*)".toList, some "n".toList, 0⟩] false (.text "data".toList none) [] [])
        (some "u".toList)) [] ["grp".toList])
    [] [exCol "grp"]

theorem exCol_named : Named (exCol "grp") := ⟨by decide, "grp".toList, by decide, by decide, by decide, by decide⟩

theorem exQuery_wf (le : Txt → Txt → Bool) : exQuery.WF le := by
  have hname : ∀ s : String, s.toList ≠ [] → s.toList.all qWord = true → qReserved s.toList = false → NameTok s.toList :=
    fun s h1 h2 h3 => ⟨h1, by simpa using h2, h3⟩
  have hdata : TableOK "data".toList := by
    refine ⟨(exprB_ok (by decide)), ?_, by decide⟩
    unfold isTable qt
    decide
  have hT : TableOK "T".toList := by
    refine ⟨(exprB_ok (by decide)), ?_, by decide⟩
    unfold isTable qt
    decide
  have hsub : ∀ (e a : String) (wh : List Txt), (∀ w ∈ wh, ExprOK (filterText w)) → ExprOK e.toList →
      addColumns [exCol "grp"] [⟨e.toList, some a.toList, 0⟩] =
        some ([exCol "grp", ⟨e.toList, some a.toList, 0⟩], [⟨e.toList, some a.toList, 0⟩]) →
      Named ⟨e.toList, some a.toList, 0⟩ →
      (TSql.mk .nil [exCol "grp"] [⟨e.toList, some a.toList, 0⟩] false (.text "data".toList none) wh []).WF le := by
    intro e a wh hwh he hadd ha
    rw [TSql.WF, TWith.WF, TSrc.WF]
    refine ⟨trivial, ⟨Or.inl hdata, by simp⟩, ⟨_, _, hadd, ?_, by simp⟩, ?_, by simp, hwh⟩
    · intro c hc
      simp only [List.mem_cons, List.not_mem_nil, or_false] at hc
      rcases hc with rfl | rfl
      · exact ⟨(exprB_ok (by decide)), Or.inr exCol_named⟩
      · exact ⟨he, Or.inr ha⟩
    · intro c hc
      simp only [List.mem_cons, List.not_mem_nil, or_false] at hc
      subst hc
      exact exCol_named
  unfold exQuery
  rw [TSql.WF, TWith.WF, TSrc.WF, TWith.WF]
  have hr : (TSrc.query (.mk .nil [exCol "grp"] [⟨"COUNT(*)".toList, some "n".toList, 0⟩] false
      (.text "data".toList none) [] []) (some "u".toList)).WF le := by
    rw [TSrc.WF]
    refine ⟨hsub "COUNT(*)" "n" [] (by simp) (exprB_ok (by decide)) (by decide) ⟨by decide, "n".toList, by decide, by decide, by decide, by decide⟩, ?_⟩
    intro a ha
    cases ha
    exact hname "u" (by decide) (by decide) (by decide)
  refine ⟨⟨hname "T" (by decide) (by decide) (by decide), ?_, trivial⟩, ⟨?_, ?_, rfl, ?_, by simp, ?_⟩, ?_, by simp, ?_, by simp⟩
  · refine hsub "SUM(x)" "s" _ ?_ (exprB_ok (by decide)) (by decide) ⟨by decide, "s".toList, by decide, by decide, by decide, by decide⟩
    intro w hw
    simp only [List.mem_cons, List.not_mem_nil, or_false] at hw
    subst hw
    exact (exprB_ok (by decide))
  · rw [TSrc.WF]; exact ⟨Or.inl hT, by simp⟩
  · exact hr
  · rw [TSrc.WF] at hr
    obtain ⟨t, -, h1, -, h2, -⟩ := sql_reads le _ hr.1
    unfold TSrc.operand
    rw [TSrc.print, TSrc.print, h1]
    simp only [tableText, hT.2.1, h2, Option.map_some, TSrc.isJoin, aliasedText]
    unfold qt
    simp
  · intro a ha
    simp only [List.mem_cons, List.not_mem_nil, or_false] at ha
    subst ha
    exact hname "grp" (by decide) (by decide) (by decide)
  · refine ⟨[exCol "grp", ⟨"s / (n)".toList, some "ratio".toList, 0⟩], [exCol "grp", ⟨"s / (n)".toList, some "ratio".toList, 0⟩],
      by decide, ?_, by simp⟩
    intro c hc
    simp only [List.mem_cons, List.not_mem_nil, or_false] at hc
    rcases hc with rfl | rfl
    · exact ⟨exprB_ok (by decide), Or.inr exCol_named⟩
    · exact ⟨exprB_ok (by decide), Or.inr ⟨by decide, "ratio".toList, by decide, by decide, by decide, by decide⟩⟩
  · intro c hc
    simp only [List.mem_cons, List.not_mem_nil, or_false] at hc
    subst hc
    exact exCol_named

example (le : Txt → Txt → Bool) : ∃ t, exQuery.print le = some t ∧ ReadsQuery t (exQuery.meaning le) :=
  C83_reads_partial le exQuery (exQuery_wf le)

/-- A query on the text of a query. -/
example (le : Txt → Txt → Bool) : ∃ t u, exQuery.print le = some t ∧ (fromTable t).print le = some u ∧
    ReadsQuery u (.mk [] [([.sym '*'], none)] (.sub (exQuery.meaning le) none) none [] []) := by
  obtain ⟨t, ht, -⟩ := C83_reads_partial le exQuery (exQuery_wf le)
  obtain ⟨hq, hm⟩ := C83_text_source le exQuery (exQuery_wf le) t ht none
  have hwf : (fromTable t).WF le := by
    unfold fromTable
    rw [TSql.WF, TWith.WF, TSrc.WF]
    exact ⟨trivial, ⟨Or.inr hq, by simp⟩, ⟨[], [], rfl, by simp, by simp⟩, by simp, by simp, by simp⟩
  obtain ⟨u, hu, hr⟩ := C83_reads_partial le _ hwf
  refine ⟨t, u, ht, hu, ?_⟩
  rw [TSrc.meaning] at hm
  unfold fromTable at hr
  rw [TSql.meaning, TWith.meaning, TSrc.meaning, hm, TSrc.meaning] at hr
  exact hr

end Verif
