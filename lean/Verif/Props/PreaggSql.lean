import Verif.Lemmas.PreaggSql
import Verif.Props.Preagg

/-!
# C84 in SQL: queries on the preaggregated table

/repo/operations.py:2055-2100, 3076-3107.
-/

namespace Verif

/-- What two tables must have in common for the columns `es` and the split `S`: the same groups, with the same value in each column. -/
def SameQuery (env : Env) (ν : PreNaming) (S : List String) (es : List SqlE) (A B : List Row) : Prop :=
  (S ≠ [] → ∀ v, v ∈ sqlGroups S B ↔ v ∈ sqlGroups S A) ∧
  ∀ v, sqlRowsAt S v A ≠ [] → ∀ spow, ∀ e ∈ es, (e.pre ν).eval env spow (sqlRowsAt S v B) = e.eval env spow (sqlRowsAt S v A)

theorem SqlStandFor.same {env : Env} {ν : PreNaming} {all : List String} {L : List (Leaf × List String)} {A B : List Row}
    (h : SqlStandFor env ν all L A B) {S : List String} (hS : S ⊆ all) {es : List SqlE} (he : ∀ e ∈ es, e.aggs ⊆ L) :
    SameQuery env ν S es A B :=
  ⟨fun e v => by rw [mem_sqlGroups e, mem_sqlGroups e]; exact (h.keys S hS v).symm,
    fun _ hv spow e hh => sqlEval_pre h hS hv spow e (he e hh)⟩

/-- **C84** Grouped by any of the columns that are kept, a query on the preaggregated table has the same groups (NULL among them) as the
query on the rows, and each of its columns, any arithmetic of sums, counts, maxima and minima with filters, has the same value. -/
theorem C84_sql {env : Env} {ν : PreNaming} {all : List String} {leaves : List (Leaf × List String)} (hall : all ≠ [])
    (hL : ∀ l ∈ leaves, l.1.canPre = true) (hn : namesFit env ν all leaves) (rs : List Row) {S : List String} (hS : S ⊆ all)
    {es : List SqlE} (he : ∀ e ∈ es, e.aggs ⊆ leaves) : SameQuery env ν S es rs (preSqlRows env ν all leaves rs) :=
  (sqlStandFor_table hall hL hn rs).same hS he

/-- **C84** The same for the replicates of the bootstrap, whatever units are drawn, however often. -/
theorem C84_sql_resampled {env : Env} {ν : PreNaming} {all : List String} {leaves : List (Leaf × List String)} (hall : all ≠ [])
    (hL : ∀ l ∈ leaves, l.1.canPre = true) (hn : namesFit env ν all leaves) (rs : List Row) {grp S : List String} (hG : grp ⊆ all)
    (hS : S ⊆ all) {es : List SqlE} (he : ∀ e ∈ es, e.aggs ⊆ leaves) (draws : List (List Cell)) :
    SameQuery env ν S es (sqlDrawn grp draws rs) (sqlDrawn grp draws (preSqlRows env ν all leaves rs)) :=
  (SqlStandFor.flatMap hL draws (fun u _ => (sqlStandFor_table hall hL hn rs).at hL hG u)).same hS he

/-- **C84** The same for the Poisson bootstrap, for any weights: rows repeated in one table, sums and counts multiplied in the other. -/
theorem C84_sql_poisson {env : Env} {ν : PreNaming} {all : List String} {leaves : List (Leaf × List String)} (hall : all ≠ [])
    (hL : ∀ l ∈ leaves, l.1.canPre = true) (hn : namesFit env ν all leaves) (ht : namesTell ν leaves) {splitBy : List String}
    (hs : splitBy ⊆ all) (hv : ∀ c ∈ all, c ∈ splitBy ∨ isSumOrCount c = false) (rs : List Row) {grp S : List String} (hG : grp ⊆ all)
    (hS : S ⊆ all) {es : List SqlE} (he : ∀ e ∈ es, e.aggs ⊆ leaves) (draws : List (List Cell × ℕ)) :
    SameQuery env ν S es (sqlRepeated grp draws rs) (sqlScaled splitBy grp draws (preSqlRows env ν all leaves rs)) := by
  refine SqlStandFor.same ?_ hS he
  have e : sqlRepeated grp draws rs = (draws.filter (fun u => 0 < u.2)).flatMap (fun u => (List.replicate u.2 (sqlRowsAt grp u.1 rs)).flatten) := by
    unfold sqlRepeated
    induction draws with
    | nil => rfl
    | cons u us ih =>
      rw [List.flatMap_cons, ih, List.filter_cons]
      by_cases h : 0 < u.2
      · simp [h]
      · have : u.2 = 0 := by omega
        simp [this]
  rw [e]
  refine SqlStandFor.flatMap hL _ (fun u hu => ?_)
  exact SqlStandFor.scale ((sqlStandFor_table hall hL hn rs).at hL hG u.1) ht (fun l hl hc => hn.1 l hl (hs hc)) hv
    (by simpa using (List.mem_filter.1 hu).2)

/-! ## The columns of the query -/

theorem addCols_map {g : SqlE → SqlE} : ∀ (new acc : List SqlE), (∀ a ∈ acc ++ new, ∀ b ∈ acc ++ new, g a = g b → a = b) →
    addCols (acc.map g) (new.map g) = (addCols acc new).map g
  | [], acc, _ => rfl
  | e :: new, acc, h => by
    unfold addCols
    rw [List.map_cons, List.foldl_cons, List.foldl_cons]
    by_cases he : e ∈ acc
    · rw [if_pos he, if_pos (List.mem_map_of_mem he)]
      exact addCols_map new acc (fun a ha b hb => h a (by simp_all; tauto) b (by simp_all; tauto))
    · rw [if_neg he, if_neg]
      · have := addCols_map new (acc ++ [e]) (fun a ha b hb => h a (by simpa [List.append_assoc] using ha) b (by simpa [List.append_assoc] using hb))
        rw [List.map_append] at this
        exact this
      · intro hm
        obtain ⟨a, ha, e'⟩ := List.mem_map.1 hm
        exact he (h a (by simp [ha]) e (by simp) e' ▸ ha)

theorem addCols_mem {e : SqlE} : ∀ (new acc : List SqlE), e ∈ addCols acc new → e ∈ acc ++ new
  | [], acc, h => by simpa [addCols] using h
  | a :: new, acc, h => by
    unfold addCols at h
    rw [List.foldl_cons] at h
    have := addCols_mem new _ h
    split at this
    · simp only [List.mem_append, List.mem_cons] at this ⊢; tauto
    · simp only [List.mem_append, List.mem_cons, List.mem_singleton, List.not_mem_nil, or_false] at this ⊢; tauto

theorem pre_col_inj {k k' : Leaf} {v v' : String} (h : k.pre v = k'.pre v') : v = v' := by
  cases k <;> cases k' <;> simp_all [Leaf.pre]

theorem SqlE.pre_inj {ν : PreNaming} {L : List (Leaf × List String)} (hn : ∀ l ∈ L, ∀ l' ∈ L, ν l.1 l.2 = ν l'.1 l'.2 → l = l') :
    ∀ (a b : SqlE), a.aggs ⊆ L → b.aggs ⊆ L → a.pre ν = b.pre ν → a = b
  | .agg k f, .agg k' f', ha, hb, h => by
    simp only [SqlE.pre, SqlE.agg.injEq, and_true] at h
    have := hn (k, f) (ha (by simp [SqlE.aggs])) (k', f') (hb (by simp [SqlE.aggs])) (pre_col_inj h)
    simp only [Prod.mk.injEq] at this
    rw [this.1, this.2]
  | .lit _, .lit _, _, _, h => by simpa [SqlE.pre] using h
  | .bin op a b, .bin op' a' b', ha, hb, h => by
    simp only [SqlE.pre, SqlE.bin.injEq] at h
    simp only [SqlE.aggs, List.append_subset] at ha hb
    rw [h.1, SqlE.pre_inj hn a a' ha.1 hb.1 h.2.1, SqlE.pre_inj hn b b' ha.2 hb.2 h.2.2]
  | .agg _ _, .lit _, _, _, h | .agg _ _, .bin _ _ _, _, _, h | .lit _, .agg _ _, _, _, h | .lit _, .bin _ _ _, _, _, h
  | .bin _ _ _, .agg _ _, _, _, h | .bin _ _ _, .lit _, _, _, h => by simp [SqlE.pre] at h

theorem preTree_asConst (ν : PreNaming) (m : M) : (m.preTree ν).asConst = m.asConst := by cases m <;> rfl

/-- Both fail alike, or the columns correspond and read aggregates of the list. -/
def PreCompiled (ν : PreNaming) (L : List (Leaf × List String)) (x y : Except Err (List SqlE)) : Prop :=
  match y with
  | .error e => x = .error e
  | .ok es => x = .ok (es.map (SqlE.pre ν)) ∧ ∀ e ∈ es, e.aggs ⊆ L

section
variable {ν : PreNaming} {L : List (Leaf × List String)} (hn : ∀ l ∈ L, ∀ l' ∈ L, ν l.1 l.2 = ν l'.1 l'.2 → l = l')
include hn

theorem addCols_pre {acc new : List SqlE} (ha : ∀ e ∈ acc, e.aggs ⊆ L) (hb : ∀ e ∈ new, e.aggs ⊆ L) :
    addCols (acc.map (SqlE.pre ν)) (new.map (SqlE.pre ν)) = (addCols acc new).map (SqlE.pre ν) ∧ ∀ e ∈ addCols acc new, e.aggs ⊆ L := by
  have h : ∀ e ∈ acc ++ new, e.aggs ⊆ L := fun e he => (List.mem_append.1 he).elim (ha e) (hb e)
  exact ⟨addCols_map new acc (fun a h1 b h2 e => SqlE.pre_inj hn a b (h a h1) (h b h2) e), fun e he => h e (addCols_mem new acc he)⟩

theorem zipSql_pre (op : BinOp) {as bs : List SqlE} (ha : ∀ e ∈ as, e.aggs ⊆ L) (hb : ∀ e ∈ bs, e.aggs ⊆ L) :
    PreCompiled ν L (zipSql op (as.map (SqlE.pre ν)) (bs.map (SqlE.pre ν))) (zipSql op as bs) := by
  have key : ∀ cs : List SqlE, (∀ e ∈ cs, e.aggs ⊆ L) → ∀ cs', cs' = cs.map (SqlE.pre ν) →
      PreCompiled ν L (.ok (addCols [] cs')) (.ok (addCols [] cs)) := by
    intro cs hc cs' e
    subst e
    have := addCols_pre hn (acc := []) (new := cs) (by simp) hc
    exact ⟨by rw [← this.1]; rfl, this.2⟩
  have hz : ∀ {as bs : List SqlE}, (∀ e ∈ as, e.aggs ⊆ L) → (∀ e ∈ bs, e.aggs ⊆ L) → ∀ e ∈ List.zipWith (SqlE.bin op) as bs, e.aggs ⊆ L := by
    intro as
    induction as with
    | nil => intro bs _ _ e he; simp at he
    | cons a as ih =>
      intro bs ha hb e he
      cases bs with
      | nil => simp at he
      | cons b bs =>
        rw [List.zipWith_cons_cons, List.mem_cons] at he
        rcases he with rfl | he
        · exact List.append_subset.2 ⟨ha a (by simp), hb b (by simp)⟩
        · exact ih (fun x hx => ha x (by simp [hx])) (fun x hx => hb x (by simp [hx])) e he
  have hzm : ∀ {as bs : List SqlE}, List.zipWith (SqlE.bin op) (as.map (SqlE.pre ν)) (bs.map (SqlE.pre ν)) =
      (List.zipWith (SqlE.bin op) as bs).map (SqlE.pre ν) := by
    intro as bs
    rw [List.map_zipWith, List.zipWith_map]
    rfl
  match as, bs with
  | [a], bs =>
    simp only [List.map_cons, List.map_nil, zipSql]
    refine key _ ?_ _ (by simp only [List.map_map]; rfl)
    intro e he
    obtain ⟨b, hb', rfl⟩ := List.mem_map.1 he
    exact List.append_subset.2 ⟨ha a (by simp), hb b hb'⟩
  | [], [b] =>
    simp only [List.map_cons, List.map_nil, zipSql]
    exact key [] (by simp) [] rfl
  | a :: a' :: as, [b] =>
    simp only [List.map_cons, List.map_nil, zipSql]
    refine key (SqlE.bin op a b :: SqlE.bin op a' b :: as.map (fun a => SqlE.bin op a b)) ?_ _
      (by simp only [List.map_cons, List.map_map]; rfl)
    intro e he
    have : e ∈ (a :: a' :: as).map (fun a => SqlE.bin op a b) := he
    obtain ⟨x, hx, rfl⟩ := List.mem_map.1 this
    exact List.append_subset.2 ⟨ha x hx, hb b (by simp)⟩
  | [], [] =>
    simp only [List.map_nil, zipSql, List.length_nil, if_true, List.zipWith_nil_right]
    exact key [] (by simp) [] rfl
  | [], b :: b' :: bs =>
    simp only [List.map_nil, List.map_cons, zipSql, List.length_nil, List.length_cons]
    rw [if_neg (by omega), if_neg (by omega)]
    rfl
  | a :: a' :: as, [] =>
    simp only [List.map_nil, List.map_cons, zipSql, List.length_nil, List.length_cons]
    rw [if_neg (by omega), if_neg (by omega)]
    rfl
  | a :: a' :: as, b :: b' :: bs =>
    have hz' := hz ha hb
    have hzm' := hzm (as := a :: a' :: as) (bs := b :: b' :: bs)
    simp only [List.map_cons] at hzm'
    simp only [List.map_cons, zipSql, List.length_cons, List.length_map]
    split
    · exact key _ hz' _ hzm'
    · rfl

mutual
theorem compile_pre : ∀ (m : M), m.onlyLeafFilters → m.leafList ⊆ L → (∀ l ∈ m.leafList, l.2.Nodup) →
    PreCompiled ν L ((m.preTree ν).compile [] []) (m.compile [] [])
  | .const q, _, _, _ => by simp [PreCompiled, M.compile, M.preTree]
  | .leaf k wh, _, hl, hd => by
    have : localFilter wh [] [] = wh := by
      unfold localFilter
      have := hd (k, wh) (by simp [M.leafList])
      rw [List.append_nil, List.Nodup.dedup this]
      simp
    simp only [PreCompiled, M.compile, M.preTree, this]
    refine ⟨rfl, ?_⟩
    intro e he
    rw [List.mem_singleton] at he
    subst he
    exact hl
  | .comp op l r wh, hf, hl, hd => by
    obtain ⟨rfl, hfl, hfr⟩ : wh = [] ∧ l.onlyLeafFilters ∧ r.onlyLeafFilters := by simpa [M.onlyLeafFilters] using hf
    simp only [M.leafList, List.append_subset] at hl
    have ihl := compile_pre l hfl hl.1 (fun x hx => hd x (by simp [M.leafList, hx]))
    have ihr := compile_pre r hfr hl.2 (fun x hx => hd x (by simp [M.leafList, hx]))
    have e0 : localFilter [] [] [] = [] := rfl
    simp only [M.compile, M.preTree, preTree_asConst, e0]
    cases l.asConst with
    | some q =>
      simp only
      revert ihr
      generalize (r.preTree ν).compile [] [] = x
      generalize r.compile [] [] = y
      intro ihr
      cases y with
      | error e => simp only [PreCompiled] at ihr; subst ihr; rfl
      | ok es =>
        obtain ⟨rfl, h⟩ := ihr
        have hc : ∀ e ∈ es.map (SqlE.bin op (.lit q)), e.aggs ⊆ L := by
          intro e he
          obtain ⟨b, hb, rfl⟩ := List.mem_map.1 he
          exact List.append_subset.2 ⟨by simp [SqlE.aggs], h b hb⟩
        have := addCols_pre hn (acc := []) (by simp) hc
        refine ⟨?_, this.2⟩
        rw [← this.1, List.map_map]
        simp only [List.map_map]
        rfl
    | none =>
      cases r.asConst with
      | some q =>
        simp only
        revert ihl
        generalize (l.preTree ν).compile [] [] = x
        generalize l.compile [] [] = y
        intro ihl
        cases y with
        | error e => simp only [PreCompiled] at ihl; subst ihl; rfl
        | ok es =>
          obtain ⟨rfl, h⟩ := ihl
          have hc : ∀ e ∈ es.map (fun e => SqlE.bin op e (.lit q)), e.aggs ⊆ L := by
            intro e he
            obtain ⟨b, hb, rfl⟩ := List.mem_map.1 he
            exact List.append_subset.2 ⟨h b hb, by simp [SqlE.aggs]⟩
          have := addCols_pre hn (acc := []) (by simp) hc
          refine ⟨?_, this.2⟩
          rw [← this.1, List.map_map]
          simp only [List.map_map]
          rfl
      | none =>
        simp only
        revert ihl ihr
        generalize (l.preTree ν).compile [] [] = x
        generalize l.compile [] [] = y
        generalize (r.preTree ν).compile [] [] = x'
        generalize r.compile [] [] = y'
        intro ihl ihr
        cases y with
        | error e => simp only [PreCompiled] at ihl; subst ihl; rfl
        | ok es =>
          obtain ⟨rfl, h⟩ := ihl
          cases y' with
          | error e => simp only [PreCompiled] at ihr; subst ihr; rfl
          | ok es' =>
            obtain ⟨rfl, h'⟩ := ihr
            exact zipSql_pre hn op h h'
  | .list ms wh, hf, hl, hd => by
    obtain ⟨rfl, hf'⟩ : wh = [] ∧ onlyLeafFiltersAll ms := by simpa [M.onlyLeafFilters] using hf
    have e0 : localFilter [] [] [] = [] := rfl
    simp only [M.compile, M.preTree, e0]
    exact compileAll_pre ms [] hf' (by simpa [M.leafList] using hl) (fun x hx => hd x (by simpa [M.leafList] using hx)) (by simp)
  | .oper o c wh, _, _, _ => by simp [PreCompiled, M.compile, M.preTree]
theorem compileAll_pre : ∀ (ms : List M) (acc : List SqlE), onlyLeafFiltersAll ms → leafListAll ms ⊆ L →
    (∀ l ∈ leafListAll ms, l.2.Nodup) → (∀ e ∈ acc, e.aggs ⊆ L) →
    PreCompiled ν L (compileAll [] (preTreeAll ν ms) [] (acc.map (SqlE.pre ν))) (compileAll [] ms [] acc)
  | [], acc, _, _, _, ha => ⟨rfl, ha⟩
  | m :: ms, acc, hf, hl, hd, ha => by
    obtain ⟨hf1, hf2⟩ : m.onlyLeafFilters ∧ onlyLeafFiltersAll ms := by simpa [onlyLeafFiltersAll] using hf
    simp only [leafListAll, List.append_subset] at hl
    have ih := compile_pre m hf1 hl.1 (fun x hx => hd x (by simp [leafListAll, hx]))
    simp only [preTreeAll, compileAll]
    revert ih
    generalize (m.preTree ν).compile [] [] = x
    generalize m.compile [] [] = y
    intro ih
    cases y with
    | error e => simp only [PreCompiled] at ih; subst ih; rfl
    | ok es =>
      obtain ⟨rfl, h⟩ := ih
      have := addCols_pre hn ha h
      simp only
      rw [this.1]
      exact compileAll_pre ms _ hf2 hl.2 (fun x hx => hd x (by simp [leafListAll, hx])) this.2
end
end

/-- **C84** The columns of the query of the preaggregated metric are those of the query of the metric, column by column, with the
aggregates replaced: together with the theorems above, the point estimates and the replicates are the same. -/
theorem C84_sql_columns {ν : PreNaming} (m : M)
    (hn : ∀ l ∈ (m.push []).leafList, ∀ l' ∈ (m.push []).leafList, ν l.1 l.2 = ν l'.1 l'.2 → l = l')
    (hd : ∀ l ∈ (m.push []).leafList, l.2.Nodup) {es : List SqlE} (h : (m.push []).compile [] [] = .ok es) :
    ((m.push []).preTree ν).compile [] [] = .ok (es.map (SqlE.pre ν)) ∧ ∀ e ∈ es, e.aggs ⊆ (m.push []).leafList := by
  have := compile_pre hn (m.push []) (push_onlyLeaf m []) (List.Subset.refl _) hd
  rw [h] at this
  exact this

/-- **C84** violated in SQL: the count over an empty table is 0, but the sum of the counts of an empty preaggregated table is NULL. -/
theorem C84_violation_sql_count :
    (SqlE.agg (.count "x") []).eval exEnv (fun a _ => a) (sqlRowsAt [] [] []) = some 0 ∧
      ((SqlE.agg (.count "x") []).pre preName).eval exEnv (fun a _ => a)
        (sqlRowsAt [] [] (preSqlRows exEnv preName ["u"] [(.count "x", [])] [])) = none := by
  constructor <;> decide +kernel

/-- A NULL unit, a filter, a sum and a count: the hypotheses hold and the numbers are those of the rows. -/
example :
    let L : List (Leaf × List String) := [(.sum "x", ["g == 1"]), (.count "x", [])]
    let e : SqlE := .bin .sub (.agg (.sum "x") ["g == 1"]) (.agg (.count "x") [])
    let rs := preaggFrame.rows ++ [mkRow [("g", 1), ("x", 7)]]
    (∀ l ∈ L, l.1.canPre = true) ∧ namesFit exEnv preName ["g", "u"] L ∧ namesTell preName L ∧ e.aggs ⊆ L ∧
      sqlRowsAt ["g"] [some 1] rs ≠ [] ∧
      (e.pre preName).eval exEnv (fun a _ => a) (sqlRowsAt ["g"] [some 1] (preSqlRows exEnv preName ["g", "u"] L rs)) = some 18 := by
  refine ⟨by decide, ⟨by decide +kernel, ?_⟩, ?_, by decide, by decide +kernel, by decide +kernel⟩
  · intro l hl l' hl' e
    simp only [List.mem_cons, List.not_mem_nil, or_false] at hl hl'
    rcases hl with rfl | rfl <;> rcases hl' with rfl | rfl
    · simp
    · exact absurd e (by decide +kernel)
    · exact absurd e (by decide +kernel)
    · simp
  · apply C84_names
    decide +kernel

/-- A ratio in a list meets the hypotheses of the theorem about columns. -/
example :
    let m : M := .list [.comp .div (.leaf (.sum "x") ["g == 1"]) (.leaf (.count "x") []) [], .leaf (.max "x") []] ["h"]
    (∀ l ∈ (m.push []).leafList, ∀ l' ∈ (m.push []).leafList, preName l.1 l.2 = preName l'.1 l'.2 → l = l') ∧
      (∀ l ∈ (m.push []).leafList, l.2.Nodup) ∧ ∃ es, (m.push []).compile [] [] = .ok es ∧ es.length = 2 := by
  refine ⟨by decide +kernel, by decide +kernel, _, rfl, by decide +kernel⟩

end Verif
