import Verif.Model.PreaggSql
import Verif.Lemmas.Preagg

/-!
# Rows and the preaggregated rows that stand for them in SQL (for C84)
-/

namespace Verif

/-- The values `ys` of a new column stand for the values `xs` of the rows `A`. -/
def SqlStands (k : Leaf) (A : List Row) (xs ys : List Rat) : Prop :=
  Stands k xs ys ∧ match k with
    | .sum _ => (xs = [] ↔ ys = [])
    | .count _ => (A = [] ↔ ys = [])
    | _ => True

structure SqlStandFor (env : Env) (ν : PreNaming) (all : List String) (L : List (Leaf × List String)) (A B : List Row) : Prop where
  keys : ∀ S, S ⊆ all → ∀ v, (∃ r ∈ A, sqlKey S r = v) ↔ ∃ r ∈ B, sqlKey S r = v
  vals : ∀ l ∈ L, ∀ S, S ⊆ all → ∀ v,
    SqlStands l.1 (sqlRowsAt S v A) (sqlVals env l.2 (· l.1.col) (sqlRowsAt S v A)) (vals (ν l.1 l.2) (sqlRowsAt S v B))

theorem sqlVals_nil (env : Env) (v : String) (rs : List Row) : sqlVals env [] (· v) rs = vals v rs := by
  unfold sqlVals vals; simp

theorem sqlVals_passing (env : Env) (wh : List String) (v : String) (rs : List Row) : sqlVals env wh (· v) rs = vals v (passing env wh rs) := by
  unfold sqlVals vals passing
  rw [List.filterMap_filter]

theorem SqlStands.nil {k : Leaf} (h : k.canPre = true) : SqlStands k [] [] [] := by
  refine ⟨Stands.nil h, ?_⟩
  cases k <;> simp

theorem SqlStands.append {k : Leaf} {A A' : List Row} {xs ys xs' ys' : List Rat} (h : SqlStands k A xs ys) (h' : SqlStands k A' xs' ys') :
    SqlStands k (A ++ A') (xs ++ xs') (ys ++ ys') := by
  refine ⟨h.1.append h'.1, ?_⟩
  have h2 := h.2
  have h2' := h'.2
  cases k <;> simp only [List.append_eq_nil_iff] at * <;> simp_all

theorem SqlStands.perm {k : Leaf} {A A' : List Row} {xs xs' ys : List Rat} (h : SqlStands k A xs ys) (hA : A.Perm A') (hp : xs.Perm xs') :
    SqlStands k A' xs' ys := by
  refine ⟨h.1.perm hp, ?_⟩
  have h2 := h.2
  cases k <;> simp only at *
  · rw [← h2]; exact ⟨fun e => by subst e; simpa using hp, fun e => by subst e; simpa using hp.symm⟩
  · rw [← h2]; exact ⟨fun e => by subst e; simpa using hA, fun e => by subst e; simpa using hA.symm⟩

theorem pyMax_sqlMax (xs : List Rat) : PyVal.ofCell (sqlMax xs) = pyMax xs := by cases xs <;> rfl
theorem pyMin_sqlMin (xs : List Rat) : PyVal.ofCell (sqlMin xs) = pyMin xs := by cases xs <;> rfl

theorem ofCell_inj {a b : Cell} (h : PyVal.ofCell a = PyVal.ofCell b) : a = b := by
  cases a <;> cases b <;> simp_all [PyVal.ofCell]

/-- An aggregate of the new column is the aggregate of the rows. -/
theorem sqlAgg_eq {env : Env} {k : Leaf} {flt : List String} {A B : List Row} {v : String} (hA : A ≠ [])
    (h : SqlStands k A (sqlVals env flt (· k.col) A) (vals v B)) : (k.pre v).sqlAgg env [] B = k.sqlAgg env flt A := by
  have h1 := h.1
  have h2 := h.2
  cases k <;> simp only [Stands, Leaf.col] at h1 h2
  · simp only [Leaf.pre, Leaf.sqlAgg, sqlVals_nil]
    unfold sqlSum
    split
    · rename_i e; rw [if_pos (h2.2 e)]
    · rename_i e; rw [if_neg (fun x => e (h2.1 x)), h1]
  · simp only [Leaf.pre, Leaf.sqlAgg, sqlVals_nil]
    unfold sqlSum
    rw [if_neg (fun e => hA (h2.2 e)), h1]
  · have := agg_eq (k := .max _) (A := passing env flt A) (B := B) (v := v) (by rw [← sqlVals_passing]; exact h.1)
    simp only [Leaf.pre, Leaf.agg, ← pyMax_sqlMax] at this
    simp only [Leaf.pre, Leaf.sqlAgg, sqlVals_nil]
    rw [sqlVals_passing]
    exact ofCell_inj this
  · have := agg_eq (k := .min _) (A := passing env flt A) (B := B) (v := v) (by rw [← sqlVals_passing]; exact h.1)
    simp only [Leaf.pre, Leaf.agg, ← pyMin_sqlMin] at this
    simp only [Leaf.pre, Leaf.sqlAgg, sqlVals_nil]
    rw [sqlVals_passing]
    exact ofCell_inj this

theorem sqlRowsAt_append (S : List String) (v : List Cell) (A B : List Row) : sqlRowsAt S v (A ++ B) = sqlRowsAt S v A ++ sqlRowsAt S v B := by
  simp [sqlRowsAt]

theorem sqlVals_append (env : Env) (wh : List String) (g : Row → Cell) (A B : List Row) :
    sqlVals env wh g (A ++ B) = sqlVals env wh g A ++ sqlVals env wh g B := by simp [sqlVals]

section
variable {env : Env} {ν : PreNaming} {all : List String} {L : List (Leaf × List String)}

theorem SqlStandFor.nil (hL : ∀ l ∈ L, l.1.canPre = true) : SqlStandFor env ν all L [] [] :=
  ⟨fun _ _ _ => by simp, fun l hl S _ v => by simpa [sqlRowsAt, sqlVals, Verif.vals] using SqlStands.nil (hL l hl)⟩

theorem SqlStandFor.append {A B A' B' : List Row} (h : SqlStandFor env ν all L A B) (h' : SqlStandFor env ν all L A' B') :
    SqlStandFor env ν all L (A ++ A') (B ++ B') := by
  refine ⟨fun S hS v => ?_, fun l hl S hS v => ?_⟩
  · have e := h.keys S hS v
    have e' := h'.keys S hS v
    simp only [List.mem_append, or_and_right, exists_or]
    rw [e, e']
  · rw [sqlRowsAt_append, sqlRowsAt_append, sqlVals_append, vals_append']
    exact (h.vals l hl S hS v).append (h'.vals l hl S hS v)

theorem SqlStandFor.perm {A A' B : List Row} (h : SqlStandFor env ν all L A B) (hp : A.Perm A') : SqlStandFor env ν all L A' B := by
  refine ⟨fun S hS v => ?_, fun l hl S hS v => ?_⟩
  · rw [← h.keys S hS v]
    exact ⟨fun ⟨r, hr, e⟩ => ⟨r, hp.mem_iff.2 hr, e⟩, fun ⟨r, hr, e⟩ => ⟨r, hp.mem_iff.1 hr, e⟩⟩
  · exact (h.vals l hl S hS v).perm (hp.filter _) ((hp.filter _).filterMap _)

theorem SqlStandFor.flatMap (hL : ∀ l ∈ L, l.1.canPre = true) {α : Type} {g g' : α → List Row} :
    ∀ (us : List α), (∀ u ∈ us, SqlStandFor env ν all L (g u) (g' u)) → SqlStandFor env ν all L (us.flatMap g) (us.flatMap g')
  | [], _ => SqlStandFor.nil hL
  | u :: us, h => by
    rw [List.flatMap_cons, List.flatMap_cons]
    exact (h u (by simp)).append (SqlStandFor.flatMap hL us (fun x hx => h x (by simp [hx])))

theorem sqlKey_append_eq {G S : List String} {r : Row} {u v : List Cell} (hu : u.length = G.length) :
    sqlKey (G ++ S) r = u ++ v ↔ sqlKey G r = u ∧ sqlKey S r = v := by
  unfold sqlKey
  rw [List.map_append]
  constructor
  · exact fun h => List.append_inj h (by simp [hu])
  · rintro ⟨rfl, rfl⟩; rfl

theorem sqlRowsAt_sqlRowsAt {G S : List String} {u v : List Cell} (rs : List Row) (hu : u.length = G.length) :
    sqlRowsAt S v (sqlRowsAt G u rs) = sqlRowsAt (G ++ S) (u ++ v) rs := by
  unfold sqlRowsAt
  rw [List.filter_filter]
  apply List.filter_congr
  intro r _
  rw [Bool.eq_iff_iff]
  simp only [Bool.and_eq_true, decide_eq_true_eq, sqlKey_append_eq hu]
  exact and_comm

theorem SqlStandFor.at {A B : List Row} (h : SqlStandFor env ν all L A B) (hL : ∀ l ∈ L, l.1.canPre = true) {G : List String} (hG : G ⊆ all)
    (u : List Cell) : SqlStandFor env ν all L (sqlRowsAt G u A) (sqlRowsAt G u B) := by
  by_cases hu : u.length = G.length
  · refine ⟨fun S hS v => ?_, fun l hl S hS v => ?_⟩
    · have e := h.keys (G ++ S) (List.append_subset.2 ⟨hG, hS⟩) (u ++ v)
      simp only [sqlKey_append_eq hu] at e
      simpa [sqlRowsAt, and_assoc] using e
    · rw [sqlRowsAt_sqlRowsAt _ hu, sqlRowsAt_sqlRowsAt _ hu]
      exact h.vals l hl _ (List.append_subset.2 ⟨hG, hS⟩) _
  · have e : ∀ X, sqlRowsAt G u X = [] := by
      intro X
      unfold sqlRowsAt
      rw [List.filter_eq_nil_iff]
      intro r _ he
      simp only [decide_eq_true_eq] at he
      exact hu (by rw [← he]; simp [sqlKey])
    rw [e, e]
    exact SqlStandFor.nil hL

theorem lookup_sqlKey : ∀ {all : List String} {r : Row}, ∀ c ∈ all, (all.zip (sqlKey all r)).lookup c = some (r c)
  | [], _, c, hc => by simp at hc
  | a :: all, r, c, hc => by
    simp only [sqlKey, List.map_cons, List.zip_cons_cons, List.lookup_cons]
    by_cases e : c = a
    · subst e; simp
    · have hca : (c == a) = false := by simpa using e
      rw [hca]
      exact lookup_sqlKey c (by simpa [e] using hc)

theorem lookup_none' {β : Type} {all : List String} {key : List β} {c : String} (h : c ∉ all) : (all.zip key).lookup c = none := by
  rw [List.lookup_eq_none_iff]
  intro p hp
  have := (List.of_mem_zip hp).1
  simp only [bne_iff_ne, ne_eq, beq_eq_false_iff_ne]
  rintro rfl
  exact h this

theorem preSqlRow_index {rs : List Row} {r : Row} {c : String} (hc : c ∈ all) : preSqlRow env ν all L rs (sqlKey all r) c = r c := by
  unfold preSqlRow
  rw [lookup_sqlKey c hc]

theorem sqlAgg_congr {k : Leaf} (hk : k.canPre = true) {wh wh' : List String} (h : ∀ r, holds env wh r ↔ holds env wh' r) (rs : List Row) :
    k.sqlAgg env wh rs = k.sqlAgg env wh' rs := by
  have e : ∀ g, sqlVals env wh g rs = sqlVals env wh' g rs := by
    intro g
    unfold sqlVals
    congr 1
    funext r
    have : wh.all (fun w => env.query w r) = wh'.all (fun w => env.query w r) := by
      rw [Bool.eq_iff_iff, holds_iff, holds_iff]; exact h r
    rw [this]
  cases k <;> simp only [Leaf.canPre, Bool.false_eq_true] at hk <;> simp only [Leaf.sqlAgg, e]

theorem preSqlRow_new (hL : ∀ l ∈ L, l.1.canPre = true) (hn : namesFit env ν all L) {l : Leaf × List String} (hl : l ∈ L) (rs : List Row)
    (key : List Cell) : preSqlRow env ν all L rs key (ν l.1 l.2) = l.1.sqlAgg env l.2 (sqlRowsAt all key rs) := by
  unfold preSqlRow
  rw [lookup_none' (hn.1 l hl)]
  have hs : (L.find? (fun l' => ν l'.1 l'.2 = ν l.1 l.2)).isSome := by
    rw [List.find?_isSome]; exact ⟨l, hl, by simp⟩
  obtain ⟨l', hl'⟩ := Option.isSome_iff_exists.1 hs
  rw [hl']
  have he := List.find?_some hl'
  simp only [decide_eq_true_eq] at he
  obtain ⟨h1, h2⟩ := hn.2 l' (List.mem_of_find?_eq_some hl') l hl he
  simp only
  rw [h1]
  exact sqlAgg_congr (hL l hl) h2 _

theorem sqlStands_cell {k : Leaf} (hk : k.canPre = true) (wh : List String) {A : List Row} (hA : A ≠ []) :
    SqlStands k A (sqlVals env wh (· k.col) A) (k.sqlAgg env wh A).toList := by
  cases k <;> simp only [Leaf.canPre, Bool.false_eq_true] at hk
  · rename_i c
    simp only [SqlStands, Stands, Leaf.sqlAgg, Leaf.col]
    generalize sqlVals env wh (fun x => x c) A = xs
    unfold sqlSum
    by_cases e : xs = []
    · subst e; simp
    · simp [e]
  · simp [SqlStands, Stands, Leaf.sqlAgg, Leaf.col, hA]
  · rename_i c
    refine ⟨?_, trivial⟩
    simp only [Stands, Leaf.sqlAgg, Leaf.col]
    generalize sqlVals env wh (fun x => x c) A = xs
    cases xs with
    | nil => simp [sqlMax]
    | cons x xs =>
      simp only [sqlMax, Option.toList_some, List.mem_singleton, exists_eq_left, forall_eq]
      obtain ⟨a1, a2, a3⟩ := foldl_max_le xs x
      refine ⟨fun y hy => ?_, ?_⟩
      · rcases List.mem_cons.1 hy with rfl | hy
        · exact a1
        · exact a2 y hy
      · rcases a3 with e | e
        · exact ⟨x, by simp, by rw [e]⟩
        · exact ⟨_, by simp [e], le_refl _⟩
  · rename_i c
    refine ⟨?_, trivial⟩
    simp only [Stands, Leaf.sqlAgg, Leaf.col]
    generalize sqlVals env wh (fun x => x c) A = xs
    cases xs with
    | nil => simp [sqlMin]
    | cons x xs =>
      simp only [sqlMin, Option.toList_some, List.mem_singleton, exists_eq_left, forall_eq]
      obtain ⟨a1, a2, a3⟩ := foldl_min_le xs x
      refine ⟨fun y hy => ?_, ?_⟩
      · rcases List.mem_cons.1 hy with rfl | hy
        · exact a1
        · exact a2 y hy
      · rcases a3 with e | e
        · exact ⟨x, by simp, by rw [e]⟩
        · exact ⟨_, by simp [e], le_refl _⟩

theorem sqlKey_congr {S : List String} {r r' : Row} (h : ∀ c ∈ S, r c = r' c) : sqlKey S r = sqlKey S r' := List.map_congr_left h

theorem sqlStandFor_slice (hL : ∀ l ∈ L, l.1.canPre = true) (hn : namesFit env ν all L) (rs : List Row) {key : List Cell}
    (hk : ∃ r ∈ rs, sqlKey all r = key) : SqlStandFor env ν all L (sqlRowsAt all key rs) [preSqlRow env ν all L rs key] := by
  obtain ⟨r0, hr0, e0⟩ := hk
  have hmem : ∀ r, r ∈ sqlRowsAt all key rs → sqlKey all r = key := fun r hr => by simpa using (List.mem_filter.1 hr).2
  have hne : sqlRowsAt all key rs ≠ [] := List.ne_nil_of_mem (List.mem_filter.2 ⟨hr0, by simpa using e0⟩)
  have same : ∀ S, S ⊆ all → ∀ r, sqlKey all r = key → sqlKey S r = sqlKey S (preSqlRow env ν all L rs key) := by
    intro S hS r hr
    subst hr
    exact sqlKey_congr (fun c hc => (preSqlRow_index (hS hc)).symm)
  refine ⟨fun S hS v => ?_, fun l hl S hS v => ?_⟩
  · constructor
    · rintro ⟨r, hr, e⟩
      refine ⟨preSqlRow env ν all L rs key, by simp, ?_⟩
      rw [← same S hS r (hmem r hr), e]
    · rintro ⟨r, hr, e⟩
      rw [List.mem_singleton] at hr
      subst hr
      exact ⟨r0, List.mem_filter.2 ⟨hr0, by simpa using e0⟩, by rw [same S hS r0 e0, e]⟩
  · by_cases hv : sqlKey S (preSqlRow env ν all L rs key) = v
    · have hA : sqlRowsAt S v (sqlRowsAt all key rs) = sqlRowsAt all key rs := by
        rw [sqlRowsAt, List.filter_eq_self]
        intro r hr
        simp only [decide_eq_true_eq]
        rw [same S hS r (hmem r hr), hv]
      have hB : sqlRowsAt S v [preSqlRow env ν all L rs key] = [preSqlRow env ν all L rs key] := by simp [sqlRowsAt, hv]
      rw [hA, hB]
      have : Verif.vals (ν l.1 l.2) [preSqlRow env ν all L rs key] = (l.1.sqlAgg env l.2 (sqlRowsAt all key rs)).toList := by
        rw [← preSqlRow_new hL hn hl rs key]
        unfold Verif.vals
        cases h : preSqlRow env ν all L rs key (ν l.1 l.2) <;> simp [h]
      rw [this]
      exact sqlStands_cell (hL l hl) l.2 hne
    · have hA : sqlRowsAt S v (sqlRowsAt all key rs) = [] := by
        rw [sqlRowsAt, List.filter_eq_nil_iff]
        intro r hr
        simp only [decide_eq_true_eq]
        rw [same S hS r (hmem r hr)]
        exact hv
      have hB : sqlRowsAt S v [preSqlRow env ν all L rs key] = [] := by simp [sqlRowsAt, hv]
      rw [hA, hB]
      simpa [sqlVals, Verif.vals] using SqlStands.nil (hL l hl)

theorem sql_perm_groups (S : List String) : ∀ (ks : List (List Cell)) (rs : List Row), ks.Nodup → (∀ r ∈ rs, sqlKey S r ∈ ks) →
    (ks.flatMap (fun k => sqlRowsAt S k rs)).Perm rs
  | [], rs, _, h => by
    cases rs with
    | nil => simp
    | cons r rs => have := h r (by simp); simp at this
  | k :: ks, rs, hn, h => by
    rw [List.flatMap_cons]
    have hp := List.filter_append_perm (fun r => decide (sqlKey S r = k)) rs
    refine List.Perm.trans (List.Perm.append_left _ ?_) hp
    have ih := sql_perm_groups S ks (rs.filter (fun r => !decide (sqlKey S r = k))) (List.nodup_cons.1 hn).2 (by
      intro r hr
      obtain ⟨hr1, hr2⟩ := List.mem_filter.1 hr
      rcases List.mem_cons.1 (h r hr1) with e | hk'
      · simp [e] at hr2
      · exact hk')
    refine List.Perm.trans (List.Perm.of_eq ?_) ih
    apply List.flatMap_congr
    intro k' hk'
    unfold sqlRowsAt
    rw [List.filter_filter]
    apply List.filter_congr
    intro r _
    by_cases e : sqlKey S r = k'
    · have : k' ≠ k := by rintro rfl; exact (List.nodup_cons.1 hn).1 hk'
      simp [e, this]
    · simp [e]

theorem mem_sqlGroups {S : List String} (hS : S ≠ []) {rs : List Row} {v : List Cell} : v ∈ sqlGroups S rs ↔ ∃ r ∈ rs, sqlKey S r = v := by
  unfold sqlGroups
  rw [if_neg hS, List.mem_dedup, List.mem_map]

theorem sqlStandFor_table (hall : all ≠ []) (hL : ∀ l ∈ L, l.1.canPre = true) (hn : namesFit env ν all L) (rs : List Row) :
    SqlStandFor env ν all L rs (preSqlRows env ν all L rs) := by
  have h : SqlStandFor env ν all L ((sqlGroups all rs).flatMap (fun k => sqlRowsAt all k rs))
      ((sqlGroups all rs).flatMap (fun k => [preSqlRow env ν all L rs k])) :=
    SqlStandFor.flatMap hL _ (fun k hk => sqlStandFor_slice hL hn rs ((mem_sqlGroups hall).1 hk))
  have e : (sqlGroups all rs).flatMap (fun k => [preSqlRow env ν all L rs k]) = preSqlRows env ν all L rs := by
    unfold preSqlRows
    rw [List.map_eq_flatMap]
  rw [e] at h
  have hnd : (sqlGroups all rs).Nodup := by
    unfold sqlGroups
    rw [if_neg hall]
    exact List.nodup_dedup _
  exact h.perm (sql_perm_groups all _ _ hnd (fun r hr => (mem_sqlGroups hall).2 ⟨r, hr, rfl⟩))

theorem sqlEval_pre {A B : List Row} (h : SqlStandFor env ν all L A B) {S : List String} (hS : S ⊆ all) {v : List Cell}
    (hv : sqlRowsAt S v A ≠ []) (spow : Cell → Cell → Cell) :
    ∀ (e : SqlE), e.aggs ⊆ L → (e.pre ν).eval env spow (sqlRowsAt S v B) = e.eval env spow (sqlRowsAt S v A)
  | .agg k flt, he => by
    have hl : (k, flt) ∈ L := he (by simp [SqlE.aggs])
    exact sqlAgg_eq hv (h.vals _ hl S hS v)
  | .lit q, _ => rfl
  | .bin op a b, he => by
    simp only [SqlE.aggs, List.append_subset] at he
    simp only [SqlE.pre, SqlE.eval, sqlEval_pre h hS hv spow a he.1, sqlEval_pre h hS hv spow b he.2]

theorem sqlRowsAt_replicate (S : List String) (v : List Cell) (w : ℕ) (X : List Row) :
    sqlRowsAt S v (List.replicate w X).flatten = (List.replicate w (sqlRowsAt S v X)).flatten := by
  unfold sqlRowsAt
  rw [List.filter_flatten, List.map_replicate]

theorem SqlStandFor.scale {A B : List Row} (h : SqlStandFor env ν all L A B) (ht : namesTell ν L) {splitBy : List String}
    (hv1 : ∀ l ∈ L, ν l.1 l.2 ∉ splitBy) (hv2 : ∀ c ∈ all, c ∈ splitBy ∨ isSumOrCount c = false) {w : ℕ} (hw : 0 < w) :
    SqlStandFor env ν all L (List.replicate w A).flatten (B.map (fun r c =>
      if !(splitBy.contains c) && isSumOrCount c then (r c).map (fun x => x * (w : Rat)) else r c)) := by
  set sc : Row → Row := fun r c => if !(splitBy.contains c) && isSumOrCount c then (r c).map (fun x => x * (w : Rat)) else r c with hsc
  have hkey : ∀ S, S ⊆ all → ∀ r, sqlKey S (sc r) = sqlKey S r := by
    intro S hS r
    apply sqlKey_congr
    intro c hc
    rw [hsc]
    simp only
    rw [if_neg]
    rcases hv2 c (hS hc) with h | h <;> simp [h]
  have hrows : ∀ S, S ⊆ all → ∀ v, sqlRowsAt S v (B.map sc) = (sqlRowsAt S v B).map sc := by
    intro S hS v
    unfold sqlRowsAt
    rw [List.filter_map]
    congr 1
    apply List.filter_congr
    intro r _
    simp only [Function.comp_apply, hkey S hS r]
  obtain ⟨n, rfl⟩ := Nat.exists_eq_succ_of_ne_zero hw.ne'
  refine ⟨fun S hS v => ?_, fun l hl S hS v => ?_⟩
  · rw [show (∃ r ∈ B.map sc, sqlKey S r = v) ↔ ∃ r ∈ B, sqlKey S r = v by
      simp only [List.mem_map, exists_exists_and_eq_and, hkey S hS], ← h.keys S hS v]
    constructor
    · rintro ⟨r, hr, e⟩
      obtain ⟨Y, hY, hr⟩ := List.mem_flatten.1 hr
      rw [(List.mem_replicate.1 hY).2] at hr
      exact ⟨r, hr, e⟩
    · rintro ⟨r, hr, e⟩
      exact ⟨r, List.mem_flatten.2 ⟨A, List.mem_replicate.2 ⟨by simp, rfl⟩, hr⟩, e⟩
  · rw [sqlRowsAt_replicate, hrows S hS v]
    have hst := h.vals l hl S hS v
    rw [sqlVals_passing] at hst
    rw [sqlVals_passing]
    have e : passing env l.2 (List.replicate (n+1) (sqlRowsAt S v A)).flatten = (List.replicate (n+1) (passing env l.2 (sqlRowsAt S v A))).flatten := by
      unfold passing
      rw [List.filter_flatten, List.map_replicate]
    rw [e]
    have hys : ((∃ c, l.1 = .sum c ∨ l.1 = .count c) → Verif.vals (ν l.1 l.2) ((sqlRowsAt S v B).map sc) =
        (Verif.vals (ν l.1 l.2) (sqlRowsAt S v B)).map (· * ((n+1 : ℕ) : Rat))) ∧
        ((¬ ∃ c, l.1 = .sum c ∨ l.1 = .count c) → Verif.vals (ν l.1 l.2) ((sqlRowsAt S v B).map sc) = Verif.vals (ν l.1 l.2) (sqlRowsAt S v B)) := by
      unfold Verif.vals
      rw [List.filterMap_map]
      refine ⟨fun hk => ?_, fun hk => ?_⟩
      · rw [List.map_filterMap]
        congr 1
        funext r
        simp only [Function.comp_apply, hsc]
        rw [if_pos]
        simp [hv1 l hl, (ht l hl).2 hk]
      · have hk : ¬ isSumOrCount (ν l.1 l.2) = true := fun e => hk ((ht l hl).1 e)
        congr 1
        funext r
        simp only [Function.comp_apply, hsc]
        rw [if_neg (by simp [hk])]
    refine ⟨Stands.weight (Nat.succ_pos n) hst.1 hys, ?_⟩
    have h2 := hst.2
    have hrep : ∀ X : List Row, (List.replicate (n+1) X).flatten = [] ↔ X = [] := by
      intro X
      rw [List.flatten_eq_nil_iff]
      constructor
      · exact fun h => h X (by simp [List.replicate_succ])
      · rintro rfl; simp
    have hrepv : ∀ (c : String) (X : List Row), Verif.vals c (List.replicate (n+1) X).flatten = [] ↔ Verif.vals c X = [] := by
      intro c X
      unfold Verif.vals
      simp only [List.filterMap_eq_nil_iff, List.mem_flatten, List.mem_replicate]
      constructor
      · exact fun h r hr => h r ⟨X, ⟨by simp, rfl⟩, hr⟩
      · rintro h r ⟨Y, ⟨_, rfl⟩, hr⟩; exact h r hr
    obtain ⟨k, wh⟩ := l
    cases k <;> simp only at h2 ⊢
    · rw [hrepv, hys.1 ⟨_, Or.inl rfl⟩]; simpa using h2
    · rw [hrep, hys.1 ⟨_, Or.inr rfl⟩]; simpa using h2

end

end Verif
