import Verif.Props.SqlWith
import Verif.Spec.SqlMerge

/-!
# C27 Merging compatible queries keeps both answers
-/

namespace Verif
variable {G V : Type}

theorem lookup_map_nodup {α β γ : Type} [BEq β] [LawfulBEq β] (f : α → β) (v : α → γ) :
    ∀ (l : List α), (l.map f).Nodup → ∀ a ∈ l, (l.map fun x => (f x, v x)).lookup (f a) = some (v a) := by
  intro l
  induction l with
  | nil => intro _ a ha; cases ha
  | cons x l ih =>
    intro hnd a ha
    rw [List.map_cons, List.nodup_cons] at hnd
    rw [List.map_cons, List.lookup_cons]
    rcases List.mem_cons.1 ha with rfl | ha
    · simp
    · have hne : f a ≠ f x := fun h => hnd.1 (h ▸ List.mem_map.2 ⟨a, ha, rfl⟩)
      rw [beq_eq_false_iff_ne.2 hne]
      exact ih hnd.2 a ha

theorem map_alias_of_mapM {cols : List SCol} {as : List (Option Txt)} (h : cols.mapM SCol.alias = some as) :
    cols.map SCol.alias = as.map some := by
  induction cols generalizing as with
  | nil => simp at h; subst h; rfl
  | cons c cols ih =>
    rw [List.mapM_cons] at h
    cases hc : c.alias with
    | none => rw [hc] at h; cases h
    | some a =>
      cases hcs : cols.mapM SCol.alias with
      | none => rw [hc, hcs] at h; cases h
      | some as' =>
        rw [hc, hcs] at h
        cases h
        simp [hc, ih hcs]

theorem ColsOk.alias_nodup {cols : List SCol} (h : ColsOk cols) : (cols.map SCol.alias).Nodup := by
  obtain ⟨as, has, hnd⟩ := h.aliases
  rw [map_alias_of_mapM has]
  exact hnd.map (fun _ _ h => Option.some.inj h)

theorem row_lookup (db : Db2 G V) (q : Qry) (hq : ColsOk q.cols) (g : G) (c : SCol) (hc : c ∈ q.cols) :
    (q.row db g).lookup c.alias = some (db.value q.key c.expr g) := by
  unfold Qry.row
  exact lookup_map_nodup SCol.alias (fun c => db.value q.key c.expr g) q.cols hq.alias_nodup c hc

/-- **C27** If two queries are merged, then for every database the merged query has the same rows (groups) as both,
in each row the columns of the first query have under their own names the values they have in the first query, and
every value of the second query is there under some name. -/
theorem C27_values (db : Db2 G V) (a b a' : Qry) (cs : List SCol) (ha : ColsOk a.cols)
    (hb : ColsOk b.cols) (h : a.merge b = some (some (a', cs))) :
    db.groups a'.key = db.groups a.key ∧ db.groups a'.key = db.groups b.key ∧
    ∀ g ∈ db.groups a'.key,
      (∀ c ∈ a.cols, (a'.row db g).lookup c.alias = (a.row db g).lookup c.alias) ∧
      ∀ c ∈ b.cols, ∃ n, (a'.row db g).lookup n = (b.row db g).lookup c.alias := by
  obtain ⟨h1, h2, h3⟩ := Qry.merge_spec ha hb.named h
  have hk : a'.key = a.key ∧ a.cols <+: a'.cols := by
    rcases h2 with h2 | ⟨q, q', hq, hq', k1, _, _, k4⟩
    · cases h2; exact ⟨rfl, List.prefix_rfl⟩
    · cases hq; cases hq'; exact ⟨k1, k4⟩
  refine ⟨by rw [hk.1], by rw [h3.1], fun g _ => ⟨fun c hc => ?_, fun c hc => ?_⟩⟩
  · rw [row_lookup db a ha g c hc, row_lookup db a' h1 g c (hk.2.subset hc), hk.1]
  · obtain ⟨d, hd, hde⟩ := List.mem_map.1 (h3.2.2 c hc)
    refine ⟨d.alias, ?_⟩
    rw [row_lookup db a' h1 g d hd, row_lookup db b hb g c hc, hde, h3.1]

/-- **C27** If, moreover, different expressions come under different names in the two queries and no
column has a suffix, then each column of the second query finds its value under the name it has after merging
(merging renames it in place if its expression was selected already).
Missing: queries in which a name is used for two expressions; the caller's name can then refer to another
column (`Verif.C23_violation`). -/
theorem C27_names_partial (db : Db2 G V) (a b a' : Qry) (cs : List SCol) (ha : ColsOk a.cols)
    (hb : ColsOk b.cols) (h : a.merge b = some (some (a', cs))) (hs : ∀ c ∈ a.cols ++ b.cols, c.suffix = 0)
    (hd : ∀ c ∈ a.cols ++ b.cols, ∀ d ∈ a.cols ++ b.cols, c.alias = d.alias → c.expr = d.expr) :
    ∀ g ∈ db.groups a'.key,
      List.Forall₂ (fun c c' => (a'.row db g).lookup c'.alias = (b.row db g).lookup c.alias) b.cols cs := by
  intro g _
  obtain ⟨h1, h2, h3⟩ := Qry.merge_spec ha hb.named h
  have h' := h
  unfold Qry.merge at h'
  split at h'
  · rename_i hsame
    cases h'
    have htext := (Qry.same_iff.1 hsame).2.2.2
    have hkey := (Qry.same_iff.1 hsame).1
    have : ∀ c ∈ b.cols, (a.row db g).lookup c.alias = (b.row db g).lookup c.alias := by
      intro c hc
      have hm : c.text ∈ a.cols.map SCol.text := by rw [htext]; exact List.mem_map.2 ⟨c, hc, rfl⟩
      obtain ⟨d, hdm, hdt⟩ := List.mem_map.1 hm
      have e1 : d.expr = c.expr := congrArg Prod.fst hdt
      have e2 : d.alias = c.alias := congrArg Prod.snd hdt
      rw [row_lookup db b hb g c hc, ← e2, row_lookup db a ha g d hdm, e1, hkey]
    have aux : ∀ l : List SCol, (∀ c ∈ l, c ∈ b.cols) →
        List.Forall₂ (fun c c' => (a.row db g).lookup c'.alias = (b.row db g).lookup c.alias) l l := by
      intro l
      induction l with
      | nil => intro _; exact .nil
      | cons c l ih => intro hl; exact .cons (this c (hl c (by simp))) (ih fun d hd => hl d (by simp [hd]))
    exact aux b.cols (fun c hc => hc)
  · split at h'
    · cases h'
    · cases hadd : addColumns a.cols b.cols with
      | none => rw [hadd] at h'; cases h'
      | some r =>
        obtain ⟨cols, cs'⟩ := r
        rw [hadd] at h'
        cases h'
        have hcs := C23_no_conflict_partial b.cols a.cols cols cs (fun c hc => by
          refine ⟨?_, hs c hc, ?_⟩
          · rcases List.mem_append.1 hc with hc | hc
            · exact ha.named c hc
            · exact hb.named c hc
          · rcases List.mem_append.1 hc with hc | hc
            · exact ha.alias c hc
            · exact hb.alias c hc) hd ha.exprs hadd
        have hlen : ∀ {l : List SCol} {l' : List SCol}, (∀ c ∈ l, c ∈ b.cols) →
            List.Forall₂ (fun c c' => ∃ x, c'.alias = some x ∧ SelectedAs cols c.expr x) l l' →
            List.Forall₂ (fun c c' => (({ a with cols := cols } : Qry).row db g).lookup c'.alias
              = (b.row db g).lookup c.alias) l l' := by
          intro l l' hl hf
          induction hf with
          | nil => exact .nil
          | cons hc _ ih =>
            refine .cons ?_ (ih fun d hd => hl d (by simp [hd]))
            obtain ⟨x, hx, d, hdm, hde, hda⟩ := hc
            rw [hx, ← hda, row_lookup db _ h1 g d hdm, row_lookup db b hb g _ (hl _ (by simp)), hde]
            have : a.key = b.key := h3.1
            rw [show ({ a with cols := cols } : Qry).key = b.key from this]
        exact hlen (fun c hc => hc) hcs

/-- **C27** Two queries are merged exactly if they read the same data with the same filter and groups, and neither
selects DISTINCT, or they print the same. -/
theorem C27_refused (a b : Qry) (ha : ColsOk a.cols) (hb : ColsOk b.cols) :
    a.merge b = some none ↔ ¬ (a.same b = true) ∧ ¬ (a.key = b.key ∧ a.distinct = false ∧ b.distinct = false) := by
  have hc : a.compatible b = true ↔ a.key = b.key ∧ a.distinct = false ∧ b.distinct = false := by
    unfold Qry.compatible
    simp [and_assoc]
  rw [← hc]
  unfold Qry.merge
  by_cases h1 : a.same b = true
  · simp [h1]
  · by_cases h2 : a.compatible b = true
    · obtain ⟨r, hr⟩ := Option.isSome_iff_exists.1 (addColumns_isSome b.cols a.cols ha hb.named hb.alias)
      simp [h1, h2, hr]
    · simp [h1, h2]

/-- The hypotheses are met: one expression is shared (under another name), one is new. -/
example :
    let a : Qry := ⟨"t".toList, [], false, [⟨"SUM(x)".toList, some "sx".toList, 0⟩]⟩
    let b : Qry := ⟨"t".toList, [], false, [⟨"SUM(x)".toList, some "sum x".toList, 0⟩, ⟨"SUM(y)".toList, some "sy".toList, 0⟩]⟩
    a.merge b = some (some (⟨"t".toList, [], false, [⟨"SUM(x)".toList, some "sx".toList, 0⟩, ⟨"SUM(y)".toList, some "sy".toList, 0⟩]⟩,
      [⟨"SUM(x)".toList, some "sx".toList, 0⟩, ⟨"SUM(y)".toList, some "sy".toList, 0⟩])) ∧
    ColsOk a.cols ∧ ColsOk b.cols ∧ (∀ c ∈ a.cols ++ b.cols, c.suffix = 0) ∧
    (∀ c ∈ a.cols ++ b.cols, ∀ d ∈ a.cols ++ b.cols, c.alias = d.alias → c.expr = d.expr) := by
  refine ⟨by decide, ⟨?_, by decide, [some "sx".toList], by decide, by decide⟩,
    ⟨?_, by decide, [some "sum_x".toList, some "sy".toList], by decide, by decide⟩, by decide, by decide⟩
  · intro d hd
    simp only [List.mem_cons, List.not_mem_nil, or_false] at hd
    rcases hd with rfl
    exact ⟨_, _, rfl⟩
  · intro d hd
    simp only [List.mem_cons, List.not_mem_nil, or_false] at hd
    rcases hd with rfl | rfl <;> exact ⟨_, _, rfl⟩

/-- **C27 violated** for names: a query that selects `SUM(x)` as `s` is merged with one that selects `SUM(y)` as `s` (it becomes `s_1`), and
then with a query that again selects `SUM(y)` as `s`. The caller of the last one goes on with the name `s`, which is that of `SUM(x)`. -/
theorem C27_names_violation :
    ∃ (a b c ab abc : Qry) (cb cc : SCol) (db : Db2 Unit ℕ), ColsOk a.cols ∧ ColsOk b.cols ∧ ColsOk c.cols ∧ ColsOk ab.cols ∧
      a.merge b = some (some (ab, [cb])) ∧ (ab.row db ()).lookup cb.alias = some 2 ∧
      ab.merge c = some (some (abc, [cc])) ∧
      (∃ d ∈ c.cols, (c.row db ()).lookup d.alias = some 2) ∧ (abc.row db ()).lookup cc.alias = some 1 := by
  let x : SCol := ⟨"SUM(x)".toList, some "s".toList, 0⟩
  let y : SCol := ⟨"SUM(y)".toList, some "s".toList, 0⟩
  let y1 : SCol := ⟨"SUM(y)".toList, some "s".toList, 1⟩
  let db : Db2 Unit ℕ := ⟨fun _ => [()], fun _ e _ => if e = "SUM(x)".toList then 1 else 2⟩
  have named : ∀ l : List SCol, (∀ c ∈ l, c = x ∨ c = y ∨ c = y1) → ∀ c ∈ l, ∃ h t, c.raw = some (h :: t) := by
    intro l hl c hc
    rcases hl c hc with rfl | rfl | rfl <;> exact ⟨_, _, rfl⟩
  refine ⟨⟨"t".toList, [], false, [x]⟩, ⟨"t".toList, [], false, [y]⟩, ⟨"t".toList, [], false, [y]⟩, ⟨"t".toList, [], false, [x, y1]⟩,
    ⟨"t".toList, [], false, [x, y1]⟩, y1, y, db, ⟨named _ (by simp), by decide, [some "s".toList], by decide, by decide⟩,
    ⟨named _ (by simp), by decide, [some "s".toList], by decide, by decide⟩,
    ⟨named _ (by simp), by decide, [some "s".toList], by decide, by decide⟩,
    ⟨named _ (by simp), by decide, [some "s".toList, some "s_1".toList], by decide, by decide⟩,
    by decide, by decide, by decide, ⟨y, by simp, by decide⟩, by decide⟩

end Verif
