import Verif.Model.Jackknife
import Verif.Model.StdErr
import Verif.Model.Suff
import Mathlib.Algebra.BigOperators.Group.List.Basic

/-!
# C101: the order of the rows does not matter to Jackknife and to linear models
-/

namespace Verif

section
variable {S U O C F K : Type} [DecidableEq S] [DecidableEq U] [DecidableEq O] [Field K]

theorem lookup_perm_nodup {κ X : Type} [BEq κ] [LawfulBEq κ] {l l' : List (κ × X)} (h : l.Perm l') :
    (l.map Prod.fst).Nodup → ∀ k, l.lookup k = l'.lookup k := by
  induction h with
  | nil => intro _ k; rfl
  | cons x h ih =>
    intro hn k
    rw [List.map_cons, List.nodup_cons] at hn
    rw [List.lookup_cons, List.lookup_cons, ih hn.2 k]
  | swap x y l =>
    intro hn k
    simp only [List.map_cons, List.nodup_cons, List.mem_cons, not_or] at hn
    rw [List.lookup_cons, List.lookup_cons, List.lookup_cons, List.lookup_cons]
    rcases Classical.em (k = y.1) with h1 | h1
    · have h2 : k ≠ x.1 := fun h2 => hn.1.1 (h1 ▸ h2)
      rw [beq_iff_eq.2 h1, beq_eq_false_iff_ne.2 h2]
    · rw [beq_eq_false_iff_ne.2 h1]
  | trans h1 h2 ih1 ih2 =>
    intro hn k
    rw [ih1 hn k, ih2 ((h1.map Prod.fst).nodup_iff.1 hn) k]

theorem aggBy_of_perm {ρ κ X : Type} [DecidableEq κ] (key : ρ → κ) (f : List ρ → X) (hf : ∀ r r' : List ρ, r.Perm r' → f r = f r')
    {rows rows' : List ρ} (h : rows.Perm rows') : (aggBy key f rows).Perm (aggBy key f rows') := by
  unfold aggBy
  have e : (rows'.map key).dedup.map (fun k => (k, f (rows.filter fun r => decide (key r = k))))
      = (rows'.map key).dedup.map (fun k => (k, f (rows'.filter fun r => decide (key r = k)))) :=
    List.map_congr_left fun k _ => by rw [hf _ _ (h.filter _)]
  rw [← e]
  exact ((h.map key).dedup).map _

theorem aggBy_keys_once {ρ κ X : Type} [DecidableEq κ] (key : ρ → κ) (f : List ρ → X) (rows : List ρ) :
    ((aggBy key f rows).map Prod.fst).Nodup := by
  unfold aggBy
  rw [List.map_map]
  have : (Prod.fst ∘ fun k => (k, f (rows.filter fun r => decide (key r = k)))) = id := rfl
  rw [this, List.map_id]
  exact List.nodup_dedup _

theorem any_perm {α : Type} {l l' : List α} (h : l.Perm l') (p : α → Bool) : l.any p = l'.any p := by
  rw [Bool.eq_iff_iff, List.any_eq_true, List.any_eq_true]
  exact ⟨fun ⟨x, hx, hp⟩ => ⟨x, h.mem_iff.1 hx, hp⟩, fun ⟨x, hx, hp⟩ => ⟨x, h.mem_iff.2 hx, hp⟩⟩

theorem py_perm (L : JLeaf C F) {t t' : List (JRow S U O C F K)} (h : t.Perm t') : L.py t = L.py t' := by
  have := h.filterMap fun r => r.col L.col
  unfold JLeaf.py
  rw [this.length_eq, this.sum_eq]

theorem sql_perm (L : JLeaf C F) {t t' : List (JRow S U O C F K)} (h : t.Perm t') : L.sql t = L.sql t' := by
  have := (h.filter fun r => r.pass L.flt).filterMap fun r => r.col L.col
  unfold JLeaf.sql JLeaf.rows
  simp only [this.length_eq, this.sum_eq, this.isEmpty_eq]

theorem rows_perm (L : JLeaf C F) {t t' : List (JRow S U O C F K)} (h : t.Perm t') : (L.rows t).Perm (L.rows t') := h.filter _

/-- **C101** The leave-one-out tables of Jackknife are the same, line for line, whatever the order of the rows: the general way
without and with slices, the fast way for the three shapes of its result, and both queries. -/
theorem C101_jackknife (L : JLeaf C F) (adjust : Bool) {t t' : List (JRow S U O C F K)} (h : t.Perm t') :
    (pyLooGeneral L t).Perm (pyLooGeneral L t') ∧
    (∃ o : Option (List (U × K) × List (U × K)), pyLooScalar L t = o.map (·.1) ∧ pyLooScalar L t' = o.map (·.2) ∧
      ∀ x, o = some x → x.1.Perm x.2) ∧
    (pyLooOp L t).Perm (pyLooOp L t') ∧ (pyLooSplit L t).Perm (pyLooSplit L t') ∧
    (pyLooFastScalar L t).Perm (pyLooFastScalar L t') ∧ (sqlLoo adjust L t).Perm (sqlLoo adjust L t') ∧
    (sqlLooGeneral L t).Perm (sqlLooGeneral L t') := by
  have hsum : ∀ {κ : Type} (b b' : List (κ × K)), b.Perm b' → (b.map (·.2)).sum = (b'.map (·.2)).sum :=
    fun b b' hb => (hb.map _).sum_eq
  have bucket {κ : Type} [DecidableEq κ] (key : JRow S U O C F K → κ) :
      (aggBy key L.py (L.rows t)).Perm (aggBy key L.py (L.rows t')) :=
    aggBy_of_perm _ _ (fun _ _ => py_perm L) (rows_perm L h)
  refine ⟨?_, ?_, ?_, ?_, ?_, ?_, ?_⟩
  · unfold pyLooGeneral
    refine List.Perm.trans (List.Perm.flatMap_right _ (h.map _).dedup) (List.Perm.flatMap_left _ fun u _ => ?_)
    refine (aggBy_of_perm _ _ (fun _ _ => py_perm L) (rows_perm L ?_)).map _
    unfold looSample
    have e : (fun r : JRow S U O C F K => decide (r.u ≠ u) && (t.any fun q => decide (q.u = u) && decide (q.s = r.s)))
        = fun r => decide (r.u ≠ u) && (t'.any fun q => decide (q.u = u) && decide (q.s = r.s)) := by
      funext r; rw [any_perm h]
    rw [e]
    exact h.filter _
  · have hd := (h.map fun r => r.u).dedup
    unfold pyLooScalar
    simp only [hd.length_eq]
    split
    · exact ⟨none, rfl, rfl, fun _ h => by cases h⟩
    · refine ⟨some (_, _), rfl, rfl, fun x hx => ?_⟩
      cases hx
      have e : (fun u => (u, L.py (L.rows (t.filter fun r => decide (r.u ≠ u)))))
          = fun u => (u, L.py (L.rows (t'.filter fun r => decide (r.u ≠ u)))) := by
        funext u
        rw [py_perm L (rows_perm L (h.filter fun r => decide (r.u ≠ u)))]
      simp only [e]
      exact hd.map _
  · have hb := bucket fun r => (r.s, r.u, r.o)
    have ht : (pyTotal L t).Perm (pyTotal L t') := aggBy_of_perm _ _ (fun _ _ hb => hsum _ _ hb) hb
    have hk : (looSlices L t).Perm (looSlices L t') := by
      unfold looSlices
      refine List.Perm.dedup ?_
      refine List.Perm.trans (List.Perm.flatMap_right _ (h.map _).dedup) (List.Perm.flatMap_left _ fun e _ => ?_)
      have hm := hb.filter fun b => decide (b.1.1 = e.1)
      show List.Perm (if ((pyBucket L t).filter fun b => decide (b.1.1 = e.1)).isEmpty = true then _ else _)
        (if ((pyBucket L t').filter fun b => decide (b.1.1 = e.1)).isEmpty = true then _ else _)
      rw [show ((pyBucket L t).filter fun b => decide (b.1.1 = e.1)).isEmpty
        = ((pyBucket L t').filter fun b => decide (b.1.1 = e.1)).isEmpty from hm.isEmpty_eq]
      split
      · exact .refl _
      · exact (hm.filter _).map _
    unfold pyLooOp
    have e : (fun k : S × U × Option O => (k, k.2.2.bind fun o => ((pyTotal L t).lookup (k.1, o)).map fun tot =>
        tot - ((pyBucket L t).lookup (k.1, k.2.1, o)).getD 0))
        = fun k => (k, k.2.2.bind fun o => ((pyTotal L t').lookup (k.1, o)).map fun tot =>
        tot - ((pyBucket L t').lookup (k.1, k.2.1, o)).getD 0) := by
      funext k
      have e1 : ∀ x, (pyTotal L t).lookup x = (pyTotal L t').lookup x := lookup_perm_nodup ht (aggBy_keys_once _ _ _)
      have e2 : ∀ x, (pyBucket L t).lookup x = (pyBucket L t').lookup x := lookup_perm_nodup hb (aggBy_keys_once _ _ _)
      simp only [e1, e2]
    rw [e]
    exact hk.map _
  · have hb := bucket fun r => (r.s, r.u)
    have ht := aggBy_of_perm (fun b : (S × U) × K => b.1.1) (fun bs => (bs.map (·.2)).sum) (fun _ _ hb => hsum _ _ hb) hb
    unfold pyLooSplit
    simp only [lookup_perm_nodup ht (aggBy_keys_once _ _ _), lookup_perm_nodup hb (aggBy_keys_once _ _ _)]
    exact (h.map _).dedup.map _
  · have hb := bucket fun r => r.u
    unfold pyLooFastScalar
    simp only [lookup_perm_nodup hb (aggBy_keys_once _ _ _), hsum _ _ hb]
    exact (h.map _).dedup.map _
  · have hu : (sqlUnitSlice L t).Perm (sqlUnitSlice L t') :=
      aggBy_of_perm _ _ (fun r r' hr => by rw [hr.length_eq, sql_perm L hr]) h
    have hn : ∀ v v' : List (Option K), v.Perm v' → sumNull v = sumNull v' := by
      intro v v' hv
      have := hv.filterMap id
      unfold sumNull
      simp only [this.isEmpty_eq, this.sum_eq]
    have ht : (sqlTotalCount L t).Perm (sqlTotalCount L t') :=
      aggBy_of_perm _ _ (fun b b' hb => by rw [(hb.map _).sum_eq, hn _ _ (hb.map _)]) hu
    unfold sqlLoo
    simp only [lookup_perm_nodup hu (aggBy_keys_once _ _ _)]
    refine List.Perm.trans (List.Perm.flatMap_right _ (hu.map _).dedup) (List.Perm.flatMap_left _ fun e _ => ?_)
    exact (ht.filter _).filterMap _
  · unfold sqlLooGeneral
    have hd := (h.map fun r => (r.s, r.u)).dedup
    refine aggBy_of_perm _ _ (fun x x' hx => sql_perm L (hx.map _)) ?_
    refine List.Perm.trans (List.Perm.flatMap_right _ h) (List.Perm.flatMap_left _ fun r _ => ?_)
    exact (hd.filter _).map _

/-- **C101** Arithmetic of such tables keeps them the same line for line, for a tree of any depth. -/
theorem C101_jackknife_tree {κ : Type} [DecidableEq κ] (T T' : JLeaf C F → List (κ × Option K)) (m : JTree C F K)
    (h : ∀ L ∈ m.leaves, (T L).Perm (T' L) ∧ ((T L).map Prod.fst).Nodup) :
    (m.tab T).Perm (m.tab T') ∧ ((m.tab T).map Prod.fst).Nodup := by
  induction m with
  | leaf L => exact h L (by simp [JTree.leaves])
  | app g a ih =>
    obtain ⟨h1, h2⟩ := ih h
    refine ⟨h1.map _, ?_⟩
    simpa [JTree.tab, List.map_map, Function.comp_def] using h2
  | bin f a b iha ihb =>
    obtain ⟨a1, a2⟩ := iha fun L hL => h L (by simp [JTree.leaves, hL])
    obtain ⟨b1, b2⟩ := ihb fun L hL => h L (by simp [JTree.leaves, hL])
    constructor
    · simp only [JTree.tab, lookup_perm_nodup a1 a2, lookup_perm_nodup b1 b2]
      exact ((a1.map _).append (b1.map _)).dedup.map _
    · simp only [JTree.tab, List.map_map, Function.comp_def, List.map_id']
      exact List.nodup_dedup _

end

theorem stdSamp_perm {xs ys : List ℝ} (h : xs.Perm ys) : stdSamp xs = stdSamp ys := by
  unfold stdSamp
  simp only [h.length_eq, h.sum_eq, (h.map _).sum_eq]

/-- **C101** Standard errors do not depend on the order of the estimates they are made of. -/
theorem C101_stderr {xs ys : List (Option ℝ)} (h : xs.Perm ys) :
    bsStderr xs = bsStderr ys ∧ jkStderr xs = jkStderr ys ∧ sqlJkStderr xs = sqlJkStderr ys := by
  have h' := h.filterMap id
  have hb : bsStderr xs = bsStderr ys := by
    unfold bsStderr
    simp only [stdSamp_perm h', h'.length_eq]
  refine ⟨hb, by unfold jkStderr; rw [hb], ?_⟩
  unfold sqlJkStderr
  simp only [stdSamp_perm h', h'.length_eq]

theorem avg_perm {rows rows' : List RegRow} (h : rows.Perm rows') (f : RegRow → ℝ) : avg rows f = avg rows' f := by
  unfold avg
  rw [(h.map f).sum_eq, h.length_eq]

/-- **C101** The statistics a linear model is computed from in SQL, and so its coefficients, do not depend on the order of the rows;
nor do those of a fit on the data if the fit itself does not. -/
theorem C101_linear_models (k : ℕ) (fit : Bool) {rows rows' : List RegRow} (h : rows.Perm rows') :
    (∀ nobs, suffStats k fit nobs rows = suffStats k fit nobs rows') ∧
    (∀ pre alpha normalize, ridgeSql pre k alpha fit normalize rows = ridgeSql pre k alpha fit normalize rows') ∧
    (∀ (fitted : List RegRow → ℝ × (ℕ → ℝ)) (normalize : Bool), (∀ r r' : List RegRow, r.Perm r' → fitted r = fitted r') →
      modelCompute fitted k fit normalize rows = modelCompute fitted k fit normalize rows') := by
  have hs : ∀ nobs, suffStats k fit nobs rows = suffStats k fit nobs rows' := by
    intro nobs
    unfold suffStats
    simp only [avg_perm h, h.length_eq]
  refine ⟨hs, fun pre alpha normalize => by unfold ridgeSql; rw [hs], fun fitted normalize hf => ?_⟩
  have hm : colMean rows = colMean rows' := by
    funext i; exact avg_perm h _
  have hn : colNorm rows = colNorm rows' := by
    funext i; unfold colNorm; rw [hm, (h.map _).sum_eq]
  have hp : (normRows rows).Perm (normRows rows') := by
    unfold normRows
    rw [hm, hn]
    exact h.map _
  unfold modelCompute
  simp only [hf _ _ hp, hf _ _ h, hm, hn, avg_perm h]

/-- The hypotheses are met by a table of two units read from either end. -/
example (r s : JRow ℕ ℕ ℕ ℕ ℕ ℚ) (L : JLeaf ℕ ℕ) : (pyLooFastScalar L [r, s]).Perm (pyLooFastScalar L [s, r]) :=
  (C101_jackknife L true (List.Perm.swap s r [])).2.2.2.2.1

end Verif
