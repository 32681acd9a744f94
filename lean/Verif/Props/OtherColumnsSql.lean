import Verif.Model.SqlMoments
import Verif.Lemmas.ExpandVal

/-!
# C108: columns that a metric does not name do not matter (statistics, queries)

/repo/metrics.py:300-345, 836-840, 1692-1702, 1538-1601, 2330-2650.
-/

namespace Verif

/-- Row by row, the columns `C` are the same. -/
def SameColumns (C : List String) (rs rs' : List RRow) : Prop := List.Forall₂ (fun r r' => ∀ c ∈ C, r c = r' c) rs rs'

/-- The conditions of filters look at the columns `C` only. -/
def CondsIn (sem : ESem) (C : List String) : Prop := ∀ i (r r' : RRow), (∀ c ∈ C, r c = r' c) → sem.cond i r = sem.cond i r'

theorem ECol.eval_sameColumns {C : List String} {v : ECol} (hv : ∀ c ∈ v.bases, c ∈ C) {r r' : RRow} (h : ∀ c ∈ C, r c = r' c) :
    v.eval r = v.eval r' := by
  induction v with
  | base c => exact h c (hv c (by simp [ECol.bases]))
  | mul a b iha ihb =>
    simp only [ECol.eval, iha fun c hc => hv c (by simp [ECol.bases, hc]), ihb fun c hc => hv c (by simp [ECol.bases, hc])]
  | sq a ih => simp only [ECol.eval, ih fun c hc => hv c (by simpa [ECol.bases] using hc)]

theorem filterMap_sameColumns {β : Type} {C : List String} {g : RRow → Option β} (hg : ∀ r r', (∀ c ∈ C, r c = r' c) → g r = g r')
    {rs rs' : List RRow} (h : SameColumns C rs rs') : rs.filterMap g = rs'.filterMap g := by
  induction h with
  | nil => rfl
  | cons hr _ ih => rw [List.filterMap_cons, List.filterMap_cons, hg _ _ hr, ih]

theorem keepRows_sameColumns {sem : ESem} {C : List String} (hc : CondsIn sem C) (wh : List Nat) {rs rs' : List RRow}
    (h : SameColumns C rs rs') : SameColumns C (keepRows sem wh rs) (keepRows sem wh rs') := by
  unfold keepRows
  induction h with
  | nil => exact .nil
  | @cons r r' rs rs' hr _ ih =>
    have : (wh.all fun i => sem.cond i r) = wh.all fun i => sem.cond i r' := by
      congr 1
      funext i
      exact hc i r r' hr
    rw [List.filter_cons, List.filter_cons, this]
    split
    · exact .cons hr ih
    · exact ih

theorem pandas_sameColumns {C : List String} (k : SLeaf) (f : List RRow → Option ℝ) (hf : k.pandas = some f)
    (hk : ∀ v ∈ k.cols, ∀ c ∈ v.bases, c ∈ C) {rs rs' : List RRow} (h : SameColumns C rs rs') : f rs = f rs' := by
  have hp : ∀ v : ECol, (∀ c ∈ v.bases, c ∈ C) → present v rs = present v rs' := fun v hv =>
    filterMap_sameColumns (fun r r' hr => ECol.eval_sameColumns hv hr) h
  have hs : ∀ v : ECol, (∀ c ∈ v.bases, c ∈ C) → sumOf v rs = sumOf v rs' := fun v hv => congrArg List.sum (hp v hv)
  have hpp : ∀ v w : ECol, (∀ c ∈ v.bases, c ∈ C) → (∀ c ∈ w.bases, c ∈ C) → pairsOf v w rs = pairsOf v w rs' := fun v w hv hw =>
    filterMap_sameColumns (fun r r' hr => by rw [ECol.eval_sameColumns hv hr, ECol.eval_sameColumns hw hr]) h
  have hm : ∀ {v w : ECol}, (∀ c ∈ v.bases, c ∈ C) → (∀ c ∈ w.bases, c ∈ C) → ∀ c ∈ (ECol.mul v w).bases, c ∈ C := by
    intro v w hv hw c hc
    rcases List.mem_append.1 hc with hc | hc
    · exact hv c hc
    · exact hw c hc
  unfold SLeaf.pandas at hf
  split at hf <;> cases hf <;>
    simp only [SLeaf.cols, Option.toList, List.mem_cons, List.not_mem_nil, or_false, forall_eq_or_imp, forall_eq] at hk
  · simp only [hs _ hk]
  · simp only [countOf, hp _ hk]
  · simp only [maxOf, hp _ hk]
  · simp only [minOf, hp _ hk]
  · simp only [hp _ (hm hk.1 hk.2)]
  · simp only [hs _ (hm hk.1 hk.2)]
  · simp only [hp _ hk]
  · simp only [hp _ hk]
  · simp only [hp _ hk]
  · simp only [hp _ hk]
  · simp only [hpp _ _ hk.1 hk.2]

theorem reads_loop {C W : List String} {a t res : ET} {n : Nat} (h : ExpandLoop a t n res) (ht : t.reads C W) : res.reads C W := by
  induction h with
  | stop t => exact ht
  | body prev curr res n _ _ ih => exact ih (reads_step C W _ ht)

/-- **C108.** `compute_on` of the statistics (Variance, StandardDeviation, CV, Cov, Correlation, Dot, ..., weighted or not) and
arithmetic of them gives the same on two tables that are the same in the columns that the metric names, weights included. -/
theorem C108_statistics (sem : ESem) (C : List String) (hc : CondsIn sem C) {t : ET} {rs rs' : List RRow} {o : Option ℝ}
    (h : DfVal sem t rs o) (ht : t.reads C C) (hr : SameColumns C rs rs') : DfVal sem t rs' o := by
  induction h generalizing rs' with
  | const q rs => exact .const q rs'
  | native k n wh rs f hf =>
    rw [pandas_sameColumns k f hf (ht k (by simp [ET.leaves])).1 (keepRows_sameColumns hc wh hr)]
    exact .native k n wh rs' f hf
  | equivalent k n wh rs m res o hk hexp _ ih =>
    exact .equivalent k n wh rs' m res o hk hexp (ih (reads_loop hexp (reads_step C C _ ht)) (keepRows_sameColumns hc wh hr))
  | comp op l r n wh rs a b _ _ iha ihb =>
    exact .comp op l r n wh rs' a b
      (iha (fun k hk => ht k (by simp [ET.leaves, hk])) (keepRows_sameColumns hc wh hr))
      (ihb (fun k hk => ht k (by simp [ET.leaves, hk])) (keepRows_sameColumns hc wh hr))

/-- **C108.** So does the query. -/
theorem C108_query (sem : ESem) (C : List String) (hc : CondsIn sem C) (glob : List Nat) {t : ET} {loc : List Nat} {c : SqlCol}
    (h : SqlOf glob t loc c) (ht : t.reads C C) {rs rs' : List RRow} (hr : SameColumns C rs rs') : c.eval sem rs = c.eval sem rs' := by
  have hcond : ∀ (flt : List Nat) (r r' : RRow), (∀ c ∈ C, r c = r' c) → (flt.all fun i => sem.cond i r) = flt.all fun i => sem.cond i r' := by
    intro flt r r' h
    congr 1
    funext i
    exact hc i r r' h
  have h1 : ∀ (flt : List Nat) (v : ECol), (∀ c ∈ v.bases, c ∈ C) → momVals sem flt v rs = momVals sem flt v rs' := fun flt v hv =>
    filterMap_sameColumns (fun r r' h => by rw [hcond flt r r' h, ECol.eval_sameColumns hv h]) hr
  have h2 : ∀ (flt : List Nat) (v w : ECol), (∀ c ∈ v.bases, c ∈ C) → (∀ c ∈ w.bases, c ∈ C) →
      momPairs sem flt v w rs = momPairs sem flt v w rs' := fun flt v w hv hw =>
    filterMap_sameColumns (fun r r' h => by rw [hcond flt r r' h, ECol.eval_sameColumns hv h, ECol.eval_sameColumns hw h]) hr
  have hm : ∀ {v w : ECol}, (∀ c ∈ v.bases, c ∈ C) → (∀ c ∈ w.bases, c ∈ C) → ∀ c ∈ (ECol.mul v w).bases, c ∈ C := by
    intro v w hv hw c hc
    rcases List.mem_append.1 hc with hc | hc
    · exact hv c hc
    · exact hw c hc
  induction h with
  | const q loc => rfl
  | columns k n wh loc c hk =>
    have hcols := (ht k (by simp [ET.leaves])).1
    unfold SLeaf.sqlColumns at hk
    repeat' split at hk
    all_goals
      cases hk <;>
      simp only [SLeaf.cols, Option.toList, List.mem_cons, List.not_mem_nil, or_false, forall_eq_or_imp, forall_eq, List.append_nil,
        List.nil_append, List.cons_append] at hcols <;>
      first
        | (simp only [SqlCol.eval, h1 _ _ hcols]; done)
        | (simp only [SqlCol.eval, h1 _ _ (hm hcols.1 hcols.2)]; done)
        | (simp only [SqlCol.eval, h1 _ _ (hm hcols.2 hcols.1), h1 _ _ hcols.2]; done)
        | (simp only [SqlCol.eval, h2 _ _ _ hcols.1 hcols.2]; done)
  | expanded k n wh loc m res c _ hexp _ ih => exact ih (reads_loop hexp (reads_step C C _ ht))
  | comp op l r n wh loc a b _ _ iha ihb =>
    simp only [SqlCol.eval, iha fun k hk => ht k (by simp [ET.leaves, hk]), ihb fun k hk => ht k (by simp [ET.leaves, hk])]

open Classical in
/-- Conditions on the column `g`. -/
private noncomputable def exSemG : ESem where
  cond := fun i r => decide (r "g" = some (i : ℝ))
  other := fun _ _ => none
  node := fun _ _ _ => none

/-- The weighted variance of `x` where `g` is 1; a table with another column and one without. -/
example : CondsIn exSemG ["x", "w", "g"] ∧
    (ET.leaf (.variance (.base "x") true (some (.base "w"))) none [1]).reads ["x", "w", "g"] ["x", "w", "g"] ∧
    SameColumns ["x", "w", "g"] [fun c => if c = "note" then some 5 else some 1] [fun c => if c = "note" then none else some 1] := by
  refine ⟨?_, ?_, .cons ?_ .nil⟩
  · intro i r r' h
    show decide (r "g" = some (i : ℝ)) = decide (r' "g" = some (i : ℝ))
    rw [h "g" (by simp)]
  · intro k hk
    simp only [ET.leaves, List.mem_singleton] at hk
    subst hk
    simp [SLeaf.cols, SLeaf.weights, ECol.bases]
  · intro c hc
    simp only [List.mem_cons, List.not_mem_nil, or_false] at hc
    rcases hc with rfl | rfl | rfl <;> simp

end Verif
