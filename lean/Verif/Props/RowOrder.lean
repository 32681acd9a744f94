import Verif.Props.MixedMode
import Verif.Props.SqlMoments
import Verif.Props.Nth
import Verif.Lemmas.Quantile
import Verif.Lemmas.Distribution

/-!
# C101: the order of the rows does not matter
-/

namespace Verif

/-! ## Metric trees -/

theorem keyed_nodup' (sb : List String) (rs : List Row) : (groupKeys sb rs).Nodup := by
  unfold groupKeys
  split
  · simp
  · exact List.nodup_dedup _

theorem groupKeys_perm (sb : List String) {rs rs' : List Row} (h : rs.Perm rs') : (groupKeys sb rs).Perm (groupKeys sb rs') := by
  rw [List.perm_ext_iff_of_nodup (keyed_nodup' sb rs) (keyed_nodup' sb rs')]
  intro v
  by_cases hsb : sb = []
  · subst hsb
    simp [groupKeys]
  · exact groupKeys_mem_perm sb hsb h v

theorem foldl_max_perm {xs ys : List Rat} (h : xs.Perm ys) : pyMax xs = pyMax ys := by
  have key : ∀ xs : List Rat, pyMax xs = match xs.max? with | none => .nan | some m => .fin m := by
    intro xs
    cases xs with
    | nil => rfl
    | cons x xs => rfl
  have : xs.max? = ys.max? := by
    cases hx : xs.max? with
    | none =>
      rw [List.max?_eq_none_iff] at hx
      subst hx
      rw [List.nil_perm.1 h]
      rfl
    | some m =>
      rw [List.max?_eq_some_iff] at hx
      symm
      rw [List.max?_eq_some_iff]
      exact ⟨h.mem_iff.1 hx.1, fun b hb => hx.2 b (h.mem_iff.2 hb)⟩
  rw [key, key, this]

theorem foldl_min_perm {xs ys : List Rat} (h : xs.Perm ys) : pyMin xs = pyMin ys := by
  have key : ∀ xs : List Rat, pyMin xs = match xs.min? with | none => .nan | some m => .fin m := by
    intro xs
    cases xs with
    | nil => rfl
    | cons x xs => rfl
  have : xs.min? = ys.min? := by
    cases hx : xs.min? with
    | none =>
      rw [List.min?_eq_none_iff] at hx
      subst hx
      rw [List.nil_perm.1 h]
      rfl
    | some m =>
      rw [List.min?_eq_some_iff] at hx
      symm
      rw [List.min?_eq_some_iff]
      exact ⟨h.mem_iff.1 hx.1, fun b hb => hx.2 b (h.mem_iff.2 hb)⟩
  rw [key, key, this]

theorem pyMean_perm {xs ys : List Rat} (h : xs.Perm ys) : pyMean xs = pyMean ys := by
  unfold pyMean
  rw [h.sum_eq, h.length_eq]
  have : xs = [] ↔ ys = [] := ⟨fun e => by subst e; exact List.nil_perm.1 h, fun e => by subst e; exact List.perm_nil.1 h⟩
  simp only [this]

theorem agg_perm (k : Leaf) {rs rs' : List Row} (h : rs.Perm rs') : k.agg rs = k.agg rs' := by
  have hv : ∀ v, (vals v rs).Perm (vals v rs') := fun v => h.filterMap _
  have hp : ∀ v w, (prods v w rs).Perm (prods v w rs') := fun v w => h.filterMap _
  cases k with
  | sum v => simp only [Leaf.agg, (hv v).sum_eq]
  | count v => simp only [Leaf.agg, (hv v).length_eq]
  | countDistinct v => simp only [Leaf.agg, (hv v).dedup.length_eq]
  | mean v => simp only [Leaf.agg, pyMean_perm (hv v)]
  | max v => simp only [Leaf.agg, foldl_max_perm (hv v)]
  | min v => simp only [Leaf.agg, foldl_min_perm (hv v)]
  | dot v w n =>
    simp only [Leaf.agg, (hp v w).sum_eq, pyMean_perm (hp v w)]
  | wmean v w => simp only [Leaf.agg, (hp v w).sum_eq, (hv w).sum_eq]

theorem leaf_order (k : Leaf) {f f' : Frame} (hc : f.cols = f'.cols) (h : f.rows.Perm f'.rows) (sb : List String) :
    ExRel Res.Same (k.run f sb) (k.run f' sb) := by
  unfold Leaf.run
  rw [hc]
  split
  · refine .ok ⟨rfl, .cons ⟨?_, ?_⟩ .nil⟩
    · have e : ∀ key, k.agg (rowsAt sb key f'.rows) = k.agg (rowsAt sb key f.rows) := fun key => agg_perm k (h.symm.filter _)
      simp only [e]
      exact (groupKeys_perm sb h).map _
    · rw [List.map_map]
      simp only [Function.comp_def, List.map_id']
      exact keyed_nodup' sb f.rows
  · exact .error _

/-- **C101** A metric tree of aggregations, arithmetic, lists, distributions and changes, with filters anywhere, has the same result
whatever the order of the rows of the table: the same rows of the result, or the same error. -/
theorem C101_tree (env : Env) (m : M) (f f' : Frame) (sb : List String) (hc : f.cols = f'.cols) (h : f.rows.Perm f'.rows) :
    SameOutcome (m.run env f sb) (m.run env f' sb) :=
  .of (go m f f' sb hc h)
where
  go : ∀ (m : M) (f f' : Frame) (sb : List String), f.cols = f'.cols → f.rows.Perm f'.rows →
      ExRel Res.Same (m.run env f sb) (m.run env f' sb)
    | .const q, f, f', sb, _, _ => .ok rfl
    | .leaf k wh, f, f', sb, hc, h => by
      rw [M.run, M.run]
      exact leaf_order k (f := f.query env wh) (f' := f'.query env wh) hc (h.filter _) sb
    | .comp op l r wh, f, f', sb, hc, h => by
      have hl := go l (f.query env wh) (f'.query env wh) sb hc (h.filter _)
      have hr := go r (f.query env wh) (f'.query env wh) sb hc (h.filter _)
      rw [M.run, M.run]
      generalize l.run env (f.query env wh) sb = x at hl ⊢
      generalize l.run env (f'.query env wh) sb = x' at hl ⊢
      cases hl with
      | error e => exact .error e
      | ok ha =>
        simp only
        generalize r.run env (f.query env wh) sb = y at hr ⊢
        generalize r.run env (f'.query env wh) sb = y' at hr ⊢
        cases hr with
        | error e => exact .error e
        | ok hb => exact same_combine _ ha hb
    | .list ms wh, f, f', sb, hc, h => by
      rw [M.run, M.run]
      exact same_joinRes (goAll ms (f.query env wh) (f'.query env wh) sb hc (h.filter _))
    | .oper o c wh, f, f', sb, hc, h => by
      have hl := go c (f.query env wh) (f'.query env wh) (sb ++ o.splitBy) hc (h.filter _)
      rw [M.run, M.run]
      generalize c.run env (f.query env wh) (sb ++ o.splitBy) = x at hl ⊢
      generalize c.run env (f'.query env wh) (sb ++ o.splitBy) = x' at hl ⊢
      cases hl with
      | error e => exact .error e
      | ok ha => exact same_onRes o sb.length ha
  goAll : ∀ (ms : List M) (f f' : Frame) (sb : List String), f.cols = f'.cols → f.rows.Perm f'.rows →
      List.Forall₂ Res.Same (runAll env ms f sb) (runAll env ms f' sb)
    | [], f, f', sb, _, _ => .nil
    | m :: ms, f, f', sb, hc, h => by
      have ih := goAll ms f f' sb hc h
      have hm := go m f f' sb hc h
      rw [runAll, runAll]
      generalize m.run env f sb = x at hm ⊢
      generalize m.run env f' sb = x' at hm ⊢
      cases hm with
      | error e => exact ih
      | ok hr => exact .cons hr ih

/-! ## Statistics -/

theorem max?_perm_real {xs ys : List ℝ} (h : xs.Perm ys) : xs.max? = ys.max? := by
  cases hx : xs.max? with
  | none =>
    rw [List.max?_eq_none_iff] at hx
    subst hx
    rw [List.nil_perm.1 h]
    rfl
  | some m =>
    rw [List.max?_eq_some_iff] at hx
    symm
    rw [List.max?_eq_some_iff]
    exact ⟨h.mem_iff.1 hx.1, fun b hb => hx.2 b (h.mem_iff.2 hb)⟩

theorem min?_perm_real {xs ys : List ℝ} (h : xs.Perm ys) : xs.min? = ys.min? := by
  cases hx : xs.min? with
  | none =>
    rw [List.min?_eq_none_iff] at hx
    subst hx
    rw [List.nil_perm.1 h]
    rfl
  | some m =>
    rw [List.min?_eq_some_iff] at hx
    symm
    rw [List.min?_eq_some_iff]
    exact ⟨h.mem_iff.1 hx.1, fun b hb => hx.2 b (h.mem_iff.2 hb)⟩

theorem pdMean_perm {xs ys : List ℝ} (h : xs.Perm ys) : pdMean xs = pdMean ys := by
  unfold pdMean; rw [h.sum_eq, h.length_eq]

theorem pdVar_perm (d : ℕ) {xs ys : List ℝ} (h : xs.Perm ys) : pdVar d xs = pdVar d ys := by
  unfold pdVar; rw [h.sum_eq, h.length_eq, (h.map _).sum_eq]

theorem pdCorr_perm {ps qs : List (ℝ × ℝ)} (h : ps.Perm qs) : pdCorr ps = pdCorr qs := by
  unfold pdCorr
  simp only
  rw [(h.map fun p : ℝ × ℝ => p.1).sum_eq, (h.map fun p : ℝ × ℝ => p.2).sum_eq, h.length_eq,
    (h.map fun p : ℝ × ℝ => (p.1 - _) * (p.1 - _)).sum_eq, (h.map fun p : ℝ × ℝ => (p.2 - _) * (p.2 - _)).sum_eq,
    (h.map fun p : ℝ × ℝ => (p.1 - _) * (p.2 - _)).sum_eq]

theorem pandas_perm (k : SLeaf) (f : List RRow → Option ℝ) (hf : k.pandas = some f) {rs rs' : List RRow} (h : rs.Perm rs') :
    f rs = f rs' := by
  have hp : ∀ v, (present v rs).Perm (present v rs') := fun v => h.filterMap _
  have hs : ∀ v, sumOf v rs = sumOf v rs' := fun v => (hp v).sum_eq
  have hpp : ∀ v w, (pairsOf v w rs).Perm (pairsOf v w rs') := fun v w => h.filterMap _
  unfold SLeaf.pandas at hf
  split at hf <;> cases hf <;> simp only [hs, countOf, maxOf, minOf]
  · rw [(hp _).length_eq, (hp _).dedup.length_eq]
  · exact max?_perm_real (hp _)
  · exact min?_perm_real (hp _)
  · exact pdMean_perm (hp _)
  · exact pdMean_perm (hp _)
  · exact pdVar_perm _ (hp _)
  · rw [pdVar_perm _ (hp _)]
  · rw [pdVar_perm _ (hp _), pdMean_perm (hp _)]
  · exact pdCorr_perm (hpp _ _)

/-- **C101** `compute_on` of the statistics (Variance, StandardDeviation, CV, Cov, Correlation, Dot, ..., weighted or not) and
arithmetic of them, with missing values anywhere, does not depend on the order of the rows. -/
theorem C101_statistics (sem : ESem) {t : ET} {rs rs' : List RRow} {o : Option ℝ} (h : DfVal sem t rs o) (hp : rs.Perm rs') :
    DfVal sem t rs' o := by
  induction h generalizing rs' with
  | const q rs => exact .const q rs'
  | native k n wh rs f hf =>
    have e : (keepRows sem wh rs).Perm (keepRows sem wh rs') := hp.filter _
    rw [pandas_perm k f hf e]
    exact .native k n wh rs' f hf
  | equivalent k n wh rs m res o hk hexp _ ih => exact .equivalent k n wh rs' m res o hk hexp (ih (hp.filter _))
  | comp op l r n wh rs a b _ _ iha ihb => exact .comp op l r n wh rs' a b (iha (hp.filter _)) (ihb (hp.filter _))

theorem agg1_perm (f : Agg1) {xs ys : List ℝ} (h : xs.Perm ys) : f.eval xs = f.eval ys := by
  have hn : xs = [] ↔ ys = [] := ⟨fun e => by subst e; exact List.nil_perm.1 h, fun e => by subst e; exact List.perm_nil.1 h⟩
  cases f <;> simp only [Agg1.eval, h.sum_eq, h.length_eq, (h.map _).sum_eq, hn, h.dedup.length_eq, max?_perm_real h, min?_perm_real h]

theorem agg2_perm (f : Agg2) {ps qs : List (ℝ × ℝ)} (h : ps.Perm qs) : f.eval ps = f.eval qs := by
  have hn : ps = [] ↔ qs = [] := ⟨fun e => by subst e; exact List.nil_perm.1 h, fun e => by subst e; exact List.perm_nil.1 h⟩
  cases f <;> simp only [Agg2.eval, (h.map _).sum_eq, h.length_eq, hn]

/-- **C101** The same of the value of a column of a query. -/
theorem C101_query (sem : ESem) (c : SqlCol) {rs rs' : List RRow} (hp : rs.Perm rs') : c.eval sem rs = c.eval sem rs' := by
  induction c with
  | const q => rfl
  | agg1 f v flt => simp only [SqlCol.eval, momVals]; exact agg1_perm f (hp.filterMap _)
  | agg2 f v w flt => simp only [SqlCol.eval, momPairs]; exact agg2_perm f (hp.filterMap _)
  | arith op a b iha ihb => simp only [SqlCol.eval, iha, ihb]

/-! ## Quantiles -/

theorem insertionSort_perm {xs ys : List Rat} (h : xs.Perm ys) : xs.insertionSort (· ≤ ·) = ys.insertionSort (· ≤ ·) :=
  List.Perm.eq_of_pairwise' (List.pairwise_insertionSort _ _) (List.pairwise_insertionSort _ _)
    ((List.perm_insertionSort _ _).trans (h.trans (List.perm_insertionSort _ _).symm))

theorem aggPy_perm (var weight : String) {rs rs' : List Row} (h : rs.Perm rs') : aggPy var weight rs = aggPy var weight rs' := by
  unfold aggPy weightsOf
  rw [insertionSort_perm (h.filterMap fun r => r var).dedup]
  exact List.map_congr_left fun x _ => by rw [(h.filterMap _).sum_eq]

/-- **C101** A quantile, weighted or not, in SQL or on the DataFrame, does not depend on the order of the rows. -/
theorem C101_quantile (var weight : String) (q : Rat) {rs rs' : List Row} (h : rs.Perm rs') :
    pyQuantile var weight q rs = pyQuantile var weight q rs' ∧ sqlQuantile var weight q rs = sqlQuantile var weight q rs' ∧
    pdQuantile var q rs = pdQuantile var q rs' := by
  refine ⟨?_, ?_, ?_⟩
  · simp only [pyQuantile, aggPy_perm var weight h]
  · have e : aggSql var weight rs = aggSql var weight rs' := aggPy_perm var weight (h.filter _)
    unfold sqlQuantile
    rw [e]
  · simp only [pdQuantile, insertionSort_perm (h.filterMap fun r => r var)]

/-! ## Nth -/

/-- **C101** (partial) Nth with a key that is there and different in all rows of a slice: whatever the order of the rows and whatever the
sorting does, the value is the same. Missing: rows with equal keys, for which it is false (below). -/
theorem C101_nth_partial (a : NthArgs) (rows rows' out out' : List Row) (sb : List String) (v : Key) (hv : sb = [] → v = [])
    (hp : rows.Perm rows') (hkeys : ∀ r ∈ rows, (r a.sortBy).isSome)
    (hdist : ∀ r ∈ rowsAt sb v rows, ∀ r' ∈ rowsAt sb v rows, r a.sortBy = r' a.sortBy → r = r')
    (hs : SortedBy a.init.ascending a.init.sortBy (a.init.dropNa rows) out)
    (hs' : SortedBy a.init.ascending a.init.sortBy (a.init.dropNa rows') out') :
    reported (a.init.onSorted out sb) v = reported (a.init.onSorted out' sb) v := by
  have hs2 : SortedBy a.init.ascending a.init.sortBy (a.init.dropNa rows) out' := by
    refine ⟨hs'.1.trans ?_, hs'.2⟩
    unfold Nth.dropNa
    split
    · exact hp.symm.filter _
    · exact hp.symm
  obtain ⟨h1, h2⟩ := C14_nth a rows out sb v hv hkeys hs
  obtain ⟨h1', h2'⟩ := C14_nth a rows out' sb v hv hkeys hs2
  by_cases hn : HasNth a.n ((rowsAt sb v rows).filter fun r => !a.dropna || (r a.var).isSome)
  · obtain ⟨r, hr, e⟩ := h2 hn
    obtain ⟨r', hr', e'⟩ := h2' hn
    have hm : ∀ x ∈ (rowsAt sb v rows).filter fun r => !a.dropna || (r a.var).isSome, x ∈ rowsAt sb v rows := fun x hx => List.mem_of_mem_filter hx
    rw [e, e', C14_nth_unique a.ascending a.sortBy a.n _ (fun r hr => hkeys r (List.mem_of_mem_filter (hm r hr)))
      (fun x hx y hy => hdist x (hm x hx) y (hm y hy)) r r' hr hr']
  · rw [h1 hn, h1' hn]

/-- A row with a value and a key. -/
def nrow (x k : Rat) : Row := fun c => if c = "x" then some x else if c = "k" then some k else none

/-- **C101** (violated) Two rows with the same key: the first of them is the one that comes first in the table, if the sorting leaves them where they
are. -/
theorem C101_nth_violation : ∃ (rows rows' : List Row) (a : NthArgs), rows.Perm rows' ∧
    SortedBy a.init.ascending a.init.sortBy (a.init.dropNa rows) rows ∧ SortedBy a.init.ascending a.init.sortBy (a.init.dropNa rows') rows' ∧
    reported (a.init.onSorted rows []) [] = some 1 ∧ reported (a.init.onSorted rows' []) [] = some 2 := by
  refine ⟨[nrow 1 0, nrow 2 0], [nrow 2 0, nrow 1 0], ⟨"x", 0, "k", true, false⟩, List.Perm.swap _ _ _, ⟨.refl _, by decide +kernel⟩,
    ⟨.refl _, by decide +kernel⟩, by decide +kernel, by decide +kernel⟩

/-! ## Diversity -/

section
variable {S C K : Type} [DecidableEq S] [Field K] [LinearOrder K] [IsStrictOrderedRing K]

theorem sliceVals_perm {t t' : DTab S C K} (h : t.Perm t') (s : S) : (sliceVals t s).Perm (sliceVals t' s) :=
  (h.filter _).map _

theorem groupAgg_perm {X : Type} (f : List (Option K) → X) (hf : ∀ l l', l.Perm l' → f l = f l') {t t' : DTab S C K} (h : t.Perm t') :
    (groupAgg f t).Perm (groupAgg f t') := by
  unfold groupAgg
  have e : (fun s => (s, f (sliceVals t' s))) = fun s => (s, f (sliceVals t s)) := by
    funext s; rw [hf _ _ (sliceVals_perm h s)]
  rw [e]
  exact ((h.map _).dedup).map _

theorem nanSum_perm {l l' : List (Option K)} (h : l.Perm l') : nanSum l = nanSum l' := (h.filterMap _).sum_eq

theorem pyDist_perm {t t' : DTab S C K} (h : t.Perm t') : (pyDist t).Perm (pyDist t') := by
  rw [pyDist_eq, pyDist_eq]
  have e : ∀ s, sliceTotal t' s = sliceTotal t s := fun s => by
    rw [← nanSum_sliceVals, ← nanSum_sliceVals, nanSum_perm (sliceVals_perm h s)]
  simp only [e]
  exact h.map _

theorem sortDesc_congr {l l' : List K} (h : l.Perm l') : sortDesc l = sortDesc l' :=
  List.Perm.eq_of_pairwise' (r := fun a b : K => b ≤ a) (List.pairwise_insertionSort _ _) (List.pairwise_insertionSort _ _)
    ((List.perm_insertionSort _ _).trans (h.trans (List.perm_insertionSort _ _).symm))

/-- **C101** HHI, TopK and Nxx do not depend on the order of the rows of the table they are computed from. -/
theorem C101_diversity (k : ℕ) (share : K) {t t' : DTab S C K} (h : t.Perm t') :
    (pyHHI t).Perm (pyHHI t') ∧ (pyTopK k t).Perm (pyTopK k t') ∧ (pyNxx share t).Perm (pyNxx share t') := by
  refine ⟨groupAgg_perm _ (fun l l' hl => nanSum_perm (hl.map _)) (pyDist_perm h),
    groupAgg_perm _ (fun l l' hl => ?_) (pyDist_perm h), groupAgg_perm _ (fun l l' hl => ?_) (pyDist_perm h)⟩
  · rw [sortDesc_congr (hl.filterMap _)]
  · rw [sortDesc_congr (hl.filterMap _)]
end

/-- **C101** Neither does Entropy. -/
theorem C101_entropy {S C : Type} [DecidableEq S] {t t' : DTab S C ℝ} (h : t.Perm t') : (pyEntropy t).Perm (pyEntropy t') :=
  groupAgg_perm _ (fun _ _ hl => nanSum_perm (hl.map _)) (pyDist_perm h)

/-- A case that meets the hypotheses of `C101_tree`, with a result that is a table. -/
example : exFrame.rows.Perm exFrame.rows.reverse ∧ exMixed.run exEnv { exFrame with rows := exFrame.rows.reverse } [] =
    .ok (.tbl ["g"] [[([1], .fin 6)], [([1], .nan)]]) :=
  ⟨exFrame.rows.reverse_perm.symm, by decide +kernel⟩

end Verif
