import Verif.Lemmas.SqlMoments
import Verif.Props.Expand

/-!
# C77: the statistics computed in SQL are the statistics computed on the DataFrame
-/

namespace Verif

/-! ## Leaves -/

theorem momVals_present (sem : ESem) (glob flt path : List Nat) (hg : ∀ g ∈ glob, g ∈ path)
    (h1 : ∀ i ∈ flt, i ∈ path) (h2 : ∀ i ∈ path, i ∈ flt ∨ i ∈ glob) (v : ECol) (rs : List RRow) :
    momVals sem flt v (keepRows sem glob rs) = present v (keepRows sem path rs) :=
  where_and_if sem glob flt path hg h1 h2 v.eval rs

theorem momPairs_pairsOf (sem : ESem) (glob flt path : List Nat) (hg : ∀ g ∈ glob, g ∈ path)
    (h1 : ∀ i ∈ flt, i ∈ path) (h2 : ∀ i ∈ path, i ∈ flt ∨ i ∈ glob) (v w : ECol) (rs : List RRow) :
    momPairs sem flt v w (keepRows sem glob rs) = pairsOf v w (keepRows sem path rs) :=
  where_and_if sem glob flt path hg h1 h2 _ rs

theorem present_ne {v : ECol} {rs : List RRow} (h : ∃ r ∈ rs, (v.eval r).isSome) :
    present v rs ≠ [] := by
  obtain ⟨r, hr, hv⟩ := h
  obtain ⟨x, hx⟩ := Option.isSome_iff_exists.1 hv
  exact List.ne_nil_of_mem (List.mem_filterMap.2 ⟨r, hr, hx⟩)

theorem mul_isSome {a b : ECol} {r : RRow} (ha : (a.eval r).isSome) (hb : (b.eval r).isSome) :
    ((ECol.mul a b).eval r).isSome := by
  obtain ⟨x, hx⟩ := Option.isSome_iff_exists.1 ha
  obtain ⟨y, hy⟩ := Option.isSome_iff_exists.1 hb
  simp [ECol.eval, hx, hy]

/-- Both sides have a formula of their own. -/
theorem leaf_native (sem : ESem) (glob flt path : List Nat) (hg : ∀ g ∈ glob, g ∈ path)
    (h1 : ∀ i ∈ flt, i ∈ path) (h2 : ∀ i ∈ path, i ∈ flt ∨ i ∈ glob) (k : SLeaf) (rs : List RRow)
    (c : SqlCol) (f : List RRow → Option ℝ) (hc : k.sqlColumns flt = some c) (hf : k.pandas = some f)
    (hfit : k.fits (keepRows sem path rs)) :
    c.eval sem (keepRows sem glob rs) = f (keepRows sem path rs) := by
  have hv := momVals_present sem glob flt path hg h1 h2
  have hpq := momPairs_pairsOf sem glob flt path hg h1 h2
  cases k with
  | sum v =>
    cases hc; cases hf
    have : present v (keepRows sem path rs) ≠ [] := by
      obtain ⟨r, hr, h⟩ := hfit
      exact present_ne ⟨r, hr, h v (by simp [SLeaf.cols])⟩
    simp only [SqlCol.eval, hv, Agg1.eval, this, if_false, sumOf]
  | count v d =>
    cases hf
    cases d <;> cases hc <;> simp only [SqlCol.eval, hv, Agg1.eval, countOf] <;> simp
  | max v => cases hc; cases hf; simp only [SqlCol.eval, hv, Agg1.eval, maxOf]
  | min v => cases hc; cases hf; simp only [SqlCol.eval, hv, Agg1.eval, minOf]
  | other i => cases hc
  | dot v w n =>
    cases n with
    | true => cases hc; cases hf; simp only [SqlCol.eval, hv, pdMean_avg]
    | false =>
      cases hc; cases hf
      have : present (.mul v w) (keepRows sem path rs) ≠ [] := by
        obtain ⟨r, hr, h⟩ := hfit
        exact present_ne ⟨r, hr, mul_isSome (h v (by simp [SLeaf.cols])) (h w (by simp [SLeaf.cols]))⟩
      simp only [SqlCol.eval, hv, Agg1.eval, this, if_false, sumOf]
  | mean v w =>
    cases w with
    | none => cases hc; cases hf; simp only [SqlCol.eval, hv, pdMean_avg]
    | some w => cases hf
  | variance v u w =>
    cases w with
    | none =>
      cases hf
      cases u <;> cases hc
      · simp only [SqlCol.eval, hv, ddofOf, Bool.false_eq_true, if_false, pdVar_pop]
      · simp only [SqlCol.eval, hv, ddofOf, if_true, pdVar_samp]
    | some w => cases hf
  | sd v u w =>
    cases w with
    | none =>
      cases hf
      cases u <;> cases hc
      · simp only [SqlCol.eval, hv, ddofOf, Bool.false_eq_true, if_false, pdSd_pop]
      · simp only [SqlCol.eval, hv, ddofOf, if_true, pdSd_samp]
    | some w => cases hf
  | cv v u =>
    cases hf
    cases u <;> cases hc
    · simp only [SqlCol.eval, hv, ddofOf, Bool.false_eq_true, if_false, pdSd_pop, pdMean_avg]
    · simp only [SqlCol.eval, hv, ddofOf, if_true, pdSd_samp, pdMean_avg]
  | corr v w wt =>
    cases wt with
    | none => cases hc; cases hf; simp only [SqlCol.eval, hpq, pdCorr_corr]
    | some w => cases hf
  | cov v w b d wt fw => cases hf

theorem mean_expands (v w : ECol) (n : Option String) (wh : List Nat) (m : Nat) (res : ET)
    (h : Expands (.leaf (.mean v (some w)) n wh) m res) :
    res = (ET.leaf (.mean v (some w)) n wh).step.step := by
  refine (loop_unique h (m' := 2) ?_).2
  refine .body _ _ _ 1 ?_ (.body _ _ _ 0 ?_ ?_)
  · intro h; cases h
  · intro h; cases h
  · have := fixed_of_rank_zero (ET.leaf (.mean v (some w)) n wh).step.step (by
      simp [ET.step, SLeaf.equiv, ET.setTop, ET.leaves]
      rfl)
    rw [this]
    exact .stop _

theorem cov_expands (v w : ECol) (b : Bool) (d : Option ℤ) (n : Option String) (wh : List Nat) (m : Nat)
    (res : ET) (h : Expands (.leaf (.cov v w b d none none) n wh) m res) :
    res = (ET.leaf (.cov v w b d none none) n wh).step.step := by
  refine (loop_unique h (m' := 2) ?_).2
  refine .body _ _ _ 1 ?_ (.body _ _ _ 0 ?_ ?_)
  · by_cases h0 : covDdof b d = 0 <;>
      simp [ET.step, SLeaf.equiv, covEquiv, h0, ET.setTop]
  · by_cases h0 : covDdof b d = 0 <;>
      simp [ET.step, SLeaf.equiv, covEquiv, h0, ET.setTop]
  · have := fixed_of_rank_zero (ET.leaf (.cov v w b d none none) n wh).step.step (by
      by_cases h0 : covDdof b d = 0 <;>
      simp [ET.step, SLeaf.equiv, covEquiv, h0, ET.setTop, ET.leaves, sqrtSq] <;> rfl)
    rw [this]
    exact .stop _

/-- The columns are missing together: one list of pairs gives all sums. -/
theorem together_pairs (v w : ECol) : ∀ rs : List RRow,
    (∀ r ∈ rs, (v.eval r).isSome = (w.eval r).isSome) →
    present v rs = (pairsOf v w rs).map (fun p => p.1) ∧
    present w rs = (pairsOf v w rs).map (fun p => p.2) ∧
    present (.mul v w) rs = (pairsOf v w rs).map (fun p => p.1 * p.2)
  | [], _ => ⟨rfl, rfl, rfl⟩
  | r :: rs, h => by
      obtain ⟨h1, h2, h3⟩ := together_pairs v w rs fun q hq => h q (List.mem_cons_of_mem _ hq)
      have hr := h r List.mem_cons_self
      unfold present pairsOf at *
      simp only [List.filterMap_cons]
      cases hv : v.eval r <;> cases hw : w.eval r <;> simp_all [ECol.eval]

/-- The expansion of an unweighted covariance, for columns missing together. -/
theorem cov_value (sem : ESem) (v w : ECol) (b : Bool) (d : Option ℤ) (n : Option String) (wh : List Nat)
    (rs : List RRow) (ht : ∀ r ∈ keepRows sem wh rs, (v.eval r).isSome = (w.eval r).isSome) :
    (covDdof b d = 0 → (ET.leaf (.cov v w b d none none) n wh).step.step.val sem
      (fun k => k.elemVal sem) rs = Agg2.covarPop.eval (pairsOf v w (keepRows sem wh rs))) ∧
    (covDdof b d = 1 → (ET.leaf (.cov v w b d none none) n wh).step.step.val sem
      (fun k => k.elemVal sem) rs = Agg2.covarSamp.eval (pairsOf v w (keepRows sem wh rs))) := by
  obtain ⟨e1, e2, e3⟩ := together_pairs v w _ ht
  generalize hps : pairsOf v w (keepRows sem wh rs) = ps at *
  have hlen : ps.length = 0 ↔ ps = [] := List.length_eq_zero_iff
  constructor <;> intro h0
  · simp only [ET.step, SLeaf.equiv, covEquiv, h0, ET.setTop, ET.val, keepRows_nil, SLeaf.elemVal, sumOf,
      countOf, if_true, e1, e2, e3, List.length_map, Bool.false_eq_true, if_false]
    unfold Agg2.eval
    simp only
    by_cases hp : ps = []
    · subst hp; simp [EOp.app, rdiv]
    · have hN : (ps.length : ℝ) ≠ 0 := by simpa using hp
      simp only [hp, if_false, EOp.app, rdiv, hN, Option.bind_some, Option.some.injEq]
      field_simp
  · have h0' : ¬ covDdof b d = 0 := by omega
    have hs : ∀ e : ET, (sqrtSq e).step = sqrtSq e.step := fun e => by simp [sqrtSq, ET.step]
    have hc : (ET.leaf (.cov v w b d none none) n wh).step = .comp .div
        (esub (lf (.dot v w true)) (emul (lf (.mean v none)) (lf (.mean w none))))
        (sqrtSq (esub (.const 1) (ediv (.const ((1 : ℤ) : ℚ)) (lf (.count v false))))) n wh := by
      simp [ET.step, SLeaf.equiv, covEquiv, h0, ET.setTop]
    rw [hc]
    simp only [ET.step, SLeaf.equiv, ET.setTop, hs, ET.val, val_sqrtSq, if_false,
      keepRows_nil, SLeaf.elemVal, sumOf, countOf, e1, e2, e3, List.length_map, Bool.false_eq_true]
    unfold Agg2.eval
    simp only
    by_cases hp : ps = []
    · subst hp; simp [EOp.app, rdiv]
    · have hN : (0 : ℝ) < ps.length := by
        have := List.length_pos_iff.2 hp
        exact_mod_cast this
      have h1 : ¬ (1 : ℝ) - 1 / ps.length < 0 := by
        rw [not_lt, sub_nonneg, div_le_one hN]
        exact_mod_cast List.length_pos_iff.2 hp
      simp only [EOp.app, rdiv, hN.ne', if_false, Option.bind_some, Rat.cast_one, Int.cast_one, h1]
      by_cases hl : ps.length ≤ 1
      · have hl1 : ps.length = 1 := by
          have := List.length_pos_iff.2 hp
          omega
        rw [if_pos hl, hl1]
        norm_num
      · rw [if_neg hl]
        have hl1 : (1 : ℝ) < ps.length := by exact_mod_cast not_le.1 hl
        have h2 : (1 : ℝ) - 1 / ps.length ≠ 0 := by
          rw [ne_eq, sub_eq_zero, eq_div_iff hN.ne', one_mul]
          exact hl1.ne'
        have h3 : (ps.length : ℝ) - 1 ≠ 0 := by linarith
        rw [if_neg h2]
        congr 1
        field_simp

/-- SQL has a formula of its own and `compute_on` expands: the weighted mean and the covariance. -/
theorem leaf_columns_equivalent (sem : ESem) (glob flt wh path : List Nat)
    (hg : ∀ g ∈ glob, g ∈ wh ++ path)
    (h1 : ∀ i ∈ flt, i ∈ wh ++ path) (h2 : ∀ i ∈ wh ++ path, i ∈ flt ∨ i ∈ glob) (k : SLeaf)
    (n : Option String) (rs : List RRow) (c : SqlCol) (m : Nat) (res : ET) (o : Option ℝ)
    (hc : k.sqlColumns flt = some c) (hk : k.pandas = none) (hres : Expands (.leaf k n wh) m res)
    (hp : DfVal sem res (keepRows sem wh (keepRows sem path rs)) o)
    (hfit : k.fits (keepRows sem (wh ++ path) rs)) :
    c.eval sem (keepRows sem glob rs) = o := by
  have hv := momVals_present sem glob flt (wh ++ path) hg h1 h2
  have hpq := momPairs_pairsOf sem glob flt (wh ++ path) hg h1 h2
  have he := dfVal_elem sem hp ((C17_complete _ m res hres).1)
  rw [he, keepRows_keepRows]
  have hidem : keepRows sem wh (keepRows sem (wh ++ path) rs) = keepRows sem (wh ++ path) rs := by
    rw [← keepRows_keepRows, keepRows_idem]
  cases k with
  | mean v w =>
    cases w with
    | none => cases hk
    | some w =>
      cases hc
      have e1 : present (.mul w v) (keepRows sem (wh ++ path) rs)
          = present (.mul v w) (keepRows sem (wh ++ path) rs) := by
        unfold present
        congr 1
        funext r
        cases hv : v.eval r <;> cases hw : w.eval r <;> simp [ECol.eval, hv, hw, mul_comm]
      obtain ⟨r, hr, h⟩ := hfit
      have n1 := present_ne ⟨r, hr, mul_isSome (h v (by simp [SLeaf.cols])) (h w (by simp [SLeaf.cols]))⟩
      have n2 := present_ne ⟨r, hr, h w (by simp [SLeaf.cols])⟩
      rw [mean_expands v w n wh m res hres]
      simp only [SqlCol.eval, hv, Agg1.eval, e1, n1, n2, if_false, ET.step, SLeaf.equiv, ET.setTop, ET.val,
        keepRows_nil, SLeaf.elemVal, sumOf, hidem]
  | cov v w b d wt fw =>
    cases wt with
    | some _ => cases fw <;> cases hc
    | none =>
      cases fw with
      | some _ => cases hc
      | none =>
        rw [cov_expands v w b d n wh m res hres]
        simp only [SLeaf.sqlColumns] at hc
        simp only [SLeaf.fits] at hfit
        by_cases d1 : covDdof b d = 1
        · rw [if_pos d1] at hc
          rw [if_pos (Or.inl d1)] at hfit
          cases hc
          rw [(cov_value sem v w b d n wh _ (by rw [hidem]; exact hfit)).2 d1, hidem]
          simp only [SqlCol.eval, hpq]
        · by_cases d0 : covDdof b d = 0
          · rw [if_neg d1, if_pos d0] at hc
            rw [if_pos (Or.inr d0)] at hfit
            cases hc
            rw [(cov_value sem v w b d n wh _ (by rw [hidem]; exact hfit)).1 d0, hidem]
            simp only [SqlCol.eval, hpq]
          · rw [if_neg d1, if_neg d0] at hc
            cases hc
  | variance v u w => cases w <;> first | (cases hk; done) | (cases u <;> (cases hc; done))
  | sd v u w => cases w <;> first | (cases hk; done) | (cases u <;> (cases hc; done))
  | corr v w wt => cases wt <;> first | (cases hk; done) | (cases hc; done)
  | dot v w n => cases n <;> cases hk
  | other i => cases hc
  | _ => cases hk

/-! ## Trees -/

/-- Every leaf has the hoisted filter among the filters on the way to it. -/
def ET.GlobOK (glob : List Nat) : ET → List Nat → Prop
  | .const _, _ => True
  | .leaf _ _ wh, path => ∀ g ∈ glob, g ∈ wh ++ path
  | .comp _ l r _ wh, path => l.GlobOK glob (wh ++ path) ∧ r.GlobOK glob (wh ++ path)
  | .node _ _ _ _, _ => True

theorem globOK_of_path (glob : List Nat) : ∀ (t : ET) (path : List Nat), (∀ g ∈ glob, g ∈ path) →
    t.GlobOK glob path
  | .const _, _, _ => trivial
  | .leaf _ _ _, _, h => fun g hg => List.mem_append_right _ (h g hg)
  | .comp _ l r _ wh, path, h =>
      ⟨globOK_of_path glob l _ fun g hg => List.mem_append_right _ (h g hg),
        globOK_of_path glob r _ fun g hg => List.mem_append_right _ (h g hg)⟩
  | .node _ _ _ _, _, _ => trivial

theorem globOK_const {glob path : List Nat} {t : ET} (h : t.isMetric = false) : t.GlobOK glob path := by
  cases t <;> simp_all [ET.isMetric, ET.GlobOK]

theorem globOK_globalFilter (glob : List Nat) : ∀ (t : ET) (path : List Nat),
    (∀ g ∈ glob, g ∈ t.globalFilter ∨ g ∈ path) → t.GlobOK glob path
  | .const _, _, _ => trivial
  | .leaf _ _ _, _, h => fun g hg => List.mem_append.2 (h g hg)
  | .node _ _ _ _, _, _ => trivial
  | .comp op l r n wh, path, h => by
      simp only [ET.globalFilter, List.mem_append] at h
      constructor
      · cases hl : l.isMetric with
        | false => exact globOK_const hl
        | true =>
          apply globOK_globalFilter
          intro g hg
          have := h g hg
          rw [hl] at this
          simp only [if_true, List.mem_append] at this ⊢
          split at this
          · simp only [List.mem_filter, decide_eq_true_eq] at this
            tauto
          · tauto
      · cases hr : r.isMetric with
        | false => exact globOK_const hr
        | true =>
          apply globOK_globalFilter
          intro g hg
          have := h g hg
          rw [hr] at this
          simp only [if_true, List.mem_append] at this ⊢
          split at this
          · simp only [List.mem_filter, decide_eq_true_eq] at this
            tauto
          · tauto

theorem sqlLocal_spec {wh loc glob path : List Nat} (h1 : ∀ i ∈ loc, i ∈ path)
    (h2 : ∀ i ∈ path, i ∈ loc ∨ i ∈ glob) :
    (∀ i ∈ sqlLocal wh loc glob, i ∈ wh ++ path) ∧
    (∀ i ∈ wh ++ path, i ∈ sqlLocal wh loc glob ∨ i ∈ glob) := by
  constructor
  · intro i hi
    simp only [sqlLocal, List.mem_filter, List.mem_append] at hi ⊢
    exact hi.1.imp id (h1 i)
  · intro i hi
    by_cases hg : i ∈ glob
    · exact Or.inr hg
    · left
      simp only [sqlLocal, List.mem_filter, List.mem_append, decide_eq_true_eq] at hi ⊢
      refine ⟨hi.imp id fun h => (h2 i h).resolve_right hg, hg⟩

theorem sql_py (sem : ESem) (glob : List Nat) {t : ET} {loc : List Nat} {c : SqlCol}
    (h : SqlOf glob t loc c) : ∀ (path : List Nat) (rs : List RRow) (o : Option ℝ),
    (∀ i ∈ loc, i ∈ path) → (∀ i ∈ path, i ∈ loc ∨ i ∈ glob) → t.GlobOK glob path →
    DfVal sem t (keepRows sem path rs) o → t.AtLeaves sem SLeaf.fits (keepRows sem path rs) →
    c.eval sem (keepRows sem glob rs) = o := by
  induction h with
  | const q loc =>
    intro path rs o _ _ _ hp _
    cases hp
    rfl
  | columns k n wh loc c hc =>
    intro path rs o h1 h2 hg hp hf
    obtain ⟨s1, s2⟩ := sqlLocal_spec (wh := wh) h1 h2
    simp only [ET.AtLeaves, keepRows_keepRows] at hf
    cases hp with
    | native _ _ _ _ f hk =>
      rw [keepRows_keepRows]
      exact leaf_native sem glob _ (wh ++ path) hg s1 s2 k rs c f hc hk hf
    | equivalent _ _ _ _ m res _ hk hres hpy =>
      exact leaf_columns_equivalent sem glob _ wh path hg s1 s2 k n rs c m res o hc hk hres hpy hf
  | expanded k n wh loc m res c hc hres _ ih =>
    intro path rs o h1 h2 hg hp hf
    obtain ⟨s1, s2⟩ := sqlLocal_spec (wh := wh) h1 h2
    simp only [ET.AtLeaves, keepRows_keepRows] at hf
    cases hp with
    | native _ _ _ _ f hk =>
      -- what has a pandas formula has a SQL column
      exfalso
      cases k with
      | count v d => cases d <;> cases hc
      | dot v w n => cases n <;> cases hc
      | mean v w => cases w <;> first | (cases hc; done) | (cases hk; done)
      | variance v u w => cases w <;> cases u <;> first | (cases hc; done) | (cases hk; done)
      | sd v u w => cases w <;> cases u <;> first | (cases hc; done) | (cases hk; done)
      | cv v u => cases u <;> cases hc
      | corr v w wt => cases wt <;> first | (cases hc; done) | (cases hk; done)
      | cov v w b d wt fw => cases hk
      | other i => cases hk
      | _ => cases hc
    | equivalent _ _ _ _ m' res' _ hk hres' hpy =>
      have := (loop_unique hres hres').2
      subst this
      rw [keepRows_keepRows] at hpy
      refine ih (wh ++ path) rs o s1 s2 (globOK_of_path _ _ _ hg) hpy ?_
      have hcomp : (ET.leaf k n wh).AtLeaves sem SLeaf.someComplete (keepRows sem (wh ++ path) rs) := by
        simp only [ET.AtLeaves]
        rw [← keepRows_keepRows, keepRows_idem, keepRows_keepRows]
        cases k with
        | count v d => cases d <;> cases hc
        | dot v w n => cases n <;> cases hc
        | mean v w => cases w <;> cases hc
        | variance v u w => cases w <;> cases u <;> first | (cases hc; done) | (exact hf; done)
        | sd v u w => cases w <;> cases u <;> first | (cases hc; done) | (exact hf; done)
        | cv v u => cases u <;> cases hc
        | corr v w wt => cases wt <;> first | (cases hc; done) | (exact hf; done)
        | cov v w b d wt fw =>
          cases wt with
          | some _ => exact hf
          | none =>
            cases fw with
            | some _ => exact hf
            | none =>
              simp only [SLeaf.sqlColumns] at hc
              simp only [SLeaf.fits] at hf
              by_cases d1 : covDdof b d = 1
              · simp [d1] at hc
              · by_cases d0 : covDdof b d = 0
                · simp [d0] at hc
                · rwa [if_neg (by tauto)] at hf
        | other i => exact hf
        | _ => cases hc
      obtain ⟨hall, _⟩ := loop_inv
        (fun s => s.AtLeaves sem SLeaf.someComplete (keepRows sem (wh ++ path) rs))
        (fun s hs => complete_step sem s _ hs) hres hcomp
      exact atLeaves_mono sem _ _
        (fun k' hk' rs' h' => fits_of_complete k' rs' ((C17_complete _ m res hres).1 k' hk') h') hall
  | comp op l r n wh loc a b _ _ iha ihb =>
    intro path rs o h1 h2 hg hp hf
    obtain ⟨s1, s2⟩ := sqlLocal_spec (wh := wh) h1 h2
    simp only [ET.AtLeaves, keepRows_keepRows] at hf
    cases hp with
    | comp _ _ _ _ _ _ a' b' ha hb =>
      rw [keepRows_keepRows] at ha hb
      simp only [SqlCol.eval]
      rw [iha (wh ++ path) rs a' s1 s2 hg.1 ha hf.1, ihb (wh ++ path) rs b' s1 s2 hg.2 hb hf.2]

/-- **C77** (partial) For any arithmetic on leaf metrics, Variance, StandardDeviation, CV, Correlation and
Cov included, weighted or not, with filters anywhere, of which the shared ones are hoisted to WHERE: the
column of the query, evaluated by the definitions of the SQL standard over rows with NULLs, has the value
that `compute_on` computes. Missing: data that do not fit (`SLeaf.fits`): empty sums, and covariances of
columns not missing together, for which it is false (below). -/
theorem C77_agrees_partial (sem : ESem) (t : ET) (rs : List RRow) (c : SqlCol) (o : Option ℝ)
    (hs : SqlOf t.globalFilter t [] c) (hp : DfVal sem t rs o) (hf : t.AtLeaves sem SLeaf.fits rs) :
    c.eval sem (keepRows sem t.globalFilter rs) = o := by
  refine sql_py sem t.globalFilter hs [] rs o (by simp) (by simp)
    (globOK_globalFilter _ t [] fun g hg => Or.inl hg) ?_ ?_
  · rwa [keepRows_nil]
  · rwa [keepRows_nil]

/-- The leaves for which no data are excluded. -/
def SLeaf.always : SLeaf → Prop
  | .count _ _ | .max _ | .min _ | .dot _ _ true | .mean _ none | .variance _ _ none | .sd _ _ none
  | .cv _ _ | .corr _ _ none => True
  | _ => False

theorem atLeaves_of_all (sem : ESem) {P : SLeaf → List RRow → Prop} : ∀ (t : ET) (rs : List RRow),
    (∀ k ∈ t.leaves, ∀ rs, P k rs) → t.AtLeaves sem P rs
  | .const _, _, _ => trivial
  | .leaf k n wh, rs, hk => hk k (by simp [ET.leaves]) _
  | .comp op l r n wh, rs, hk => by
      simp only [ET.AtLeaves]
      exact ⟨atLeaves_of_all sem l _ (fun k hm => hk k (by simp [ET.leaves, hm])),
        atLeaves_of_all sem r _ (fun k hm => hk k (by simp [ET.leaves, hm]))⟩
  | .node _ _ _ _, _, _ => trivial

/-- **C77** Any arithmetic on Count, Max, Min, Mean, normalized Dot, and unweighted Variance,
StandardDeviation, CV and Correlation, with filters anywhere, has the same value in SQL and on the
DataFrame, whatever the data: values missing anywhere, no row, one row, constant columns. -/
theorem C77_agrees_on_all_data (sem : ESem) (t : ET) (ht : ∀ k ∈ t.leaves, k.always) (rs : List RRow)
    (c : SqlCol) (o : Option ℝ) (hs : SqlOf t.globalFilter t [] c) (hp : DfVal sem t rs o) :
    c.eval sem (keepRows sem t.globalFilter rs) = o := by
  refine C77_agrees_partial sem t rs c o hs hp (atLeaves_of_all sem t rs fun k hk rs => ?_)
  have := ht k hk
  unfold SLeaf.always at this
  split at this <;> first | trivial | exact this.elim

/-! ## Both computations exist -/

theorem sqlOf_elementary (glob : List Nat) : ∀ (t : ET) (loc : List Nat), t.arith →
    (∀ k ∈ t.leaves, k.elementary) → ∃ c, SqlOf glob t loc c
  | .const q, loc, _, _ => ⟨_, .const q loc⟩
  | .leaf k n wh, loc, ha, he => by
      have h1 := he k (by simp [ET.leaves])
      have : ∃ c, k.sqlColumns (sqlLocal wh loc glob) = some c := by
        cases k with
        | count v d => cases d <;> exact ⟨_, rfl⟩
        | sum v => exact ⟨_, rfl⟩
        | max v => exact ⟨_, rfl⟩
        | min v => exact ⟨_, rfl⟩
        | other i => exact absurd rfl (ha i)
        | _ => exact h1.elim
      obtain ⟨c, hc⟩ := this
      exact ⟨c, .columns k n wh loc c hc⟩
  | .comp op l r n wh, loc, ha, he => by
      obtain ⟨a, h1⟩ := sqlOf_elementary glob l (sqlLocal wh loc glob) ha.1
        fun k hk => he k (by simp [ET.leaves, hk])
      obtain ⟨b, h2⟩ := sqlOf_elementary glob r (sqlLocal wh loc glob) ha.2
        fun k hk => he k (by simp [ET.leaves, hk])
      exact ⟨_, .comp op l r n wh loc a b h1 h2⟩
  | .node _ _ _ _, _, ha, _ => by simp [ET.arith] at ha

theorem sqlOf_total (glob : List Nat) : ∀ (t : ET) (loc : List Nat), t.arith → ∃ c, SqlOf glob t loc c
  | .const q, loc, _ => ⟨_, .const q loc⟩
  | .leaf k n wh, loc, ha => by
      cases hc : k.sqlColumns (sqlLocal wh loc glob) with
      | some c => exact ⟨c, .columns k n wh loc c hc⟩
      | none =>
        obtain ⟨m, res, _, hres⟩ := C17_terminates (.leaf k n wh)
        obtain ⟨c, h⟩ := sqlOf_elementary glob res (sqlLocal wh loc glob)
          (loop_inv ET.arith arith_step hres ha).1 ((C17_complete _ m res hres).1)
        exact ⟨c, .expanded k n wh loc m res c hc hres h⟩
  | .comp op l r n wh, loc, ha => by
      obtain ⟨a, h1⟩ := sqlOf_total glob l (sqlLocal wh loc glob) ha.1
      obtain ⟨b, h2⟩ := sqlOf_total glob r (sqlLocal wh loc glob) ha.2
      exact ⟨_, .comp op l r n wh loc a b h1 h2⟩
  | .node _ _ _ _, _, ha => by simp [ET.arith] at ha

theorem dfVal_elementary (sem : ESem) : ∀ (t : ET) (rs : List RRow), t.arith →
    (∀ k ∈ t.leaves, k.elementary) → ∃ o, DfVal sem t rs o
  | .const q, rs, _, _ => ⟨_, .const q rs⟩
  | .leaf k n wh, rs, ha, he => by
      have h1 := he k (by simp [ET.leaves])
      have : ∃ f, k.pandas = some f := by
        cases k with
        | count v d => exact ⟨_, rfl⟩
        | sum v => exact ⟨_, rfl⟩
        | max v => exact ⟨_, rfl⟩
        | min v => exact ⟨_, rfl⟩
        | other i => exact absurd rfl (ha i)
        | _ => exact h1.elim
      obtain ⟨f, hf⟩ := this
      exact ⟨_, .native k n wh rs f hf⟩
  | .comp op l r n wh, rs, ha, he => by
      obtain ⟨a, h1⟩ := dfVal_elementary sem l (keepRows sem wh rs) ha.1
        fun k hk => he k (by simp [ET.leaves, hk])
      obtain ⟨b, h2⟩ := dfVal_elementary sem r (keepRows sem wh rs) ha.2
        fun k hk => he k (by simp [ET.leaves, hk])
      exact ⟨_, .comp op l r n wh rs a b h1 h2⟩
  | .node _ _ _ _, _, ha, _ => by simp [ET.arith] at ha

theorem dfVal_total (sem : ESem) : ∀ (t : ET) (rs : List RRow), t.arith → ∃ o, DfVal sem t rs o
  | .const q, rs, _ => ⟨_, .const q rs⟩
  | .leaf k n wh, rs, ha => by
      cases hc : k.pandas with
      | some f => exact ⟨_, .native k n wh rs f hc⟩
      | none =>
        obtain ⟨m, res, _, hres⟩ := C17_terminates (.leaf k n wh)
        obtain ⟨o, h⟩ := dfVal_elementary sem res (keepRows sem wh rs)
          (loop_inv ET.arith arith_step hres ha).1 ((C17_complete _ m res hres).1)
        exact ⟨o, .equivalent k n wh rs m res o hc hres h⟩
  | .comp op l r n wh, rs, ha => by
      obtain ⟨a, h1⟩ := dfVal_total sem l (keepRows sem wh rs) ha.1
      obtain ⟨b, h2⟩ := dfVal_total sem r (keepRows sem wh rs) ha.2
      exact ⟨_, .comp op l r n wh rs a b h1 h2⟩
  | .node _ _ _ _, _, ha => by simp [ET.arith] at ha

theorem sqlOf_unique (glob : List Nat) {t : ET} {loc : List Nat} {c : SqlCol} (h : SqlOf glob t loc c) :
    ∀ c', SqlOf glob t loc c' → c = c' := by
  induction h with
  | const q loc => intro c' h'; cases h'; rfl
  | columns k n wh loc c hc =>
    intro c' h'
    cases h' with
    | columns _ _ _ _ _ hc' => exact Option.some.inj (hc ▸ hc')
    | expanded _ _ _ _ m res _ hc' => rw [hc] at hc'; cases hc'
  | expanded k n wh loc m res c hc hres _ ih =>
    intro c' h'
    cases h' with
    | columns _ _ _ _ _ hc' => rw [hc] at hc'; cases hc'
    | expanded _ _ _ _ m' res' _ _ hres' h2 =>
      have := (loop_unique hres hres').2
      subst this
      exact ih c' h2
  | comp op l r n wh loc a b _ _ iha ihb =>
    intro c' h'
    cases h' with
    | comp _ _ _ _ _ _ a' b' ha hb => rw [iha a' ha, ihb b' hb]

theorem dfVal_unique (sem : ESem) {t : ET} {rs : List RRow} {o : Option ℝ} (h : DfVal sem t rs o) :
    ∀ o', DfVal sem t rs o' → o = o' := by
  induction h with
  | const q rs => intro c' h'; cases h'; rfl
  | native k n wh rs f hf =>
    intro o' h'
    cases h' with
    | native _ _ _ _ f' hf' => rw [hf] at hf'; cases hf'; rfl
    | equivalent _ _ _ _ _ _ _ hf' => rw [hf] at hf'; cases hf'
  | equivalent k n wh rs m res o hk hres _ ih =>
    intro o' h'
    cases h' with
    | native _ _ _ _ f' hf' => rw [hk] at hf'; cases hf'
    | equivalent _ _ _ _ m' res' _ _ hres' h2 =>
      have := (loop_unique hres hres').2
      subst this
      exact ih o' h2
  | comp op l r n wh rs a b _ _ iha ihb =>
    intro o' h'
    cases h' with
    | comp _ _ _ _ _ _ a' b' ha hb => rw [iha a' ha, ihb b' hb]

/-- **C77** Every arithmetic on leaf metrics has exactly one column, and on every data exactly one
result of `compute_on`. -/
theorem C77_defined (sem : ESem) (t : ET) (ha : t.arith) (rs : List RRow) :
    (∃! c, SqlOf t.globalFilter t [] c) ∧ ∃! o, DfVal sem t rs o := by
  obtain ⟨c, hc⟩ := sqlOf_total t.globalFilter t [] ha
  obtain ⟨o, ho⟩ := dfVal_total sem t rs ha
  exact ⟨⟨c, hc, fun c' h' => (sqlOf_unique _ hc c' h').symm⟩,
    ⟨o, ho, fun o' h' => (dfVal_unique sem ho o' h').symm⟩⟩

/-! ## Where they differ -/

/-- **C77** (violated) The covariance of data in which `x` is missing in one row: `compute_on` gives 0 (the
mean of `y` counts the row), `compute_on_sql` gives 1 (COVAR_POP skips the row). -/
theorem C77_cov_violation : ∃ (rs : List RRow) (c : SqlCol) (o : Option ℝ),
    SqlOf [] (lf (.cov (.base "x") (.base "y") true none none none)) [] c ∧
    DfVal semEx (lf (.cov (.base "x") (.base "y") true none none none)) rs o ∧
    o = some 0 ∧ c.eval semEx (keepRows semEx [] rs) = some 1 := by
  refine ⟨[rowXYW (some 0) (some 0) none, rowXYW (some 2) (some 2) none, rowXYW none (some 4) none],
    .agg2 .covarPop (.base "x") (.base "y") [], ?_⟩
  obtain ⟨o, ho⟩ := dfVal_total semEx (lf (.cov (.base "x") (.base "y") true none none none))
    [rowXYW (some 0) (some 0) none, rowXYW (some 2) (some 2) none, rowXYW none (some 4) none]
    (by intro i h; cases h)
  refine ⟨o, .columns _ _ _ _ _ rfl, ho, ?_, ?_⟩
  · cases ho with
    | native _ _ _ _ f hf => cases hf
    | equivalent _ _ _ _ m res _ _ hres hp =>
      rw [dfVal_elem semEx hp ((C17_complete _ m res hres).1), cov_expands _ _ _ _ _ _ m res hres]
      simp only [ET.step, SLeaf.equiv, covEquiv, covDdof, ET.setTop, ET.val, keepRows_nil, SLeaf.elemVal,
        sumOf, countOf, present, ECol.eval, if_true, List.filterMap_cons, List.filterMap_nil]
      norm_num [EOp.app, rdiv]
  · simp only [SqlCol.eval, keepRows_nil, momPairs, List.all_nil, if_true, ECol.eval, List.filterMap_cons,
      List.filterMap_nil, rowXYW_x, rowXYW_y]
    norm_num [Agg2.eval]
    intro h
    cases h

/-- **C77** (violated) The weighted mean of a column without any value: `compute_on` gives 0 (an empty sum
over the sum of the weights), `compute_on_sql` gives NULL. -/
theorem C77_weighted_mean_violation : ∃ (rs : List RRow) (c : SqlCol) (o : Option ℝ),
    SqlOf [] (lf (.mean (.base "x") (some (.base "w")))) [] c ∧
    DfVal semEx (lf (.mean (.base "x") (some (.base "w")))) rs o ∧
    o = some 0 ∧ c.eval semEx (keepRows semEx [] rs) = none := by
  refine ⟨[rowXYW none none (some 1), rowXYW none none (some 2)],
    .arith .div (.agg1 .sum (.mul (.base "w") (.base "x")) []) (.agg1 .sum (.base "w") []), ?_⟩
  obtain ⟨o, ho⟩ := dfVal_total semEx (lf (.mean (.base "x") (some (.base "w"))))
    [rowXYW none none (some 1), rowXYW none none (some 2)]
    (by intro i h; cases h)
  refine ⟨o, .columns _ _ _ _ _ rfl, ho, ?_, ?_⟩
  · cases ho with
    | native _ _ _ _ f hf => cases hf
    | equivalent _ _ _ _ m res _ _ hres hp =>
      rw [dfVal_elem semEx hp ((C17_complete _ m res hres).1), mean_expands _ _ _ _ m res hres]
      simp only [ET.step, SLeaf.equiv, ET.setTop, ET.val, keepRows_nil, SLeaf.elemVal,
        sumOf, present, ECol.eval, List.filterMap_cons, List.filterMap_nil]
      norm_num [EOp.app, rdiv]
  · simp [SqlCol.eval, momVals, ECol.eval, Agg1.eval, EOp.app, keepRows_nil]

/-! ## Instances -/

/-- StandardDeviation of `x` where `x > 1`, minus Correlation of `x` and `y` where `x > 1`: the filter is
hoisted. -/
noncomputable def exMoments : ET :=
  .comp .sub (.leaf (.sd (.base "x") true none) none [0])
    (.leaf (.corr (.base "x") (.base "y") none) none [0]) none []

/-- The hoisted filter is the shared one, so the columns have no filter of their own. -/
example : exMoments.globalFilter = [0] ∧
    SqlOf [0] exMoments [] (.arith .sub (.agg1 .stddevSamp (.base "x") [])
      (.agg2 .corr (.base "x") (.base "y") [])) :=
  ⟨rfl, .comp _ _ _ _ _ _ _ _ (.columns _ _ _ _ _ rfl) (.columns _ _ _ _ _ rfl)⟩

/-- A case that meets the hypotheses of `C77_agrees_on_all_data`, with a row dropped by the filter and a
row with `y` missing: the values 2, 4, 6 have standard deviation 2, and of the pairs (2, 1), (6, 0) the
correlation is -1. -/
example : ∃ o, DfVal semEx exMoments
      [rowXYW (some 2) (some 1) none, rowXYW (some 1) (some 9) none, rowXYW (some 4) none none,
        rowXYW (some 6) (some 0) none] o ∧ o = some 3 := by
  have ha : exMoments.arith := by
    constructor <;> intro i h <;> cases h
  obtain ⟨o, ho⟩ := dfVal_total semEx exMoments
      [rowXYW (some 2) (some 1) none, rowXYW (some 1) (some 9) none, rowXYW (some 4) none none,
        rowXYW (some 6) (some 0) none] ha
  refine ⟨o, ho, ?_⟩
  rw [← C77_agrees_on_all_data semEx exMoments (by
      intro k hk
      simp only [exMoments, ET.leaves, List.mem_append, List.mem_singleton] at hk
      rcases hk with rfl | rfl <;> trivial) _ _ o
    (.comp _ _ _ _ _ _ _ _ (.columns _ _ _ _ _ rfl) (.columns _ _ _ _ _ rfl)) ho]
  have hk : keepRows semEx exMoments.globalFilter
      [rowXYW (some 2) (some 1) none, rowXYW (some 1) (some 9) none, rowXYW (some 4) none none,
        rowXYW (some 6) (some 0) none]
      = [rowXYW (some 2) (some 1) none, rowXYW (some 4) none none, rowXYW (some 6) (some 0) none] := by
    norm_num [keepRows, semEx, exMoments, ET.globalFilter, ET.isMetric]
  rw [hk]
  have hl : sqlLocal [0] (sqlLocal [] [] exMoments.globalFilter) exMoments.globalFilter = [] := rfl
  simp only [SqlCol.eval, hl, momVals, momPairs, List.all_nil, if_true, ECol.eval, List.filterMap_cons,
    List.filterMap_nil, rowXYW_x, rowXYW_y, Agg1.eval, Agg2.eval, EOp.app]
  norm_num
  rw [show (4 : ℝ) = 2 ^ 2 by norm_num, show (16 : ℝ) = 4 ^ 2 by norm_num, Real.sqrt_sq (by norm_num),
    Real.sqrt_sq (by norm_num)]
  norm_num

/-- A case that meets the hypotheses of `C77_agrees_partial`: a covariance with both columns missing in the
same row, plus a weighted variance. -/
example : (eadd (lf (.cov (.base "x") (.base "y") false none none none))
      (.leaf (.variance (.base "x") true (some (.base "w"))) none [0])).AtLeaves semEx SLeaf.fits
      [rowXYW (some 2) (some 1) (some 3), rowXYW none none (some 1), rowXYW (some 6) (some 0) (some 2)] := by
  simp only [ET.AtLeaves, keepRows_nil]
  constructor
  · simp only [SLeaf.fits]
    rw [if_pos (show covDdof false none = 1 ∨ covDdof false none = 0 from Or.inl rfl)]
    intro r hr
    simp only [List.mem_cons, List.not_mem_nil, or_false] at hr
    rcases hr with rfl | rfl | rfl <;> simp [ECol.eval]
  · refine ⟨rowXYW (some 2) (some 1) (some 3), ?_, ?_⟩
    · rw [mem_keepRows]
      norm_num [semEx]
    · simp [SLeaf.cols, ECol.eval]

end Verif
