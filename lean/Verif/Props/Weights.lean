import Verif.Spec.Weights
import Verif.Props.SqlMoments

/-!
# C100: a weight counts rows
-/

namespace Verif

/-! ## `compute_on` of complete data computes the textbook statistics -/

theorem pdVar_textbook (d : Bool) (rs : List RRow) (x : RRow → ℝ) :
    pdVar (ddofOf d) (rs.map x) = tbVariance rs (fun _ => 1) (if d then 1 else 0) x := by
  have ht : tot rs (fun _ => (1 : ℝ)) = rs.length := by simp [tot]
  have hw : wavg rs (fun _ => 1) x = (rs.map x).sum / rs.length := by simp [wavg, tot]
  unfold pdVar tbVariance crossM
  rw [ht, hw]
  simp only [List.length_map, List.map_map, tot, one_mul]
  cases d with
  | false =>
    simp only [ddofOf, Bool.false_eq_true, if_false, CharP.cast_eq_zero, sub_zero, and_self]
    by_cases h : rs.length ≤ 0
    · rw [if_pos h, if_neg (by simpa using h)]
    · rw [if_neg h, if_pos (by exact_mod_cast Nat.not_le.1 h)]
      congr 3
      apply List.map_congr_left
      intro r _
      simp only [Function.comp_apply]; ring
  | true =>
    simp only [ddofOf, if_true, Nat.cast_one]
    by_cases h : rs.length ≤ 1
    · rw [if_pos h, if_neg]
      rintro ⟨-, h2⟩
      have : (1 : ℝ) < rs.length := by linarith
      exact absurd (by exact_mod_cast this) (Nat.not_lt.2 h)
    · have h1 : (1 : ℝ) < rs.length := by exact_mod_cast Nat.not_le.1 h
      rw [if_neg h, if_pos ⟨by linarith, by linarith⟩]
      congr 3
      apply List.map_congr_left
      intro r _
      simp only [Function.comp_apply]; ring

theorem pdMean_textbook (rs : List RRow) (x : RRow → ℝ) :
    pdMean (rs.map x) = if rs = [] then none else some (tot rs x / nrows rs) := by
  simp [pdMean, tot, nrows]

theorem pairsOf_clean {C W : List String} {rs : List RRow} (h : CleanOn C W rs) (v w : ECol) (hv : ∀ c ∈ v.bases, c ∈ C)
    (hw : ∀ c ∈ w.bases, c ∈ C) : pairsOf v w rs = rs.map fun r => (v.get r, w.get r) := by
  unfold pairsOf
  induction rs with
  | nil => rfl
  | cons r rs ih =>
    obtain ⟨x, hx⟩ := Option.isSome_iff_exists.1 (clean_eval (h r (by simp)).1 v hv)
    obtain ⟨y, hy⟩ := Option.isSome_iff_exists.1 (clean_eval (h r (by simp)).1 w hw)
    rw [List.filterMap_cons, hx, Option.bind_some, hy, Option.map_some, List.map_cons, ih fun r hr => h r (by simp [hr])]
    simp [ECol.get, hx, hy]

theorem pdCorr_textbook (rs : List RRow) (x y : RRow → ℝ) :
    pdCorr (rs.map fun r => (x r, y r)) = tbCorr rs (fun _ => 1) x y := by
  have ht : tot rs (fun _ => (1 : ℝ)) = rs.length := by simp [tot]
  have hw : ∀ z : RRow → ℝ, wavg rs (fun _ => 1) z = (rs.map z).sum / rs.length := by intro z; simp [wavg, tot]
  have hc : ∀ z u : RRow → ℝ, crossM rs (fun _ => 1) z u =
      (rs.map fun r => (z r - (rs.map z).sum / rs.length) * (u r - (rs.map u).sum / rs.length)).sum := by
    intro z u
    simp only [crossM, hw, tot, one_mul]
  have h0 : ∀ z : RRow → ℝ, 0 ≤ crossM rs (fun _ => 1) z z := by
    intro z
    refine tot_nonneg fun r _ => ?_
    rw [one_mul]
    exact mul_self_nonneg _
  unfold pdCorr tbCorr
  simp only [List.map_map, Function.comp_def, List.length_map]
  rw [← hc x x, ← hc y y, ← hc x y, ht, ← Real.sqrt_mul (h0 x)]
  by_cases h : 0 < (rs.length : ℝ) ∧ crossM rs (fun _ => 1) x x ≠ 0 ∧ crossM rs (fun _ => 1) y y ≠ 0
  · rw [if_pos h, if_neg]
    rw [Real.sqrt_eq_zero (mul_nonneg (h0 x) (h0 y))]
    exact mul_ne_zero h.2.1 h.2.2
  · rw [if_neg h, if_pos]
    rw [Real.sqrt_eq_zero (mul_nonneg (h0 x) (h0 y))]
    by_contra hne
    apply h
    refine ⟨?_, left_ne_zero_of_mul hne, right_ne_zero_of_mul hne⟩
    rcases rs with - | ⟨r, rs⟩
    · simp [crossM, tot] at hne
    · simp only [List.length_cons, Nat.cast_add, Nat.cast_one]; positivity

theorem pandas_textbook (sem : ESem) {C W : List String} {rs : List RRow} (h : CleanOn C W rs) (k : SLeaf) (f : List RRow → Option ℝ)
    (hf : k.pandas = some f) (hc : ∀ v ∈ k.cols, ∀ c ∈ v.bases, c ∈ C) : f rs = textbook sem k rs := by
  cases k with
  | sum v =>
    cases hf
    exact elem_textbook sem h (.sum v) rfl hc
  | count v d =>
    cases hf
    exact elem_textbook sem h (.count v d) rfl hc
  | max v =>
    cases hf
    exact elem_textbook sem h (.max v) rfl hc
  | min v =>
    cases hf
    exact elem_textbook sem h (.min v) rfl hc
  | other i => cases hf
  | dot v w nm =>
    have hp := present_clean h (.mul v w) (by
      intro c hcm
      rcases List.mem_append.1 hcm with hcm | hcm
      · exact hc v (by simp [SLeaf.cols]) c hcm
      · exact hc w (by simp [SLeaf.cols]) c hcm)
    have hg : ∀ r ∈ rs, (ECol.mul v w).get r = v.get r * w.get r := by
      intro r hr
      obtain ⟨x, hx⟩ := Option.isSome_iff_exists.1 (clean_eval (h r hr).1 v (hc v (by simp [SLeaf.cols])))
      obtain ⟨y, hy⟩ := Option.isSome_iff_exists.1 (clean_eval (h r hr).1 w (hc w (by simp [SLeaf.cols])))
      simp [ECol.get, ECol.eval, hx, hy]
    rw [List.map_congr_left hg] at hp
    cases nm with
    | true =>
      cases hf
      simp only [textbook]
      rw [hp, pdMean_textbook]
    | false =>
      cases hf
      simp only [textbook, sumOf, tot]
      rw [hp]
  | mean v w =>
    cases w with
    | some w => cases hf
    | none =>
      cases hf
      simp only [textbook]
      rw [present_clean h v (hc v (by simp [SLeaf.cols])), pdMean_textbook]
  | variance v unb w =>
    cases w with
    | some w => cases hf
    | none =>
      cases hf
      simp only [textbook]
      rw [present_clean h v (hc v (by simp [SLeaf.cols])), pdVar_textbook]
      rfl
  | sd v unb w =>
    cases w with
    | some w => cases hf
    | none =>
      cases hf
      simp only [textbook]
      rw [present_clean h v (hc v (by simp [SLeaf.cols])), pdVar_textbook]
      rfl
  | cv v unb =>
    cases hf
    simp only [textbook]
    rw [present_clean h v (hc v (by simp [SLeaf.cols])), pdVar_textbook, pdMean_textbook]
    change EOp.app .div (tbSD rs (fun _ => 1) (if unb then 1 else 0) v.get) _ = _
    by_cases hr : rs = []
    · subst hr
      simp [tbSD, tbVariance, tot, EOp.app]
    · rw [if_neg hr]
      cases tbSD rs (fun _ => 1) (if unb then 1 else 0) v.get with
      | none => rfl
      | some s =>
        have hn : nrows rs ≠ 0 := by simpa [nrows] using hr
        change rdiv s (tot rs v.get / nrows rs) = _
        unfold rdiv
        by_cases ht : tot rs v.get = 0
        · simp [ht]
        · simp [ht, hn]
  | corr v w wt =>
    cases wt with
    | some wt => cases hf
    | none =>
      cases hf
      simp only [textbook]
      rw [pairsOf_clean h v w (hc v (by simp [SLeaf.cols])) (hc w (by simp [SLeaf.cols])), pdCorr_textbook]
      rfl
  | cov v w b d wt fw => cases hf

/-- The same conditions, nothing known about other nodes. -/
def ESem.bare (sem : ESem) : ESem := { sem with node := fun _ _ _ => none }

theorem dfVal_bare {sem : ESem} {t : ET} {rs : List RRow} {o : Option ℝ} (h : DfVal sem t rs o) : DfVal sem.bare t rs o := by
  induction h with
  | const q rs => exact .const q rs
  | native k n wh rs f hf => exact .native k n wh rs f hf
  | equivalent k n wh rs m res o hk hexp _ ih => exact .equivalent k n wh rs m res o hk hexp ih
  | comp op l r n wh rs a b _ _ iha ihb => exact .comp op l r n wh rs a b iha ihb

theorem textbook_bare (sem : ESem) (k : SLeaf) (rs : List RRow) : textbook sem.bare k rs = textbook sem k rs := by
  cases k with
  | count v d => cases d <;> rfl
  | dot v w d => cases d <;> rfl
  | mean v w => cases w <;> rfl
  | _ => rfl

/-- **C77** On data without missing values and with no negative weight, `compute_on` of any arithmetic on the leaf
metrics computes the arithmetic of the textbook statistics of the filtered rows. -/
theorem C77_textbook (sem : ESem) (C W : List String) {t : ET} {rs : List RRow} {o : Option ℝ} (h : DfVal sem t rs o)
    (ht : t.reads C W) (hc : CleanOn C W rs) : o = t.val sem (textbook sem) rs := by
  induction h with
  | const q rs => simp [ET.val]
  | native k n wh rs f hf =>
    rw [pandas_textbook sem (hc.keep sem wh) k f hf (ht k (by simp [ET.leaves])).1]
    simp only [ET.val]
  | equivalent k n wh rs m res o hk hexp hd ih =>
    have hfix := (C17_complete _ _ _ hexp).1
    have hel := dfVal_elem sem.bare (dfVal_bare hd) hfix
    rw [hel, C18_expansion_value sem.bare C W (fun _ _ _ _ _ _ => rfl) (.leaf k n wh) ht m res hexp _ (hc.keep sem wh)]
    simp only [ET.val]
    change textbook sem.bare k (keepRows sem wh (keepRows sem wh rs)) = _
    rw [keepRows_idem, textbook_bare]
  | comp op l r n wh rs a b _ _ iha ihb =>
    have hl : l.reads C W := fun k hk => ht k (by simp [ET.leaves, hk])
    have hr : r.reads C W := fun k hk => ht k (by simp [ET.leaves, hk])
    rw [iha hl (hc.keep sem wh), ihb hr (hc.keep sem wh)]
    simp [ET.val]

/-! ## Repeated rows -/

theorem tot_repeated (n : RRow → ℕ) (rs : List RRow) (f : RRow → ℝ) :
    tot (repeated n rs) f = tot rs fun r => (n r : ℝ) * f r := by
  unfold tot repeated
  induction rs with
  | nil => rfl
  | cons r rs ih =>
    rw [List.flatMap_cons, List.map_append, List.sum_append, ih, List.map_replicate, List.sum_replicate, nsmul_eq_mul,
      List.map_cons, List.sum_cons]

theorem keepRows_repeated (sem : ESem) (wh : List Nat) (n : RRow → ℕ) (rs : List RRow) :
    keepRows sem wh (repeated n rs) = repeated n (keepRows sem wh rs) := by
  unfold keepRows repeated
  induction rs with
  | nil => rfl
  | cons r rs ih =>
    rw [List.flatMap_cons, List.filter_append, ih, List.filter_cons]
    by_cases h : (wh.all fun i => sem.cond i r) = true
    · rw [if_pos h, List.flatMap_cons, List.filter_replicate, if_pos h]
    · rw [if_neg h, List.filter_replicate, if_neg h, List.nil_append]

theorem tot_congr' {rs : List RRow} {f g : RRow → ℝ} (h : ∀ r ∈ rs, f r = g r) : tot rs f = tot rs g := by
  unfold tot
  rw [List.map_congr_left h]

theorem mem_repeated {α : Type} {n : α → ℕ} {rs : List α} {r : α} (h : r ∈ repeated n rs) : r ∈ rs := by
  obtain ⟨s, hs, hr⟩ := List.mem_flatMap.1 h
  rw [List.mem_replicate] at hr
  exact hr.2 ▸ hs

section
variable {n : RRow → ℕ} {rs : List RRow} {w : ECol}

theorem wavg_repeated (a : RRow → ℝ) (x : RRow → ℝ) :
    wavg (repeated n rs) a x = wavg rs (fun r => (n r : ℝ) * a r) x := by
  unfold wavg
  rw [tot_repeated, tot_repeated]
  congr 1
  exact tot_congr' fun r _ => by ring

theorem crossM_repeated (a x y : RRow → ℝ) :
    crossM (repeated n rs) a x y = crossM rs (fun r => (n r : ℝ) * a r) x y := by
  unfold crossM
  rw [tot_repeated, wavg_repeated, wavg_repeated]
  exact tot_congr' fun r _ => by ring

theorem wavg_congr' {a b x : RRow → ℝ} (h : ∀ r ∈ rs, a r = b r) : wavg rs a x = wavg rs b x := by
  unfold wavg
  rw [tot_congr' h, tot_congr' fun r hr => by rw [h r hr]]

theorem crossM_congr' {a b x y : RRow → ℝ} (h : ∀ r ∈ rs, a r = b r) : crossM rs a x y = crossM rs b x y := by
  unfold crossM
  rw [wavg_congr' h, wavg_congr' h, tot_congr' fun r hr => by rw [h r hr]]

theorem repeated_eq_nil : repeated n rs = [] ↔ tot rs (fun r => (n r : ℝ)) = 0 := by
  have : tot rs (fun r => (n r : ℝ)) = ((repeated n rs).length : ℝ) := by
    have := tot_repeated n rs fun _ => 1
    simp only [mul_one] at this
    rw [← this]
    simp [tot]
  rw [this]
  simp

/-- A leaf with the weight and the leaf without it on the repeated rows have the same textbook value. -/
theorem textbook_repeated (sem : ESem) {k k' : SLeaf} (hk : WithoutWeight w k k') (hn : ∀ r ∈ rs, w.eval r = some (n r : ℝ)) :
    textbook sem k' (repeated n rs) = textbook sem k rs := by
  have hg : ∀ r ∈ rs, (n r : ℝ) = w.get r := fun r hr => by simp [ECol.get, hn r hr]
  have hg1 : ∀ r ∈ rs, (n r : ℝ) * 1 = w.get r := fun r hr => by rw [mul_one, hg r hr]
  have htot : tot (repeated n rs) (fun _ => 1) = tot rs w.get := by rw [tot_repeated]; exact tot_congr' hg1
  have hrow : nrows (repeated n rs) = tot rs w.get := by
    rw [← htot]; simp [tot, nrows]
  have hcr : ∀ x y, crossM (repeated n rs) (fun _ => 1) x y = crossM rs w.get x y := fun x y => by
    rw [crossM_repeated]; exact crossM_congr' hg1
  have hn0 : wt? none = fun _ => (1 : ℝ) := rfl
  have hs0 : ∀ u, wt? (some u) = u.get := fun _ => rfl
  cases hk with
  | mean v =>
    simp only [textbook]
    rw [hrow, tot_repeated]
    have : repeated n rs = [] ↔ tot rs w.get = 0 := by rw [repeated_eq_nil, tot_congr' hg]
    have e : (tot rs fun r => (n r : ℝ) * v.get r) = tot rs fun r => w.get r * v.get r :=
      tot_congr' fun r hr => by rw [hg r hr]
    simp only [this, wavg]
    rw [e]
  | variance v unb =>
    simp only [textbook, tbVariance, hn0, hs0]
    rw [htot, hcr]
  | sd v unb =>
    simp only [textbook, tbSD, tbVariance, hn0, hs0]
    rw [htot, hcr]
  | corr v u =>
    simp only [textbook, tbCorr, hn0, hs0]
    rw [htot, hcr, hcr, hcr]
  | cov v u b d a =>
    simp only [textbook, tbCov, hn0, hs0]
    have e1 : tot (repeated n rs) (fun r => 1 * wt? a r) = tot rs fun r => w.get r * wt? a r := by
      rw [tot_repeated]; exact tot_congr' fun r hr => by rw [hg r hr, one_mul]
    have e2 : tot (repeated n rs) (fun r => 1 * wt? a r * wt? a r) = tot rs fun r => w.get r * wt? a r * wt? a r := by
      rw [tot_repeated]; exact tot_congr' fun r hr => by rw [hg r hr]; ring
    have e3 : crossM (repeated n rs) (fun r => 1 * wt? a r) v.get u.get = crossM rs (fun r => w.get r * wt? a r) v.get u.get := by
      rw [crossM_repeated]; exact crossM_congr' fun r hr => by rw [hg r hr, one_mul]
    rw [e1, e2, e3]
  | dot v =>
    simp only [textbook]
    rw [tot_repeated]
    exact congrArg some (tot_congr' fun r hr => by rw [hg r hr, mul_comm])
  | total =>
    simp only [textbook]
    rw [hrow]
end

theorem val_repeated (sem : ESem) {w : ECol} {t t' : ET} (ht : TreeWithoutWeight w t t') : ∀ (n : RRow → ℕ) (rs : List RRow),
    (∀ r ∈ rs, w.eval r = some (n r : ℝ)) → t'.val sem (textbook sem) (repeated n rs) = t.val sem (textbook sem) rs := by
  induction ht with
  | const q => intro n rs _; simp [ET.val]
  | leaf nm nm' wh hk =>
    intro n rs hn
    simp only [ET.val]
    rw [keepRows_repeated]
    exact textbook_repeated sem hk fun r hr => hn r (List.mem_of_mem_filter hr)
  | comp op nm nm' wh _ _ ihl ihr =>
    intro n rs hn
    simp only [ET.val]
    have hk : ∀ r ∈ keepRows sem wh rs, w.eval r = some (n r : ℝ) := fun r hr => hn r (List.mem_of_mem_filter hr)
    rw [keepRows_repeated, ihl n _ hk, ihr n _ hk]

theorem reads_without {w : ECol} {t t' : ET} (h : TreeWithoutWeight w t t') {C W : List String} : t.reads C W → t'.reads C W := by
  induction h with
  | const q => exact id
  | leaf n n' wh hk =>
    intro ht k hm
    simp only [ET.leaves, List.mem_singleton] at hm
    subst hm
    have := ht _ (show _ ∈ _ from List.mem_singleton_self _)
    cases hk <;> simp only [SLeaf.cols, SLeaf.weights, Option.toList, List.mem_cons, List.mem_append, List.not_mem_nil, or_false,
      forall_eq_or_imp, forall_eq, IsEmpty.forall_iff, implies_true, and_true, false_or] at this ⊢ <;> tauto
  | comp op n n' wh _ _ ihl ihr =>
    intro ht k hm
    rcases List.mem_append.1 (by simpa only [ET.leaves] using hm) with hm | hm
    · exact ihl (fun k hk => ht k (by simp [ET.leaves, hk])) k hm
    · exact ihr (fun k hk => ht k (by simp [ET.leaves, hk])) k hm

/-- **C100** (partial) If the weights are numbers of rows, then the weighted metric of the data is the metric
without the weight of the data in which every row is there as often as its weight says (not at all for 0): for Mean, Variance,
StandardDeviation, Correlation, the frequency weights of Cov (with or without observation weights), Dot (as a Sum)
and the sum of the weights (as a Count), and any arithmetic on them with filters anywhere. Missing: data with missing
values and Quantile, for which it is false (below). -/
theorem C100_weights_partial (sem : ESem) (C W : List String) (w : ECol) (t t' : ET) (ht : TreeWithoutWeight w t t')
    (hr : t.reads C W) (rs : List RRow) (hc : CleanOn C W rs) (n : RRow → ℕ) (hn : ∀ r ∈ rs, w.eval r = some (n r : ℝ))
    (o o' : Option ℝ) (ho : DfVal sem t rs o) (ho' : DfVal sem t' (repeated n rs) o') : o' = o := by
  rw [C77_textbook sem C W ho hr hc,
    C77_textbook sem C W ho' (reads_without ht hr) fun r hr => hc r (mem_repeated hr)]
  exact val_repeated sem ht n rs hn

/-- **C100** (partial) The same of the queries, on data with something to add up. -/
theorem C100_weights_sql_partial (sem : ESem) (C W : List String) (w : ECol) (t t' : ET) (ht : TreeWithoutWeight w t t')
    (hr : t.reads C W) (ha : t.arith) (ha' : t'.arith) (rs : List RRow) (hc : CleanOn C W rs) (n : RRow → ℕ)
    (hn : ∀ r ∈ rs, w.eval r = some (n r : ℝ)) (c c' : SqlCol) (hs : SqlOf t.globalFilter t [] c)
    (hs' : SqlOf t'.globalFilter t' [] c') (hf : t.AtLeaves sem SLeaf.fits rs)
    (hf' : t'.AtLeaves sem SLeaf.fits (repeated n rs)) :
    c'.eval sem (keepRows sem t'.globalFilter (repeated n rs)) = c.eval sem (keepRows sem t.globalFilter rs) := by
  obtain ⟨o, ho⟩ := dfVal_total sem t rs ha
  obtain ⟨o', ho'⟩ := dfVal_total sem t' (repeated n rs) ha'
  rw [C77_agrees_partial sem t rs c o hs ho hf, C77_agrees_partial sem t' _ c' o' hs' ho' hf']
  exact C100_weights_partial sem C W w t t' ht hr rs hc n hn o o' ho ho'

/-- **C100** (violated) With a missing value: the mean of 1 and a missing value, each with weight 1, is 1/2 and not 1, because the
weight of the missing value is counted. -/
theorem C100_missing_violation : ∃ (rs : List RRow) (n : RRow → ℕ), (∀ r ∈ rs, (ECol.base "w").eval r = some (n r : ℝ)) ∧
    DfVal semEx (lf (.mean (.base "x") (some (.base "w")))) rs (some (1 / 2)) ∧
    DfVal semEx (lf (.mean (.base "x") none)) (repeated n rs) (some 1) := by
  refine ⟨[rowXYW (some 1) none (some 1), rowXYW none none (some 1)], fun _ => 1, ?_, ?_, ?_⟩
  · intro r hr
    simp only [List.mem_cons, List.not_mem_nil, or_false] at hr
    rcases hr with rfl | rfl <;> simp [ECol.eval]
  · obtain ⟨o, ho⟩ := dfVal_total semEx (lf (.mean (.base "x") (some (.base "w"))))
      [rowXYW (some 1) none (some 1), rowXYW none none (some 1)] (by intro i h; cases h)
    have : o = some (1 / 2) := by
      cases ho with
      | native _ _ _ _ f hf => cases hf
      | equivalent _ _ _ _ m res _ _ hres hp =>
        rw [dfVal_elem semEx hp ((C17_complete _ m res hres).1), mean_expands _ _ _ _ m res hres]
        simp only [ET.step, SLeaf.equiv, ET.setTop, ET.val, keepRows_nil, SLeaf.elemVal,
          sumOf, present, ECol.eval, List.filterMap_cons, List.filterMap_nil]
        norm_num [EOp.app, rdiv]
    exact this ▸ ho
  · have := DfVal.native (sem := semEx) (.mean (.base "x") none) none [] (repeated (fun _ => 1) [rowXYW (some 1) none (some 1), rowXYW none none (some 1)]) _ rfl
    have e : pdMean (present (.base "x") (keepRows semEx [] (repeated (fun _ => 1)
        [rowXYW (some 1) none (some 1), rowXYW none none (some 1)]))) = some 1 := by
      simp [repeated, keepRows_nil, present, ECol.eval, pdMean, List.filterMap_cons]
    rw [e] at this
    exact this

/-- A case that meets the hypotheses of `C100_weights_partial`: the weighted variance of 1 (three times) and 5 (once), less
the weighted mean. -/
example : ∃ (rs : List RRow) (n : RRow → ℕ) (t t' : ET), TreeWithoutWeight (.base "w") t t' ∧ t.reads ["x", "w"] ["w"] ∧
    CleanOn ["x", "w"] ["w"] rs ∧ (∀ r ∈ rs, (ECol.base "w").eval r = some (n r : ℝ)) ∧ (repeated n rs).length = 4 ∧
    t'.val semEx (textbook semEx) (repeated n rs) = some 2 := by
  refine ⟨[rowXYW (some 1) none (some 3), rowXYW (some 5) none (some 1)], fun r => if r "w" = some 3 then 3 else 1,
    .comp .sub (.leaf (.variance (.base "x") true (some (.base "w"))) none []) (.leaf (.mean (.base "x") (some (.base "w"))) none []) none [],
    .comp .sub (.leaf (.variance (.base "x") true none) none []) (.leaf (.mean (.base "x") none) none []) none [],
    .comp _ _ _ _ (.leaf _ _ _ (.variance _ _)) (.leaf _ _ _ (.mean _)), ?_, ?_, ?_, ?_, ?_⟩
  · intro k hk
    simp only [ET.leaves, List.mem_append, List.mem_singleton] at hk
    rcases hk with rfl | rfl <;> simp [SLeaf.cols, SLeaf.weights, ECol.bases]
  · intro r hr
    simp only [List.mem_cons, List.not_mem_nil, or_false] at hr
    rcases hr with rfl | rfl <;> simp
  · intro r hr
    simp only [List.mem_cons, List.not_mem_nil, or_false] at hr
    rcases hr with rfl | rfl <;> simp [ECol.eval]
  · simp [repeated]
  · have : (1 : ℝ) ≠ 3 := by norm_num
    simp [repeated, ET.val, textbook, tbVariance, crossM, tot, wavg, wt?, keepRows_nil, ECol.get, ECol.eval, EOp.app, nrows, this, List.replicate]
    norm_num

end Verif
