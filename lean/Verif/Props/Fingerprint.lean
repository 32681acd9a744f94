import Verif.Lemmas.Fingerprint
import Verif.Spec.ElasticNet
import Verif.Props.Expand

/-!
# C74: which arguments of a metric are part of its place in the cache
-/

namespace Verif

open Fp

/-- **C74** (partial) Two metrics have the same slot exactly if they are the same after the rewritings `canon` lists. So every
other argument of every built-in class (weights, degrees of freedom, quantiles, baselines, strata, units, confidence levels,
replicates, penalties, ...), at every depth of the tree, tells two metrics apart. -/
theorem C74_slot_exact_partial (m m' : Built) : slot m = slot m' ↔ m.canon = m'.canon :=
  ⟨fun h => slot_inj _ _ (isCanon_canon m) (isCanon_canon m') (by rw [slot_canon, slot_canon, h]),
    fun h => by rw [← slot_canon m, ← slot_canon m', h]⟩

/-- For simple metrics: the same arguments, and the same filters in any order. -/
theorem C74_simple (k k' : Leaf) (wh wh' : List String) (l l' : Look) :
    slot (.leaf k wh l) = slot (.leaf k' wh' l') ↔ k.canon = k'.canon ∧ wh.Perm wh' := by
  rw [C74_slot_exact_partial]
  simp only [Built.canon, Built.leaf.injEq, and_true]
  refine and_congr_right fun _ => ⟨fun h => ?_, fun h => ?_⟩
  · exact (List.perm_insertionSort (· ≤ ·) wh).symm.trans (h ▸ List.perm_insertionSort (· ≤ ·) wh')
  · exact List.Perm.eq_of_pairwise (le := (· ≤ ·)) (fun _ _ _ _ h h' => le_antisymm h h')
      (List.pairwise_insertionSort (· ≤ ·) wh) (List.pairwise_insertionSort (· ≤ ·) wh')
      ((List.perm_insertionSort (· ≤ ·) wh).trans (h.trans (List.perm_insertionSort (· ≤ ·) wh').symm))

/-- For operations: the same arguments, the same child up to the rewritings, the same filters. -/
theorem C74_operation (k k' : Op) (c c' : Built) (wh wh' : List String) (l l' : Look) :
    slot (.op k c wh l) = slot (.op k' c' wh' l') ↔ k = k' ∧ slot c = slot c' ∧ wh.Perm wh' := by
  rw [C74_slot_exact_partial, C74_slot_exact_partial]
  simp only [Built.canon, Built.op.injEq, and_true]
  refine and_congr_right fun _ => and_congr_right fun _ => ⟨fun h => ?_, fun h => ?_⟩
  · exact (List.perm_insertionSort (· ≤ ·) wh).symm.trans (h ▸ List.perm_insertionSort (· ≤ ·) wh')
  · exact List.Perm.eq_of_pairwise (le := (· ≤ ·)) (fun _ _ _ _ h h' => le_antisymm h h')
      (List.pairwise_insertionSort (· ≤ ·) wh) (List.pairwise_insertionSort (· ≤ ·) wh')
      ((List.perm_insertionSort (· ≤ ·) wh).trans (h.trans (List.perm_insertionSort (· ≤ ·) wh').symm))

/-- Different slots and equal slots both occur. -/
example : slot (.leaf (.mean "x" (some "w")) ["a", "b"] {}) = slot (.leaf (.mean "x" (some "w")) ["b", "a"] {name := some "m"}) ∧
    slot (.leaf (.mean "x" (some "w")) [] {}) ≠ slot (.leaf (.mean "x" none) [] {}) ∧
    slot (.leaf (.nth "x" (-1) "t" true false) [] {}) = slot (.leaf (.nth "x" 0 "t" false false) [] {}) ∧
    slot (quotient (.leaf (.sum "x") [] {}) (.leaf (.count "x" false) [] {})) = slot (.leaf (.mean "x" none) [] {}) ∧
    slot (.op (.bootstrap none 100 none) (.leaf (.sum "x") [] {}) [] {}) ≠
      slot (.op (.bootstrap none 1000 none) (.leaf (.sum "x") [] {}) [] {}) := by
  refine ⟨?_, ?_, ?_, ?_, ?_⟩
  · rw [C74_simple]; exact ⟨rfl, List.Perm.swap _ _ _⟩
  · rw [Ne, C74_simple]; simp [Leaf.canon]
  · rw [C74_simple]; exact ⟨rfl, List.Perm.nil⟩
  · rw [C74_slot_exact_partial]; simp [quotient, Built.canon, Leaf.canon, canonComp]
  · rw [Ne, C74_operation]; simp

/-! ## Arguments that matter and are not part of the slot -/

/-- A lasso fit: `b` and `w` make the objective smallest among the coefficients that are allowed. -/
def IsLasso (positive : Bool) (k : ℕ) (alpha : ℝ) (rows : List RegRow) (b : ℝ) (w : ℕ → ℝ) : Prop :=
  (positive → ∀ i < k, 0 ≤ w i) ∧
    ∀ b' w', (positive → ∀ i < k, 0 ≤ w' i) → skEnet k alpha 1 rows b w ≤ skEnet k alpha 1 rows b' w'

/-- **C74** (violated) `positive` of Lasso (and of ElasticNet) is not part of the slot, although the fits differ. -/
theorem C74_positive_violation :
    (∀ k g y x (hid : Hidden) wh look, slot (.model k g y x {hid with positive := true} wh look) =
      slot (.model k g y x {hid with positive := false} wh look)) ∧
    ∃ rows : List RegRow, (∃ b w, IsLasso true 1 1 rows b w) ∧ (∃ b w, IsLasso false 1 1 rows b w) ∧
      ∀ b w b' w', IsLasso true 1 1 rows b w → IsLasso false 1 1 rows b' w' → w 0 ≠ w' 0 := by
  refine ⟨fun k g y x hid wh look => (slot_model ..).trans (slot_model ..).symm, ?_⟩
  let rows : List RegRow := [⟨-4, fun _ => 1⟩, ⟨4, fun _ => -1⟩]
  have loss : ∀ b w, skEnet 1 1 1 rows b w = b ^ 2 / 2 + (4 + w 0) ^ 2 / 2 + |w 0| := by
    intro b w
    simp [skEnet, rows, predict]
    ring
  refine ⟨rows, ⟨0, fun _ => 0, fun _ _ _ => le_rfl, fun b' w' h => ?_⟩, ⟨0, fun _ => -3, by simp, fun b' w' _ => ?_⟩,
    fun b w b' w' h h' e => ?_⟩
  · have h0 := h rfl 0 (by norm_num)
    rw [loss, loss, abs_of_nonneg h0]
    norm_num
    nlinarith [sq_nonneg b', sq_nonneg (w' 0)]
  · rw [loss, loss]
    norm_num
    rcases abs_cases (w' 0) with ⟨ha, _⟩ | ⟨ha, _⟩ <;> rw [ha] <;> nlinarith [sq_nonneg b', sq_nonneg (w' 0 + 3)]
  · have h0 := h.1 rfl 0 (by norm_num)
    have := h'.2 0 (fun _ => -3) (by simp)
    rw [loss, loss, ← e, abs_of_nonneg h0] at this
    norm_num at this
    nlinarith [sq_nonneg b', sq_nonneg (w 0)]

/-- **C74** (violated) `Cov(x, y)` and `Cov(y, x)` have one slot, but if values are missing their values differ: the mean of a
product is corrected with the number of values of the first variable. -/
theorem C74_cov_order_violation :
    slot (.leaf (.cov "x" "y" false none none none) [] {}) = slot (.leaf (.cov "y" "x" false none none none) [] {}) ∧
    ∃ rs : List RRow, ∀ n res n' res',
      Expands (lf (.cov (.base "x") (.base "y") false none none none)) n res →
      Expands (lf (.cov (.base "y") (.base "x") false none none none)) n' res' →
      res.val semEx (fun k => k.elemVal semEx) rs ≠ res'.val semEx (fun k => k.elemVal semEx) rs := by
  refine ⟨by rw [C74_simple]; exact ⟨rfl, List.Perm.nil⟩,
    [rowXYW (some 1) (some 1) none, rowXYW (some 2) (some 3) none, rowXYW none (some 5) none], fun n res n' res' h h' => ?_⟩
  have hres : res = (lf (.cov (.base "x") (.base "y") false none none none)).step.step := by
    refine (loop_unique h (m' := 2) ?_).2
    refine .body _ _ _ 1 ?_ (.body _ _ _ 0 ?_ ?_)
    · intro h; cases h
    · intro h; cases h
    · have := fixed_of_rank_zero
        (lf (.cov (.base "x") (.base "y") false none none none)).step.step (by decide)
      rw [this]
      exact .stop _
  have hres' : res' = (lf (.cov (.base "y") (.base "x") false none none none)).step.step := by
    refine (loop_unique h' (m' := 2) ?_).2
    refine .body _ _ _ 1 ?_ (.body _ _ _ 0 ?_ ?_)
    · intro h; cases h
    · intro h; cases h
    · have := fixed_of_rank_zero
        (lf (.cov (.base "y") (.base "x") false none none none)).step.step (by decide)
      rw [this]
      exact .stop _
  have e1 : res.val semEx (fun k => k.elemVal semEx)
      [rowXYW (some 1) (some 1) none, rowXYW (some 2) (some 3) none, rowXYW none (some 5) none] = some (-2) := by
    have e : (lf (.cov (.base "x") (.base "y") false none none none)).step.step =
        ediv (esub (ediv (lf (.sum (.mul (.base "x") (.base "y")))) (lf (.count (.mul (.base "x") (.base "y")) false)))
          (emul (ediv (lf (.sum (.base "x"))) (lf (.count (.base "x") false)))
            (ediv (lf (.sum (.base "y"))) (lf (.count (.base "y") false)))))
          (sqrtSq (esub (.const 1) (ediv (.const 1) (lf (.count (.base "x") false))))) := by rfl
    rw [hres, e, ediv, val_comp, val_sqrtSq]
    simp only [esub, emul, ediv, lf, ET.val, keepRows_nil, SLeaf.elemVal,
      sumOf, countOf, present, ECol.eval, if_true, List.filterMap_cons, List.filterMap_nil]
    norm_num [EOp.app, rdiv]
  have e2 : res'.val semEx (fun k => k.elemVal semEx)
      [rowXYW (some 1) (some 1) none, rowXYW (some 2) (some 3) none, rowXYW none (some 5) none] = some (-3 / 2) := by
    have e : (lf (.cov (.base "y") (.base "x") false none none none)).step.step =
        ediv (esub (ediv (lf (.sum (.mul (.base "y") (.base "x")))) (lf (.count (.mul (.base "y") (.base "x")) false)))
          (emul (ediv (lf (.sum (.base "y"))) (lf (.count (.base "y") false)))
            (ediv (lf (.sum (.base "x"))) (lf (.count (.base "x") false)))))
          (sqrtSq (esub (.const 1) (ediv (.const 1) (lf (.count (.base "y") false))))) := by rfl
    rw [hres', e, ediv, val_comp, val_sqrtSq]
    simp only [esub, emul, ediv, lf, ET.val, keepRows_nil, SLeaf.elemVal,
      sumOf, countOf, present, ECol.eval, if_true, List.filterMap_cons, List.filterMap_nil]
    norm_num [EOp.app, rdiv]
  rw [e1, e2]
  norm_num

/-- **C74** (violated) The function of a CompositeMetric, the names its columns are given, and the column names and template of a
MetricList are not part of the slot. -/
theorem C74_functions_and_names_violation (a b : Built) (t : String) (cs : List Built) (wh : List String) :
    slot (.comp (· + ·) t a b wh {}) = slot (.comp (· * ·) t a b wh {}) ∧
    slot (.comp (· + ·) t a b wh {rename := some ["p"]}) = slot (.comp (· + ·) t a b wh {rename := some ["q"]}) ∧
    slot (.list cs wh {rename := some ["p"]}) = slot (.list cs wh {rename := some ["q"]}) ∧
    slot (.list cs wh {nameTmpl := some "p {}"}) = slot (.list cs wh {nameTmpl := some "q {}"}) := by
  simp only [C74_slot_exact_partial, Built.canon, and_self]

end Verif
