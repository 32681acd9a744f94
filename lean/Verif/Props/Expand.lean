import Verif.Lemmas.ExpandVal

/-!
# C17 Expansion into elementary metrics terminates and is complete
# C18 Expansion preserves values
# C19 Covariance of data with missing values uses complete pairs
-/

namespace Verif

/-- **C17** The expansion loop stops for every metric tree, after at most six rounds. -/
theorem C17_terminates (t : ET) : ∃ n res, n ≤ 6 ∧ Expands t n res :=
  loop_total 6 t (maxRank_le.2 fun k _ => rank_le k)

/-- **C17** Its result is determined by the tree. -/
theorem C17_deterministic (t : ET) (n n' : Nat) (res res' : ET) (h : Expands t n res)
    (h' : Expands t n' res') : n = n' ∧ res = res' := loop_unique h h'

/-- **C17** In the result every leaf is a Sum, Count, Max, Min or another metric without equivalent,
and expanding again changes nothing. -/
theorem C17_complete (t : ET) (n : Nat) (res : ET) (h : Expands t n res) :
    (∀ k ∈ res.leaves, k.elementary) ∧ Expands res 0 res := by
  obtain ⟨_, hf⟩ := loop_inv (fun _ => True) (fun _ _ => trivial) h trivial
  refine ⟨fun k hk => ?_, ?_⟩
  · rw [← rank_elementary, ← equiv_none]
    exact (step_fixed res).1 hf k hk
  · unfold Expands
    rw [hf]
    exact .stop res

/-- **C17** A tree whose leaves are all elementary is its own expansion, and no other is. -/
theorem C17_fixed (t : ET) : Expands t 0 t ↔ ∀ k ∈ t.leaves, k.elementary := by
  have key : (∀ k ∈ t.leaves, k.elementary) ↔ t.step = t := by
    rw [step_fixed]
    constructor <;> intro h k hk
    · rw [equiv_none, rank_elementary]; exact h k hk
    · rw [← rank_elementary, ← equiv_none]; exact h k hk
  rw [key]
  constructor
  · intro h
    exact (loop_inv (fun _ => True) (fun _ _ => trivial) h trivial).2
  · intro h
    unfold Expands
    rw [h]
    exact .stop t

/-- **C18** On every data set without missing values in the columns `C` the tree reads and without
negative weights, the expanded tree, computed from Sum, Count, Max and Min alone, has the value of the
original tree with every Mean, Dot, Variance, StandardDeviation, CV, Cov and Correlation having its
textbook value; undefined exactly when that is. -/
theorem C18_expansion_value (sem : ESem) (C W : List String) (hn : NodesExtensional sem C W)
    (t : ET) (ht : t.reads C W) (n : Nat) (res : ET) (h : Expands t n res) (rs : List RRow)
    (hc : CleanOn C W rs) :
    res.val sem (fun k => k.elemVal sem) rs = t.val sem (textbook sem) rs := by
  obtain ⟨⟨hr, hv⟩, hf⟩ := loop_inv
    (fun s => s.reads C W ∧
      ∀ rs, CleanOn C W rs → s.val sem (textbook sem) rs = t.val sem (textbook sem) rs)
    (fun s hs => ⟨reads_step C W s hs.1, fun rs hc =>
      (val_step sem C W hn s hs.1 rs hc).trans (hs.2 rs hc)⟩) h ⟨ht, fun _ _ => rfl⟩
  rw [← hv rs hc]
  apply val_congr sem C W hn _ _ res _ rs hc
  intro k hk rs' hc'
  exact elem_textbook sem hc' k ((step_fixed res).1 hf k hk) (hr k hk).1

/-- **C18** A single statistic: its full expansion computes the textbook statistic of the filtered
rows. -/
theorem C18_statistic (sem : ESem) (C W : List String) (hn : NodesExtensional sem C W)
    (k : SLeaf) (name : Option String) (wh : List Nat)
    (hk : (ET.leaf k name wh).reads C W) (n : Nat) (res : ET)
    (h : Expands (.leaf k name wh) n res) (rs : List RRow) (hc : CleanOn C W rs) :
    res.val sem (fun k => k.elemVal sem) rs
      = textbook sem k (rs.filter fun r => wh.all fun i => sem.cond i r) := by
  rw [C18_expansion_value sem C W hn _ hk n res h rs hc]
  simp only [ET.val, keepRows]

/-- **C18** The arithmetic of the trees, on the rows that pass the filter of the composite: `+`, `-`, `*`, negation and division of the
values, where dividing by zero and missing operands give a missing value. -/
theorem C18_arithmetic (sem : ESem) (lv : SLeaf → List RRow → Option ℝ) (l r : ET) (name : Option String) (wh : List Nat)
    (rs : List RRow) :
    let kept := rs.filter fun row => wh.all fun i => sem.cond i row
    (∀ a b, l.val sem lv kept = some a → r.val sem lv kept = some b →
      (ET.comp .add l r name wh).val sem lv rs = some (a + b) ∧ (ET.comp .sub l r name wh).val sem lv rs = some (a - b) ∧
      (ET.comp .mul l r name wh).val sem lv rs = some (a * b) ∧ (ET.comp .neg l r name wh).val sem lv rs = some (-a) ∧
      (b ≠ 0 → (ET.comp .div l r name wh).val sem lv rs = some (a / b)) ∧
      (b = 0 → (ET.comp .div l r name wh).val sem lv rs = none)) ∧
    ((l.val sem lv kept = none ∨ r.val sem lv kept = none) → ∀ op, (ET.comp op l r name wh).val sem lv rs = none) := by
  refine ⟨fun a b ha hb => ?_, fun h op => ?_⟩
  · simp only [ET.val, keepRows, ha, hb, EOp.app, Option.bind_some, rdiv, true_and]
    exact ⟨fun h => if_neg h, fun h => if_pos h⟩
  · simp only [ET.val, keepRows, EOp.app]
    rcases h with h | h <;> rw [h]
    · rfl
    · cases l.val sem lv (List.filter (fun r => wh.all fun i => sem.cond i r) rs) <;> rfl

/-- **C18** The expanded tree keeps the name and the filter. -/
theorem C18_name_and_filter_kept (t : ET) (n : Nat) (res : ET) (h : Expands t n res) :
    res.nameOf = t.nameOf ∧ res.whereOf = t.whereOf :=
  (loop_inv (fun s => s.nameOf = t.nameOf ∧ s.whereOf = t.whereOf)
    (fun s hs => ⟨(top_step s).1.trans hs.1, (top_step s).2.trans hs.2⟩) h ⟨rfl, rfl⟩).1


/-! ### The hypotheses are met -/

/-- A row with columns x, y, w. -/
def rowXYW (x y w : Option ℝ) : RRow := fun c =>
  if c = "x" then x else if c = "y" then y else if c = "w" then w else none

@[simp] theorem rowXYW_x (x y w : Option ℝ) : rowXYW x y w "x" = x := rfl
@[simp] theorem rowXYW_y (x y w : Option ℝ) : rowXYW x y w "y" = y := rfl
@[simp] theorem rowXYW_w (x y w : Option ℝ) : rowXYW x y w "w" = w := rfl

/-- Meaning of what is left open: condition 0 is `x > 1`, the others hold; an operation
hands through the value of its first child on all rows but the first
(as leave-one-out does). -/
noncomputable def semEx : ESem where
  cond i r := by
    classical exact if i = 0 then decide (∃ v, r "x" = some v ∧ 1 < v) else true
  other _ _ := none
  node _ fs rs := fs.head?.bind fun f => f rs.tail

theorem semEx_ext (C W : List String) : NodesExtensional semEx C W := by
  intro tag fs gs h rs hc
  cases h with
  | nil => rfl
  | cons hfg _ =>
    simp only [semEx, List.head?_cons, Option.bind_some]
    exact hfg _ fun r hr => hc r (List.mem_of_mem_tail hr)

/-- The variance of `x` over the rows with `x > 1` (5 and 9) is 8, through the expansion; the
data also has weights and a filtered row, and all hypotheses of C18 hold. -/
example : ∃ n res, Expands (.leaf (.variance (.base "x") true none) (some "v") [0]) n res ∧
    res.nameOf = some "v" ∧ res.whereOf = [0] ∧
    res.val semEx (fun k => k.elemVal semEx)
      [rowXYW (some 1) (some 0) (some 2), rowXYW (some 5) none (some 1), rowXYW (some 9) none (some 0)]
      = some 8 := by
  obtain ⟨n, res, _, h⟩ := C17_terminates (.leaf (.variance (.base "x") true none) (some "v") [0])
  refine ⟨n, res, h, (C18_name_and_filter_kept _ n res h).1, (C18_name_and_filter_kept _ n res h).2, ?_⟩
  rw [C18_statistic semEx ["x"] [] (semEx_ext _ _) _ _ _ _ n res h]
  · have : ([rowXYW (some 1) (some 0) (some 2), rowXYW (some 5) none (some 1),
        rowXYW (some 9) none (some 0)].filter fun r => [0].all fun i => semEx.cond i r)
        = [rowXYW (some 5) none (some 1), rowXYW (some 9) none (some 0)] := by
      norm_num [semEx]
    rw [this]
    simp only [textbook, tbVariance, crossM, wavg, tot, ECol.get, ECol.eval]
    norm_num [wt?]
  · intro r hr
    simp only [List.mem_cons, List.not_mem_nil, or_false] at hr
    rcases hr with rfl | rfl | rfl <;> simp
  · intro k hk
    have : k = _ := List.mem_singleton.1 (by simpa only [ET.leaves] using hk)
    subst this
    simp [SLeaf.cols, SLeaf.weights, ECol.bases]

/-! ## C19 -/

/-- The rows in which all the columns `C` are present. -/
def completeRows (C : List String) (rs : List RRow) : List RRow :=
  rs.filter fun r => C.all fun c => (r c).isSome

/-- **C19** (violated) The covariance of data in which `x` is missing in one row is not that of the
complete pairs: the mean of `y` still counts the row. Here it is 0 instead of 1. -/
theorem C19_cov_missing_violation : ∃ rs : List RRow, ∀ n res,
    Expands (lf (.cov (.base "x") (.base "y") true none none none)) n res →
      res.val semEx (fun k => k.elemVal semEx) rs = some 0 ∧
      textbook semEx (.cov (.base "x") (.base "y") true none none none)
        (completeRows ["x", "y"] rs) = some 1 := by
  refine ⟨[rowXYW (some 0) (some 0) none, rowXYW (some 2) (some 2) none, rowXYW none (some 4) none],
    fun n res h => ?_⟩
  have hres : res = (lf (.cov (.base "x") (.base "y") true none none none)).step.step := by
    refine (loop_unique h (m' := 2) ?_).2
    refine .body _ _ _ 1 ?_ (.body _ _ _ 0 ?_ ?_)
    · intro h; cases h
    · intro h; cases h
    · have := fixed_of_rank_zero
        (lf (.cov (.base "x") (.base "y") true none none none)).step.step (by decide)
      rw [this]
      exact .stop _
  constructor
  · rw [hres]
    simp only [ET.step, SLeaf.equiv, covEquiv, covDdof, ET.setTop, ET.val, keepRows_nil, SLeaf.elemVal,
      sumOf, countOf, present, ECol.eval, if_true, List.filterMap_cons, List.filterMap_nil]
    norm_num [EOp.app, rdiv]
  · have : completeRows ["x", "y"]
        [rowXYW (some 0) (some 0) none, rowXYW (some 2) (some 2) none, rowXYW none (some 4) none]
        = [rowXYW (some 0) (some 0) none, rowXYW (some 2) (some 2) none] := by
      simp [completeRows]
    rw [this]
    simp only [textbook, tbCov, crossM, wavg, tot, ECol.get, ECol.eval]
    norm_num [wt?]

/-- **C19** (violated) The weighted mean divides by the weights of the rows in which the value is missing
too: the mean of the values 6, 6 is given as 4. -/
theorem C19_weighted_mean_missing_violation : ∃ rs : List RRow, ∀ n res,
    Expands (lf (.mean (.base "x") (some (.base "w")))) n res →
      res.val semEx (fun k => k.elemVal semEx) rs = some 4 ∧
      textbook semEx (.mean (.base "x") (some (.base "w"))) (completeRows ["x", "w"] rs) = some 6 := by
  refine ⟨[rowXYW (some 6) none (some 1), rowXYW (some 6) none (some 1), rowXYW none none (some 1)],
    fun n res h => ?_⟩
  have hres : res = (lf (.mean (.base "x") (some (.base "w")))).step.step := by
    refine (loop_unique h (m' := 2) ?_).2
    refine .body _ _ _ 1 ?_ (.body _ _ _ 0 ?_ ?_)
    · intro h; cases h
    · intro h; cases h
    · have := fixed_of_rank_zero (lf (.mean (.base "x") (some (.base "w")))).step.step (by decide)
      rw [this]
      exact .stop _
  constructor
  · rw [hres]
    simp only [ET.step, SLeaf.equiv, ET.setTop, ET.val, keepRows_nil, SLeaf.elemVal,
      sumOf, present, ECol.eval, List.filterMap_cons, List.filterMap_nil]
    norm_num [EOp.app, rdiv]
  · have : completeRows ["x", "w"]
        [rowXYW (some 6) none (some 1), rowXYW (some 6) none (some 1), rowXYW none none (some 1)]
        = [rowXYW (some 6) none (some 1), rowXYW (some 6) none (some 1)] := by
      simp [completeRows]
    rw [this]
    simp only [textbook, wavg, tot]
    norm_num [ECol.get, ECol.eval]

/-- A tree of arithmetic on the leaf metrics spelt out here. -/
def ET.arith : ET → Prop
  | .const _ => True
  | .leaf k _ _ => ∀ i, k ≠ .other i
  | .comp _ l r _ _ => l.arith ∧ r.arith
  | .node _ _ _ _ => False

theorem arith_setTop (n : Option String) (w : List Nat) (e : ET) (h : e.arith) :
    (e.setTop n w).arith := by
  cases e <;> simp_all [ET.setTop, ET.arith]

theorem arith_equiv (k : SLeaf) (e : ET) (he : k.equiv = some e) : e.arith := by
  cases k with
  | dot v w n => cases n <;> cases he <;> simp [ET.arith]
  | mean v w => cases w <;> cases he <;> simp [ET.arith]
  | variance v u w => cases w <;> cases he <;> cases u <;> simp [ET.arith, sqrtSq]
  | sd v u w => cases he; simp [ET.arith]
  | cv v u => cases he; simp [ET.arith]
  | corr v w wt => cases he; simp [ET.arith]
  | cov v w b d wt fw =>
    cases he
    unfold covEquiv
    cases wt <;> cases fw <;> simp only <;> split <;> simp [ET.arith, sqrtSq]
  | _ => cases he

theorem arith_step : ∀ t : ET, t.arith → t.step.arith
  | .const q, _ => trivial
  | .leaf k n w, h => by
      rw [ET.step]
      cases he : k.equiv with
      | none => exact h
      | some e => exact arith_setTop n w e (arith_equiv k e he)
  | .comp op l r n w, h => by
      simp only [ET.step, ET.arith] at h ⊢
      exact ⟨arith_step l h.1, arith_step r h.2⟩
  | .node t cs n w, h => by simp [ET.arith] at h

/-- In every row the columns `C` are all present or all missing. -/
def PresentTogether (C : List String) (rs : List RRow) : Prop :=
  ∀ r ∈ rs, (∀ c ∈ C, (r c).isSome) ∨ ∀ c ∈ C, r c = none

theorem eval_missing {C : List String} {r : RRow} (h : ∀ c ∈ C, r c = none) :
    ∀ v : ECol, (∀ c ∈ v.bases, c ∈ C) → v.eval r = none
  | .base c, hv => h c (hv c (by simp [ECol.bases]))
  | .mul a b, hv => by
      simp [ECol.eval, eval_missing h a fun c hc => hv c (by simp [ECol.bases, hc])]
  | .sq a, hv => by
      simp [ECol.eval, eval_missing h a fun c hc => hv c (by simpa [ECol.bases] using hc)]

theorem present_complete {C : List String} {rs : List RRow} (h : PresentTogether C rs)
    (v : ECol) (hv : ∀ c ∈ v.bases, c ∈ C) : present v (completeRows C rs) = present v rs := by
  unfold present completeRows
  rw [List.filterMap_filter]
  apply List.filterMap_congr
  intro r hr
  rcases h r hr with h1 | h1
  · rw [if_pos (by simpa using h1)]
  · rw [eval_missing h1 v hv]
    simp

theorem elemVal_complete (sem : ESem) {C : List String} {rs : List RRow}
    (h : PresentTogether C rs) (k : SLeaf) (hk : ∀ i, k ≠ .other i)
    (hc : ∀ v ∈ k.cols, ∀ c ∈ v.bases, c ∈ C) :
    k.elemVal sem (completeRows C rs) = k.elemVal sem rs := by
  cases k with
  | sum v => simp only [SLeaf.elemVal, sumOf, present_complete h v (hc v (by simp [SLeaf.cols]))]
  | count v d =>
    simp only [SLeaf.elemVal, countOf, present_complete h v (hc v (by simp [SLeaf.cols]))]
  | max v => simp only [SLeaf.elemVal, maxOf, present_complete h v (hc v (by simp [SLeaf.cols]))]
  | min v => simp only [SLeaf.elemVal, minOf, present_complete h v (hc v (by simp [SLeaf.cols]))]
  | other i => exact absurd rfl (hk i)
  | _ => rfl

theorem val_complete (sem : ESem) {C : List String} (W : List String) :
    ∀ (t : ET), t.arith → t.reads C W → ∀ rs, PresentTogether C rs →
    t.val sem (fun k => k.elemVal sem) (completeRows C rs) = t.val sem (fun k => k.elemVal sem) rs
  | .const q, _, _, rs, _ => rfl
  | .leaf k n w, ha, hr, rs, h => by
      simp only [ET.val]
      have : keepRows sem w (completeRows C rs) = completeRows C (keepRows sem w rs) := by
        unfold keepRows completeRows; rw [List.filter_filter, List.filter_filter]
        congr 1; funext r; exact Bool.and_comm _ _
      rw [this]
      exact elemVal_complete sem (fun r hr => h r (List.mem_of_mem_filter hr)) k ha
        (hr k (by simp [ET.leaves])).1
  | .comp op l r n w, ha, hr, rs, h => by
      simp only [ET.val]
      have : keepRows sem w (completeRows C rs) = completeRows C (keepRows sem w rs) := by
        unfold keepRows completeRows; rw [List.filter_filter, List.filter_filter]
        congr 1; funext r; exact Bool.and_comm _ _
      have h' : PresentTogether C (keepRows sem w rs) := fun r hr => h r (List.mem_of_mem_filter hr)
      rw [this, val_complete sem W l ha.1 (fun k hk => hr k (by simp [ET.leaves, hk])) _ h',
        val_complete sem W r ha.2 (fun k hk => hr k (by simp [ET.leaves, hk])) _ h']
  | .node t cs n w, ha, _, _, _ => by simp [ET.arith] at ha

theorem keepRows_complete (sem : ESem) (C : List String) (w : List Nat) (rs : List RRow) :
    keepRows sem w (completeRows C rs) = completeRows C (keepRows sem w rs) := by
  unfold keepRows completeRows; rw [List.filter_filter, List.filter_filter]
  congr 1; funext r; exact Bool.and_comm _ _

/-- **C19** (partial) For any arithmetic on the leaf metrics (Cov, Correlation, Variance, weighted means
and so on): if in each row the columns read are all present or all missing, the computation by expansion
is the textbook statistic of the complete rows.
Missing: rows in which one column is present and another missing, for which it is false
(the theorems above). -/
theorem C19_complete_rows_partial (sem : ESem) (C W : List String) (t : ET) (ha : t.arith)
    (ht : t.reads C W) (n : Nat) (res : ET) (h : Expands t n res) (rs : List RRow)
    (hw : ∀ r ∈ rs, ∀ c ∈ W, ∀ x, r c = some x → 0 ≤ x) (hp : PresentTogether C rs) :
    res.val sem (fun k => k.elemVal sem) rs = t.val sem (textbook sem) (completeRows C rs) := by
  obtain ⟨⟨hr, hra⟩, _⟩ := loop_inv (fun s => s.reads C W ∧ s.arith)
    (fun s hs => ⟨reads_step C W s hs.1, arith_step s hs.2⟩) h ⟨ht, ha⟩
  rw [← val_complete sem W res hra hr rs hp]
  have hclean : CleanOn C W (completeRows C rs) := by
    intro r hr
    obtain ⟨h1, h2⟩ := List.mem_filter.1 hr
    exact ⟨by simpa using h2, hw r h1⟩
  -- the operations of `sem` do not occur in the tree
  let sem' : ESem := { sem with node := fun _ _ _ => none }
  have hsem : ∀ lv, ∀ s : ET, s.arith → ∀ rs, s.val sem lv rs = s.val sem' lv rs := by
    intro lv s
    induction s using ET.rec (motive_2 := fun _ => True) with
    | const q => intro _ rs; simp [ET.val]
    | leaf k n w => intro _ rs; simp only [ET.val]; rfl
    | comp op l r n w ihl ihr =>
      intro hs rs
      simp only [ET.val]
      rw [ihl hs.1, ihr hs.2]
      rfl
    | node t cs n w _ => intro hs; simp [ET.arith] at hs
    | nil => trivial
    | cons _ _ _ _ => trivial
  have hext : NodesExtensional sem' C W := fun _ _ _ _ _ _ => rfl
  have := C18_expansion_value sem' C W hext t ht n res h (completeRows C rs) hclean
  have ht1 : textbook sem' = textbook sem := by
    funext k rs; cases k <;> rfl
  have he1 : (fun k : SLeaf => k.elemVal sem') = fun k => k.elemVal sem := by
    funext k rs; cases k <;> rfl
  rw [hsem _ res hra, hsem _ t ha, ← ht1, ← he1]
  exact this

/-- The hypotheses are met: `x`, `y` missing together in the second of three rows; the covariance is that
of the other two rows, 1 (with a filter that drops nothing). -/
example : ∃ n res, Expands (.leaf (.cov (.base "x") (.base "y") true none none none) none [1]) n res ∧
    res.val semEx (fun k => k.elemVal semEx)
      [rowXYW (some 0) (some 0) none, rowXYW none none (some 3), rowXYW (some 2) (some 2) none]
      = some 1 := by
  obtain ⟨n, res, _, h⟩ := C17_terminates
    (.leaf (.cov (.base "x") (.base "y") true none none none) none [1])
  refine ⟨n, res, h, ?_⟩
  rw [C19_complete_rows_partial semEx ["x", "y"] [] _ _ _ n res h]
  · have : completeRows ["x", "y"]
        [rowXYW (some 0) (some 0) none, rowXYW none none (some 3), rowXYW (some 2) (some 2) none]
        = [rowXYW (some 0) (some 0) none, rowXYW (some 2) (some 2) none] := by
      simp [completeRows]
    rw [this]
    have h2 : keepRows semEx [1] [rowXYW (some 0) (some 0) none, rowXYW (some 2) (some 2) none]
        = [rowXYW (some 0) (some 0) none, rowXYW (some 2) (some 2) none] := by
      simp [keepRows, semEx]
    simp only [ET.val, h2, textbook, tbCov, crossM, wavg, tot, ECol.get, ECol.eval]
    norm_num [wt?]
  · simp
  · intro r hr
    simp only [List.mem_cons, List.not_mem_nil, or_false] at hr
    rcases hr with rfl | rfl | rfl <;> simp
  · simp [ET.arith]
  · intro k hk
    have : k = _ := List.mem_singleton.1 (by simpa only [ET.leaves] using hk)
    subst this
    simp [SLeaf.cols, SLeaf.weights, ECol.bases]

/-- **C19** Dot uses complete pairs, whatever is missing where. -/
theorem C19_dot (sem : ESem) (x y : String) (norm : Bool) (n : Nat) (res : ET)
    (h : Expands (lf (.dot (.base x) (.base y) norm)) n res) (rs : List RRow) :
    res.val sem (fun k => k.elemVal sem) rs
      = textbook sem (.dot (.base x) (.base y) norm) (completeRows [x, y] rs) := by
  have hres : res = (lf (.dot (.base x) (.base y) norm)).step := by
    refine (loop_unique h (m' := 1) ?_).2
    cases norm
    · exact .body _ _ _ 0 (by intro h; cases h) (.stop _)
    · exact .body _ _ _ 0 (by intro h; cases h) (.stop _)
  have hp : ∀ rs, present (.mul (.base x) (.base y)) rs
      = (completeRows [x, y] rs).map fun r => (ECol.base x).get r * (ECol.base y).get r := by
    intro rs
    unfold present completeRows
    induction rs with
    | nil => rfl
    | cons r rs ih =>
      rw [List.filterMap_cons, List.filter_cons, ih]
      cases hx : r x <;> cases hy : r y <;> simp [ECol.eval, ECol.get, hx, hy]
  rw [hres]
  cases norm with
  | false =>
    simp only [ET.step, SLeaf.equiv, ET.setTop, ET.val, keepRows_nil, SLeaf.elemVal, sumOf, hp, textbook,
      tot]
  | true =>
    simp only [ET.step, SLeaf.equiv, ET.setTop, ET.val, keepRows_nil, SLeaf.elemVal, sumOf, countOf, hp,
      textbook, tot, nrows, EOp.app, Option.bind_some, rdiv, List.length_map]
    by_cases h0 : completeRows [x, y] rs = []
    · simp [h0]
    · rw [if_neg h0, if_neg]
      · simp
      · simp [h0]

end Verif
