import Verif.Spec.Copies
import Verif.Props.UnitsStats
import Verif.Props.Units

/-!
# C107: data given several times

/repo/metrics.py:1447-1509, 1730-1904, 2330-2590, /repo/operations.py:199-656, /repo/diversity.py.
-/

namespace Verif

theorem nTimes_succ {α : Type} (n : Nat) (rs : List α) : nTimes (n + 1) rs = rs ++ nTimes n rs := by
  simp [nTimes, List.replicate_succ]

theorem mem_nTimes {α : Type} {n : Nat} {rs : List α} {x : α} (h : x ∈ nTimes n rs) : x ∈ rs := by
  simp only [nTimes, List.mem_flatten, List.mem_replicate] at h
  obtain ⟨l, ⟨_, rfl⟩, hx⟩ := h
  exact hx

theorem filterMap_nTimes {α β : Type} (g : α → Option β) (n : Nat) (rs : List α) :
    (nTimes n rs).filterMap g = nTimes n (rs.filterMap g) := by
  simp [nTimes, List.filterMap_flatten]

theorem filter_nTimes {α : Type} (p : α → Bool) (n : Nat) (rs : List α) : (nTimes n rs).filter p = nTimes n (rs.filter p) := by
  simp [nTimes, List.filter_flatten]

theorem map_nTimes {α β : Type} (g : α → β) (n : Nat) (rs : List α) : (nTimes n rs).map g = nTimes n (rs.map g) := by
  simp [nTimes, List.map_flatten]

theorem length_nTimes {α : Type} (n : Nat) (rs : List α) : (nTimes n rs).length = n * rs.length := by
  simp [nTimes]

theorem sum_nTimes {K : Type} [Field K] (n : Nat) (xs : List K) : (nTimes n xs).sum = n * xs.sum := by
  induction n with
  | zero => simp [nTimes]
  | succ n ih => rw [nTimes_succ, List.sum_append, ih]; push_cast; ring

theorem nTimes_nil {α : Type} {n : Nat} (hn : n ≠ 0) {rs : List α} : nTimes n rs = [] ↔ rs = [] := by
  rw [← List.length_eq_zero_iff, ← List.length_eq_zero_iff, length_nTimes]
  simp [hn]

theorem dedup_nTimes {α : Type} [DecidableEq α] {n : Nat} (hn : n ≠ 0) (xs : List α) : (nTimes n xs).dedup = xs.dedup := by
  have h : ∀ n, (nTimes (n + 1) xs).dedup = xs.dedup := by
    intro n
    induction n with
    | zero => simp [nTimes]
    | succ n ih =>
      rw [nTimes_succ, List.dedup_append, ih]
      exact List.Subset.union_eq_right fun x hx => List.mem_dedup.2 hx
  obtain ⟨k, rfl⟩ := Nat.exists_eq_succ_of_ne_zero hn
  exact h k

theorem pyMean_nTimes {n : Nat} (hn : n ≠ 0) (xs : List Rat) : pyMean (nTimes n xs) = pyMean xs := by
  have : (n : Rat) ≠ 0 := by exact_mod_cast hn
  unfold pyMean
  simp only [nTimes_nil hn, sum_nTimes, length_nTimes]
  push_cast
  rw [mul_div_mul_left _ _ this]

private theorem foldl_stays (g : Rat → Rat → Rat) (z : Rat) (l : List Rat) (h : ∀ y ∈ l, g z y = z) : l.foldl g z = z := by
  induction l with
  | nil => rfl
  | cons y l ih =>
    rw [List.foldl_cons, h y (by simp)]
    exact ih fun w hw => h w (by simp [hw])

private theorem max_ub (xs : List Rat) : ∀ z, z ≤ xs.foldl Max.max z ∧ ∀ y ∈ xs, y ≤ xs.foldl Max.max z := by
  induction xs with
  | nil => intro z; simp
  | cons x xs ih =>
    intro z
    obtain ⟨h1, h2⟩ := ih (Max.max z x)
    refine ⟨(le_max_left _ _).trans h1, ?_⟩
    intro y hy
    rcases List.mem_cons.1 hy with rfl | hy
    · exact (le_max_right _ _).trans h1
    · exact h2 y hy

private theorem min_lb (xs : List Rat) : ∀ z, xs.foldl Min.min z ≤ z ∧ ∀ y ∈ xs, xs.foldl Min.min z ≤ y := by
  induction xs with
  | nil => intro z; simp
  | cons x xs ih =>
    intro z
    obtain ⟨h1, h2⟩ := ih (Min.min z x)
    refine ⟨h1.trans (min_le_left _ _), ?_⟩
    intro y hy
    rcases List.mem_cons.1 hy with rfl | hy
    · exact h1.trans (min_le_right _ _)
    · exact h2 y hy

theorem pyMax_nTimes {n : Nat} (hn : n ≠ 0) (xs : List Rat) : pyMax (nTimes n xs) = pyMax xs := by
  obtain ⟨k, rfl⟩ := Nat.exists_eq_succ_of_ne_zero hn
  cases xs with
  | nil => rw [(nTimes_nil hn).2 rfl]
  | cons x xs =>
    rw [nTimes_succ]
    simp only [List.cons_append, pyMax, List.foldl_append]
    rw [foldl_stays]
    intro y hy
    rcases List.mem_cons.1 (mem_nTimes hy) with rfl | hy
    · exact max_eq_left (max_ub xs _).1
    · exact max_eq_left ((max_ub xs _).2 y hy)

theorem pyMin_nTimes {n : Nat} (hn : n ≠ 0) (xs : List Rat) : pyMin (nTimes n xs) = pyMin xs := by
  obtain ⟨k, rfl⟩ := Nat.exists_eq_succ_of_ne_zero hn
  cases xs with
  | nil => rw [(nTimes_nil hn).2 rfl]
  | cons x xs =>
    rw [nTimes_succ]
    simp only [List.cons_append, pyMin, List.foldl_append]
    rw [foldl_stays]
    intro y hy
    rcases List.mem_cons.1 (mem_nTimes hy) with rfl | hy
    · exact min_eq_left (min_lb xs _).1
    · exact min_eq_left ((min_lb xs _).2 y hy)

theorem agg_nTimes {n : Nat} (hn : n ≠ 0) (k : Leaf) (rs : List Row) : k.agg (nTimes n rs) = (k.agg rs).scale (k.growth n) := by
  have hv : ∀ v, vals v (nTimes n rs) = nTimes n (vals v rs) := fun v => filterMap_nTimes _ _ _
  have hp : ∀ v w, prods v w (nTimes n rs) = nTimes n (prods v w rs) := fun v w => filterMap_nTimes _ _ _
  have h0 : (0 : Rat) < n := by exact_mod_cast Nat.pos_of_ne_zero hn
  cases k with
  | sum v => simp only [Leaf.agg, Leaf.growth, hv, sum_nTimes]; rfl
  | count v => simp only [Leaf.agg, Leaf.growth, hv, length_nTimes]; push_cast; rfl
  | countDistinct v => simp only [Leaf.agg, Leaf.growth, hv, dedup_nTimes hn, PyVal.scale_one]
  | mean v => simp only [Leaf.agg, Leaf.growth, hv, pyMean_nTimes hn, PyVal.scale_one]
  | max v => simp only [Leaf.agg, Leaf.growth, hv, pyMax_nTimes hn, PyVal.scale_one]
  | min v => simp only [Leaf.agg, Leaf.growth, hv, pyMin_nTimes hn, PyVal.scale_one]
  | dot v w nz =>
    simp only [Leaf.agg, Leaf.growth, hp]
    cases nz
    · simp only [sum_nTimes, Bool.false_eq_true, if_false]; rfl
    · simp only [if_true, pyMean_nTimes hn, PyVal.scale_one]
  | wmean v w =>
    simp only [Leaf.agg, Leaf.growth, hp, hv, sum_nTimes]
    have := PyVal.scale_div h0 h0 (.fin (prods v w rs).sum) (.fin (vals w rs).sum)
    rw [div_self h0.ne'] at this
    exact this

theorem query_copies {env : Env} {wh : List String} (n : Nat) (f : Frame) :
    (f.copies n).query env wh = (f.query env wh).copies n := by
  unfold Frame.query Frame.copies
  simp only [filter_nTimes]

theorem leaf_copies {n : Nat} (hn : n ≠ 0) (k : Leaf) (f : Frame) (sb : List String) :
    k.run (f.copies n) sb = scaleOutcome (k.growth n) (k.run f sb) := by
  have hg : groupKeys sb (nTimes n f.rows) = groupKeys sb f.rows := by
    unfold groupKeys
    rw [filterMap_nTimes, dedup_nTimes hn]
  have hr : ∀ key, rowsAt sb key (nTimes n f.rows) = nTimes n (rowsAt sb key f.rows) := fun key => filter_nTimes _ _ _
  unfold Leaf.run
  show (if (k.vars ++ sb).all (fun c => f.cols.contains c) then
    Except.ok (Res.tbl [] [(groupKeys sb (nTimes n f.rows)).map (fun key => (key, k.agg (rowsAt sb key (nTimes n f.rows))))])
    else Except.error Err.keyError) = _
  split
  · simp only [scaleOutcome, Res.scale, hg, hr, agg_nTimes hn, Tbl.scale, List.map_cons, List.map_nil, List.map_map, Function.comp_def]
  · rfl

theorem growth_pos {n : Nat} (hn : n ≠ 0) {m : M} {c : Rat} (h : Grows n m c) : 0 < c := by
  have h0 : (0 : Rat) < n := by exact_mod_cast Nat.pos_of_ne_zero hn
  induction h with
  | const q => exact one_pos
  | leaf k wh =>
    cases k <;> simp only [Leaf.growth] <;> first | exact h0 | exact one_pos | (split <;> first | exact h0 | exact one_pos)
  | add wh _ _ ih _ => exact ih
  | sub wh _ _ ih _ => exact ih
  | mul wh _ _ ih ih' => exact mul_pos ih ih'
  | div wh _ _ ih ih' => exact div_pos ih ih'
  | pow wh _ _ _ _ => exact one_pos
  | neg wh _ _ ih _ => exact ih
  | list wh hc _ _ => exact hc
  | absChange wh _ ih => exact ih
  | pctChange wh _ _ => exact one_pos
  | dist wh _ _ => exact one_pos
  | hhi wh _ _ => exact one_pos

private theorem comp_copies {env : Env} {n : Nat} {op : BinOp} {l r : M} {wh : List String} {c d e : Rat}
    (hop : ∀ x y, op.py env (x.scale c) (y.scale d) = (op.py env x y).scale e) {f : Frame} {sb : List String}
    (hl : l.run env ((f.query env wh).copies n) sb = scaleOutcome c (l.run env (f.query env wh) sb))
    (hr : r.run env ((f.query env wh).copies n) sb = scaleOutcome d (r.run env (f.query env wh) sb)) :
    (M.comp op l r wh).run env (f.copies n) sb = scaleOutcome e ((M.comp op l r wh).run env f sb) := by
  rw [M.run, M.run, query_copies, hl, hr]
  cases l.run env (f.query env wh) sb with
  | error x => rfl
  | ok a =>
    cases r.run env (f.query env wh) sb with
    | error x => rfl
    | ok b => exact combine_scale hop a b

private theorem oper_copies {env : Env} {n : Nat} {o : Oper} {m : M} {wh : List String} {c e : Rat} {f : Frame} {sb : List String}
    (ho : ∀ t, o.onTbl sb.length (t.scale c) =
      (match o.onTbl sb.length t with | .ok t' => .ok (t'.scale e) | .error x => .error x))
    (hm : m.run env ((f.query env wh).copies n) (sb ++ o.splitBy) = scaleOutcome c (m.run env (f.query env wh) (sb ++ o.splitBy))) :
    (M.oper o m wh).run env (f.copies n) sb = scaleOutcome e ((M.oper o m wh).run env f sb) := by
  rw [M.run, M.run, query_copies, hm]
  cases m.run env (f.query env wh) (sb ++ o.splitBy) with
  | error x => rfl
  | ok r => exact onRes_scale ho r

private theorem runAll_copies {env : Env} {n : Nat} {f : Frame} {sb : List String} (c : Rat) : ∀ ms : List M,
    (∀ m ∈ ms, m.run env (f.copies n) sb = scaleOutcome c (m.run env f sb)) →
    runAll env ms (f.copies n) sb = (runAll env ms f sb).map (Res.scale c)
  | [], _ => rfl
  | m :: ms, h => by
    rw [runAll, runAll, h m (by simp), runAll_copies c ms fun m hm => h m (by simp [hm])]
    cases m.run env f sb <;> rfl

/-- **C107.** On data that are there `n` times, the result of a metric is that on the data times the factor its formula says: `n` for
totals and counts, 1 for averages, extremes, shares and relative changes, their products and quotients; same index, same missing and
infinite values, same errors. -/
theorem C107_copies (env : Env) (n : Nat) (hn : n ≠ 0) (m : M) (c : Rat) (h : Grows n m c) (f : Frame) (sb : List String) :
    m.run env (f.copies n) sb = scaleOutcome c (m.run env f sb) := by
  induction h generalizing f sb with
  | const q => simp [M.run, scaleOutcome, Res.scale]
  | leaf k wh => rw [M.run, M.run, query_copies]; exact leaf_copies hn k _ sb
  | add wh hl hr ihl ihr => exact comp_copies (fun x y => by exact PyVal.scale_add _ x y) (ihl _ sb) (ihr _ sb)
  | sub wh hl hr ihl ihr => exact comp_copies (fun x y => by exact PyVal.scale_sub _ x y) (ihl _ sb) (ihr _ sb)
  | mul wh hl hr ihl ihr =>
    exact comp_copies (fun x y => by exact PyVal.scale_mul (growth_pos hn hl) (growth_pos hn hr) x y) (ihl _ sb) (ihr _ sb)
  | div wh hl hr ihl ihr =>
    exact comp_copies (fun x y => by exact PyVal.scale_div (growth_pos hn hl) (growth_pos hn hr) x y) (ihl _ sb) (ihr _ sb)
  | pow wh hl hr ihl ihr =>
    exact comp_copies (fun x y => by simp only [PyVal.scale_one]) (ihl _ sb) (ihr _ sb)
  | neg wh hl hr ihl ihr => exact comp_copies (fun x _ => by exact PyVal.scale_neg _ x) (ihl _ sb) (ihr _ sb)
  | list wh hc hms ih =>
    rw [M.run, M.run, query_copies, runAll_copies _ _ fun m hm => ih m hm _ sb]
    exact joinRes_scale _ _
  | absChange wh hm ih => exact oper_copies (fun t => change_scale (PyVal.scale_sub _) _ _ _ _ t) (ih _ _)
  | @pctChange cond base incl m c wh hm ih =>
    have hpos := growth_pos hn hm
    refine oper_copies (fun t => change_scale (fun x y => ?_) _ _ _ _ t) (ih _ _)
    unfold pctOf
    rw [PyVal.scale_div hpos hpos, div_self hpos.ne', PyVal.scale_one, PyVal.scale_one]
  | @dist over m c wh hm ih =>
    refine oper_copies (fun t => ?_) (ih _ _)
    simp only [Oper.onTbl, dist_scale (growth_pos hn hm)]
    simp [Tbl.scale]
  | @hhi over m c wh hm ih =>
    refine oper_copies (fun t => ?_) (ih _ _)
    simp only [Oper.onTbl, hhiTbl, dist_scale (growth_pos hn hm)]
    simp [Tbl.scale]

/-! ## Statistics -/

private theorem sumf_nTimes {α : Type} (n : Nat) (g : α → ℝ) (xs : List α) :
    ((nTimes n xs).map g).sum = (n : ℝ) * (xs.map g).sum := by
  rw [map_nTimes, sum_nTimes]

theorem pdMean_nTimes {n : Nat} (hn : n ≠ 0) (xs : List ℝ) : pdMean (nTimes n xs) = pdMean xs := by
  have hn0 : (n : ℝ) ≠ 0 := by exact_mod_cast hn
  unfold pdMean
  simp only [length_nTimes, sum_nTimes, mul_eq_zero, hn, false_or]
  push_cast
  rw [mul_div_mul_left _ _ hn0]

theorem pdVar0_nTimes {n : Nat} (hn : n ≠ 0) (xs : List ℝ) : pdVar 0 (nTimes n xs) = pdVar 0 xs := by
  have hn0 : (n : ℝ) ≠ 0 := by exact_mod_cast hn
  have h1 : n * xs.length ≤ 0 ↔ xs.length ≤ 0 := by simp [hn]
  unfold pdVar
  simp only [length_nTimes, sum_nTimes, sumf_nTimes, h1]
  push_cast
  simp only [mul_div_mul_left _ _ hn0, sub_zero]

theorem pdVar1_nTimes {n : Nat} (hn : n ≠ 0) (xs : List ℝ) (h : 2 ≤ xs.length) : pdVar 1 (nTimes n xs) =
    (pdVar 1 xs).map fun s => ((n * xs.length - n : ℝ) / (n * xs.length - 1)) * s := by
  have hn0 : (n : ℝ) ≠ 0 := by exact_mod_cast hn
  have hp : 2 ≤ n * xs.length := h.trans (Nat.le_mul_of_pos_left _ (Nat.pos_of_ne_zero hn))
  have h1 : ¬ n * xs.length ≤ 1 := by omega
  have h2 : ¬ xs.length ≤ 1 := by omega
  have d1 : ((n : ℝ) * xs.length - 1) ≠ 0 := by
    have : (2 : ℝ) ≤ (n : ℝ) * xs.length := by exact_mod_cast hp
    linarith
  have d2 : ((xs.length : ℝ) - 1) ≠ 0 := by
    have : (2 : ℝ) ≤ (xs.length : ℝ) := by exact_mod_cast h
    linarith
  unfold pdVar
  simp only [length_nTimes, sum_nTimes, sumf_nTimes, h1, h2, if_false, Option.map_some]
  push_cast
  rw [mul_div_mul_left _ _ hn0]
  generalize (xs.map fun x => (x - xs.sum / (xs.length : ℝ)) ^ 2).sum = S
  congr 1
  have d3 : (xs.length : ℝ) - ((1 : ℕ) : ℝ) ≠ 0 := by push_cast; exact d2
  field_simp
  try push_cast
  try ring

theorem pdCorr_nTimes {n : Nat} (hn : n ≠ 0) (ps : List (ℝ × ℝ)) : pdCorr (nTimes n ps) = pdCorr ps := by
  have hn0 : (0 : ℝ) < n := by exact_mod_cast Nat.pos_of_ne_zero hn
  unfold pdCorr
  simp only [length_nTimes, sumf_nTimes]
  push_cast
  simp only [mul_div_mul_left _ _ hn0.ne']
  generalize (ps.map fun p => (p.1 - (ps.map fun p => p.1).sum / (ps.length : ℝ)) * (p.1 - (ps.map fun p => p.1).sum / (ps.length : ℝ))).sum = sx
  generalize (ps.map fun p => (p.2 - (ps.map fun p => p.2).sum / (ps.length : ℝ)) * (p.2 - (ps.map fun p => p.2).sum / (ps.length : ℝ))).sum = sy
  have hs : Real.sqrt ((n : ℝ) * sx * (n * sy)) = n * Real.sqrt (sx * sy) := by
    have : (n : ℝ) * sx * (n * sy) = (n : ℝ) ^ 2 * (sx * sy) := by ring
    rw [this, Real.sqrt_mul (sq_nonneg _), Real.sqrt_sq hn0.le]
  rw [hs]
  by_cases h0 : Real.sqrt (sx * sy) = 0
  · simp [h0]
  · rw [if_neg (mul_ne_zero hn0.ne' h0), if_neg h0, mul_div_mul_left _ _ hn0.ne']

/-- **C107.** Mean, correlation and the variance, standard deviation and coefficient of variation without Bessel's correction do not
notice that the data are there `n` times; with the correction, the variance is multiplied by `(nm - n) / (nm - 1)` where `m` is the
number of values, so that it shrinks. -/
theorem C107_statistics (n : Nat) (hn : n ≠ 0) (v w : ECol) (rs : List RRow) :
    (∀ f, SLeaf.pandas (.mean v none) = some f → f (nTimes n rs) = f rs) ∧
    (∀ f, SLeaf.pandas (.corr v w none) = some f → f (nTimes n rs) = f rs) ∧
    (∀ f, SLeaf.pandas (.variance v false none) = some f → f (nTimes n rs) = f rs) ∧
    (∀ f, SLeaf.pandas (.sd v false none) = some f → f (nTimes n rs) = f rs) ∧
    (∀ f, SLeaf.pandas (.cv v false) = some f → f (nTimes n rs) = f rs) ∧
    (∀ f, SLeaf.pandas (.variance v true none) = some f → 2 ≤ (present v rs).length →
      f (nTimes n rs) = (f rs).map fun s => (n * (present v rs).length - n : ℝ) / (n * (present v rs).length - 1) * s) := by
  have hp : present v (nTimes n rs) = nTimes n (present v rs) := filterMap_nTimes _ _ _
  have hq : pairsOf v w (nTimes n rs) = nTimes n (pairsOf v w rs) := filterMap_nTimes _ _ _
  refine ⟨?_, ?_, ?_, ?_, ?_, ?_⟩
  · rintro f ⟨⟩
    show pdMean (present v (nTimes n rs)) = _
    rw [hp, pdMean_nTimes hn]
  · rintro f ⟨⟩
    show pdCorr (pairsOf v w (nTimes n rs)) = _
    rw [hq, pdCorr_nTimes hn]
  · rintro f ⟨⟩
    show pdVar 0 (present v (nTimes n rs)) = _
    rw [hp, pdVar0_nTimes hn]; rfl
  · rintro f ⟨⟩
    show (pdVar 0 (present v (nTimes n rs))).map Real.sqrt = _
    rw [hp, pdVar0_nTimes hn]; rfl
  · rintro f ⟨⟩
    show EOp.app .div ((pdVar 0 (present v (nTimes n rs))).map Real.sqrt) (pdMean (present v (nTimes n rs))) = _
    rw [hp, pdVar0_nTimes hn, pdMean_nTimes hn]; rfl
  · rintro f ⟨⟩ h
    show pdVar 1 (present v (nTimes n rs)) = _
    rw [hp, pdVar1_nTimes hn _ h]; rfl

/-- Revenue per click does not grow and its percent change neither; revenue times clicks grows with the square. -/
example : Grows 3 (.comp .div (.leaf (.sum "x") ["g != 2"]) (.leaf (.count "y") []) []) 1 ∧
    Grows 3 (.oper (.pctChange ["g"] [0] true) (.comp .div (.leaf (.sum "x") []) (.leaf (.count "y") []) []) []) 1 ∧
    Grows 3 (.comp .mul (.leaf (.sum "x") []) (.leaf (.count "y") []) []) 9 := by
  have hs : ∀ wh, Grows 3 (.leaf (.sum "x") wh) 3 := fun wh => by simpa [Leaf.growth] using Grows.leaf (n := 3) (.sum "x") wh
  have hc : ∀ wh, Grows 3 (.leaf (.count "y") wh) 3 := fun wh => by simpa [Leaf.growth] using Grows.leaf (n := 3) (.count "y") wh
  have hd : ∀ wh, Grows 3 (.comp .div (.leaf (.sum "x") wh) (.leaf (.count "y") []) []) 1 := fun wh => by
    have := Grows.div [] (hs wh) (hc [])
    norm_num at this
    exact this
  refine ⟨hd _, Grows.pctChange [] (hd []), ?_⟩
  have := Grows.mul [] (hs []) (hc [])
  norm_num at this
  exact this

end Verif
