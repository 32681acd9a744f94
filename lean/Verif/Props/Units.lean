import Verif.Spec.Units
import Verif.Model.StdErr
import Mathlib.Tactic.Ring
import Mathlib.Tactic.FieldSimp
import Mathlib.Tactic.Linarith

/-!
# C106: results change with the unit of the data as their formula says

/repo/metrics.py:1447-1509, 1730-1904, /repo/operations.py:199-656, /repo/diversity.py.
-/

namespace Verif

namespace PyVal

@[simp] theorem scale_one (v : PyVal) : v.scale 1 = v := by cases v <;> simp [scale]

theorem scale_add (c : Rat) (a b : PyVal) : (a.scale c).add (b.scale c) = (a.add b).scale c := by
  cases a <;> cases b <;> simp [scale, add]; ring

theorem scale_neg (c : Rat) (a : PyVal) : (a.scale c).neg = a.neg.scale c := by
  cases a <;> simp [scale, neg]

theorem scale_sub (c : Rat) (a b : PyVal) : (a.scale c).sub (b.scale c) = (a.sub b).scale c := by
  unfold sub; rw [scale_neg, scale_add]

theorem infSign_scale {c : Rat} (hc : 0 < c) (d q : Rat) : infSign (c * q) = (infSign q).scale d := by
  unfold infSign
  by_cases h : q = 0
  · simp [h, scale]
  · have : (0 < c * q) ↔ 0 < q := by rw [mul_pos_iff_of_pos_left hc]
    simp only [mul_eq_zero, hc.ne', h, or_self, if_false, this]
    split <;> rfl

theorem scale_mul {c d : Rat} (hc : 0 < c) (hd : 0 < d) (a b : PyVal) : (a.scale c).mul (b.scale d) = (a.mul b).scale (c * d) := by
  cases a <;> cases b <;> simp only [scale, mul]
  · congr 1; ring
  · exact infSign_scale hc _ _
  · rw [← mul_neg]; exact infSign_scale hc _ _
  · exact infSign_scale hd _ _
  · rw [← mul_neg]; exact infSign_scale hd _ _

theorem scale_div {c d : Rat} (hc : 0 < c) (hd : 0 < d) (a b : PyVal) : (a.scale c).div (b.scale d) = (a.div b).scale (c / d) := by
  have hpos : ∀ b : Rat, 0 ≤ d * b ↔ 0 ≤ b := fun b => by rw [mul_nonneg_iff_of_pos_left hd]
  cases a with
  | fin a =>
    cases b with
    | fin b =>
      by_cases hb : b = 0
      · simp only [scale, div, hb, mul_zero, if_true]
        exact infSign_scale hc _ _
      · have : d * b ≠ 0 := mul_ne_zero hd.ne' hb
        simp only [scale, div, hb, this, if_false]
        congr 1
        field_simp
    | _ => simp [scale, div]
  | nan => cases b <;> simp [scale, div]
  | pinf =>
    cases b with
    | fin b => simp only [scale, div, hpos]; split <;> rfl
    | _ => simp [scale, div]
  | ninf =>
    cases b with
    | fin b => simp only [scale, div, hpos]; split <;> rfl
    | _ => simp [scale, div]

theorem scale_nan {c : Rat} {v : PyVal} : v.scale c = .nan ↔ v = .nan := by cases v <;> simp [scale]

end PyVal

/-! ## Aggregations -/

theorem vals_scale (s : String → Rat) (v : String) (rs : List Row) : vals v (rs.map (inUnits s)) = (vals v rs).map fun x => s v * x := by
  unfold vals
  rw [List.filterMap_map, List.map_filterMap]
  rfl

theorem prods_scale (s : String → Rat) (v w : String) (rs : List Row) :
    prods v w (rs.map (inUnits s)) = (prods v w rs).map fun x => (s v * s w) * x := by
  unfold prods
  rw [List.filterMap_map, List.map_filterMap]
  congr 1
  funext r
  simp only [Function.comp, inUnits]
  cases r v <;> cases r w <;> simp
  ring

theorem sum_scale (c : Rat) (xs : List Rat) : (xs.map fun x => c * x).sum = c * xs.sum := by
  induction xs with
  | nil => simp
  | cons x xs ih => simp [ih, mul_add]

theorem pyMean_scale (c : Rat) (xs : List Rat) : pyMean (xs.map fun x => c * x) = (pyMean xs).scale c := by
  unfold pyMean
  by_cases h : xs = []
  · simp [h, PyVal.scale]
  · rw [if_neg (by simpa using h), if_neg h, sum_scale, List.length_map, mul_div_assoc]; rfl

theorem foldl_scale (g : Rat → Rat → Rat) (c : Rat) (hg : ∀ x y, g (c * x) (c * y) = c * g x y) (xs : List Rat) :
    ∀ x, (xs.map fun x => c * x).foldl g (c * x) = c * xs.foldl g x := by
  induction xs with
  | nil => intro x; rfl
  | cons y ys ih => intro x; simp only [List.map_cons, List.foldl_cons, hg]; exact ih _

theorem agg_scale (s : String → Rat) (hs : ∀ v, 0 < s v) (k : Leaf) (rs : List Row) :
    k.agg (rs.map (inUnits s)) = (k.agg rs).scale (k.unit s) := by
  cases k with
  | sum v => simp only [Leaf.agg, Leaf.unit, vals_scale, sum_scale]; rfl
  | count v => simp only [Leaf.agg, Leaf.unit, vals_scale, List.length_map, PyVal.scale_one]
  | countDistinct v =>
    simp only [Leaf.agg, Leaf.unit, vals_scale, PyVal.scale_one]
    rw [List.dedup_map_of_injective (fun a b h => mul_left_cancel₀ (hs v).ne' h), List.length_map]
  | mean v => simp only [Leaf.agg, Leaf.unit, vals_scale, pyMean_scale]
  | max v =>
    simp only [Leaf.agg, Leaf.unit, vals_scale]
    cases vals v rs with
    | nil => rfl
    | cons x xs =>
      simp only [List.map_cons, pyMax]
      rw [foldl_scale _ _ fun x y => (mul_max_of_nonneg x y (hs v).le).symm]; rfl
  | min v =>
    simp only [Leaf.agg, Leaf.unit, vals_scale]
    cases vals v rs with
    | nil => rfl
    | cons x xs =>
      simp only [List.map_cons, pyMin]
      rw [foldl_scale _ _ fun x y => (mul_min_of_nonneg x y (hs v).le).symm]; rfl
  | dot v w nz =>
    simp only [Leaf.agg, Leaf.unit, prods_scale]
    cases nz
    · simp only [sum_scale, Bool.false_eq_true, if_false]; rfl
    · simp only [if_true, pyMean_scale]
  | wmean v w =>
    simp only [Leaf.agg, Leaf.unit, prods_scale, vals_scale, sum_scale]
    have := PyVal.scale_div (mul_pos (hs v) (hs w)) (hs w) (.fin (prods v w rs).sum) (.fin (vals w rs).sum)
    rw [mul_div_assoc, div_self (hs w).ne', mul_one] at this
    exact this

theorem keyOf_scale {s : String → Rat} {sb : List String} (h : ∀ v ∈ sb, s v = 1) (r : Row) : keyOf sb (inUnits s r) = keyOf sb r := by
  unfold keyOf
  induction sb with
  | nil => rfl
  | cons v sb ih =>
    have hv : inUnits s r v = r v := by
      unfold inUnits
      rw [h v (by simp)]
      cases r v <;> simp
    rw [List.mapM_cons, List.mapM_cons, hv, ih fun v hv => h v (by simp [hv])]

theorem groupKeys_scale {s : String → Rat} {sb : List String} (h : ∀ v ∈ sb, s v = 1) (rs : List Row) :
    groupKeys sb (rs.map (inUnits s)) = groupKeys sb rs := by
  unfold groupKeys
  rw [List.filterMap_map]
  have : (keyOf sb ∘ inUnits s) = keyOf sb := by funext r; exact keyOf_scale h r
  rw [this]

theorem rowsAt_scale {s : String → Rat} {sb : List String} (h : ∀ v ∈ sb, s v = 1) (k : Key) (rs : List Row) :
    rowsAt sb k (rs.map (inUnits s)) = (rowsAt sb k rs).map (inUnits s) := by
  unfold rowsAt
  rw [List.filter_map]
  congr 1
  apply List.filter_congr
  intro r _
  simp only [Function.comp, keyOf_scale h]

theorem query_scale {env : Env} {s : String → Rat} {wh : List String} (h : SameFilter env s wh) (f : Frame) :
    (f.scale s).query env wh = (f.query env wh).scale s := by
  unfold Frame.query Frame.scale
  simp only [Frame.mk.injEq, true_and]
  rw [List.filter_map]
  congr 1
  apply List.filter_congr
  intro r _
  simp only [Function.comp]
  rw [Bool.eq_iff_iff, List.all_eq_true, List.all_eq_true]
  exact forall₂_congr fun w hw => by rw [h w hw r]

theorem leaf_scale (s : String → Rat) (hs : ∀ v, 0 < s v) (k : Leaf) (f : Frame) (sb : List String) (h : ∀ v ∈ sb, s v = 1) :
    k.run (f.scale s) sb = scaleOutcome (k.unit s) (k.run f sb) := by
  unfold Leaf.run
  have hc : (f.scale s).cols = f.cols := rfl
  have hr : (f.scale s).rows = f.rows.map (inUnits s) := rfl
  rw [hc, hr]
  split
  · simp only [scaleOutcome, Res.scale, groupKeys_scale h, rowsAt_scale h, agg_scale s hs, Tbl.scale, List.map_cons, List.map_nil,
      List.map_map, Function.comp_def]
  · rfl

/-! ## Tables -/

theorem get_scale (c : Rat) (t : Tbl) (k : Key) : (t.scale c).get k = (t.get k).map (PyVal.scale c) := by
  unfold Tbl.get Tbl.scale
  induction t with
  | nil => rfl
  | cons p t ih =>
    by_cases hp : p.1 = k
    · simp [hp]
    · simp only [List.map_cons]
      rw [List.find?_cons_of_neg (by simpa using hp), List.find?_cons_of_neg (by simpa using hp)]
      exact ih

theorem getD_scale (c : Rat) (t : Tbl) (k : Key) : ((t.scale c).get k).getD .nan = ((t.get k).getD .nan).scale c := by
  rw [get_scale]; cases t.get k <;> rfl

theorem keys_scale (c : Rat) (t : Tbl) : (t.scale c).map Prod.fst = t.map Prod.fst := by
  unfold Tbl.scale; rw [List.map_map]; rfl

theorem align_scale {op : PyVal → PyVal → PyVal} {c d e : Rat} (h : ∀ x y, op (x.scale c) (y.scale d) = (op x y).scale e) (a b : Tbl) :
    Tbl.align op (a.scale c) (b.scale d) = (Tbl.align op a b).scale e := by
  unfold Tbl.align
  rw [keys_scale, keys_scale]
  simp only [getD_scale, h]
  unfold Tbl.scale
  rw [List.map_map]; rfl

theorem combine_scale {op : PyVal → PyVal → PyVal} {c d e : Rat} (h : ∀ x y, op (x.scale c) (y.scale d) = (op x y).scale e) (a b : Res) :
    combine op (a.scale c) (b.scale d) = scaleOutcome e (combine op a b) := by
  cases a with
  | num a =>
    cases b with
    | num b => rfl
    | tbl ex bs =>
      have h' : ∀ y, op (.fin (c * a)) (y.scale d) = (op (.fin a) y).scale e := fun y => h (.fin a) y
      simp [combine, Res.scale, scaleOutcome, Tbl.scale, Function.comp_def, h']
  | tbl ex as =>
    cases b with
    | num b =>
      have h' : ∀ x, op (x.scale c) (.fin (d * b)) = (op x (.fin b)).scale e := fun x => h x (.fin b)
      simp [combine, Res.scale, scaleOutcome, Tbl.scale, Function.comp_def, h']
    | tbl ex' bs =>
      have hz : zipCols (Tbl.align op) (as.map (Tbl.scale c)) (bs.map (Tbl.scale d)) =
          (match zipCols (Tbl.align op) as bs with | .ok cs => .ok (cs.map (Tbl.scale e)) | .error x => .error x) := by
        match as, bs with
        | [a], bs => simp [zipCols, Function.comp_def, align_scale h]
        | [], [] => simp [zipCols]
        | [], [b] => simp [zipCols]
        | [], b :: b' :: bs => simp [zipCols]
        | a :: a' :: as, [b] => simp [zipCols, Function.comp_def, align_scale h]
        | a :: a' :: as, [] => simp [zipCols]
        | a :: a' :: as, b :: b' :: bs =>
          simp only [zipCols, List.map_cons, List.length_cons, List.length_map]
          split
          · simp only [List.zipWith_cons_cons, List.map_cons, align_scale h, List.zipWith_map, List.map_zipWith]
          · rfl
      simp only [combine, Res.scale]
      split
      · rw [hz]
        cases zipCols (Tbl.align op) as bs <;> rfl
      · rfl

theorem pySum_scale (c : Rat) (xs : List PyVal) : pySum (xs.map (PyVal.scale c)) = (pySum xs).scale c := by
  unfold pySum
  have hf : (xs.map (PyVal.scale c)).filter (· ≠ .nan) = (xs.filter (· ≠ .nan)).map (PyVal.scale c) := by
    rw [List.filter_map]
    congr 1
    apply List.filter_congr
    intro v _
    simp [Function.comp, PyVal.scale_nan]
  rw [hf]
  have : ∀ (l : List PyVal) (z : PyVal), (l.map (PyVal.scale c)).foldl PyVal.add (z.scale c) = (l.foldl PyVal.add z).scale c := by
    intro l
    induction l with
    | nil => intro z; rfl
    | cons y ys ih => intro z; simp only [List.map_cons, List.foldl_cons, PyVal.scale_add]; exact ih _
  have h0 := this (xs.filter (· ≠ .nan)) (.fin 0)
  simpa [PyVal.scale] using h0

theorem dist_scale {c : Rat} (hc : 0 < c) (n : Nat) (t : Tbl) : distTbl n (t.scale c) = distTbl n t := by
  have hdiv : ∀ a b : PyVal, (a.scale c).div (b.scale c) = a.div b := by
    intro a b
    rw [PyVal.scale_div hc hc, div_self hc.ne', PyVal.scale_one]
  unfold distTbl
  have hin : ∀ p : Key × PyVal, ((t.scale c).filter fun p' => p'.1.take n = p.1.take n).map Prod.snd =
      ((t.filter fun p' => p'.1.take n = p.1.take n).map Prod.snd).map (PyVal.scale c) := by
    intro p
    unfold Tbl.scale
    rw [List.filter_map, List.map_map, List.map_map]
    rfl
  conv_lhs => unfold Tbl.scale
  rw [List.map_map]
  apply List.map_congr_left
  intro p _
  simp only [Function.comp]
  have := hin p
  unfold Tbl.scale at this
  rw [this, pySum_scale, hdiv]

theorem change_scale {g : PyVal → PyVal → PyVal} {c e : Rat} (h : ∀ x y, g (x.scale c) (y.scale c) = (g x y).scale e) (n k : Nat) (base : Key)
    (incl : Bool) (t : Tbl) :
    changeTbl g n k base incl (t.scale c) = (match changeTbl g n k base incl t with | .ok t' => .ok (t'.scale e) | .error x => .error x) := by
  have hany : (t.scale c).any (fun p => condOf n k p.1 = base) = t.any (fun p => condOf n k p.1 = base) := by
    unfold Tbl.scale; rw [List.any_map]; rfl
  have hmap : (t.scale c).map (fun p => (p.1, g p.2 (((t.scale c).get (baseKey n k base p.1)).getD .nan))) =
      Tbl.scale e (t.map (fun p => (p.1, g p.2 ((t.get (baseKey n k base p.1)).getD .nan)))) := by
    simp only [getD_scale]
    unfold Tbl.scale
    rw [List.map_map, List.map_map]
    apply List.map_congr_left
    intro p _
    simp only [Function.comp, h]
  have hfil : ∀ t : Tbl, (t.scale e).filter (fun p => condOf n k p.1 ≠ base) = Tbl.scale e (t.filter (fun p => condOf n k p.1 ≠ base)) := by
    intro t
    unfold Tbl.scale
    rw [List.filter_map]; rfl
  unfold changeTbl
  rw [hany]
  split
  · simp only [hmap]
    cases incl
    · simp only [Bool.false_eq_true, if_false, hfil]
    · simp only [if_true]
  · rfl

theorem mapM_scale {F G : Tbl → Except Err Tbl} {c e : Rat}
    (h : ∀ t, F (t.scale c) = (match G t with | .ok t' => .ok (t'.scale e) | .error x => .error x)) (ts : List Tbl) :
    (ts.map (Tbl.scale c)).mapM F = (match ts.mapM G with | .ok ts' => .ok (ts'.map (Tbl.scale e)) | .error x => .error x) := by
  induction ts with
  | nil => rfl
  | cons t ts ih =>
    rw [List.map_cons, List.mapM_cons, List.mapM_cons, h t]
    cases hG : G t with
    | error x => rfl
    | ok t' =>
      simp only [bind, Except.bind] at ih ⊢
      rw [ih]
      cases ts.mapM G <;> rfl

theorem onRes_scale {o : Oper} {n : Nat} {c e : Rat}
    (h : ∀ t, o.onTbl n (t.scale c) = (match o.onTbl n t with | .ok t' => .ok (t'.scale e) | .error x => .error x)) (r : Res) :
    o.onRes n (r.scale c) = scaleOutcome e (o.onRes n r) := by
  cases r with
  | num q => rfl
  | tbl ex cs =>
    simp only [Oper.onRes, Res.scale]
    rw [mapM_scale h]
    cases cs.mapM (o.onTbl n) <;> rfl

theorem joinRes_cons (a b : Res) (l : List Res) : joinRes (a :: b :: l) =
    (match a, joinRes (b :: l) with
      | .tbl ex cs, .ok (.tbl ex' cs') => if ex = ex' then .ok (.tbl ex (cs ++ cs')) else .error .unsupported
      | _, .error e => .error e
      | _, _ => .error .valueError) := by
  conv_lhs => rw [joinRes.eq_def]
  rfl

theorem joinRes_scale (c : Rat) : ∀ rs : List Res, joinRes (rs.map (Res.scale c)) = scaleOutcome c (joinRes rs)
  | [] => rfl
  | [r] => by cases r <;> rfl
  | r :: r' :: rs => by
    have ih := joinRes_scale c (r' :: rs)
    rw [List.map_cons] at ih
    rw [List.map_cons, List.map_cons, joinRes_cons, joinRes_cons, ih]
    cases r with
    | num q =>
      cases joinRes (r' :: rs) with
      | error e => rfl
      | ok x => cases x <;> rfl
    | tbl ex cs =>
      cases joinRes (r' :: rs) with
      | error e => rfl
      | ok x =>
        cases x with
        | num q => rfl
        | tbl ex' cs' =>
          simp only [scaleOutcome, Res.scale]
          split
          · simp [Res.scale]
          · rfl

/-! ## Trees -/

theorem unit_pos {env : Env} {s : String → Rat} (hs : ∀ v, 0 < s v) {m : M} {c : Rat} (h : HasUnit env s m c) : 0 < c := by
  induction h with
  | const q => exact one_pos
  | leaf k wh _ =>
    cases k <;> simp only [Leaf.unit] <;> first | exact hs _ | exact one_pos | exact mul_pos (hs _) (hs _)
  | add wh _ _ _ ih _ => exact ih
  | sub wh _ _ _ ih _ => exact ih
  | mul wh _ _ _ ih ih' => exact mul_pos ih ih'
  | div wh _ _ _ ih ih' => exact div_pos ih ih'
  | neg wh _ _ _ ih _ => exact ih
  | list wh hc _ _ _ => exact hc
  | absChange wh _ _ _ ih => exact ih
  | pctChange wh _ _ _ _ => exact one_pos
  | dist wh _ _ _ _ => exact one_pos
  | hhi wh _ _ _ _ => exact one_pos

theorem comp_scale {env : Env} {s : String → Rat} {op : BinOp} {l r : M} {wh : List String} {c d e : Rat} (hw : SameFilter env s wh)
    (hop : ∀ x y, op.py env (x.scale c) (y.scale d) = (op.py env x y).scale e) {f : Frame} {sb : List String}
    (hl : l.run env ((f.query env wh).scale s) sb = scaleOutcome c (l.run env (f.query env wh) sb))
    (hr : r.run env ((f.query env wh).scale s) sb = scaleOutcome d (r.run env (f.query env wh) sb)) :
    (M.comp op l r wh).run env (f.scale s) sb = scaleOutcome e ((M.comp op l r wh).run env f sb) := by
  rw [M.run, M.run, query_scale hw, hl, hr]
  cases l.run env (f.query env wh) sb with
  | error x => rfl
  | ok a =>
    cases r.run env (f.query env wh) sb with
    | error x => rfl
    | ok b => exact combine_scale hop a b

theorem oper_scale {env : Env} {s : String → Rat} {o : Oper} {m : M} {wh : List String} {c e : Rat} (hw : SameFilter env s wh) {f : Frame}
    {sb : List String}
    (ho : ∀ t, o.onTbl sb.length (t.scale c) =
      (match o.onTbl sb.length t with | .ok t' => .ok (t'.scale e) | .error x => .error x))
    (hm : m.run env ((f.query env wh).scale s) (sb ++ o.splitBy) = scaleOutcome c (m.run env (f.query env wh) (sb ++ o.splitBy))) :
    (M.oper o m wh).run env (f.scale s) sb = scaleOutcome e ((M.oper o m wh).run env f sb) := by
  rw [M.run, M.run, query_scale hw, hm]
  cases m.run env (f.query env wh) (sb ++ o.splitBy) with
  | error x => rfl
  | ok r => exact onRes_scale ho r

/-- The children of a list, each in its own unit; those that raise are left out as before. -/
theorem runAll_scale {env : Env} {s : String → Rat} {f : Frame} {sb : List String} (c : Rat) : ∀ ms : List M,
    (∀ m ∈ ms, m.run env (f.scale s) sb = scaleOutcome c (m.run env f sb)) →
    runAll env ms (f.scale s) sb = (runAll env ms f sb).map (Res.scale c)
  | [], _ => rfl
  | m :: ms, h => by
    rw [runAll, runAll, h m (by simp), runAll_scale c ms fun m hm => h m (by simp [hm])]
    cases m.run env f sb <;> rfl

/-- **C106.** If the numbers of every column are multiplied by a positive factor (1 for the columns that split or group, and not
such that a filter notices), the results of a metric are multiplied by the factor that dimensional analysis gives its formula, with
the same index, infinite and missing values where they were, and the same errors. -/
theorem C106_units (env : Env) (s : String → Rat) (hs : ∀ v, 0 < s v) (m : M) (c : Rat) (h : HasUnit env s m c) (f : Frame)
    (sb : List String) (hsb : ∀ v ∈ sb, s v = 1) :
    m.run env (f.scale s) sb = scaleOutcome c (m.run env f sb) := by
  have happ : ∀ {sb o : List String}, (∀ v ∈ sb, s v = 1) → (∀ v ∈ o, s v = 1) → ∀ v ∈ sb ++ o, s v = 1 := by
    intro sb o h1 h2 v hv
    rcases List.mem_append.1 hv with hv | hv
    · exact h1 v hv
    · exact h2 v hv
  induction h generalizing f sb with
  | const q => simp [M.run, scaleOutcome, Res.scale]
  | leaf k wh hw => rw [M.run, M.run, query_scale hw]; exact leaf_scale s hs k _ sb hsb
  | add wh hl hr hw ihl ihr => exact comp_scale hw (fun x y => by exact PyVal.scale_add _ x y) (ihl _ sb hsb) (ihr _ sb hsb)
  | sub wh hl hr hw ihl ihr => exact comp_scale hw (fun x y => by exact PyVal.scale_sub _ x y) (ihl _ sb hsb) (ihr _ sb hsb)
  | mul wh hl hr hw ihl ihr => exact comp_scale hw (fun x y => by exact PyVal.scale_mul (unit_pos hs hl) (unit_pos hs hr) x y) (ihl _ sb hsb) (ihr _ sb hsb)
  | div wh hl hr hw ihl ihr => exact comp_scale hw (fun x y => by exact PyVal.scale_div (unit_pos hs hl) (unit_pos hs hr) x y) (ihl _ sb hsb) (ihr _ sb hsb)
  | neg wh hl hr hw ihl ihr => exact comp_scale hw (fun x _ => by exact PyVal.scale_neg _ x) (ihl _ sb hsb) (ihr _ sb hsb)
  | list wh hc hms hw ih =>
    rw [M.run, M.run, query_scale hw, runAll_scale _ _ fun m hm => ih m hm _ sb hsb]
    exact joinRes_scale _ _
  | absChange wh hm hc hw ih =>
    exact oper_scale hw (fun t => change_scale (PyVal.scale_sub _) _ _ _ _ t) (ih _ _ (happ hsb hc))
  | @pctChange cond base incl m c wh hm hc hw ih =>
    have hpos := unit_pos hs hm
    refine oper_scale hw (fun t => change_scale (fun x y => ?_) _ _ _ _ t) (ih _ _ (happ hsb hc))
    unfold pctOf
    rw [PyVal.scale_div hpos hpos, div_self hpos.ne', PyVal.scale_one, PyVal.scale_one]
  | @dist over m c wh hm hc hw ih =>
    refine oper_scale hw (fun t => ?_) (ih _ _ (happ hsb hc))
    simp only [Oper.onTbl, dist_scale (unit_pos hs hm)]
    simp [Tbl.scale]
  | @hhi over m c wh hm hc hw ih =>
    refine oper_scale hw (fun t => ?_) (ih _ _ (happ hsb hc))
    simp only [Oper.onTbl, hhiTbl, dist_scale (unit_pos hs hm)]
    simp [Tbl.scale]

/-! ## Standard errors and intervals -/

theorem stdSamp_scale (c : ℝ) (xs : List ℝ) : stdSamp (xs.map fun x => c * x) = (stdSamp xs).map fun e => |c| * e := by
  have hsum : ∀ l : List ℝ, (l.map fun x => c * x).sum = c * l.sum := by
    intro l
    induction l with
    | nil => simp
    | cons x l ih => simp [ih, mul_add]
  have hsq : ∀ (l : List ℝ) (μ : ℝ), (l.map fun x => (c * x - c * μ) ^ 2).sum = c ^ 2 * (l.map fun x => (x - μ) ^ 2).sum := by
    intro l μ
    induction l with
    | nil => simp
    | cons x l ih => simp only [List.map_cons, List.sum_cons, ih]; ring
  unfold stdSamp
  rw [List.length_map]
  split
  · rfl
  · simp only [Option.map_some, List.map_map, Function.comp_def, hsum, mul_div_assoc, hsq]
    congr 1
    rw [Real.sqrt_mul (sq_nonneg c), Real.sqrt_sq_eq_abs]

/-- **C106.** If the replicates are multiplied by `c` so are the standard errors, of Bootstrap and of Jackknife, by `|c|`; the degrees
of freedom stay. -/
theorem C106_stderr (c : ℝ) (reps : List (Option ℝ)) :
    bsStderr (reps.map (Option.map fun x => c * x)) = ((bsStderr reps).1.map fun e => |c| * e, (bsStderr reps).2) ∧
      jkStderr (reps.map (Option.map fun x => c * x)) = ((jkStderr reps).1.map fun e => |c| * e, (jkStderr reps).2) := by
  have hf : (reps.map (Option.map fun x => c * x)).filterMap id = (reps.filterMap id).map fun x => c * x := by
    rw [List.filterMap_map, List.map_filterMap]
    congr 1
  have hb : bsStderr (reps.map (Option.map fun x => c * x)) = ((bsStderr reps).1.map fun e => |c| * e, (bsStderr reps).2) := by
    unfold bsStderr
    simp only [hf, stdSamp_scale, List.length_map]
  refine ⟨hb, ?_⟩
  unfold jkStderr
  rw [hb]
  simp only [Option.map_map, Function.comp_def, mul_assoc, mul_div_assoc]

/-- **C106.** So are the bounds of the interval, if `c` is positive. -/
theorem C106_interval (ppf : ℝ → ℤ → ℝ) (conf c pt : ℝ) (hc : 0 < c) (se : Option ℝ) (dof : ℤ) :
    ciBounds ppf conf (c * pt) (se.map fun e => |c| * e) dof = (ciBounds ppf conf pt se dof).map fun b => (c * b.1, c * b.2) := by
  unfold ciBounds ciHalfWidth
  cases se with
  | none => rfl
  | some e =>
    simp only [Option.map_some, abs_of_pos hc, Option.some.injEq, Prod.mk.injEq]
    constructor <;> ring

/-- Cents instead of dollars in `x`. -/
private def exCents : String → Rat := fun v => if v = "x" then 100 else 1

/-- A filter that reads the column `g` only. -/
private def exFilters : Env where
  query := fun _ r => decide (r "g" ≠ some 2)
  pow := fun _ _ => .nan

/-- Mean over the count of `y`, with a filter: in cents per count; its percent change has no unit. -/
example : HasUnit exFilters exCents (.comp .div (.leaf (.mean "x") []) (.leaf (.count "y") []) ["g != 2"]) 100 ∧
    HasUnit exFilters exCents
      (.oper (.pctChange ["g"] [0] true) (.comp .div (.leaf (.mean "x") []) (.leaf (.count "y") []) ["g != 2"]) []) 1 ∧
    ∀ v, 0 < exCents v := by
  have hw : SameFilter exFilters exCents ["g != 2"] := by
    intro w _ r
    have : inUnits exCents r "g" = r "g" := by
      unfold inUnits exCents
      rcases r "g" with _ | q <;> simp
    show decide (inUnits exCents r "g" ≠ some 2) = decide (r "g" ≠ some 2)
    rw [this]
  have h0 : SameFilter exFilters exCents [] := by intro w h; cases h
  have h : HasUnit exFilters exCents (.comp .div (.leaf (.mean "x") []) (.leaf (.count "y") []) ["g != 2"]) 100 := by
    have := HasUnit.div ["g != 2"] (HasUnit.leaf (.mean "x") [] h0) (HasUnit.leaf (.count "y") [] h0) hw
    simpa [Leaf.unit, exCents] using this
  refine ⟨h, HasUnit.pctChange [] h (by simp [exCents]) h0, ?_⟩
  intro v
  unfold exCents
  split <;> norm_num

end Verif
