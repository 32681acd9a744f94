import Verif.Spec.SqlAgree
import Verif.Lemmas.Slice
import Verif.Lemmas.Filters

namespace Verif

theorem addCols_eq : ∀ (new acc : List SqlE), (acc ++ new).Nodup → addCols acc new = acc ++ new := by
  intro new
  induction new with
  | nil => intro acc _; simp [addCols]
  | cons e new ih =>
    intro acc h
    unfold addCols
    simp only [List.foldl_cons]
    have he : e ∉ acc := by
      intro hm
      rw [List.nodup_append] at h
      exact h.2.2 e hm e (by simp) rfl
    rw [if_neg he]
    have := ih (acc ++ [e]) (by simpa using h)
    unfold addCols at this
    rw [this]; simp

theorem localFilter_mem {wh loc glob : List String} {w : String} :
    w ∈ localFilter wh loc glob ↔ (w ∈ wh ∨ w ∈ loc) ∧ w ∉ glob := by
  unfold localFilter
  simp [List.mem_filter]

/-- Filtering by WHERE and then by IF equals filtering by all conditions. -/
theorem sqlVals_eq (env : Env) (f : Frame) (sb : List String) (v : Key)
    (glob flt conds : List String) (hset : ∀ w, w ∈ conds ↔ w ∈ glob ∨ w ∈ flt) (g : Row → Cell) :
    sqlVals env flt g (groupRows env f glob sb v)
      = (rowsAt sb v (f.query env conds).rows).filterMap g := by
  unfold sqlVals groupRows rowsAt Frame.query
  simp only [List.filter_filter]
  rw [List.filterMap_filter, List.filterMap_filter]
  congr 1
  funext r
  by_cases hk : keyOf sb r = some v
  · by_cases hg : (glob.all fun w => env.query w r) = true
    · by_cases hf : (flt.all fun w => env.query w r) = true
      · have hc : (conds.all fun w => env.query w r) = true := by
          rw [List.all_eq_true] at *
          intro w hw
          rcases (hset w).1 hw with h | h
          · exact hg w h
          · exact hf w h
        simp only [hk, hg, hf, hc, decide_true, Bool.and_self, if_true]
      · have hc : (conds.all fun w => env.query w r) = false := by
          rw [← Bool.not_eq_true]
          intro hc
          apply hf
          rw [List.all_eq_true] at *
          exact fun w hw => hc w ((hset w).2 (Or.inr hw))
        simp [hk, hg, hf, hc]
    · have hc : (conds.all fun w => env.query w r) = false := by
        rw [← Bool.not_eq_true]
        intro hc
        apply hg
        rw [List.all_eq_true] at *
        exact fun w hw => hc w ((hset w).2 (Or.inl hw))
      simp [hk, hg, hc]
  · simp [hk]

theorem prods_comm (v w : String) (rs : List Row) : prods v w rs = prods w v rs := by
  unfold prods
  congr 1
  funext r
  cases r v <;> cases r w <;> simp [mul_comm]

theorem filterMap_mul (v w : String) (rs : List Row) :
    rs.filterMap (fun r => Cell.map₂ (· * ·) (r v) (r w)) = prods v w rs := by
  unfold prods
  congr 1

theorem prods_vals_ne {v w : String} {rs : List Row} (h : prods v w rs ≠ []) : vals w rs ≠ [] := by
  intro h0
  apply h
  unfold prods
  rw [List.filterMap_eq_nil_iff]
  intro r hr
  unfold vals at h0
  rw [List.filterMap_eq_nil_iff] at h0
  rw [h0 r hr]
  cases r v <;> rfl

theorem avg_agree (xs : List Rat) : pyMean xs = .ofCell (sqlAvg xs) := by
  unfold pyMean sqlAvg
  split <;> rfl

theorem leaf_agree (env : Env) (f : Frame) (sb : List String) (v : Key) (k : Leaf)
    (glob flt conds : List String) (hset : ∀ w, w ∈ conds ↔ w ∈ glob ∨ w ∈ flt)
    (hval : k.hasValues (rowsAt sb v (f.query env conds).rows))
    (hinf : (k.agg (rowsAt sb v (f.query env conds).rows)).isInf = false) :
    k.agg (rowsAt sb v (f.query env conds).rows)
      = PyVal.ofCell (k.sqlAgg env flt (groupRows env f glob sb v)) := by
  have hs := sqlVals_eq env f sb v glob flt conds hset
  generalize rowsAt sb v (f.query env conds).rows = rs at *
  cases k with
  | sum x =>
    simp only [Leaf.agg, Leaf.sqlAgg, hs, Leaf.hasValues, vals] at *
    simp [sqlSum, hval, PyVal.ofCell]
  | count x => simp [Leaf.agg, Leaf.sqlAgg, hs, vals, PyVal.ofCell]
  | countDistinct x => simp [Leaf.agg, Leaf.sqlAgg, hs, vals, PyVal.ofCell]
  | mean x =>
    simp only [Leaf.agg, Leaf.sqlAgg, hs, vals]
    exact avg_agree _
  | max x =>
    simp only [Leaf.agg, Leaf.sqlAgg, hs, vals]
    cases rs.filterMap (fun r => r x) <;> simp [pyMax, sqlMax, PyVal.ofCell]
  | min x =>
    simp only [Leaf.agg, Leaf.sqlAgg, hs, vals]
    cases rs.filterMap (fun r => r x) <;> simp [pyMin, sqlMin, PyVal.ofCell]
  | dot x y n =>
    simp only [Leaf.agg, Leaf.sqlAgg, hs, filterMap_mul]
    cases n with
    | true =>
      exact avg_agree _
    | false =>
      simp only [Leaf.hasValues] at hval
      simp [sqlSum, hval, PyVal.ofCell]
  | wmean x y =>
    simp only [Leaf.agg, Leaf.sqlAgg, hs, filterMap_mul, Leaf.hasValues] at *
    rw [prods_comm y x]
    have h2 : rs.filterMap (fun r => r y) ≠ [] := prods_vals_ne hval
    simp only [sqlSum, hval, h2, if_false, vals]
    simp only [vals] at hinf
    generalize (prods x y rs).sum = a at *
    generalize (rs.filterMap (fun r => r y)).sum = b at *
    simp only [PyVal.div, Cell.safeDiv] at hinf ⊢
    by_cases h0 : b = 0
    · rw [if_pos h0] at hinf ⊢
      rw [if_pos h0]
      unfold PyVal.infSign at hinf ⊢
      by_cases h1 : a = 0
      · rw [if_pos h1]; rfl
      · rw [if_neg h1] at hinf
        by_cases h2 : 0 < a
        · simp [if_pos h2, PyVal.isInf] at hinf
        · simp [if_neg h2, PyVal.isInf] at hinf
    · rw [if_neg h0, if_neg h0]; rfl

theorem Tbl.get_map_keys (ks : List Key) (g : Key → PyVal) {v : Key} (h : v ∈ ks) :
    Tbl.get (ks.map (fun k => (k, g k))) v = some (g v) := by
  unfold Tbl.get
  induction ks with
  | nil => simp at h
  | cons k ks ih =>
    by_cases hk : k = v
    · subst hk; simp
    · simp only [List.map_cons]
      rw [List.find?_cons_of_neg (by simpa using hk)]
      exact ih (by simpa [Ne.symm hk] using h)

theorem Tbl.get_mem {t : Tbl} {v : Key} {x : PyVal} (h : t.get v = some x) :
    v ∈ t.map Prod.fst := by
  unfold Tbl.get at h
  rw [Option.map_eq_some_iff] at h
  obtain ⟨p, hp, _⟩ := h
  have h1 := List.find?_some hp
  have h2 := List.mem_of_find?_eq_some hp
  simp only [decide_eq_true_eq] at h1
  exact List.mem_map.2 ⟨p, h2, h1⟩

theorem Tbl.get_align {op : PyVal → PyVal → PyVal} {a b : Tbl} {v : Key} {x y : PyVal}
    (ha : a.get v = some x) (hb : b.get v = some y) :
    (Tbl.align op a b).get v = some (op x y) := by
  unfold Tbl.align
  rw [Tbl.get_map_keys]
  · simp [ha, hb]
  · rw [List.mem_dedup, List.mem_append]
    exact Or.inl (Tbl.get_mem ha)

theorem Tbl.get_map_val {t : Tbl} {v : Key} {x : PyVal} (g : PyVal → PyVal)
    (h : t.get v = some x) : Tbl.get (t.map (fun p => (p.1, g p.2))) v = some (g x) := by
  unfold Tbl.get at h ⊢
  induction t with
  | nil => simp at h
  | cons p t ih =>
    simp only [List.map_cons]
    by_cases hp : p.1 = v
    · rw [List.find?_cons_of_pos (by simpa using hp)] at h ⊢
      simp only [Option.map_some, Option.some.injEq] at h ⊢
      rw [h]
    · rw [List.find?_cons_of_neg (by simpa using hp)] at h ⊢
      exact ih h

/-- The arithmetic of Python and SQL agree when the result is not infinite. -/
theorem op_agree (env : Env) (spow : Cell → Cell → Cell)
    (hpow : ∀ a b : Cell, (env.pow (.ofCell a) (.ofCell b)).isInf = false →
      env.pow (.ofCell a) (.ofCell b) = .ofCell (spow a b))
    (op : BinOp) (e1 e2 : SqlE) (rs : List Row)
    (h : (op.py env (.ofCell (e1.eval env spow rs)) (.ofCell (e2.eval env spow rs))).isInf = false) :
    op.py env (.ofCell (e1.eval env spow rs)) (.ofCell (e2.eval env spow rs))
      = .ofCell ((SqlE.bin op e1 e2).eval env spow rs) := by
  simp only [SqlE.eval]
  generalize e1.eval env spow rs = x at *
  generalize e2.eval env spow rs = y at *
  cases op with
  | pow => exact hpow x y h
  | add => cases x <;> cases y <;> simp [BinOp.py, PyVal.ofCell, PyVal.add, Cell.map₂]
  | sub =>
    cases x <;> cases y <;>
      simp [BinOp.py, PyVal.ofCell, PyVal.add, PyVal.sub, PyVal.neg, Cell.map₂, sub_eq_add_neg]
  | mul => cases x <;> cases y <;> simp [BinOp.py, PyVal.ofCell, PyVal.mul, Cell.map₂]
  | neg => cases x <;> simp [BinOp.py, PyVal.ofCell, PyVal.neg]
  | div =>
    cases x with
    | none => cases y <;> simp [BinOp.py, PyVal.ofCell, PyVal.div, Cell.safeDiv]
    | some a =>
      cases y with
      | none => simp [BinOp.py, PyVal.ofCell, PyVal.div, Cell.safeDiv]
      | some b =>
        simp only [BinOp.py, PyVal.ofCell, PyVal.div, Cell.safeDiv] at h ⊢
        by_cases h0 : b = 0
        · rw [if_pos h0] at h ⊢
          rw [if_pos h0]
          unfold PyVal.infSign at h ⊢
          by_cases h1 : a = 0
          · rw [if_pos h1]
          · rw [if_neg h1] at h
            split at h <;> simp [PyVal.isInf] at h
        · rw [if_neg h0]
          rw [if_neg h0]

end Verif
