import Verif.Spec.Arith
import Verif.Lemmas.SqlAgree

/-!
# C104: arithmetic of metrics is arithmetic of their numbers

/repo/metrics.py:1447-1509.
-/

namespace Verif

/-- The three signs of a number, with what they say of its real number. -/
theorem sign_cases (q : Rat) :
    (q < 0 ∧ (q : ℝ) < 0) ∨ q = 0 ∨ (0 < q ∧ 0 < (q : ℝ)) := by
  rcases lt_trichotomy q 0 with h | h | h
  · exact Or.inl ⟨h, by exact_mod_cast h⟩
  · exact Or.inr (Or.inl h)
  · exact Or.inr (Or.inr ⟨h, by exact_mod_cast h⟩)

theorem mul_numbers (a b : PyVal) : (a.mul b).ext = ieeeNan .mul a.ext b.ext := by
  cases a with
  | nan => cases b <;> simp [PyVal.mul, PyVal.ext, ieeeNan]
  | pinf =>
    cases b with
    | fin b =>
      rcases sign_cases b with ⟨h, h'⟩ | h | ⟨h, h'⟩
      · simp [PyVal.mul, PyVal.infSign, PyVal.ext, ieeeNan, ieee, Infinite', h.ne, h.le, not_lt.2 h.le, EReal.top_mul_coe_of_neg h']
      · simp [PyVal.mul, PyVal.infSign, PyVal.ext, ieeeNan, ieee, Infinite', h]
      · simp [PyVal.mul, PyVal.infSign, PyVal.ext, ieeeNan, ieee, Infinite', h, h.ne', EReal.top_mul_coe_of_pos h']
    | _ => simp [PyVal.mul, PyVal.ext, ieeeNan, ieee, Infinite']
  | ninf =>
    cases b with
    | fin b =>
      rcases sign_cases b with ⟨h, h'⟩ | h | ⟨h, h'⟩
      · simp [PyVal.mul, PyVal.infSign, PyVal.ext, ieeeNan, ieee, Infinite', h, h.ne, EReal.bot_mul_coe_of_neg h']
      · simp [PyVal.mul, PyVal.infSign, PyVal.ext, ieeeNan, ieee, Infinite', h]
      · simp [PyVal.mul, PyVal.infSign, PyVal.ext, ieeeNan, ieee, Infinite', h, h.ne', not_lt.2 h.le, EReal.bot_mul_coe_of_pos h']
    | _ => simp [PyVal.mul, PyVal.ext, ieeeNan, ieee, Infinite']
  | fin a =>
    rcases sign_cases a with ⟨h, h'⟩ | h | ⟨h, h'⟩
    · cases b <;> simp [PyVal.mul, PyVal.infSign, PyVal.ext, ieeeNan, ieee, Infinite', h, h.ne, not_lt.2 h.le, EReal.coe_mul_top_of_neg h',
        EReal.coe_mul_bot_of_neg h', EReal.coe_mul]
    · cases b <;> simp [PyVal.mul, PyVal.infSign, PyVal.ext, ieeeNan, ieee, Infinite', h]
    · cases b <;> simp [PyVal.mul, PyVal.infSign, PyVal.ext, ieeeNan, ieee, Infinite', h, h.ne', not_lt.2 h.le, EReal.coe_mul_top_of_pos h',
        EReal.coe_mul_bot_of_pos h', EReal.coe_mul]

theorem div_numbers (a b : PyVal) : (a.div b).ext = ieeeNan .div a.ext b.ext := by
  cases b with
  | nan => cases a <;> simp [PyVal.div, PyVal.ext, ieeeNan]
  | pinf => cases a <;> simp [PyVal.div, PyVal.ext, ieeeNan, ieee, Infinite']
  | ninf => cases a <;> simp [PyVal.div, PyVal.ext, ieeeNan, ieee, Infinite']
  | fin b =>
    rcases sign_cases b with ⟨h, h'⟩ | h | ⟨h, h'⟩
    · have h'' : ((b : ℝ) : EReal) < 0 := by exact_mod_cast h'
      cases a with
      | fin a => simp [PyVal.div, PyVal.ext, ieeeNan, ieee, Infinite', h.ne, EReal.coe_div]
      | nan => simp [PyVal.div, PyVal.ext, ieeeNan]
      | pinf => simp [PyVal.div, PyVal.ext, ieeeNan, ieee, Infinite', h.ne, not_le.2 h, EReal.top_div_of_neg_ne_bot h'' (EReal.coe_ne_bot _)]
      | ninf => simp [PyVal.div, PyVal.ext, ieeeNan, ieee, Infinite', h.ne, not_le.2 h, EReal.bot_div_of_neg_ne_bot h'' (EReal.coe_ne_bot _)]
    · cases a with
      | fin a =>
        rcases sign_cases a with ⟨h1, h1'⟩ | h1 | ⟨h1, h1'⟩
        · simp [PyVal.div, PyVal.infSign, PyVal.ext, ieeeNan, ieee, h, h1.ne, not_lt.2 h1.le]
        · simp [PyVal.div, PyVal.infSign, PyVal.ext, ieeeNan, ieee, h, h1]
        · simp [PyVal.div, PyVal.infSign, PyVal.ext, ieeeNan, ieee, h, h1, h1.ne']
      | _ => simp [PyVal.div, PyVal.ext, ieeeNan, ieee, h]
    · have h'' : 0 < ((b : ℝ) : EReal) := by exact_mod_cast h'
      cases a with
      | fin a => simp [PyVal.div, PyVal.ext, ieeeNan, ieee, Infinite', h.ne', EReal.coe_div]
      | nan => simp [PyVal.div, PyVal.ext, ieeeNan]
      | pinf => simp [PyVal.div, PyVal.ext, ieeeNan, ieee, Infinite', h.ne', h.le, EReal.top_div_of_pos_ne_top h'' (EReal.coe_ne_top _)]
      | ninf => simp [PyVal.div, PyVal.ext, ieeeNan, ieee, Infinite', h.ne', h.le, EReal.bot_div_of_pos_ne_top h'' (EReal.coe_ne_top _)]

/-- **C104.** What Python gives for `+ - * /` on two numbers, of which each may be infinite or NaN, is what the extended real
numbers give, with NaN where these have no value. -/
theorem C104_numbers (env : Env) (op : BinOp) (hop : op ≠ .pow) (hneg : op ≠ .neg) (a b : PyVal) :
    (op.py env a b).ext = ieeeNan op a.ext b.ext := by
  cases op with
  | pow => exact absurd rfl hop
  | neg => exact absurd rfl hneg
  | add => cases a <;> cases b <;> simp [BinOp.py, PyVal.add, PyVal.ext, ieeeNan, ieee, EReal.coe_add]
  | sub => cases a <;> cases b <;>
      simp [BinOp.py, PyVal.sub, PyVal.neg, PyVal.add, PyVal.ext, ieeeNan, ieee, EReal.coe_sub, sub_eq_add_neg]
  | mul => exact mul_numbers a b
  | div => exact div_numbers a b

/-- **C104.** The unary minus of a metric is that of its numbers. -/
theorem C104_neg (a : PyVal) : a.neg.ext = a.ext.map (fun x => -x) := by
  cases a <;> simp [PyVal.neg, PyVal.ext]

theorem numberAt_getD (t : Tbl) (k : Key) : numberAt t k = ((t.get k).getD .nan).ext := by
  unfold numberAt
  cases t.get k <;> rfl

theorem align_result (env : Env) (op : BinOp) (hop : op ≠ .pow) (hneg : op ≠ .neg) (a b : Tbl) :
    IsResult op a b (Tbl.align (op.py env) a b) := by
  refine ⟨fun k => by simp [Tbl.align, List.mem_map], fun k => ?_⟩
  rw [numberAt_getD a, numberAt_getD b, ← C104_numbers env op hop hneg]
  by_cases hk : k ∈ (a.map Prod.fst ++ b.map Prod.fst).dedup
  · unfold numberAt Tbl.align
    rw [Tbl.get_map_keys _ (fun k => op.py env ((a.get k).getD .nan) ((b.get k).getD .nan)) hk]
    rfl
  · have none_of : ∀ t : Tbl, k ∉ t.map Prod.fst → t.get k = none := by
      intro t ht
      unfold Tbl.get
      rw [Option.map_eq_none_iff, List.find?_eq_none]
      intro p hp
      simpa using fun h => ht (List.mem_map.2 ⟨p, hp, h⟩)
    have hk' := hk
    rw [List.mem_dedup, List.mem_append, not_or] at hk'
    rw [none_of a hk'.1, none_of b hk'.2, C104_numbers env op hop hneg]
    unfold numberAt
    rw [none_of]
    · rfl
    · intro h
      apply hk
      simpa [Tbl.align, Function.comp_def] using h

/-- **C104.** A metric made of two by `+ - * /` has rows where either has, and there the number is the two numbers' sum, difference,
product or quotient, NaN standing for a missing one; columns are taken one against one, or one against all. -/
theorem C104_metric (env : Env) (op : BinOp) (hop : op ≠ .pow) (hneg : op ≠ .neg) (l r : M) (wh : List String) (f : Frame)
    (sb ex : List String) (as bs : List Tbl) (hl : l.run env (f.query env wh) sb = .ok (.tbl ex as))
    (hr : r.run env (f.query env wh) sb = .ok (.tbl ex bs))
    (hlen : as.length = bs.length ∨ as.length = 1 ∨ bs.length = 1) :
    ∃ cs, (M.comp op l r wh).run env f sb = .ok (.tbl ex cs) ∧
      cs.length = (if as.length = 1 then bs.length else as.length) ∧
      ∀ j (h : j < cs.length), IsResult op (columnAt as j) (columnAt bs j) cs[j] := by
  have hrun : ∀ cs, zipCols (Tbl.align (op.py env)) as bs = .ok cs → (M.comp op l r wh).run env f sb = .ok (.tbl ex cs) := by
    intro cs hcs
    simp [M.run, hl, hr, combine, hcs]
  by_cases h1 : as.length = 1
  · obtain ⟨a, rfl⟩ := List.length_eq_one_iff.1 h1
    refine ⟨_, hrun _ rfl, by simp, ?_⟩
    intro j h
    have hj : j < bs.length := by simpa using h
    have hb : columnAt bs j = bs[j] := by
      unfold columnAt
      split
      · have : j = 0 := by omega
        subst this
        simp [hj]
      · simp [hj]
    have ha : columnAt [a] j = a := by simp [columnAt]
    rw [ha, hb, List.getElem_map]
    exact align_result env op hop hneg _ _
  · by_cases h2 : bs.length = 1
    · obtain ⟨b, rfl⟩ := List.length_eq_one_iff.1 h2
      have hz : zipCols (Tbl.align (op.py env)) as [b] = .ok (as.map (fun a => Tbl.align (op.py env) a b)) := by
        match as, h1 with
        | [], _ => rfl
        | _ :: _ :: _, _ => rfl
      refine ⟨_, hrun _ hz, by simp [h1], ?_⟩
      intro j h
      have hj : j < as.length := by simpa using h
      have ha : columnAt as j = as[j] := by simp [columnAt, h1, hj]
      have hb : columnAt [b] j = b := by simp [columnAt]
      rw [ha, hb, List.getElem_map]
      exact align_result env op hop hneg _ _
    · have hl' : as.length = bs.length := by omega
      have hz : zipCols (Tbl.align (op.py env)) as bs = .ok (List.zipWith (Tbl.align (op.py env)) as bs) := by
        unfold zipCols
        split
        · simp at h1
        · simp at h2
        · simp [hl']
      refine ⟨_, hrun _ hz, by simp [h1, hl'], ?_⟩
      intro j h
      have hj : j < as.length ∧ j < bs.length := by simpa using h
      have ha : columnAt as j = as[j] := by simp [columnAt, h1, hj.1]
      have hb : columnAt bs j = bs[j] := by simp [columnAt, h2, hj.2]
      rw [ha, hb, List.getElem_zipWith]
      exact align_result env op hop hneg _ _

theorem numberAt_map (t : Tbl) (g : PyVal → PyVal) (k : Key) :
    numberAt (t.map (fun p => (p.1, g p.2))) k = (t.get k).bind (fun v => (g v).ext) := by
  unfold numberAt Tbl.get
  induction t with
  | nil => rfl
  | cons p t ih =>
    by_cases hp : p.1 = k
    · simp [hp]
    · simp only [List.map_cons]
      rw [List.find?_cons_of_neg (by simpa using hp), List.find?_cons_of_neg (by simpa using hp)]
      exact ih

/-- **C104.** A number on the left of a metric meets every number of the metric, row by row; rows are the metric's. -/
theorem C104_number_left (env : Env) (op : BinOp) (hop : op ≠ .pow) (hneg : op ≠ .neg) (c : Rat) (r : M) (wh : List String)
    (f : Frame) (sb ex : List String) (bs : List Tbl) (hr : r.run env (f.query env wh) sb = .ok (.tbl ex bs)) :
    ∃ cs, (M.comp op (.const c) r wh).run env f sb = .ok (.tbl ex cs) ∧ cs.length = bs.length ∧
      ∀ j (h : j < cs.length) (h' : j < bs.length), cs[j].map Prod.fst = bs[j].map Prod.fst ∧
        ∀ k, numberAt cs[j] k = ieeeNan op (some ((c : ℝ) : EReal)) (numberAt bs[j] k) := by
  refine ⟨bs.map (fun t => t.map (fun p => (p.1, op.py env (.fin c) p.2))), by simp [M.run, hr, combine], by simp, ?_⟩
  intro j h h'
  refine ⟨by simp [Function.comp_def], fun k => ?_⟩
  rw [List.getElem_map, numberAt_map _ (op.py env (.fin c))]
  unfold numberAt
  cases hg : bs[j].get k with
  | none => rfl
  | some v => exact C104_numbers env op hop hneg _ _

/-- **C104.** A number on the right of a metric. -/
theorem C104_number_right (env : Env) (op : BinOp) (hop : op ≠ .pow) (hneg : op ≠ .neg) (c : Rat) (l : M) (wh : List String)
    (f : Frame) (sb ex : List String) (as : List Tbl) (hl : l.run env (f.query env wh) sb = .ok (.tbl ex as)) :
    ∃ cs, (M.comp op l (.const c) wh).run env f sb = .ok (.tbl ex cs) ∧ cs.length = as.length ∧
      ∀ j (h : j < cs.length) (h' : j < as.length), cs[j].map Prod.fst = as[j].map Prod.fst ∧
        ∀ k, numberAt cs[j] k = ieeeNan op (numberAt as[j] k) (some ((c : ℝ) : EReal)) := by
  refine ⟨as.map (fun t => t.map (fun p => (p.1, op.py env p.2 (.fin c)))), by simp [M.run, hl, combine], by simp, ?_⟩
  intro j h h'
  refine ⟨by simp [Function.comp_def], fun k => ?_⟩
  rw [List.getElem_map, numberAt_map _ (fun v => op.py env v (.fin c))]
  unfold numberAt
  cases hg : as[j].get k with
  | none => rfl
  | some v => exact C104_numbers env op hop hneg _ _

/-- **C104.** `-m` has the rows of `m` with every number's opposite. -/
theorem C104_neg_metric (env : Env) (c : Rat) (l : M) (wh : List String) (f : Frame) (sb ex : List String) (as : List Tbl)
    (hl : l.run env (f.query env wh) sb = .ok (.tbl ex as)) :
    ∃ cs, (M.comp .neg l (.const c) wh).run env f sb = .ok (.tbl ex cs) ∧ cs.length = as.length ∧
      ∀ j (h : j < cs.length) (h' : j < as.length), cs[j].map Prod.fst = as[j].map Prod.fst ∧
        ∀ k, numberAt cs[j] k = (numberAt as[j] k).map (fun x => -x) := by
  refine ⟨as.map (fun t => t.map (fun p => (p.1, p.2.neg))), by simp [M.run, hl, combine, BinOp.py], by simp, ?_⟩
  intro j h h'
  refine ⟨by simp [Function.comp_def], fun k => ?_⟩
  rw [List.getElem_map, numberAt_map _ PyVal.neg]
  unfold numberAt
  cases hg : as[j].get k with
  | none => rfl
  | some v => exact C104_neg v

/-- A concrete case: `3 / 0` is infinite, `0 / 0` undefined, an infinity times minus one the other infinity. -/
example : ((PyVal.fin 3).div (.fin 0), (PyVal.fin 0).div (.fin 0), PyVal.pinf.mul (.fin (-1))) = (.pinf, .nan, .ninf) := by
  decide +kernel

end Verif
