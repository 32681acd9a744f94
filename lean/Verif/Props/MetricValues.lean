import Verif.Model.Metric
import Verif.Spec.Example
import Mathlib.Tactic.FieldSimp
import Mathlib.Tactic.Ring
import Mathlib.Tactic.Linarith
import Mathlib.Algebra.BigOperators.Group.List.Basic

/-!
# C28, C30, C34: the operations inside a metric tree

The values of Distribution, HHI and the comparisons when they are computed on a DataFrame, for every child.
-/

namespace Verif

theorem mapM_forall₂ {α β ε : Type} (f : α → Except ε β) : ∀ (l : List α) (m : List β), l.mapM f = .ok m → List.Forall₂ (fun a b => f a = .ok b) l m := by
  intro l
  induction l with
  | nil => intro m h; simp [pure, Except.pure] at h; subst h; exact .nil
  | cons a l ih =>
    intro m h
    rw [List.mapM_cons] at h
    cases ha : f a with
    | error e => simp [ha, bind, Except.bind] at h
    | ok b =>
      cases hl : l.mapM f with
      | error e => simp [ha, hl, bind, Except.bind] at h
      | ok bs =>
        simp [ha, hl, bind, Except.bind, pure, Except.pure] at h
        subst h
        exact .cons ha (ih bs hl)

/-- The column of the result that belongs to a column of the child is the operation's of that column. -/
theorem oper_run {env : Env} {o : Oper} {m : M} {wh : List String} {f : Frame} {sb ex ex' : List String} {cs cs' : List Tbl}
    (hc : m.run env (f.query env wh) (sb ++ o.splitBy) = .ok (.tbl ex cs)) (h : (M.oper o m wh).run env f sb = .ok (.tbl ex' cs')) :
    List.Forall₂ (fun t T => o.onTbl sb.length t = .ok T) cs cs' := by
  simp only [M.run, hc, Oper.onRes] at h
  cases hm : cs.mapM (o.onTbl sb.length) with
  | error e => simp [hm] at h
  | ok cs'' =>
    simp [hm] at h
    rw [← h.2]
    exact mapM_forall₂ _ _ _ hm

/-- **C34.** PercentChange of any metric, on any DataFrame, sliced by anything: the row of a slice and condition has
`(v - b) / b * 100`, where `v` is the metric's value there and `b`, not 0, its value in the same slice with the condition replaced by
the baseline. -/
theorem C34_metric_percent (env : Env) (m : M) (wh : List String) (f : Frame) (sb cond : List String) (base : Key) (incl : Bool)
    (ex ex' : List String) (cs cs' : List Tbl) (hc : m.run env (f.query env wh) (sb ++ cond) = .ok (.tbl ex cs))
    (h : (M.oper (.pctChange cond base incl) m wh).run env f sb = .ok (.tbl ex' cs')) :
    List.Forall₂ (fun t T => ∀ (slice c rest : Key) (v b : ℚ), slice.length = sb.length → c.length = cond.length →
      (slice ++ c ++ rest, PyVal.fin v) ∈ t → t.get (slice ++ base ++ rest) = some (.fin b) → b ≠ 0 → (incl = true ∨ c ≠ base) →
      (slice ++ c ++ rest, PyVal.fin ((v - b) / b * 100)) ∈ T) cs cs' := by
  refine (oper_run hc h).imp ?_
  intro t T hT slice c rest v b hs hcl hv hb hb0 hin
  simp only [Oper.onTbl, changeTbl] at hT
  split at hT
  · have e1 : baseKey sb.length cond.length base (slice ++ c ++ rest) = slice ++ base ++ rest := by
      unfold baseKey
      rw [← hs, ← hcl, List.append_assoc slice c rest, List.take_left', ← List.append_assoc slice c rest, List.drop_left']
      · simp
      · rfl
    have e2 : condOf sb.length cond.length (slice ++ c ++ rest) = c := by
      unfold condOf
      rw [← hs, ← hcl, List.append_assoc, List.drop_left' rfl, List.take_left' rfl]
    have hmem : (slice ++ c ++ rest, PyVal.fin ((v - b) / b * 100)) ∈
        t.map (fun p => (p.1, pctOf p.2 ((t.get (baseKey sb.length cond.length base p.1)).getD .nan))) := by
      refine List.mem_map.2 ⟨_, hv, ?_⟩
      simp only [e1, hb, Option.getD_some, pctOf, PyVal.div, hb0, if_false, PyVal.sub, PyVal.neg, PyVal.add, PyVal.mul, Prod.mk.injEq, true_and,
        PyVal.fin.injEq]
      field_simp
      ring
    cases hT
    cases incl with
    | true => simpa using hmem
    | false =>
      have hin : c ≠ base := by simpa using hin
      simp only [Bool.false_eq_true, if_false]
      exact List.mem_filter.2 ⟨hmem, by simp only [e2, ne_eq, hin, not_false_eq_true, decide_true]⟩
  · simp at hT

/-- **C34.** The same for AbsoluteChange, with `v - b`. -/
theorem C34_metric_absolute (env : Env) (m : M) (wh : List String) (f : Frame) (sb cond : List String) (base : Key) (incl : Bool)
    (ex ex' : List String) (cs cs' : List Tbl) (hc : m.run env (f.query env wh) (sb ++ cond) = .ok (.tbl ex cs))
    (h : (M.oper (.absChange cond base incl) m wh).run env f sb = .ok (.tbl ex' cs')) :
    List.Forall₂ (fun t T => ∀ (slice c rest : Key) (v b : ℚ), slice.length = sb.length → c.length = cond.length →
      (slice ++ c ++ rest, PyVal.fin v) ∈ t → t.get (slice ++ base ++ rest) = some (.fin b) → (incl = true ∨ c ≠ base) →
      (slice ++ c ++ rest, PyVal.fin (v - b)) ∈ T) cs cs' := by
  refine (oper_run hc h).imp ?_
  intro t T hT slice c rest v b hs hcl hv hb hin
  simp only [Oper.onTbl, changeTbl] at hT
  split at hT
  · have e1 : baseKey sb.length cond.length base (slice ++ c ++ rest) = slice ++ base ++ rest := by
      unfold baseKey
      rw [← hs, ← hcl, List.append_assoc slice c rest, List.take_left', ← List.append_assoc slice c rest, List.drop_left']
      · simp
      · rfl
    have e2 : condOf sb.length cond.length (slice ++ c ++ rest) = c := by
      unfold condOf
      rw [← hs, ← hcl, List.append_assoc, List.drop_left' rfl, List.take_left' rfl]
    have hmem : (slice ++ c ++ rest, PyVal.fin (v - b)) ∈
        t.map (fun p => (p.1, PyVal.sub p.2 ((t.get (baseKey sb.length cond.length base p.1)).getD .nan))) := by
      refine List.mem_map.2 ⟨_, hv, ?_⟩
      simp only [e1, hb, Option.getD_some, PyVal.sub, PyVal.neg, PyVal.add, Prod.mk.injEq, true_and, PyVal.fin.injEq]
      ring
    cases hT
    cases incl with
    | true => simpa using hmem
    | false =>
      have hin : c ≠ base := by simpa using hin
      simp only [Bool.false_eq_true, if_false]
      exact List.mem_filter.2 ⟨hmem, by simp only [e2, ne_eq, hin, not_false_eq_true, decide_true]⟩
  · simp at hT

/-- The finite values of a slice of a column. -/
def valsAtSlice (t : Tbl) (slice : Key) : List PyVal := (t.filter fun p => p.1.take slice.length = slice).map Prod.snd

theorem pySum_fin (xs : List ℚ) : pySum (xs.map .fin) = .fin xs.sum := by
  unfold pySum
  have h : (xs.map PyVal.fin).filter (· ≠ .nan) = xs.map .fin := by
    rw [List.filter_eq_self]; intro x hx; obtain ⟨q, _, rfl⟩ := List.mem_map.1 hx; simp
  rw [h]
  have : ∀ a, (xs.map PyVal.fin).foldl PyVal.add (.fin a) = .fin (a + xs.sum) := by
    induction xs with
    | nil => intro a; simp
    | cons x xs ih =>
      intro a
      have h' : (xs.map PyVal.fin).filter (· ≠ .nan) = xs.map .fin := by
        rw [List.filter_eq_self]; intro x hx; obtain ⟨q, _, rfl⟩ := List.mem_map.1 hx; simp
      simp only [List.map_cons, List.foldl_cons, PyVal.add, ih h', List.sum_cons, add_assoc]
  simpa using this 0

theorem sum_map_div_const (T : ℚ) (l : List ℚ) : (l.map fun x => x / T).sum = l.sum / T := by
  induction l with
  | nil => simp
  | cons a l ih => rw [List.map_cons, List.sum_cons, List.sum_cons, ih, add_div]

theorem distTbl_slice (t : Tbl) (n : ℕ) (slice : Key) (xs : List ℚ) (hs : slice.length = n) (hx : valsAtSlice t slice = xs.map .fin)
    (hx0 : xs.sum ≠ 0) : valsAtSlice (distTbl n t) slice = (xs.map fun x => x / xs.sum).map .fin := by
  unfold valsAtSlice distTbl
  rw [List.filter_map, List.map_map]
  have e1 : ((fun p : Key × PyVal => decide (p.1.take slice.length = slice)) ∘ fun p : Key × PyVal =>
      (p.1, p.2.div (pySum ((t.filter (fun p' => p'.1.take n = p.1.take n)).map Prod.snd)))) =
      fun p => decide (p.1.take slice.length = slice) := rfl
  rw [e1]
  have e2 : ∀ p ∈ t.filter (fun p => decide (p.1.take slice.length = slice)),
      (Prod.snd ∘ fun p : Key × PyVal => (p.1, p.2.div (pySum ((t.filter (fun p' => p'.1.take n = p.1.take n)).map Prod.snd)))) p
        = (fun p : Key × PyVal => p.2.div (.fin xs.sum)) p := by
    intro p hp
    have hp' : p.1.take slice.length = slice := by simpa using (List.mem_filter.1 hp).2
    simp only [Function.comp]
    rw [hs] at hp'
    rw [hp', ← hs, show (t.filter (fun p' => decide (p'.1.take slice.length = slice))).map Prod.snd = valsAtSlice t slice from rfl, hx, pySum_fin]
  rw [List.map_congr_left e2]
  have e3 : (t.filter (fun p => decide (p.1.take slice.length = slice))).map (fun p : Key × PyVal => p.2.div (.fin xs.sum)) =
      (valsAtSlice t slice).map (fun v => v.div (.fin xs.sum)) := by simp [valsAtSlice, List.map_map, Function.comp_def]
  rw [e3, hx, List.map_map, List.map_map]
  apply List.map_congr_left
  intro x _
  simp [PyVal.div, hx0]

/-- **C28.** Distribution of any metric, on any DataFrame: in a slice whose values are finite with a total that is not 0, the values are
the metric's divided by the total, and they sum to 1. -/
theorem C28_metric (env : Env) (m : M) (wh : List String) (f : Frame) (sb over : List String) (ex ex' : List String) (cs cs' : List Tbl)
    (hc : m.run env (f.query env wh) (sb ++ over) = .ok (.tbl ex cs)) (h : (M.oper (.dist over) m wh).run env f sb = .ok (.tbl ex' cs')) :
    List.Forall₂ (fun t T => ∀ (slice : Key) (xs : List ℚ), slice.length = sb.length → valsAtSlice t slice = xs.map .fin → xs.sum ≠ 0 →
      valsAtSlice T slice = (xs.map fun x => x / xs.sum).map .fin ∧ (xs.map fun x => x / xs.sum).sum = 1) cs cs' := by
  refine (oper_run hc h).imp ?_
  intro t T hT slice xs hs hx hx0
  simp only [Oper.onTbl, Except.ok.injEq] at hT
  subst hT
  exact ⟨distTbl_slice t _ slice xs hs hx hx0, by rw [sum_map_div_const, div_self hx0]⟩

theorem filter_eq_of_nodup {α β : Type} [DecidableEq α] (g : α → β) : ∀ {l : List α}, l.Nodup → ∀ {a : α}, a ∈ l →
    ((l.map fun k => (k, g k)).filter fun p => p.1 = a) = [(a, g a)] := by
  intro l
  induction l with
  | nil => simp
  | cons x l ih =>
    intro hn a ha
    rw [List.nodup_cons] at hn
    by_cases h : x = a
    · subst h
      have : ((l.map fun k => (k, g k)).filter fun p => p.1 = x) = [] := by
        rw [List.filter_eq_nil_iff]
        rintro ⟨k, v⟩ hk
        obtain ⟨k', hk', e⟩ := List.mem_map.1 hk
        cases e
        simp only [decide_eq_true_eq]
        rintro rfl
        exact hn.1 hk'
      simp [this]
    · have ha' : a ∈ l := by rcases List.mem_cons.1 ha with e | e; exact absurd e.symm h; exact e
      rw [List.map_cons, List.filter_cons_of_neg (by simpa using h)]
      exact ih hn.2 ha'

/-- **C30.** HHI of any metric, on any DataFrame: a slice whose values are finite with a total that is not 0 has one row, with the sum of
the squared shares. -/
theorem C30_metric (env : Env) (m : M) (wh : List String) (f : Frame) (sb over : List String) (ex ex' : List String) (cs cs' : List Tbl)
    (hc : m.run env (f.query env wh) (sb ++ over) = .ok (.tbl ex cs)) (h : (M.oper (.hhi over) m wh).run env f sb = .ok (.tbl ex' cs')) :
    List.Forall₂ (fun t T => ∀ (slice : Key) (xs : List ℚ), slice.length = sb.length → valsAtSlice t slice = xs.map .fin → xs.sum ≠ 0 →
      T.filter (fun p => p.1 = slice) = [(slice, .fin (xs.map fun x => (x / xs.sum) ^ 2).sum)]) cs cs' := by
  refine (oper_run hc h).imp ?_
  intro t T hT slice xs hs hx hx0
  simp only [Oper.onTbl, Except.ok.injEq] at hT
  subst hT
  have hd := distTbl_slice t _ slice xs hs hx hx0
  have hval : pySum (((distTbl sb.length t).filter (fun p => p.1.take sb.length = slice)).map (fun p => p.2.mul p.2)) =
      .fin (xs.map fun x => (x / xs.sum) ^ 2).sum := by
    have e : ((distTbl sb.length t).filter (fun p => p.1.take sb.length = slice)).map (fun p => p.2.mul p.2) =
        (valsAtSlice (distTbl sb.length t) slice).map (fun v => v.mul v) := by
      simp [valsAtSlice, List.map_map, Function.comp_def, hs]
    rw [e, hd, List.map_map, List.map_map, ← pySum_fin, List.map_map]
    congr 1
    apply List.map_congr_left
    intro x _
    simp [PyVal.mul, pow_two]
  unfold hhiTbl
  simp only
  have hmem : slice ∈ if sb.length = 0 then [[]] else ((distTbl sb.length t).map (fun p => p.1.take sb.length)).dedup := by
    split
    · rename_i h0
      have : slice = [] := by rw [← List.length_eq_zero_iff]; omega
      simp [this]
    · rw [List.mem_dedup]
      have hne : valsAtSlice t slice ≠ [] := by
        rw [hx]
        intro h
        have : xs = [] := by simpa using h
        subst this
        simp at hx0
      obtain ⟨v, hv⟩ := List.exists_mem_of_ne_nil _ hne
      obtain ⟨p, hp, _⟩ := List.mem_map.1 hv
      obtain ⟨hp1, hp2⟩ := List.mem_filter.1 hp
      refine List.mem_map.2 ⟨(p.1, _), List.mem_map.2 ⟨p, hp1, rfl⟩, ?_⟩
      rw [← hs]; simpa using hp2
  have hnd : (if sb.length = 0 then [[]] else ((distTbl sb.length t).map (fun p => p.1.take sb.length)).dedup).Nodup := by
    split
    · simp
    · exact List.nodup_dedup _
  rw [filter_eq_of_nodup _ hnd hmem, hval]

/-! ## A concrete case -/

example : (M.oper (.pctChange ["c"] [0] false) (.leaf (.sum "x") []) []).run exEnv exFrame ["g"] =
    .ok (.tbl ["c"] [[([0, 1], .fin 100), ([1, 1], .fin 25)]]) := by decide +kernel

example : (M.leaf (.sum "x") []).run exEnv (exFrame.query exEnv []) (["g"] ++ ["c"]) =
    .ok (.tbl [] [[([0, 0], .fin 1), ([0, 1], .fin 2), ([1, 0], .fin 4), ([1, 1], .fin 5)]]) := by decide +kernel

example : (M.oper (.hhi ["c"]) (.leaf (.sum "x") []) []).run exEnv exFrame ["g"] =
    .ok (.tbl [] [[([0], .fin (5 / 9)), ([1], .fin (41 / 81))]]) := by decide +kernel

end Verif
