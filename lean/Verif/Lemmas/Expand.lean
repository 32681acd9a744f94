import Verif.Spec.Expand
import Mathlib.Tactic.Linarith
import Mathlib.Tactic.FieldSimp
import Mathlib.Tactic.Ring
import Mathlib.Algebra.BigOperators.Group.List.Lemmas
import Mathlib.Algebra.BigOperators.Ring.List
import Mathlib.Algebra.Order.BigOperators.Group.List

namespace Verif

/-! ## Sums over rows -/

theorem tot_add (rs : List RRow) (f g : RRow → ℝ) :
    tot rs (fun r => f r + g r) = tot rs f + tot rs g := by
  unfold tot; rw [List.sum_map_add]

theorem tot_mul (rs : List RRow) (c : ℝ) (f : RRow → ℝ) :
    tot rs (fun r => c * f r) = c * tot rs f := by
  unfold tot; rw [List.sum_map_mul_left]

theorem tot_nil (f : RRow → ℝ) : tot [] f = 0 := rfl

theorem tot_one (rs : List RRow) : tot rs (fun _ => 1) = nrows rs := by
  induction rs with
  | nil => simp [tot, nrows]
  | cons a rs ih => simp [tot, nrows]; ring

theorem tot_congr {rs : List RRow} {f g : RRow → ℝ} (h : ∀ r ∈ rs, f r = g r) :
    tot rs f = tot rs g := by
  unfold tot; rw [List.map_congr_left h]

theorem tot_nonneg {rs : List RRow} {f : RRow → ℝ} (h : ∀ r ∈ rs, 0 ≤ f r) : 0 ≤ tot rs f := by
  unfold tot
  apply List.sum_nonneg
  intro x hx
  obtain ⟨r, hr, rfl⟩ := List.mem_map.1 hx
  exact h r hr

theorem crossM_eq (rs : List RRow) (w x y : RRow → ℝ) (hw : tot rs w ≠ 0) :
    crossM rs w x y
      = tot rs (fun r => w r * (x r * y r))
        - tot rs (fun r => w r * x r) * tot rs (fun r => w r * y r) / tot rs w := by
  unfold crossM wavg
  set a := tot rs (fun r => w r * x r) / tot rs w with ha
  set b := tot rs (fun r => w r * y r) / tot rs w with hb
  have h : tot rs (fun r => w r * (x r - a) * (y r - b))
      = tot rs (fun r => w r * (x r * y r)) + (-b) * tot rs (fun r => w r * x r)
        + (-a) * tot rs (fun r => w r * y r) + (a * b) * tot rs w := by
    rw [← tot_mul, ← tot_mul, ← tot_mul, ← tot_add, ← tot_add, ← tot_add]
    apply tot_congr
    intro r _
    ring
  rw [h, ha, hb]
  field_simp
  ring

theorem crossM_self_nonneg {rs : List RRow} {w x : RRow → ℝ} (h : ∀ r ∈ rs, 0 ≤ w r) :
    0 ≤ crossM rs w x x := by
  unfold crossM
  apply tot_nonneg
  intro r hr
  rw [mul_assoc]
  exact mul_nonneg (h r hr) (mul_self_nonneg _)

/-! ## Arithmetic -/

theorem rpow?_two (a : ℝ) : rpow? a ((2 : ℚ) : ℝ) = some (a ^ 2) := by
  unfold rpow?
  rw [if_neg (by norm_num)]
  by_cases ha : a < 0
  · rw [if_pos ha, dif_pos ⟨2, by norm_num⟩]
    have h := (⟨2, by norm_num⟩ : ∃ n : ℤ, ((2 : ℚ) : ℝ) = n).choose_spec
    have h2 : ((2 : ℤ) : ℝ) = (((⟨2, by norm_num⟩ : ∃ n : ℤ, ((2 : ℚ) : ℝ) = n).choose : ℤ) : ℝ) := by
      rw [← h]; norm_num
    rw [← Int.cast_injective h2]
    norm_cast
  · rw [if_neg ha]
    norm_num

theorem rpow?_half (a : ℝ) :
    rpow? a ((1 / 2 : ℚ) : ℝ) = if a < 0 then none else some (Real.sqrt a) := by
  unfold rpow?
  rw [if_neg (by norm_num)]
  by_cases ha : a < 0
  · rw [if_pos ha, if_pos ha, dif_neg]
    rintro ⟨n, hn⟩
    have h2 : ((2 * n : ℤ) : ℝ) = ((1 : ℤ) : ℝ) := by
      push_cast; rw [← hn]; norm_num
    have := Int.cast_injective h2
    omega
  · rw [if_neg ha, if_neg ha, Real.sqrt_eq_rpow]
    norm_num

@[simp] theorem keepRows_nil (sem : ESem) (rs : List RRow) : keepRows sem [] rs = rs := by
  simp [keepRows]

theorem val_lf (sem lv) (k : SLeaf) (rs) : (lf k).val sem lv rs = lv k rs := by
  simp [ET.val]

theorem val_comp (sem lv) (op : EOp) (a b : ET) (n) (rs) :
    (ET.comp op a b n []).val sem lv rs = op.app (a.val sem lv rs) (b.val sem lv rs) := by
  simp [ET.val]

theorem val_const (sem lv) (q : ℚ) (rs) : (ET.const q).val sem lv rs = some (q : ℝ) := by
  simp [ET.val]

theorem val_sqrtSq (sem lv) (d : ET) (rs) :
    (sqrtSq d).val sem lv rs = (d.val sem lv rs).bind fun x => if x < 0 then none else some x := by
  unfold sqrtSq epow
  rw [val_comp, val_comp, val_const, val_const]
  cases hd : d.val sem lv rs with
  | none => simp [EOp.app]
  | some x =>
    simp only [EOp.app, Option.bind_some, rpow?_half]
    by_cases hx : x < 0
    · simp [hx]
    · simp only [hx, if_false, Option.bind_some, rpow?_two]
      rw [Real.sq_sqrt (not_lt.1 hx)]


/-! ## Auxiliary columns -/

theorem get_mul (a b : ECol) (r : RRow) : (ECol.mul a b).get r = a.get r * b.get r := by
  unfold ECol.get
  simp only [ECol.eval]
  cases ha : a.eval r <;> cases hb : b.eval r <;> simp

theorem get_sq (a : ECol) (r : RRow) : (ECol.sq a).get r = a.get r ^ 2 := by
  unfold ECol.get
  simp only [ECol.eval]
  cases ha : a.eval r <;> simp

/-! ## Each equivalent has the textbook value -/

theorem nrows_pos {rs : List RRow} : rs ≠ [] ↔ 0 < nrows rs := by
  unfold nrows
  rw [Nat.cast_pos, List.length_pos_iff]

theorem dot_equiv (sem : ESem) (v w : ECol) (n : Bool) (e : ET) (rs : List RRow)
    (he : (SLeaf.dot v w n).equiv = some e) :
    e.val sem (textbook sem) rs = textbook sem (.dot v w n) rs := by
  have h : tot rs (ECol.mul v w).get = tot rs fun r => v.get r * w.get r :=
    tot_congr fun r _ => get_mul v w r
  cases n with
  | false =>
    simp only [SLeaf.equiv, Option.some.injEq] at he
    rw [← he, val_lf]
    simp only [textbook, h]
  | true =>
    simp only [SLeaf.equiv, Option.some.injEq] at he
    rw [← he, ediv, val_comp, val_lf, val_lf]
    simp only [textbook, h, EOp.app, Option.bind_some, rdiv]
    by_cases h0 : rs = []
    · subst h0; simp [nrows]
    · rw [if_neg (ne_of_gt (nrows_pos.1 h0)), if_neg h0]

theorem mean_equiv (sem : ESem) (v : ECol) (w : Option ECol) (e : ET) (rs : List RRow)
    (he : (SLeaf.mean v w).equiv = some e) :
    e.val sem (textbook sem) rs = textbook sem (.mean v w) rs := by
  cases w with
  | none =>
    simp only [SLeaf.equiv, Option.some.injEq] at he
    rw [← he, ediv, val_comp, val_lf, val_lf]
    simp only [textbook, EOp.app, Option.bind_some, rdiv]
    by_cases h0 : rs = []
    · subst h0; simp [nrows]
    · rw [if_neg (ne_of_gt (nrows_pos.1 h0)), if_neg h0]
  | some w =>
    simp only [SLeaf.equiv, Option.some.injEq] at he
    rw [← he, ediv, val_comp, val_lf, val_lf]
    simp only [textbook, EOp.app, Option.bind_some, rdiv]
    by_cases h0 : tot rs w.get = 0
    · rw [if_pos h0, if_pos h0]
    · rw [if_neg h0, if_neg h0]
      unfold wavg
      congr 2
      exact tot_congr fun r _ => mul_comm _ _

end Verif
