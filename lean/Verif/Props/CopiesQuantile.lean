import Verif.Model.Quantile
import Verif.Props.Copies

/-!
# C107: quantiles of data given several times

/repo/metrics.py:2105-2143.
-/

namespace Verif

theorem aggPy_nTimes {n : Nat} (hn : n ≠ 0) (var weight : String) (rs : List Row) :
    aggPy var weight (nTimes n rs) = (aggPy var weight rs).map fun p => (p.1, (n : Rat) * p.2) := by
  unfold aggPy
  rw [filterMap_nTimes, dedup_nTimes hn, List.map_map]
  refine List.map_congr_left fun x _ => ?_
  simp only [Function.comp, weightsOf, filterMap_nTimes, sum_nTimes]

theorem positions_nTimes {n : Nat} (hn : n ≠ 0) (t : Rat) (l : List (Rat × Rat)) : ∀ w,
    positions (n * w) (n * t) (l.map fun p => (p.1, (n : Rat) * p.2)) = positions w t l := by
  have h0 : (n : Rat) ≠ 0 := by exact_mod_cast hn
  induction l with
  | nil => intro w; rfl
  | cons p l ih =>
    intro w
    have e1 : ((n : Rat) * w + n * p.2 - 1 / 2 * (n * p.2)) / (n * t) = (w + p.2 - 1 / 2 * p.2) / t := by
      rw [← mul_div_mul_left _ t h0]
      congr 1
      ring
    have e2 : (n : Rat) * w + n * p.2 = n * (w + p.2) := by ring
    simp only [List.map_cons, positions, e1]
    rw [e2, ih]

/-- **C107.** A weighted quantile does not notice that the data are there `n` times. -/
theorem C107_quantile (n : Nat) (hn : n ≠ 0) (var weight : String) (q : Rat) (rs : List Row) :
    pyQuantile var weight q (nTimes n rs) = pyQuantile var weight q rs := by
  have ht : totalW (aggPy var weight (nTimes n rs)) = n * totalW (aggPy var weight rs) := by
    rw [aggPy_nTimes hn]
    unfold totalW
    rw [List.map_map]
    generalize aggPy var weight rs = l
    induction l with
    | nil => simp
    | cons p l ih => simp only [List.map_cons, List.sum_cons, ih, Function.comp]; ring
  have := positions_nTimes hn (totalW (aggPy var weight rs)) (aggPy var weight rs) 0
  rw [mul_zero] at this
  show interp q (positions 0 (totalW (aggPy var weight (nTimes n rs))) (aggPy var weight (nTimes n rs))) = _
  rw [ht, aggPy_nTimes hn, this]
  rfl

/-- **C107** A quantile without a weight does: of 0 and 1 the lower quartile is 1/4, of 0, 0, 1, 1 it is 0. -/
theorem C107_quantile_grows : ∃ rs : List Row, pdQuantile "x" (1 / 4) rs = some (1 / 4) ∧ pdQuantile "x" (1 / 4) (nTimes 2 rs) = some 0 := by
  refine ⟨[fun _ => some 0, fun _ => some 1], ?_, ?_⟩ <;> decide +kernel

end Verif
