import Verif.Model.Volume
import Mathlib.Analysis.SpecialFunctions.Pow.Real
import Mathlib.Tactic.Linarith
import Mathlib.Tactic.FieldSimp
import Mathlib.Tactic.IntervalCases
import Mathlib.Tactic.LinearCombination

/-!
# C275, C276: what the volume tests find out about the errors
-/

set_option linter.unusedSectionVars false

namespace Zoidberg

open Real Finset

/-- **C275, the slope**: with three grids the error of the middle one makes no difference. -/
theorem C275_slope (e0 e1 e2 : ℝ) : errorSlope [2, 4, 8] [e0, e1, e2] = (log e2 - log e0) / (2 * log 2) := by
  have l2 : 0 < log (2 : ℝ) := log_pos (by norm_num)
  have h4 : log (4 : ℝ) = 2 * log 2 := by rw [show (4 : ℝ) = 2 ^ 2 by norm_num, log_pow]; norm_num
  have h8 : log (8 : ℝ) = 3 * log 2 := by rw [show (8 : ℝ) = 2 ^ 3 by norm_num, log_pow]; norm_num
  unfold errorSlope fitSlope
  simp [sum_range_succ, h4, h8]
  rw [div_eq_div_iff]
  · ring
  · have : 3 * (log 2 ^ 2 + (2 * log 2) ^ 2 + (3 * log 2) ^ 2) - (log 2 + 2 * log 2 + 3 * log 2) ^ 2 = 6 * log (2 : ℝ) ^ 2 := by ring
    rw [this]
    positivity
  · positivity

/-- **C275, the exact condition**: `test_run` passes exactly if the last error is at most `2^-1.8` (0.287) of the first one. -/
theorem C275_iff (e0 e1 e2 : ℝ) (h0 : 0 < e0) (h2 : 0 < e2) : dommaschkPasses [e0, e1, e2] ↔ e2 ≤ e0 * (2 : ℝ) ^ (-1.8 : ℝ) := by
  have l2 : 0 < log (2 : ℝ) := log_pos (by norm_num)
  unfold dommaschkPasses
  rw [C275_slope, div_le_iff₀ (by positivity), ← log_le_log_iff h2 (by positivity), log_mul h0.ne' (by positivity), log_rpow (by norm_num)]
  constructor <;> intro h <;> linarith

/-- The errors decrease from each grid to the next. -/
def ErrorsDecrease (errors : List ℝ) : Prop := ∀ i, i + 1 < errors.length → errors.getD (i + 1) 0 < errors.getD i 0

/-- **C275 is false**: the test passes with an error that grows a hundredfold from the first grid to the second. -/
theorem C275_fails : dommaschkPasses [1, 100, 1 / 4] ∧ ¬ ErrorsDecrease [1, 100, 1 / 4] := by
  constructor
  · rw [C275_iff _ _ _ (by norm_num) (by norm_num), one_mul]
    have h1 : (2 : ℝ) ^ (-2 : ℝ) ≤ (2 : ℝ) ^ (-1.8 : ℝ) := rpow_le_rpow_of_exponent_le (by norm_num) (by norm_num)
    have h2 : (2 : ℝ) ^ (-2 : ℝ) = 1 / 4 := by
      rw [show (-2 : ℝ) = ((-2 : ℤ) : ℝ) by norm_num, rpow_intCast]
      norm_num
    linarith
  · intro h
    have := h 0 (by simp)
    norm_num at this

/-- **C275 (partial).** The errors of a power of the number of points: the order is found, and the test passes exactly if it is at least 0.9. -/
theorem C275_power_partial (c p : ℝ) (hc : 0 < c) :
    errorSlope [2, 4, 8] [c * 2 ^ (-p), c * 4 ^ (-p), c * 8 ^ (-p)] = -p ∧ (dommaschkPasses [c * 2 ^ (-p), c * 4 ^ (-p), c * 8 ^ (-p)] ↔ 0.9 ≤ p) := by
  have l2 : 0 < log (2 : ℝ) := log_pos (by norm_num)
  have h8 : log (8 : ℝ) = 3 * log 2 := by rw [show (8 : ℝ) = 2 ^ 3 by norm_num, log_pow]; norm_num
  have e : errorSlope [2, 4, 8] [c * 2 ^ (-p), c * 4 ^ (-p), c * 8 ^ (-p)] = -p := by
    rw [C275_slope, log_mul hc.ne' (by positivity), log_mul hc.ne' (by positivity), log_rpow (by norm_num), log_rpow (by norm_num), h8]
    field_simp
    ring
  refine ⟨e, ?_⟩
  unfold dommaschkPasses
  rw [e]
  constructor <;> intro h <;> linarith

/-! ## C276 -/

theorem slope_five (x y : ℕ → ℝ) : fitSlope [x 0, x 1, x 2, x 3, x 4] [y 0, y 1, y 2, y 3, y 4] =
    (∑ i ∈ range 5, ∑ j ∈ range i, (x i - x j) * (y i - y j)) / ∑ i ∈ range 5, ∑ j ∈ range i, (x i - x j) ^ 2 := by
  unfold fitSlope
  simp [sum_range_succ]
  congr 1 <;> ring

/-- The numbers by which the planes are refined. -/
def refFactor : ℕ → ℝ := fun i => [1, 5, 10, 20, 50].getD i 0

theorem refFactor_strict (i j : ℕ) (h : j < i) (hi : i < 5) : 0 < refFactor j ∧ refFactor j < refFactor i := by
  interval_cases i <;> interval_cases j <;> norm_num [refFactor]

theorem slabOrder_eq (e : ℕ → ℝ) : errorSlope [1, 5, 10, 20, 50] [e 0, e 1, e 2, e 3, e 4] =
    (∑ i ∈ range 5, ∑ j ∈ range i, (log (refFactor i) - log (refFactor j)) * (log (e i) - log (e j))) /
      ∑ i ∈ range 5, ∑ j ∈ range i, (log (refFactor i) - log (refFactor j)) ^ 2 := by
  rw [← slope_five (fun i => log (refFactor i)) (fun i => log (e i))]
  rfl

theorem slab_den : 0 < ∑ i ∈ range 5, ∑ j ∈ range i, (log (refFactor i) - log (refFactor j)) ^ 2 := by
  refine sum_pos' (fun i _ => sum_nonneg fun j _ => sq_nonneg _) ⟨1, by simp, ?_⟩
  have := refFactor_strict 1 0 (by norm_num) (by norm_num)
  have := log_lt_log this.1 this.2
  simp only [range_one, sum_singleton]
  exact pow_pos (by linarith) 2

/-- **C276.** The errors of a power of the refinement: the slope is the power, and `test_slab_volume` passes exactly if its size is at least 1.8 – whatever its sign. -/
theorem C276_power (c p : ℝ) (hc : 0 < c) :
    errorSlope [1, 5, 10, 20, 50] [c * 1 ^ p, c * 5 ^ p, c * 10 ^ p, c * 20 ^ p, c * 50 ^ p] = p ∧
      (slabPasses [c * 1 ^ p, c * 5 ^ p, c * 10 ^ p, c * 20 ^ p, c * 50 ^ p] ↔ 1.8 ≤ |p|) := by
  have e : errorSlope [1, 5, 10, 20, 50] [c * 1 ^ p, c * 5 ^ p, c * 10 ^ p, c * 20 ^ p, c * 50 ^ p] = p := by
    have := slabOrder_eq fun i => c * refFactor i ^ p
    refine this.trans ?_
    rw [div_eq_iff slab_den.ne', mul_sum]
    refine sum_congr rfl fun i hi => ?_
    rw [mul_sum]
    refine sum_congr rfl fun j hj => ?_
    have hj := mem_range.1 hj
    obtain ⟨h1, h2⟩ := refFactor_strict i j hj (mem_range.1 hi)
    have h3 : 0 < refFactor i := h1.trans h2
    rw [log_mul hc.ne' (by positivity), log_mul hc.ne' (by positivity), log_rpow h1, log_rpow h3]
    ring
  refine ⟨e, ?_⟩
  unfold slabPasses
  rw [e, not_lt]

/-- **C276 is false**: the test passes with errors that grow with the square of the refinement. -/
theorem C276_fails : slabPasses [1 * 1 ^ (2 : ℝ), 1 * 5 ^ (2 : ℝ), 1 * 10 ^ (2 : ℝ), 1 * 20 ^ (2 : ℝ), 1 * 50 ^ (2 : ℝ)] ∧
    ¬ ErrorsDecrease [1 * 1 ^ (2 : ℝ), 1 * 5 ^ (2 : ℝ), 1 * 10 ^ (2 : ℝ), 1 * 20 ^ (2 : ℝ), 1 * 50 ^ (2 : ℝ)] := by
  constructor
  · rw [(C276_power 1 2 one_pos).2]
    norm_num
  · intro h
    have := h 0 (by simp)
    norm_num at this

/-- **C276 (partial).** If no error is larger than the one before, the test passes exactly if the slope is at most -1.8. -/
theorem C276_decreasing_partial (e : ℕ → ℝ) (hp : ∀ i < 5, 0 < e i) (hd : ∀ i j, j < i → i < 5 → e i ≤ e j) :
    slabPasses [e 0, e 1, e 2, e 3, e 4] ↔ errorSlope [1, 5, 10, 20, 50] [e 0, e 1, e 2, e 3, e 4] ≤ -1.8 := by
  have hs : errorSlope [1, 5, 10, 20, 50] [e 0, e 1, e 2, e 3, e 4] ≤ 0 := by
    rw [slabOrder_eq]
    refine div_nonpos_of_nonpos_of_nonneg (sum_nonpos fun i hi => sum_nonpos fun j hj => ?_) slab_den.le
    have hi := mem_range.1 hi
    have hj := mem_range.1 hj
    obtain ⟨h1, h2⟩ := refFactor_strict i j hj hi
    have h3 := log_lt_log h1 h2
    have h4 := log_le_log (hp i hi) (hd i j hj hi)
    exact mul_nonpos_of_nonneg_of_nonpos (by linarith) (by linarith)
  unfold slabPasses
  rw [abs_of_nonpos hs, not_lt]
  constructor <;> intro h <;> linarith

/-- A case: errors of second order. -/
example : slabPasses [1 * 1 ^ (-2 : ℝ), 1 * 5 ^ (-2 : ℝ), 1 * 10 ^ (-2 : ℝ), 1 * 20 ^ (-2 : ℝ), 1 * 50 ^ (-2 : ℝ)] := by
  rw [(C276_power 1 (-2) one_pos).2]
  norm_num

end Zoidberg
