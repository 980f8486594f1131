import Verif.Model.Mms
import Mathlib.Analysis.SpecialFunctions.Pow.Real
import Mathlib.Tactic.Linarith
import Mathlib.Tactic.FieldSimp

/-!
# C272, C273: the angles and the order in the convergence tests
-/

set_option linter.unusedSectionVars false

namespace Zoidberg

/-- The toroidal angle of the plane `j` of the arrays with one more plane at each end: the planes of the file start at angle zero and have the distance `2 pi / 5 / ny`. -/
noncomputable def planeAngle (ny j : ℕ) : ℝ := ((j : ℝ) - 1) * (2 * Real.pi / 5 / ny)

/-- **C272 (refutation), for all planes**: the angle for which the solution is computed is never that of the plane, and the planes are taken to be a tenth of their distance apart. -/
theorem C272_fails (ny j : ℕ) (hn : 0 < ny) : mmsPhi ny j ≠ planeAngle ny j ∧ mmsPhi ny (j + 1) - mmsPhi ny j = (planeAngle ny (j + 1) - planeAngle ny j) / 10 := by
  have hp := Real.pi_pos
  have hn' : (0 : ℝ) < ny := by exact_mod_cast hn
  constructor
  · intro h
    unfold mmsPhi planeAngle at h
    push_cast at h
    field_simp at h
    have e : (9 * (j : ℝ) + 5) = 0 := by linarith
    have : (0 : ℝ) ≤ j := Nat.cast_nonneg j
    linarith
  · unfold mmsPhi planeAngle
    push_cast
    field_simp
    ring

/-- **C272.** What the difference is. -/
theorem C272_difference (ny j : ℕ) (hn : 0 < ny) : planeAngle ny j - mmsPhi ny j = (9 / 10 * j + 1 / 2) * (2 * Real.pi / 5 / ny) := by
  have hn' : (0 : ℝ) < ny := by exact_mod_cast hn
  unfold mmsPhi planeAngle
  push_cast
  field_simp
  ring

/-- **C273.** If the errors of the last two grids are between `c n^-p` and `C n^-p`, the order that `do_tests` finds differs from `p` by at most `log (C / c)` divided by the logarithm of
the ratio of the numbers of points, whatever the errors of the other grids are. -/
theorem C273_order (l2 : List ℝ) (lst : List ℕ) (e1 e2 c C p : ℝ) (n1 n2 : ℕ) (hl : l2.getD (l2.length - 2) 0 = e1) (hl' : l2.getD (l2.length - 1) 0 = e2)
    (hn : lst.getD (lst.length - 2) 0 = n1) (hn' : lst.getD (lst.length - 1) 0 = n2) (h1 : 0 < n1) (h2 : n1 < n2) (hc : 0 < c)
    (b1 : c * (n1 : ℝ) ^ (-p) ≤ e1) (b1' : e1 ≤ C * (n1 : ℝ) ^ (-p)) (b2 : c * (n2 : ℝ) ^ (-p) ≤ e2) (b2' : e2 ≤ C * (n2 : ℝ) ^ (-p)) :
    |mmsConv l2 lst - p| ≤ Real.log (C / c) / Real.log ((n2 : ℝ) / n1) := by
  have p1 : (0 : ℝ) < n1 := by exact_mod_cast h1
  have p2 : (0 : ℝ) < n2 := by exact_mod_cast h1.trans h2
  have hr : 0 < Real.log ((n2 : ℝ) / n1) := by
    apply Real.log_pos
    rw [one_lt_div p1]
    exact_mod_cast h2
  have q1 : (0 : ℝ) < (n1 : ℝ) ^ (-p) := Real.rpow_pos_of_pos p1 _
  have q2 : (0 : ℝ) < (n2 : ℝ) ^ (-p) := Real.rpow_pos_of_pos p2 _
  have e1p : 0 < e1 := lt_of_lt_of_le (mul_pos hc q1) b1
  have e2p : 0 < e2 := lt_of_lt_of_le (mul_pos hc q2) b2
  have hC : 0 < C := by
    by_contra h
    have := mul_nonpos_of_nonpos_of_nonneg (not_lt.1 h) q1.le
    linarith
  have L1 : Real.log c - p * Real.log n1 ≤ Real.log e1 := by
    have := Real.log_le_log (mul_pos hc q1) b1
    rw [Real.log_mul hc.ne' q1.ne', Real.log_rpow p1] at this
    linarith
  have L1' : Real.log e1 ≤ Real.log C - p * Real.log n1 := by
    have := Real.log_le_log e1p b1'
    rw [Real.log_mul hC.ne' q1.ne', Real.log_rpow p1] at this
    linarith
  have L2 : Real.log c - p * Real.log n2 ≤ Real.log e2 := by
    have := Real.log_le_log (mul_pos hc q2) b2
    rw [Real.log_mul hc.ne' q2.ne', Real.log_rpow p2] at this
    linarith
  have L2' : Real.log e2 ≤ Real.log C - p * Real.log n2 := by
    have := Real.log_le_log e2p b2'
    rw [Real.log_mul hC.ne' q2.ne', Real.log_rpow p2] at this
    linarith
  have e : mmsConv l2 lst - p = (Real.log e1 - Real.log e2 - p * (Real.log n2 - Real.log n1)) / Real.log ((n2 : ℝ) / n1) := by
    unfold mmsConv
    rw [hl, hl', hn, hn', Real.log_div e1p.ne' e2p.ne', ← Real.log_div p2.ne' p1.ne']
    field_simp
  rw [e, abs_div, abs_of_pos hr]
  apply div_le_div_of_nonneg_right _ hr.le
  rw [Real.log_div hC.ne' hc.ne', abs_le]
  constructor <;> linarith

/-- **C273.** If the errors of the last two grids are `c n^-p`, the order found is `p`. -/
theorem C273_exact (l2 : List ℝ) (lst : List ℕ) (c p : ℝ) (n1 n2 : ℕ) (hl : l2.getD (l2.length - 2) 0 = c * (n1 : ℝ) ^ (-p)) (hl' : l2.getD (l2.length - 1) 0 = c * (n2 : ℝ) ^ (-p))
    (hn : lst.getD (lst.length - 2) 0 = n1) (hn' : lst.getD (lst.length - 1) 0 = n2) (h1 : 0 < n1) (h2 : n1 < n2) (hc : 0 < c) : mmsConv l2 lst = p := by
  have := C273_order l2 lst _ _ c c p n1 n2 hl hl' hn hn' h1 h2 hc le_rfl le_rfl le_rfl le_rfl
  rw [div_self hc.ne', Real.log_one, zero_div, abs_nonpos_iff] at this
  linarith

/-- **C273.** `do_tests` passes exactly if this is so for the orders of all modes; with the default `expect=2` that is an order between 1.69998 and 2.30002. -/
theorem C273_passes (modes : List (List ℝ × List ℕ)) :
    mmsDoTests 2 modes = .ok () ↔ ∀ m ∈ modes, 1.69998 ≤ mmsConv m.1 m.2 ∧ mmsConv m.1 m.2 ≤ 2.30002 := by
  have e : ∀ x : ℝ, mmsPasses x 2 ↔ 1.69998 ≤ x ∧ x ≤ 2.30002 := by
    intro x
    unfold mmsPasses
    rw [abs_of_pos (by norm_num : (0 : ℝ) < 2), abs_le]
    constructor
    · rintro ⟨h1, h2⟩
      constructor <;> linarith
    · rintro ⟨h1, h2⟩
      constructor <;> linarith
  unfold mmsDoTests
  rw [← show (∀ m ∈ modes, mmsPasses (mmsConv m.1 m.2) 2) ↔ _ from forall₂_congr fun m _ => e _]
  split_ifs with h
  · simpa using h
  · simp at h ⊢
    exact h

/-- Such errors: those of a method of second order on 32 and 64 points. -/
example : mmsConv [1, 1 / 4 * (32 : ℝ) ^ (-2 : ℝ), 1 / 4 * (64 : ℝ) ^ (-2 : ℝ)] [16, 32, 64] = 2 :=
  C273_exact _ _ (1 / 4) 2 32 64 (by norm_num) (by norm_num) rfl rfl (by norm_num) (by norm_num) (by norm_num)

end Zoidberg
