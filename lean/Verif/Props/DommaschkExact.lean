import Verif.Props.DommaschkSurf

/-!
# C213: where the rate of change is of the second order
-/

set_option linter.unusedSectionVars false

namespace Zoidberg

open Real Finset

theorem quad_zero {α β γ s : ℝ} (hs : s ≠ 0) (h1 : α + β * s + γ * s ^ 2 = 0) (h2 : α + β * (-s) + γ * (-s) ^ 2 = 0) (h3 : α + β * (s / 2) + γ * (s / 2) ^ 2 = 0) : α = 0 := by
  have hb : β * s = 0 := by linarith
  have hβ : β = 0 := (mul_eq_zero.1 hb).resolve_right hs
  rw [hβ] at h1 h3
  linarith

theorem small_ne {c C t : ℝ} (hC : |c| < C) (ht : |t| * C ≤ 1) : 1 + t * c ≠ 0 := by
  intro h
  have h1 : |t * c| = 1 := by
    have : t * c = -1 := by linarith
    rw [this]
    simp
  rw [abs_mul] at h1
  have h2 : 0 < |t| := by
    rcases (abs_nonneg t).lt_or_eq with h | h
    · exact h
    · rw [← h] at h1
      simp at h1
  have := mul_lt_mul_of_pos_left hC h2
  linarith

/-- **C213, the exact condition at a point**: `Sfunc` is invariant along the field up to the second order in the coefficients exactly if the derivatives `wR`, `wZ` of what is wrong
about the modes without toroidal number satisfy `log r / r * wR + y * wZ = 0` there, `r` and `y` being the coordinates divided by `R0`. -/
theorem C213_iff (M L : ℕ) (A : ℕ → ℕ → DmMode) (R0 B0 x z phi wR wZ : ℝ) (h0 : 0 < R0) (hx : 0 < x) (hB : B0 ≠ 0)
    (hR : HasDerivAt (fun s => dmAxi M L A s (z / R0)) wR (x / R0)) (hZ : HasDerivAt (fun s => dmAxi M L A (x / R0) s) wZ (z / R0)) :
    (∃ q c : ℝ, ∀ t : ℝ, 1 + t * c ≠ 0 → SurfRate M L (dmScale t A) R0 B0 x z phi (t ^ 2 * q / (1 + t * c))) ↔
      log (x / R0) / (x / R0) * wR + z / R0 * wZ = 0 := by
  obtain ⟨q0, wR', wZ', hR', hZ', hs⟩ := surf_rate M L A R0 B0 x z phi h0 hx
  rw [← hR.unique hR', ← hZ.unique hZ'] at hs
  simp only [dmNorm_scale] at hs
  set c0 : ℝ := ∑ i ∈ range M, if 0 < L then (i : ℝ) * (A i 0).b else 0
  generalize log (x / R0) / (x / R0) * wR + z / R0 * wZ = k at hs ⊢
  constructor
  · rintro ⟨q, c, h⟩
    set C : ℝ := 1 + |c| + |c0| with hC
    have hCp : 0 < C := by positivity
    have e : ∀ t : ℝ, t ≠ 0 → |t| * C ≤ 1 → k * (B0 / R0) + (k * (B0 / R0) * c + q0 * (B0 / R0) - q) * t + (q0 * (B0 / R0) * c - q * c0) * t ^ 2 = 0 := by
      intro t ht hb
      have n1 : 1 + t * c ≠ 0 := small_ne (by rw [hC]; linarith [abs_nonneg c0]) hb
      have n2 : 1 + t * c0 ≠ 0 := small_ne (by rw [hC]; linarith [abs_nonneg c]) hb
      have e1 := (h t n1).unique (hs t)
      have hR0 := h0.ne'
      field_simp at e1
      apply mul_left_cancel₀ ht
      field_simp
      linear_combination -e1
    have hs0 : (1 / C : ℝ) ≠ 0 := by positivity
    have habs : |1 / C| = 1 / C := abs_of_pos (by positivity)
    have hb : 1 / C * C = 1 := by field_simp
    have hz := quad_zero hs0 (e (1 / C) hs0 (by rw [habs, hb])) (e (-(1 / C)) (neg_ne_zero.2 hs0) (by rw [abs_neg, habs, hb]))
      (e (1 / C / 2) (by positivity) (by rw [abs_div, habs, abs_of_pos (by norm_num : (0 : ℝ) < 2)]; linarith))
    exact (mul_eq_zero.1 hz).resolve_right (div_ne_zero hB h0.ne')
  · intro hk
    refine ⟨q0 / R0 * B0, c0, fun t _ => ?_⟩
    have h := hs t
    rw [hk] at h
    convert h using 1
    ring

theorem dmAxi_vertical (a R Z : ℝ) : dmAxi 1 2 (verticalMode a) R Z = a * Z := by
  simp [dmAxi, verticalMode, Finset.sum_range_succ, dmD_one]

/-- With the vertical field (the mode of toroidal number 0 and poloidal number 1) this is the midplane. -/
example (a R0 B0 x z phi : ℝ) (h0 : 0 < R0) (hx : 0 < x) (ha : a ≠ 0) (hB : B0 ≠ 0) :
    (∃ q c : ℝ, ∀ t : ℝ, 1 + t * c ≠ 0 → SurfRate 1 2 (dmScale t (verticalMode a)) R0 B0 x z phi (t ^ 2 * q / (1 + t * c))) ↔ z = 0 := by
  rw [C213_iff 1 2 (verticalMode a) R0 B0 x z phi 0 a h0 hx hB
    (by simp only [dmAxi_vertical]; exact hasDerivAt_const _ _)
    (by simp only [dmAxi_vertical]; simpa using (hasDerivAt_id (z / R0)).const_mul a)]
  simp [h0.ne', ha]

end Zoidberg
