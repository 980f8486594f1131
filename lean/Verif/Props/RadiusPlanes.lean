import Verif.Props.JacobianRadius

/-! # C263 for planes at any distances -/

set_option linter.unusedSectionVars false

namespace Zoidberg

open Set Filter Topology Interval

/-- **C263.**  Exactly when the claim holds for a cell between any two planes: the mean of the mean values of `x / B` over both halves, times the length of the cell in y, is the integral of
`Rfunc / B` (or `1 / B`) along the line (or the area or the field is zero). -/
theorem C263_planes (e : MmEnv ℝ) (hf : FollowOk e) (hg : GridOk e) (rfunc : Option (ℝ → ℝ → ℝ → ℝ)) (φ : ℝ → ℝ → ℝ → ℝ → ℝ × ℝ) (hφ : PointTracer e φ) (hs : e.isSlab = false)
    (first : MapPol ℝ) (y0 : ℝ) (h0 : e.grid.getPoloidalGrid ((0 : ℕ) : ℝ) = .ok (some first, y0)) (x j z : ℕ) (hx : x < first.nx) (hj : j < e.grid.ny)
    (pol : MapPol ℝ) (y ylow yhigh A : ℝ) (hp : PlaneAt e j pol y ylow yhigh) (hA : AreaAt e pol x z A) (hl : ylow ≠ y) (hh : y ≠ yhigh)
    (d1 : ContDiffOn ℝ 2 (radiusOverField e φ (pol.R x z) (pol.Z x z) y) [[(ylow + y) / 2, y]])
    (d2 : ContDiffOn ℝ 2 (radiusOverField e φ (pol.R x z) (pol.Z x z) y) [[y, (y + yhigh) / 2]]) :
    ScaledVolumeOk e rfunc φ (x, j, z) pol y ylow yhigh A ↔
      (A * fieldAt e φ (pol.R x z) (pol.Z x z) y = 0 ∨
        ((∫ s in ((ylow + y) / 2)..y, radiusOverField e φ (pol.R x z) (pol.Z x z) y s) / (y - (ylow + y) / 2) +
          (∫ s in y..((y + yhigh) / 2), radiusOverField e φ (pol.R x z) (pol.Z x z) y s) / ((y + yhigh) / 2 - y)) / 2 * ((yhigh - ylow) / 2) =
        ∫ s in ((ylow + y) / 2)..((y + yhigh) / 2), scaleOverField e rfunc φ (pol.R x z) (pol.Z x z) y s) := by
  obtain ⟨C, hC⟩ := C222_limit e hf hg φ hφ hs first y0 h0 x j z hx hj pol y ylow yhigh A hp hA hl hh d1 d2
  set M := ((∫ s in ((ylow + y) / 2)..y, radiusOverField e φ (pol.R x z) (pol.Z x z) y s) / (y - (ylow + y) / 2) +
          (∫ s in y..((y + yhigh) / 2), radiusOverField e φ (pol.R x z) (pol.Z x z) y s) / ((y + yhigh) / 2 - y)) / 2 with hM
  set Q := A * fieldAt e φ (pol.R x z) (pol.Z x z) y with hQ
  set V := ∫ s in ((ylow + y) / 2)..((y + yhigh) / 2), scaleOverField e rfunc φ (pol.R x z) (pol.Z x z) y s with hV
  have hC' : ∀ r : ℕ, 1 ≤ r → ∀ v, JIs e r (x, j, z) v → |v * ((yhigh - ylow) / 2) - Q * (M * ((yhigh - ylow) / 2))| ≤ (C * |(yhigh - ylow) / 2|) / (r : ℝ) ^ 2 := by
    intro r hr v hv
    have b := hC r hr v hv
    rw [show v * ((yhigh - ylow) / 2) - Q * (M * ((yhigh - ylow) / 2)) = (v - Q * M) * ((yhigh - ylow) / 2) by ring, abs_mul, mul_div_right_comm]
    exact mul_le_mul_of_nonneg_right b (abs_nonneg _)
  constructor
  · rintro ⟨D, hD⟩
    have h := J_limit_unique e hf hg φ hφ hs first y0 h0 (x, j, z) _ _ _ _ D hC' hD
    rcases mul_eq_mul_left_iff.1 h with h | h
    · exact Or.inr h
    · exact Or.inl h
  · intro h
    refine ⟨C * |(yhigh - ylow) / 2|, fun r hr v hv => ?_⟩
    have h1 := hC' r hr v hv
    have h2 : Q * (M * ((yhigh - ylow) / 2)) = Q * V := by
      rcases h with h | h
      · rw [h, zero_mul, zero_mul]
      · rw [h]
    rw [h2] at h1
    exact h1

/-- A case for the theorem, with planes at 0, 1 and 3: the claim is false for the field of C222. -/
example : ¬ ScaledVolumeOk (volMm 3) (some fun a _ _ => a) (fun R Z _ _ => (R, Z)) (0, 1, 0) volPol 1 0 3 1 := by
  intro h
  have h' : VolumeOk (volMm 3) (fun R Z _ _ => (R, Z)) (0, 1, 0) volPol 1 0 3 1 := by
    obtain ⟨C, hC⟩ := h
    exact ⟨C, hC⟩
  have := (volMm_iff 3 (by norm_num)).1 h'
  norm_num at this

end Zoidberg
