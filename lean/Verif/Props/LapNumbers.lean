import Verif.Model.EllLines
import Verif.Props.Laplace

/-!
# C115: how much `grid_elliptic` smooths the inner angles
-/

set_option linter.unusedSectionVars false

namespace Zoidberg

variable {K : Type} [Field K] [LinearOrder K] [IsStrictOrderedRing K] [FloorRing K]

/-- **C115.** The factor that `laplace` uses is positive and at most one tenth, so that `C115_step` holds for every step, there are at least ten
steps, and together they smooth as much as `nz / 192` steps with factor one, up to one tenth. -/
theorem C115_numbers (nz : ℕ) (h : 0 < nz) :
    0 < (lapNumbers nz : K × ℕ).1 ∧ (lapNumbers nz : K × ℕ).1 ≤ 1 / 10 ∧ 10 ≤ (lapNumbers nz : K × ℕ).2 ∧
      (lapNumbers nz : K × ℕ).1 * ((lapNumbers nz : K × ℕ).2 : K) ≤ (nz : K) / 192 ∧
      (nz : K) / 192 < (lapNumbers nz : K × ℕ).1 * ((lapNumbers nz : K × ℕ).2 : K) + 1 / 10 := by
  have hz : (0 : K) < (nz : K) := by exact_mod_cast h
  unfold lapNumbers
  simp only
  split_ifs with hc
  · have hv : 10 * (1 / 10 * (nz : K) / 192) / (1 / 10) = 10 * ((nz : K) / 192) := by ring
    rw [hv]
    have hn : (1 : K) < (nz : K) / 192 := by
      have : 1 / 10 * (nz : K) / 192 = 1 / 10 * ((nz : K) / 192) := by ring
      rw [this] at hc
      linarith
    have hp : pyInt (10 * ((nz : K) / 192)) = ⌊10 * ((nz : K) / 192)⌋ := by
      unfold pyInt
      rw [if_pos (by linarith)]
    rw [hp]
    have h10 : 10 ≤ ⌊10 * ((nz : K) / 192)⌋ := by
      rw [Int.le_floor]
      push_cast
      linarith
    have hcast : ((⌊10 * ((nz : K) / 192)⌋.toNat : ℕ) : K) = (⌊10 * ((nz : K) / 192)⌋ : K) := by
      have : ((⌊10 * ((nz : K) / 192)⌋.toNat : ℕ) : ℤ) = ⌊10 * ((nz : K) / 192)⌋ := Int.toNat_of_nonneg (by omega)
      exact_mod_cast congrArg (Int.cast : ℤ → K) this
    have h1 := Int.floor_le (10 * ((nz : K) / 192))
    have h2 := Int.lt_floor_add_one (10 * ((nz : K) / 192))
    rw [hcast]
    refine ⟨by norm_num, le_rfl, by omega, by linarith, by linarith⟩
  · push Not at hc
    refine ⟨by positivity, hc, le_rfl, ?_, ?_⟩
    · push_cast
      linarith
    · push_cast
      linarith

/-- 256 points: a tenth, 13 times. -/
example : (lapNumbers 256 : ℚ × ℕ) = (1 / 10, 13) := by decide +kernel

end Zoidberg
