import Verif.Model.PolRect
import Verif.Props.GetMetric
import Mathlib.Tactic.FieldSimp

/-!
# C44, C45, C46: the rectangular poloidal grid
-/

set_option linter.unusedSectionVars false

namespace Zoidberg

variable {K : Type} [Field K] [LinearOrder K] [IsStrictOrderedRing K] [FloorRing K]

theorem RectPol.init_ok {nx nz : ℕ} {Lx Lz Rc Zc : K} {mxg : ℕ} {g : RectPol K}
    (h : RectPol.init nx nz Lx Lz Rc Zc mxg = .ok g) :
    (nx : K) - 2 * (mxg : K) ≠ 0 ∧ (nz : K) ≠ 0 ∧ g.nx = nx ∧ g.nz = nz ∧
      g.dR = Lx / ((nx : K) - 2 * (mxg : K)) ∧ g.dZ = Lz / (nz : K) ∧
      g.Rmin = Rc - g.dR * ((nx : K) - 1) / 2 ∧ g.Zmin = Zc - g.dZ * ((nz : K) - 1) / 2 := by
  unfold RectPol.init at h
  split at h
  · simp at h
  · rename_i hc
    simp only [not_or] at hc
    injection h with h
    subst h
    refine ⟨?_, by exact_mod_cast hc.2, rfl, rfl, rfl, rfl, rfl, rfl⟩
    intro h0
    apply hc.1
    have : (nx : K) = ((2 * mxg : ℕ) : K) := by push_cast; linear_combination h0
    exact_mod_cast this

/-- **C44.** A rectangular grid with at least one cell that is not a guard cell and non-zero
size can be constructed, and index and coordinate are inverse to each other. -/
theorem C44_inverse (nx nz mxg : ℕ) (Lx Lz Rc Zc : K) (hx : nx > 2 * mxg) (hz : nz ≥ 1) (hLx : Lx ≠ 0)
    (hLz : Lz ≠ 0) : ∃ g, RectPol.init nx nz Lx Lz Rc Zc mxg = .ok g ∧
      (∀ x z, ∃ R Z, g.getCoordinate x z 0 0 = .ok (R, Z) ∧ g.findIndex R Z = (x, z)) ∧
      ∀ R Z, g.getCoordinate (g.findIndex R Z).1 (g.findIndex R Z).2 0 0 = .ok (R, Z) := by
  obtain ⟨g, hg⟩ : ∃ g, RectPol.init nx nz Lx Lz Rc Zc mxg = .ok g := by
    unfold RectPol.init
    rw [if_neg (by omega)]
    exact ⟨_, rfl⟩
  obtain ⟨h1, h2, _, _, h3, h4, _, _⟩ := RectPol.init_ok hg
  have hR : g.dR ≠ 0 := by rw [h3]; exact div_ne_zero hLx h1
  have hZ : g.dZ ≠ 0 := by rw [h4]; exact div_ne_zero hLz h2
  refine ⟨g, hg, ?_, ?_⟩
  · intro x z
    refine ⟨g.Rmin + x * g.dR, g.Zmin + z * g.dZ, by simp [RectPol.getCoordinate], ?_⟩
    unfold RectPol.findIndex
    rw [add_sub_cancel_left, add_sub_cancel_left, mul_div_cancel_right₀ _ hR, mul_div_cancel_right₀ _ hZ]
  · intro R Z
    unfold RectPol.findIndex
    simp only [RectPol.getCoordinate]
    rw [if_neg (by simp), if_neg (by simp), if_neg (by simp), if_neg (by simp), if_neg (by simp),
      div_mul_cancel₀ _ hR, div_mul_cancel₀ _ hZ, add_sub_cancel, add_sub_cancel]

example : ∃ g, RectPol.init 8 4 (2 : ℚ) 1 3 0 2 = .ok g ∧ g.findIndex (7 / 2) 0 = (9 / 2, 3 / 2) := by
  obtain ⟨g, hg, _, _⟩ := C44_inverse 8 4 2 (2 : ℚ) 1 3 0 (by decide) (by decide) (by norm_num) (by norm_num)
  refine ⟨g, hg, ?_⟩
  obtain ⟨_, _, _, _, h3, h4, h5, h6⟩ := RectPol.init_ok hg
  unfold RectPol.findIndex
  rw [h5, h6, h3, h4]
  norm_num

/-- **C45.** The middle of the index range is the centre; the boundaries half-way between guard
cells and domain, and at the ends in `z`, are half the size away. -/
theorem C45_centred (nx nz mxg : ℕ) (Lx Lz Rc Zc : K) (g : RectPol K)
    (h : RectPol.init nx nz Lx Lz Rc Zc mxg = .ok g) :
    g.getCoordinate (((nx : K) - 1) / 2) (((nz : K) - 1) / 2) 0 0 = .ok (Rc, Zc) ∧
    g.getCoordinate ((mxg : K) - 1 / 2) (-1 / 2) 0 0 = .ok (Rc - Lx / 2, Zc - Lz / 2) ∧
    g.getCoordinate ((nx : K) - (mxg : K) - 1 / 2) ((nz : K) - 1 / 2) 0 0 = .ok (Rc + Lx / 2, Zc + Lz / 2) := by
  obtain ⟨h1, h2, _, _, h3, h4, h5, h6⟩ := RectPol.init_ok h
  have e1 : g.dR * ((nx : K) - 2 * (mxg : K)) = Lx := by rw [h3]; exact div_mul_cancel₀ _ h1
  have e2 : g.dZ * (nz : K) = Lz := by rw [h4]; exact div_mul_cancel₀ _ h2
  have key : ∀ x z, g.getCoordinate x z 0 0 = .ok (g.Rmin + x * g.dR, g.Zmin + z * g.dZ) := by
    intro x z
    simp [RectPol.getCoordinate]
  rw [key, key, key, h5, h6]
  refine ⟨?_, ?_, ?_⟩
  · congr 1
    ext <;> simp only <;> ring
  · congr 1
    ext
    · simp only; linear_combination (-1 / 2 : K) * e1
    · simp only; linear_combination (-1 / 2 : K) * e2
  · congr 1
    ext
    · simp only; linear_combination (1 / 2 : K) * e1
    · simp only; linear_combination (1 / 2 : K) * e2

example (g : RectPol ℚ) (h : RectPol.init 9 5 5 1 3 0 2 = .ok g) :
    g.getCoordinate (3 / 2) (-1 / 2) 0 0 = .ok (1 / 2, -1 / 2) := by
  have := (C45_centred 9 5 2 5 1 3 0 g h).2.1
  norm_num at this ⊢
  exact this

/-- **C46**, the claim: second and higher derivatives are zero. -/
def HigherVanish (g : RectPol K) : Prop :=
  ∀ x z : K, ∀ dx dz : ℤ, 0 ≤ dx → 0 ≤ dz → 2 ≤ dx + dz → g.getCoordinate x z dx dz = .ok (0, 0)

/-- **C46** for orders above 2.  Missing: order 2, for which `C46_fails` shows that it is
false. -/
theorem C46_order_three_partial (g : RectPol K) (x z : K) (dx dz : ℤ) (h1 : 0 ≤ dx) (h2 : 0 ≤ dz)
    (h : 3 ≤ dx + dz) : g.getCoordinate x z dx dz = .ok (0, 0) := by
  unfold RectPol.getCoordinate
  rw [if_neg (by omega), if_neg (by omega), if_pos (by omega)]

/-- **C46.** The first derivatives are those of the coordinates, which are linear. -/
theorem C46_first_derivatives (g : RectPol K) (x z h : K) :
    ∃ R Z R' Z' dRx dZx dRz dZz, g.getCoordinate x z 0 0 = .ok (R, Z) ∧
      g.getCoordinate (x + h) z 0 0 = .ok (R + h * dRx, Z + h * dZx) ∧
      g.getCoordinate x (z + h) 0 0 = .ok (R', Z') ∧ R' = R + h * dRz ∧ Z' = Z + h * dZz ∧
      g.getCoordinate x z 1 0 = .ok (dRx, dZx) ∧ g.getCoordinate x z 0 1 = .ok (dRz, dZz) := by
  refine ⟨g.Rmin + x * g.dR, g.Zmin + z * g.dZ, g.Rmin + x * g.dR, g.Zmin + (z + h) * g.dZ,
    g.dR, 0, 0, g.dZ, ?_, ?_, ?_, ?_, ?_, ?_, ?_⟩
  · simp [RectPol.getCoordinate]
  · simp only [RectPol.getCoordinate]
    norm_num
    ring
  · simp [RectPol.getCoordinate]
  · ring
  · ring
  · simp [RectPol.getCoordinate]
  · simp [RectPol.getCoordinate]

/-- **C46** is false on every grid of non-zero size: the test is `dx + dz > 2`, so the mixed
derivative is `dR`, and the second derivative is the position. -/
theorem C46_fails (g : RectPol K) (hR : g.dR ≠ 0) : ¬ HigherVanish g ∧
    (∀ x z, g.getCoordinate x z 1 1 = .ok (g.dR, 0)) ∧
    (∀ x z, g.getCoordinate x z 2 0 = g.getCoordinate x z 0 0) ∧
    ∀ x z, g.getCoordinate x z 0 2 = g.getCoordinate x z 0 0 := by
  have h1 : ∀ x z, g.getCoordinate x z 1 1 = .ok (g.dR, 0) := by
    intro x z; simp [RectPol.getCoordinate]
  refine ⟨?_, h1, ?_, ?_⟩
  · intro h
    have := h 0 0 1 1 (by decide) (by decide) (by decide)
    rw [h1] at this
    injection this with this
    exact hR (Prod.mk.inj this).1
  · intro x z; simp [RectPol.getCoordinate]
  · intro x z; simp [RectPol.getCoordinate]

example : ∃ g : RectPol ℚ, RectPol.init 8 4 2 1 3 0 2 = .ok g ∧ ¬ HigherVanish g := by
  obtain ⟨g, hg, _, _⟩ := C44_inverse 8 4 2 (2 : ℚ) 1 3 0 (by decide) (by decide) (by norm_num) (by norm_num)
  refine ⟨g, hg, (C46_fails g ?_).1⟩
  obtain ⟨_, _, _, _, h3, _⟩ := RectPol.init_ok hg
  rw [h3]
  norm_num

/-- The metric of a rectangular grid has all entries that `Grid.metric` copies. -/
theorem RectPol.pol_complete (g : RectPol K) : g.pol.Complete := by
  intro n hn
  simp only [List.mem_cons, List.not_mem_nil, or_false] at hn
  rcases hn with rfl | rfl | rfl | rfl | rfl | rfl | rfl | rfl <;>
    simp [RectPol.pol, RectPol.metric, ODict.get?_cons]

/-- It does not provide a Jacobian. -/
theorem RectPol.pol_noJ (g : RectPol K) : ¬ g.pol.ProvidesJ := by
  simp [PolGrid.ProvidesJ, RectPol.pol, RectPol.metric, ODict.get?_cons]

/-- The arrays `R`, `Z` are the coordinates at the integers. -/
theorem RectPol.pol_arrays (g : RectPol K) (x z : ℕ) :
    g.getCoordinate x z 0 0 = .ok (g.pol.R x z, g.pol.Z x z) := by
  simp [RectPol.getCoordinate, RectPol.pol]

end Zoidberg
