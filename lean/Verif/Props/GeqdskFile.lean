import Verif.Props.FieldData
import Verif.Props.Geqdsk

set_option linter.unusedSectionVars false

/-!
# The field of a GEQDSK file (C139, from the attributes that the file gives)
-/

namespace Zoidberg

open ContinuousLinearMap

/-- The field functions of a `GEQDSK` object. -/
noncomputable def GField.fns (g : GField ℝ) : FieldFns ℝ :=
  ⟨fun x z _ => g.Bx x z, fun x z _ => g.By x z, fun x z _ => g.Bz x z, some fun x _ _ => x⟩

theorem GField.fns_eq (g : GField ℝ) : g.fns = geqdskField (g.psi 1 0) (g.psi 0 1) (g.psinorm 0 0) (clampSpline g.f) := rfl

/-- The splines of scipy: the derivatives of `psi_func(x, z)` are `psi_func(x, z, dx=1)` and `psi_func(x, z, dy=1)`, and the mixed ones agree. -/
structure GField.Smooth (g : GField ℝ) (mixed : ℝ → ℝ → ℝ) : Prop where
  grad : ∀ x z, HasFDerivAt (fun p : ℝ × ℝ => g.psi 0 0 p.1 p.2)
    (g.psi 1 0 x z • ContinuousLinearMap.fst ℝ ℝ ℝ + g.psi 0 1 x z • ContinuousLinearMap.snd ℝ ℝ ℝ) (x, z)
  left : ∀ x z, HasDerivAt (fun t => g.psi 0 1 t z) (mixed x z) x
  right : ∀ x z, HasDerivAt (fun t => g.psi 1 0 x t) (mixed x z) z

/-- **C139**, for the object that a file gives: on field lines the interpolated psi is constant, and the divergence vanishes. -/
theorem C139_file (g : GField ℝ) (mixed : ℝ → ℝ → ℝ) (hs : g.Smooth mixed) :
    (∀ (x z : ℝ → ℝ) (y0 y1 : ℝ), FieldLineOn g.fns (Set.Icc y0 y1) x z → ∀ y ∈ Set.Icc y0 y1, g.psi 0 0 (x y) (z y) = g.psi 0 0 (x y0) (z y0)) ∧
    ∀ x z phi : ℝ, x ≠ 0 → ∃ d e, HasDerivAt (fun t => t * g.fns.Bx t z phi) d x ∧ HasDerivAt (fun t => g.fns.Bz x t phi) e z ∧
      HasDerivAt (fun t => g.fns.By x z t) 0 phi ∧ d / x + e = 0 := by
  rw [GField.fns_eq]
  exact ⟨fun x z y0 y1 h => C139_surfaces _ _ _ _ _ hs.grad x z y0 y1 h,
    fun x z phi hx => C139_divergence _ _ _ _ x z phi (mixed x z) hx (hs.left x z) (hs.right x z)⟩

/-- **C139.** The sense of the field in the plane, whatever the splines are: it is the gradient of psi over `R`, turned by a quarter from `R` towards `Z`,
so that it goes around a minimum of psi in the sense from `R` to `Z`. -/
theorem C139_sense (g : GField ℝ) (x z phi : ℝ) : (x ≠ 0 → x * g.fns.Bx x z phi = -g.psi 0 1 x z ∧ x * g.fns.Bz x z phi = g.psi 1 0 x z) ∧
    (g.fns.Bx x z phi * g.psi 1 0 x z + g.fns.Bz x z phi * g.psi 0 1 x z = 0) ∧
    (0 < x → 0 ≤ g.psi 1 0 x z * g.fns.Bz x z phi - g.psi 0 1 x z * g.fns.Bx x z phi) := by
  simp only [GField.fns, GField.Bx, GField.Bz]
  refine ⟨fun hx => ⟨by field_simp, by field_simp⟩, by ring, fun hx => ?_⟩
  have : g.psi 1 0 x z * (g.psi 1 0 x z / x) - g.psi 0 1 x z * (-g.psi 0 1 x z / x) = (g.psi 1 0 x z ^ 2 + g.psi 0 1 x z ^ 2) / x := by ring
  rw [this]
  positivity

/-- psi = (R - 1)^2 + Z^2. -/
noncomputable def bowlField : GField ℝ :=
  ⟨[], [], fun a b x z => if a = 1 then 2 * (x - 1) else if b = 1 then 2 * z else (x - 1) ^ 2 + z ^ 2, fun _ _ _ _ => 0, fun _ => 3, fun _ => 0, none⟩

example : bowlField.Smooth (fun _ _ => 0) := by
  constructor
  · intro x z
    have h1 : HasFDerivAt (fun p : ℝ × ℝ => (p.1 - 1) ^ 2 + p.2 ^ 2) _ (x, z) :=
      (((hasFDerivAt_fst (𝕜 := ℝ) (p := (x, z))).sub_const 1).pow 2).add ((hasFDerivAt_snd (𝕜 := ℝ) (p := (x, z))).pow 2)
    refine (h1.congr_fderiv ?_)
    ext <;> simp [bowlField]
  · intro x z
    simpa [bowlField] using hasDerivAt_const x (2 * z)
  · intro x z
    simpa [bowlField] using hasDerivAt_const z (2 * (x - 1))

example : FieldLineOn bowlField.fns (Set.Icc 0 1) (fun _ => 1) fun _ => 0 := by
  intro y _
  refine ⟨0, 0, (direction_one _ _ _ _ _ _).2 ⟨?_, ?_, ?_⟩, hasDerivAt_const _ _, hasDerivAt_const _ _⟩ <;>
    norm_num [bowlField, GField.fns, GField.Bx, GField.By, GField.Bz, FieldFns.Rmaj, clampSpline]

end Zoidberg
