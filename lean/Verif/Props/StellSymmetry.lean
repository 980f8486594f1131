import Verif.Props.StellSurf

/-!
# C247: symmetries of the coil fields
-/

set_option linter.unusedSectionVars false

namespace Zoidberg

open Real

/-- The coils after another `s`: turned about the centre. -/
theorem coilAt_turn (xc zc r angle w I phi s : ℝ) :
    (coilAt xc zc r angle w I (phi + s)).x - xc = cos (w * s) * ((coilAt xc zc r angle w I phi).x - xc) - sin (w * s) * ((coilAt xc zc r angle w I phi).z - zc) ∧
      (coilAt xc zc r angle w I (phi + s)).z - zc = sin (w * s) * ((coilAt xc zc r angle w I phi).x - xc) + cos (w * s) * ((coilAt xc zc r angle w I phi).z - zc) := by
  have e : angle + w * (phi + s) = (angle + w * phi) + w * s := by ring
  unfold coilAt
  dsimp only
  rw [e, cos_add (angle + w * phi), sin_add (angle + w * phi)]
  constructor <;> ring

theorem coil_turn_r2 (xc zc r angle w I phi s x z : ℝ) :
    (coilAt xc zc r angle w I (phi + s)).r2 (xc + (cos (w * s) * (x - xc) - sin (w * s) * (z - zc))) (zc + (sin (w * s) * (x - xc) + cos (w * s) * (z - zc))) =
      (coilAt xc zc r angle w I phi).r2 x z := by
  obtain ⟨h1, h2⟩ := coilAt_turn xc zc r angle w I phi s
  unfold Coil.r2
  have h3 := cos_sq_add_sin_sq (w * s)
  have e1 : (coilAt xc zc r angle w I (phi + s)).x = xc + (cos (w * s) * ((coilAt xc zc r angle w I phi).x - xc) - sin (w * s) * ((coilAt xc zc r angle w I phi).z - zc)) := by
    linarith
  have e2 : (coilAt xc zc r angle w I (phi + s)).z = zc + (sin (w * s) * ((coilAt xc zc r angle w I phi).x - xc) + cos (w * s) * ((coilAt xc zc r angle w I phi).z - zc)) := by
    linarith
  rw [e1, e2]
  linear_combination (((x - (coilAt xc zc r angle w I phi).x) ^ 2 + (z - (coilAt xc zc r angle w I phi).z) ^ 2)) * h3

theorem r2_eq_zero {c : Coil} {x z : ℝ} (h : ¬(x ≠ c.x ∨ z ≠ c.z)) : c.r2 x z = 0 := by
  push Not at h
  unfold Coil.r2
  rw [h.1, h.2]; ring

theorem sum_lin {α : Type} (J X Z r : α → ℝ) (a b : ℝ) (l : List α) :
    (l.map fun i => J i * ((a * X i + b * Z i) / r i)).sum = a * (l.map fun i => J i * (X i / r i)).sum + b * (l.map fun i => J i * (Z i / r i)).sum := by
  have := sum_split J X Z r a b l
  rw [mul_comm a, mul_comm b, ← this]
  refine congrArg List.sum (List.map_congr_left fun i _ => ?_)
  ring

/-- **C247.** The field of the coils turns with them. -/
theorem C247_helical (xc zc r yperiod I phi s x z : ℝ) (h : OffCoils (coilList xc zc r yperiod I phi) x z) :
    let c := cos (2 * π / yperiod * s)
    let d := sin (2 * π / yperiod * s)
    let x' := xc + (c * (x - xc) - d * (z - zc))
    let z' := zc + (d * (x - xc) + c * (z - zc))
    OffCoils (coilList xc zc r yperiod I (phi + s)) x' z' ∧
      coilBx (coilList xc zc r yperiod I (phi + s)) x' z' =
        c * coilBx (coilList xc zc r yperiod I phi) x z - d * coilBz (coilList xc zc r yperiod I phi) x z ∧
      coilBz (coilList xc zc r yperiod I (phi + s)) x' z' =
        d * coilBx (coilList xc zc r yperiod I phi) x z + c * coilBz (coilList xc zc r yperiod I phi) x z := by
  intro c d x' z'
  have ho : OffCoils (coilList xc zc r yperiod I (phi + s)) x' z' := by
    intro k hk
    obtain ⟨i, hi, rfl⟩ := List.mem_map.1 hk
    by_contra hc
    have h1 := r2_eq_zero hc
    rw [coil_turn_r2] at h1
    exact (Coil.r2_pos (h _ (List.mem_map_of_mem hi))).ne' h1
  refine ⟨ho, ?_⟩
  rw [coilBx_eq ho, coilBz_eq ho, coilBx_eq h, coilBz_eq h]
  unfold coilList
  simp only [List.map_map, Function.comp_def]
  have hz := sum_lin (fun i : ℕ => (coilAt xc zc r ((i : ℝ) / 2 * π) (2 * π / yperiod) ((-1) ^ (i % 2) * I) phi).I / 5) (fun i : ℕ => x - (coilAt xc zc r ((i : ℝ) / 2 * π) (2 * π / yperiod) ((-1) ^ (i % 2) * I) phi).x)
    (fun i : ℕ => z - (coilAt xc zc r ((i : ℝ) / 2 * π) (2 * π / yperiod) ((-1) ^ (i % 2) * I) phi).z)
    (fun i : ℕ => (coilAt xc zc r ((i : ℝ) / 2 * π) (2 * π / yperiod) ((-1) ^ (i % 2) * I) phi).r2 x z) d c (List.range 4)
  have hx := sum_lin (fun i : ℕ => (coilAt xc zc r ((i : ℝ) / 2 * π) (2 * π / yperiod) ((-1) ^ (i % 2) * I) phi).I / 5) (fun i : ℕ => x - (coilAt xc zc r ((i : ℝ) / 2 * π) (2 * π / yperiod) ((-1) ^ (i % 2) * I) phi).x)
    (fun i : ℕ => z - (coilAt xc zc r ((i : ℝ) / 2 * π) (2 * π / yperiod) ((-1) ^ (i % 2) * I) phi).z)
    (fun i : ℕ => (coilAt xc zc r ((i : ℝ) / 2 * π) (2 * π / yperiod) ((-1) ^ (i % 2) * I) phi).r2 x z) c (-d) (List.range 4)
  constructor
  · refine Eq.trans ?_ (Eq.trans hz ?_)
    · refine congrArg List.sum (List.map_congr_left fun i _ => ?_)
      rw [coil_turn_r2]
      obtain ⟨_, h2⟩ := coilAt_turn xc zc r ((i : ℝ) / 2 * π) (2 * π / yperiod) ((-1) ^ (i % 2) * I) phi s
      congr 2
      change zc + (d * (x - xc) + c * (z - zc)) - _ = _
      linear_combination -h2
    · rw [add_comm, mul_neg, sub_neg_eq_add]
  · rw [← neg_inj, neg_neg]
    refine Eq.trans ?_ (Eq.trans hx ?_)
    · refine congrArg List.sum (List.map_congr_left fun i _ => ?_)
      rw [coil_turn_r2]
      obtain ⟨h2, _⟩ := coilAt_turn xc zc r ((i : ℝ) / 2 * π) (2 * π / yperiod) ((-1) ^ (i % 2) * I) phi s
      congr 2
      change xc + (c * (x - xc) - d * (z - zc)) - _ = _
      linear_combination -h2
    · rw [mul_neg, neg_add, neg_neg, neg_mul, add_comm]

/-- **C247.** Mirror: the field at the opposite height and angle. -/
theorem C247_mirror (xc zc r yperiod I phi x z : ℝ) (h : OffCoils (coilList xc zc r yperiod I phi) x z) :
    OffCoils (coilList xc zc r yperiod I (-phi)) x (2 * zc - z) ∧
      coilBx (coilList xc zc r yperiod I (-phi)) x (2 * zc - z) = -coilBx (coilList xc zc r yperiod I phi) x z ∧
      coilBz (coilList xc zc r yperiod I (-phi)) x (2 * zc - z) = coilBz (coilList xc zc r yperiod I phi) x z := by
  have ho : OffCoils (coilList xc zc r yperiod I (-phi)) x (2 * zc - z) := by
    rw [coilList_four] at h ⊢
    rw [mul_neg, cos_neg, sin_neg]
    unfold OffCoils at h ⊢
    simp only [List.mem_cons, List.not_mem_nil, or_false, forall_eq_or_imp, forall_eq] at h ⊢
    obtain ⟨h0, h1, h2, h3⟩ := h
    refine ⟨?_, ?_, ?_, ?_⟩
    · exact h0.imp (fun h e => h e) fun h e => h (by linarith)
    · exact h3.imp (fun h e => h (by linarith)) fun h e => h (by linarith)
    · exact h2.imp (fun h e => h e) fun h e => h (by linarith)
    · exact h1.imp (fun h e => h (by linarith)) fun h e => h (by linarith)
  refine ⟨ho, ?_⟩
  rw [coilBx_eq ho, coilBz_eq ho, coilBx_eq h, coilBz_eq h, coilList_four, coilList_four, mul_neg, cos_neg, sin_neg]
  simp only [List.map_cons, List.map_nil, List.sum_cons, List.sum_nil, Coil.r2]
  generalize cos (2 * π / yperiod * phi) = c
  generalize sin (2 * π / yperiod * phi) = d
  have a0 : ((x - (xc + r * c)) ^ 2 + (2 * zc - z - (zc + r * -d)) ^ 2) = (x - (xc + r * c)) ^ 2 + (z - (zc + r * d)) ^ 2 := by ring
  have a1 : ((x - (xc - r * -d)) ^ 2 + (2 * zc - z - (zc + r * c)) ^ 2) = (x - (xc + r * d)) ^ 2 + (z - (zc - r * c)) ^ 2 := by ring
  have a2 : ((x - (xc - r * c)) ^ 2 + (2 * zc - z - (zc - r * -d)) ^ 2) = (x - (xc - r * c)) ^ 2 + (z - (zc - r * d)) ^ 2 := by ring
  have a3 : ((x - (xc + r * -d)) ^ 2 + (2 * zc - z - (zc - r * c)) ^ 2) = (x - (xc - r * d)) ^ 2 + (z - (zc + r * c)) ^ 2 := by ring
  rw [a0, a1, a2, a3]
  constructor <;> ring

/-- Mirrored field lines: of a field in which `Bx` changes its sign in the mirror. -/
theorem mirror_line (f : FieldFns ℝ) (zc : ℝ) (P : ℝ → ℝ → ℝ → Prop) (hf : ∀ x z y, P x z y → f.Bx x (2 * zc - z) (-y) = -f.Bx x z y ∧
    f.Bz x (2 * zc - z) (-y) = f.Bz x z y ∧ f.By x (2 * zc - z) (-y) = f.By x z y ∧ f.Rmaj x (2 * zc - z) (-y) = f.Rmaj x z y)
    (x z : ℝ → ℝ) (y0 y1 : ℝ) (h : FieldLineOn f (Set.Icc y0 y1) x z) (hP : ∀ y ∈ Set.Icc y0 y1, P (x y) (z y) y) :
    FieldLineOn f (Set.Icc (-y1) (-y0)) (fun y => x (-y)) fun y => 2 * zc - z (-y) := by
  intro y hy
  have hy' : -y ∈ Set.Icc y0 y1 := ⟨by linarith [hy.2], by linarith [hy.1]⟩
  obtain ⟨hB, hx, hz⟩ := h.deriv hy'
  obtain ⟨h1, h2, h3, h4⟩ := hf _ _ _ (hP _ hy')
  rw [neg_neg] at h1 h2 h3 h4
  refine ⟨_, _, (direction_one _ _ _ _ _ _).2 ⟨?_, rfl, rfl⟩, ?_, ?_⟩
  · rw [h3]; exact hB
  · rw [h1, h3, h4]
    have := hx.comp y (hasDerivAt_neg y)
    refine this.congr_deriv ?_
    ring
  · rw [h2, h3, h4]
    have := (hz.comp y (hasDerivAt_neg y)).const_sub (2 * zc)
    refine this.congr_deriv ?_
    ring

/-- **C247.** The mirror image of a field line is a field line, straight and curved. -/
theorem C247_mirror_lines (xc zc r yperiod I Btor : ℝ) (x z : ℝ → ℝ) (y0 y1 : ℝ)
    (ho : ∀ y ∈ Set.Icc y0 y1, OffCoils (coilList xc zc r yperiod I y) (x y) (z y)) :
    (FieldLineOn (straightStellarator xc zc r yperiod I) (Set.Icc y0 y1) x z →
      FieldLineOn (straightStellarator xc zc r yperiod I) (Set.Icc (-y1) (-y0)) (fun y => x (-y)) fun y => 2 * zc - z (-y)) ∧
    (FieldLineOn (rotatingEllipse xc zc r yperiod I Btor) (Set.Icc y0 y1) x z →
      FieldLineOn (rotatingEllipse xc zc r yperiod I Btor) (Set.Icc (-y1) (-y0)) (fun y => x (-y)) fun y => 2 * zc - z (-y)) := by
  constructor <;> intro h <;>
    refine mirror_line _ zc (fun x z y => OffCoils (coilList xc zc r yperiod I y) x z) (fun x z y hP => ?_) x z y0 y1 h ho <;>
    obtain ⟨_, h1, h2⟩ := C247_mirror xc zc r yperiod I y x z hP <;>
    exact ⟨h1, h2, rfl, rfl⟩

/-- **C247.** A field line of the straight stellarator that is turned with the coils is a field line. -/
theorem C247_helical_lines (xc zc r yperiod I s : ℝ) (x z : ℝ → ℝ) (y0 y1 : ℝ)
    (h : FieldLineOn (straightStellarator xc zc r yperiod I) (Set.Icc y0 y1) x z)
    (ho : ∀ y ∈ Set.Icc y0 y1, OffCoils (coilList xc zc r yperiod I y) (x y) (z y)) :
    FieldLineOn (straightStellarator xc zc r yperiod I) (Set.Icc (y0 + s) (y1 + s))
      (fun y => xc + (cos (2 * π / yperiod * s) * (x (y - s) - xc) - sin (2 * π / yperiod * s) * (z (y - s) - zc)))
      fun y => zc + (sin (2 * π / yperiod * s) * (x (y - s) - xc) + cos (2 * π / yperiod * s) * (z (y - s) - zc)) := by
  intro y hy
  have hy' : y - s ∈ Set.Icc y0 y1 := ⟨by linarith [hy.1], by linarith [hy.2]⟩
  obtain ⟨hB, hx, hz⟩ := h.deriv hy'
  obtain ⟨_, h1, h2⟩ := C247_helical xc zc r yperiod I (y - s) s (x (y - s)) (z (y - s)) (ho _ hy')
  rw [sub_add_cancel] at h1 h2
  simp only [straightStellarator, FieldFns.Rmaj, one_mul, div_one] at hx hz
  have gx : HasDerivAt (fun y => x (y - s)) (coilBx (coilList xc zc r yperiod I (y - s)) (x (y - s)) (z (y - s))) y := by
    have := hx.comp y ((hasDerivAt_id y).sub_const s)
    rw [mul_one] at this
    exact this
  have gz : HasDerivAt (fun y => z (y - s)) (coilBz (coilList xc zc r yperiod I (y - s)) (x (y - s)) (z (y - s))) y := by
    have := hz.comp y ((hasDerivAt_id y).sub_const s)
    rw [mul_one] at this
    exact this
  refine ⟨_, _, (direction_one _ _ _ _ _ _).2 ⟨?_, rfl, rfl⟩, ?_, ?_⟩
  · simp only [straightStellarator, abs_one]; norm_num
  · simp only [straightStellarator, FieldFns.Rmaj, one_mul, div_one]
    rw [h1]
    exact (((gx.sub_const xc).const_mul _).sub ((gz.sub_const zc).const_mul _)).const_add xc
  · simp only [straightStellarator, FieldFns.Rmaj, one_mul, div_one]
    rw [h2]
    exact (((gx.sub_const xc).const_mul _).add ((gz.sub_const zc).const_mul _)).const_add zc

/-- A quarter of a turn of a line near the axis. -/
example : ∃ ε > 0, ∃ x z : ℝ → ℝ, x 0 = 0 ∧ FieldLineOn (straightStellarator 0 0 (4 / 5) π (1 / 20)) (Set.Icc (-(0 + ε)) (-0)) x z := by
  obtain ⟨ε, hε, x, z, hx, hz, h, ho⟩ := stell_line_exists 0 0 (4 / 5) π (1 / 20) 0 (1 / 10) 0
    (coilA_small 0 0 (4 / 5) π (1 / 20) 0 (1 / 10) 0 (by norm_num)).1
  exact ⟨ε, hε, _, _, by rw [neg_zero]; exact hx, (C247_mirror_lines 0 0 (4 / 5) π (1 / 20) 1 x z 0 (0 + ε) ho).1 h⟩

end Zoidberg
