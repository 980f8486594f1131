import Verif.Props.FieldLineLength
import Mathlib.MeasureTheory.Integral.IntervalIntegral.FundThmCalculus
import Mathlib.MeasureTheory.Integral.IntervalIntegral.IntegrationByParts
import Mathlib.Analysis.Calculus.MeanValue
import Mathlib.Analysis.InnerProductSpace.Calculus
import Mathlib.Analysis.SpecialFunctions.Trigonometric.Deriv
import Mathlib.Analysis.SpecialFunctions.ExpDeriv
import Mathlib.Tactic.LinearCombination

/-! # Property C223: `field_line_length` and the length of the arc -/

set_option linter.unusedSectionVars false

namespace Zoidberg

open Real Set intervalIntegral

/-- Inscribed polygons of a curve with continuous second derivative: not longer than the curve, and shorter by at most `C / N` for `N` equal steps of the parameter. -/
theorem polygon_length {E : Type} [NormedAddCommGroup E] [NormedSpace ℝ E] [CompleteSpace E] {γ : ℝ → E} (hγ : ContDiff ℝ 2 γ) :
    ∃ C, ∀ N : ℕ, 1 ≤ N →
      (∑ i ∈ Finset.range N, dist (γ (((i + 1 : ℕ) : ℝ) / N)) (γ ((i : ℝ) / N)) ≤ ∫ t in (0 : ℝ)..1, ‖deriv γ t‖) ∧
      (∫ t in (0 : ℝ)..1, ‖deriv γ t‖) - C / N ≤ ∑ i ∈ Finset.range N, dist (γ (((i + 1 : ℕ) : ℝ) / N)) (γ ((i : ℝ) / N)) := by
  have h1 : Differentiable ℝ γ := hγ.differentiable (by norm_num)
  have hd : ContDiff ℝ 1 (deriv γ) := by
    have : ContDiff ℝ (1 + 1) γ := by exact_mod_cast hγ
    exact (contDiff_succ_iff_deriv.1 this).2.2
  have h2 : Differentiable ℝ (deriv γ) := hd.differentiable (by norm_num)
  have c1 : Continuous (deriv γ) := hd.continuous
  have c2 : Continuous (deriv (deriv γ)) := by
    have : ContDiff ℝ (0 + 1) (deriv γ) := by simpa using hd
    exact ((contDiff_succ_iff_deriv.1 this).2.2).continuous
  obtain ⟨M, hM⟩ := (isCompact_Icc (a := (0 : ℝ)) (b := 1)).exists_bound_of_continuousOn c2.continuousOn
  have hM0 : 0 ≤ M := (norm_nonneg _).trans (hM 0 (by norm_num))
  have lip : ∀ a b : ℝ, 0 ≤ a → a ≤ b → b ≤ 1 → ‖deriv γ b - deriv γ a‖ ≤ M * (b - a) := by
    intro a b ha hab hb
    have := (convex_Icc (0 : ℝ) 1).norm_image_sub_le_of_norm_deriv_le (f := deriv γ) (C := M) (fun x _ => h2 x) hM
      (⟨ha, hab.trans hb⟩ : a ∈ Icc (0 : ℝ) 1) (⟨ha.trans hab, hb⟩ : b ∈ Icc (0 : ℝ) 1)
    rwa [Real.norm_of_nonneg (by linarith)] at this
  have cn : Continuous fun t => ‖deriv γ t‖ := c1.norm
  have ftc : ∀ a b : ℝ, γ b - γ a = ∫ t in a..b, deriv γ t := by
    intro a b
    exact (integral_deriv_eq_sub (fun x _ => h1 x) (c1.intervalIntegrable _ _)).symm
  have up : ∀ a b : ℝ, a ≤ b → dist (γ b) (γ a) ≤ ∫ t in a..b, ‖deriv γ t‖ := by
    intro a b hab
    rw [dist_eq_norm, ftc]
    exact norm_integral_le_integral_norm hab
  have low : ∀ a b : ℝ, 0 ≤ a → a ≤ b → b ≤ 1 → (∫ t in a..b, ‖deriv γ t‖) - 2 * M * (b - a) ^ 2 ≤ dist (γ b) (γ a) := by
    intro a b ha hab hb
    have i1 : (∫ t in a..b, ‖deriv γ t‖) ≤ ∫ t in a..b, (‖deriv γ a‖ + M * (b - a)) := by
      refine integral_mono_on hab (cn.intervalIntegrable _ _) (by simp) fun t ht => ?_
      have l := lip a t ha ht.1 (ht.2.trans hb)
      have : ‖deriv γ t‖ ≤ ‖deriv γ t - deriv γ a‖ + ‖deriv γ a‖ := by
        have := norm_add_le (deriv γ t - deriv γ a) (deriv γ a)
        simpa using this
      nlinarith [mul_le_mul_of_nonneg_left (by linarith [ht.2] : t - a ≤ b - a) hM0]
    rw [integral_const, smul_eq_mul] at i1
    have i2 : ‖(γ b - γ a) - (b - a) • deriv γ a‖ ≤ M * (b - a) * |b - a| := by
      have : (γ b - γ a) - (b - a) • deriv γ a = ∫ t in a..b, (deriv γ t - deriv γ a) := by
        rw [integral_sub (c1.intervalIntegrable _ _) (by simp), integral_const, ftc]
      rw [this]
      refine norm_integral_le_of_norm_le_const fun t ht => ?_
      rw [uIoc_of_le hab] at ht
      have l := lip a t ha ht.1.le (ht.2.trans hb)
      exact l.trans (mul_le_mul_of_nonneg_left (by linarith [ht.2]) hM0)
    rw [abs_of_nonneg (by linarith)] at i2
    have i3 : (b - a) * ‖deriv γ a‖ ≤ ‖γ b - γ a‖ + ‖(γ b - γ a) - (b - a) • deriv γ a‖ := by
      have e1 : (b - a) * ‖deriv γ a‖ = ‖(b - a) • deriv γ a‖ := by rw [norm_smul, Real.norm_of_nonneg (by linarith)]
      rw [e1]
      have := norm_sub_le (γ b - γ a) ((γ b - γ a) - (b - a) • deriv γ a)
      simpa using this
    rw [dist_eq_norm]
    nlinarith
  refine ⟨2 * M, ?_⟩
  intro N hN
  have hN0 : (0 : ℝ) < N := by exact_mod_cast hN
  have hsplit : ∑ i ∈ Finset.range N, (∫ t in ((i : ℝ) / N)..(((i + 1 : ℕ) : ℝ) / N), ‖deriv γ t‖) = ∫ t in (0 : ℝ)..1, ‖deriv γ t‖ := by
    rw [sum_integral_adjacent_intervals (a := fun i : ℕ => (i : ℝ) / N) fun k _ => cn.intervalIntegrable _ _]
    congr 1
    · simp
    · field_simp
  have hstep : ∀ i : ℕ, ((i + 1 : ℕ) : ℝ) / N - (i : ℝ) / N = 1 / N := by
    intro i
    push_cast
    ring
  rw [← hsplit]
  constructor
  · refine Finset.sum_le_sum fun i _ => up _ _ ?_
    have := hstep i
    have : (0 : ℝ) < 1 / N := by positivity
    linarith
  · have hb : ∀ i ∈ Finset.range N, (∫ t in ((i : ℝ) / N)..(((i + 1 : ℕ) : ℝ) / N), ‖deriv γ t‖) - 2 * M * (1 / N) ^ 2 ≤
        dist (γ (((i + 1 : ℕ) : ℝ) / N)) (γ ((i : ℝ) / N)) := by
      intro i hi
      have hi := Finset.mem_range.1 hi
      have s := hstep i
      have sp : (0 : ℝ) < 1 / N := by positivity
      rw [← s]
      refine low _ _ (by positivity) (by linarith) ?_
      rw [div_le_one hN0]
      exact_mod_cast hi
    have := Finset.sum_le_sum hb
    rw [Finset.sum_sub_distrib, Finset.sum_const, Finset.card_range, nsmul_eq_mul] at this
    have e1 : (N : ℝ) * (2 * M * (1 / N) ^ 2) = 2 * M / N := by field_simp
    rw [e1] at this
    exact this

/-! ## Curves in cylindrical coordinates -/

/-- The curve with the angle `y t` and the position `R, Z` as functions of the angle. -/
noncomputable def spaceCurve (y R Z : ℝ → ℝ) (t : ℝ) : EuclideanSpace ℝ (Fin 3) := vec (cos (y t) * R (y t), sin (y t) * R (y t), Z (y t))

/-- The length of a field line per angle. -/
noncomputable def lineSpeed (R Z : ℝ → ℝ) (y : ℝ) : ℝ := √(deriv R y ^ 2 + R y ^ 2 + deriv Z y ^ 2)

theorem spaceCurve_smooth {y R Z : ℝ → ℝ} (hy : ContDiff ℝ 2 y) (hR : ContDiff ℝ 2 R) (hZ : ContDiff ℝ 2 Z) : ContDiff ℝ 2 (spaceCurve y R Z) := by
  rw [contDiff_euclidean]
  intro i
  fin_cases i
  · exact (contDiff_cos.comp hy).mul (hR.comp hy)
  · exact (contDiff_sin.comp hy).mul (hR.comp hy)
  · exact hZ.comp hy

theorem spaceCurve_speed {y R Z : ℝ → ℝ} (hy : ContDiff ℝ 2 y) (hR : ContDiff ℝ 2 R) (hZ : ContDiff ℝ 2 Z) (t : ℝ) :
    ‖deriv (spaceCurve y R Z) t‖ = lineSpeed R Z (y t) * |deriv y t| := by
  have hd := ((spaceCurve_smooth hy hR hZ).differentiable (by norm_num) t).hasDerivAt
  have dy := (hy.differentiable (by norm_num) t).hasDerivAt
  have dR := ((hR.differentiable (by norm_num) (y t)).hasDerivAt).comp t dy
  have dZ := ((hZ.differentiable (by norm_num) (y t)).hasDerivAt).comp t dy
  have c0 := ((EuclideanSpace.proj (𝕜 := ℝ) (0 : Fin 3)).hasFDerivAt.comp_hasDerivAt t hd).unique ((dy.cos).mul dR)
  have c1 := ((EuclideanSpace.proj (𝕜 := ℝ) (1 : Fin 3)).hasFDerivAt.comp_hasDerivAt t hd).unique ((dy.sin).mul dR)
  have c2 := ((EuclideanSpace.proj (𝕜 := ℝ) (2 : Fin 3)).hasFDerivAt.comp_hasDerivAt t hd).unique dZ
  simp only [EuclideanSpace.coe_proj] at c0 c1 c2
  rw [EuclideanSpace.norm_eq, Fin.sum_univ_three, c0, c1, c2]
  simp only [Real.norm_eq_abs, sq_abs]
  unfold lineSpeed
  rw [← Real.sqrt_sq_eq_abs, ← Real.sqrt_mul (by positivity)]
  congr 1
  have := Real.sin_sq_add_cos_sq (y t)
  linear_combination ((deriv y t) ^ 2 * R (y t) ^ 2 + (deriv y t) ^ 2 * (deriv R (y t)) ^ 2) * this

theorem lineSpeed_continuous {R Z : ℝ → ℝ} (hR : ContDiff ℝ 2 R) (hZ : ContDiff ℝ 2 Z) : Continuous (lineSpeed R Z) := by
  have d : ∀ f : ℝ → ℝ, ContDiff ℝ 2 f → Continuous (deriv f) := fun f hf => hf.continuous_deriv (by norm_num)
  unfold lineSpeed
  exact ((((d R hR).pow 2).add (hR.continuous.pow 2)).add ((d Z hZ).pow 2)).sqrt

/-- The length of the curve: the integral over the parameter, and over the angle if the angle does not turn back. -/
theorem curve_length {y R Z : ℝ → ℝ} (hy : ContDiff ℝ 2 y) (hR : ContDiff ℝ 2 R) (hZ : ContDiff ℝ 2 Z)
    (hm : (∀ t ∈ Icc (0 : ℝ) 1, 0 ≤ deriv y t) ∨ ∀ t ∈ Icc (0 : ℝ) 1, deriv y t ≤ 0) :
    (∫ t in (0 : ℝ)..1, ‖deriv (spaceCurve y R Z) t‖) = |∫ s in (y 0)..(y 1), lineSpeed R Z s| := by
  have sub : (∫ t in (0 : ℝ)..1, (lineSpeed R Z ∘ y) t * deriv y t) = ∫ s in (y 0)..(y 1), lineSpeed R Z s :=
    integral_comp_mul_deriv (fun x _ => (hy.differentiable (by norm_num) x).hasDerivAt) ((hy.continuous_deriv (by norm_num)).continuousOn)
      (lineSpeed_continuous hR hZ)
  have h01 : uIcc (0 : ℝ) 1 = Icc 0 1 := uIcc_of_le zero_le_one
  have nn : 0 ≤ ∫ t in (0 : ℝ)..1, ‖deriv (spaceCurve y R Z) t‖ := integral_nonneg zero_le_one fun t _ => norm_nonneg _
  rw [← abs_of_nonneg nn, ← sub]
  rcases hm with hm | hm
  · congr 1
    refine integral_congr fun t ht => ?_
    rw [h01] at ht
    simp only [Function.comp_apply]
    rw [spaceCurve_speed hy hR hZ, abs_of_nonneg (hm t ht)]
  · rw [← abs_neg (∫ t in (0 : ℝ)..1, _ * _), ← intervalIntegral.integral_neg]
    congr 1
    refine integral_congr fun t ht => ?_
    rw [h01] at ht
    simp only [Function.comp_apply]
    rw [spaceCurve_speed hy hR hZ, abs_of_nonpos (hm t ht)]
    ring

/-! ## `field_line_length` -/

/-- The length that is computed is that of an inscribed polygon of the interpolated curve. -/
theorem fieldLineLength_polygon (spline) (rz : List (ℝ × ℝ)) (ys : List ℝ) (refine : ℕ) (hn : 2 ≤ ys.length) (hr : 1 ≤ refine) (y R Z : ℝ → ℝ)
    (h1 : spline (linspaceClosed 0 1 ys.length) ys = .ok y) (h2 : spline ys (rz.map Prod.fst) = .ok R) (h3 : spline ys (rz.map Prod.snd) = .ok Z) :
    fieldLineLength (realLen spline) rz ys refine = .ok (∑ i ∈ Finset.range ((ys.length - 1) * refine),
      dist (spaceCurve y R Z (((i + 1 : ℕ) : ℝ) / ((ys.length - 1) * refine : ℕ))) (spaceCurve y R Z ((i : ℝ) / ((ys.length - 1) * refine : ℕ)))) := by
  have hpos : 0 < (ys.length - 1) * refine := Nat.mul_pos (by omega) hr
  have hok : ∃ p, finePath (realLen spline) rz ys refine = .ok p := by
    unfold finePath fineY
    change ∃ p, (((spline _ ys).map _).bind fun yf => (spline ys _).bind fun R => (spline ys _).bind _) = _
    rw [h1, h2, h3]
    exact ⟨_, rfl⟩
  obtain ⟨p, hp⟩ := hok
  obtain ⟨yi, Rf, Zf, k1, k2, k3, k4⟩ := finePath_fn hp
  rw [h1] at k1
  rw [h2] at k2
  rw [h3] at k3
  cases k1
  cases k2
  cases k3
  unfold fieldLineLength
  rw [hp]
  simp only [Except.map]
  congr 1
  rw [k4, pathLen_fn]
  refine Finset.sum_congr rfl fun i _ => ?_
  rw [if_neg (by omega), if_neg (by omega), stepLen_chord, chord_dist]
  have e : ∀ i : ℕ, (0 : ℝ) + (i : ℝ) * ((1 - 0) / ((((ys.length - 1) * refine + 1 : ℕ) : ℝ) - 1)) = (i : ℝ) / ((ys.length - 1) * refine : ℕ) := by
    intro i
    push_cast
    ring
  rw [e, e]
  rfl

/-- **C223 (partial).** If the interpolated angle does not turn back, the computed length is at most the length of the arc, `∫ sqrt(R'^2 + R^2 + Z'^2)` over the
angle, and converges to it with the number of steps.  Missing: angles that turn back (`C223_fails`). -/
theorem C223_arc_partial (spline) (hs : Interpolates spline) (rz : List (ℝ × ℝ)) (ys : List ℝ) (hn : 2 ≤ ys.length) (y R Z : ℝ → ℝ)
    (h1 : spline (linspaceClosed 0 1 ys.length) ys = .ok y) (h2 : spline ys (rz.map Prod.fst) = .ok R) (h3 : spline ys (rz.map Prod.snd) = .ok Z)
    (hy : ContDiff ℝ 2 y) (hR : ContDiff ℝ 2 R) (hZ : ContDiff ℝ 2 Z)
    (hm : (∀ t ∈ Icc (0 : ℝ) 1, 0 ≤ deriv y t) ∨ ∀ t ∈ Icc (0 : ℝ) 1, deriv y t ≤ 0) :
    ∃ C, ∀ refine : ℕ, 1 ≤ refine → ∃ L, fieldLineLength (realLen spline) rz ys refine = .ok L ∧
      L ≤ |∫ s in (ys.getD 0 0)..(ys.getD (ys.length - 1) 0), √(deriv R s ^ 2 + R s ^ 2 + deriv Z s ^ 2)| ∧
      |∫ s in (ys.getD 0 0)..(ys.getD (ys.length - 1) 0), √(deriv R s ^ 2 + R s ^ 2 + deriv Z s ^ 2)| - C / ((ys.length - 1) * refine : ℕ) ≤ L := by
  obtain ⟨C, hC⟩ := polygon_length (spaceCurve_smooth hy hR hZ)
  have hll : (linspaceClosed (0 : ℝ) 1 ys.length).length = ys.length := by simp [linspaceClosed]
  have y0 : y 0 = ys.getD 0 0 := by
    have := hs _ _ _ h1 0 (by omega)
    rwa [fine_linspace_getD (by omega), if_neg (by omega), Nat.cast_zero, zero_mul, add_zero] at this
  have y1 : y 1 = ys.getD (ys.length - 1) 0 := by
    have := hs _ _ _ h1 (ys.length - 1) (by omega)
    rw [fine_linspace_getD (by omega), if_neg (by omega), Nat.cast_sub (by omega)] at this
    have hne : ((ys.length : ℝ)) - 1 ≠ 0 := by
      have : (2 : ℝ) ≤ ys.length := by exact_mod_cast hn
      intro h
      linarith
    rw [← this]
    congr 1
    push_cast
    field_simp
    ring
  have hlen := curve_length hy hR hZ hm
  rw [y0, y1] at hlen
  unfold lineSpeed at hlen
  refine ⟨C, fun refine hr => ⟨_, fieldLineLength_polygon spline rz ys refine hn hr y R Z h1 h2 h3, ?_, ?_⟩⟩
  · rw [← hlen]
    exact (hC _ (Nat.mul_pos (by omega) hr)).1
  · rw [← hlen]
    exact (hC _ (Nat.mul_pos (by omega) hr)).2

/-! ## Angles that turn back -/

theorem part_length {y R Z : ℝ → ℝ} (hy : ContDiff ℝ 2 y) (hR : ContDiff ℝ 2 R) (hZ : ContDiff ℝ 2 Z) (a b : ℝ) (hab : a ≤ b) :
    |∫ s in (y a)..(y b), lineSpeed R Z s| ≤ ∫ t in a..b, ‖deriv (spaceCurve y R Z) t‖ := by
  have sub : (∫ t in a..b, (lineSpeed R Z ∘ y) t * deriv y t) = ∫ s in (y a)..(y b), lineSpeed R Z s :=
    integral_comp_mul_deriv (fun x _ => (hy.differentiable (by norm_num) x).hasDerivAt) ((hy.continuous_deriv (by norm_num)).continuousOn)
      (lineSpeed_continuous hR hZ)
  rw [← sub]
  refine (abs_integral_le_integral_abs hab).trans (le_of_eq (integral_congr fun t _ => ?_))
  simp only [Function.comp_apply]
  rw [spaceCurve_speed hy hR hZ, abs_mul, abs_of_nonneg (show 0 ≤ lineSpeed R Z (y t) from Real.sqrt_nonneg _)]

/-- **C223.** If the interpolated angle goes below its first value and the line does not touch the axis, the computed length is longer than the arc from some
refinement on. -/
theorem C223_turns (spline) (hs : Interpolates spline) (rz : List (ℝ × ℝ)) (ys : List ℝ) (hn : 2 ≤ ys.length) (y R Z : ℝ → ℝ)
    (h1 : spline (linspaceClosed 0 1 ys.length) ys = .ok y) (h2 : spline ys (rz.map Prod.fst) = .ok R) (h3 : spline ys (rz.map Prod.snd) = .ok Z)
    (hy : ContDiff ℝ 2 y) (hR : ContDiff ℝ 2 R) (hZ : ContDiff ℝ 2 Z) (hR0 : ∀ s, R s ≠ 0) (hinc : ys.getD 0 0 < ys.getD (ys.length - 1) 0)
    (a : ℝ) (ha : a ∈ Icc (0 : ℝ) 1) (hback : y a < ys.getD 0 0) :
    ∃ r0, ∀ refine : ℕ, r0 ≤ refine → ∃ L, fieldLineLength (realLen spline) rz ys refine = .ok L ∧
      |∫ s in (ys.getD 0 0)..(ys.getD (ys.length - 1) 0), √(deriv R s ^ 2 + R s ^ 2 + deriv Z s ^ 2)| < L := by
  obtain ⟨C, hC⟩ := polygon_length (spaceCurve_smooth hy hR hZ)
  have y0 : y 0 = ys.getD 0 0 := by
    have := hs _ _ _ h1 0 (by simp [linspaceClosed]; omega)
    rwa [fine_linspace_getD (by omega), if_neg (by omega), Nat.cast_zero, zero_mul, add_zero] at this
  have y1 : y 1 = ys.getD (ys.length - 1) 0 := by
    have := hs _ _ _ h1 (ys.length - 1) (by simp [linspaceClosed]; omega)
    rw [fine_linspace_getD (by omega), if_neg (by omega), Nat.cast_sub (by omega)] at this
    have hne : ((ys.length : ℝ)) - 1 ≠ 0 := by
      have : (2 : ℝ) ≤ ys.length := by exact_mod_cast hn
      intro h
      linarith
    rw [← this]
    congr 1
    push_cast
    field_simp
    ring
  have cs := lineSpeed_continuous hR hZ
  have pos : ∀ s, 0 < lineSpeed R Z s := by
    intro s
    unfold lineSpeed
    have := hR0 s
    positivity
  have cn : Continuous fun t => ‖deriv (spaceCurve y R Z) t‖ := ((spaceCurve_smooth hy hR hZ).continuous_deriv (by norm_num)).norm
  have hp : 0 < ∫ s in (y a)..(ys.getD 0 0), lineSpeed R Z s := intervalIntegral_pos_of_pos (cs.intervalIntegrable _ _) pos hback
  have hq : 0 < ∫ s in (ys.getD 0 0)..(ys.getD (ys.length - 1) 0), lineSpeed R Z s := intervalIntegral_pos_of_pos (cs.intervalIntegrable _ _) pos hinc
  have hlam : (∫ s in (ys.getD 0 0)..(ys.getD (ys.length - 1) 0), lineSpeed R Z s) < ∫ t in (0 : ℝ)..1, ‖deriv (spaceCurve y R Z) t‖ := by
    rw [← integral_add_adjacent_intervals (cn.intervalIntegrable 0 a) (cn.intervalIntegrable a 1)]
    have p1 := part_length hy hR hZ 0 a ha.1
    have p2 := part_length hy hR hZ a 1 ha.2
    rw [y0, integral_symm, abs_neg, abs_of_pos hp] at p1
    rw [y1] at p2
    have p3 := integral_add_adjacent_intervals (μ := MeasureTheory.volume) (cs.intervalIntegrable (y a) (ys.getD 0 0)) (cs.intervalIntegrable (ys.getD 0 0) (ys.getD (ys.length - 1) 0))
    have p4 := le_abs_self (∫ s in (y a)..(ys.getD (ys.length - 1) 0), lineSpeed R Z s)
    linarith
  set arc := ∫ s in (ys.getD 0 0)..(ys.getD (ys.length - 1) 0), lineSpeed R Z s with harc
  set lam := ∫ t in (0 : ℝ)..1, ‖deriv (spaceCurve y R Z) t‖
  obtain ⟨r0, hr0⟩ := exists_nat_gt (max 1 (C / (lam - arc)))
  refine ⟨r0, fun refine hrr => ?_⟩
  have hrr' : (r0 : ℝ) ≤ refine := by exact_mod_cast hrr
  have q1 : (1 : ℝ) < refine := ((le_max_left _ _).trans_lt hr0).trans_le hrr'
  have q2 : C / (lam - arc) < refine := ((le_max_right _ _).trans_lt hr0).trans_le hrr'
  have hr : 1 ≤ refine := by
    have : 1 < refine := by exact_mod_cast q1
    omega
  have hN : 1 ≤ (ys.length - 1) * refine := Nat.mul_pos (by omega) hr
  refine ⟨_, fieldLineLength_polygon spline rz ys refine hn hr y R Z h1 h2 h3, ?_⟩
  have hb := (hC _ hN).2
  change |arc| < _
  rw [abs_of_pos hq]
  refine lt_of_lt_of_le ?_ hb
  have hge : (refine : ℝ) ≤ ((ys.length - 1) * refine : ℕ) := by
    have : 1 * refine ≤ (ys.length - 1) * refine := Nat.mul_le_mul_right _ (by omega)
    rw [one_mul] at this
    exact_mod_cast this
  have hNp : (0 : ℝ) < ((ys.length - 1) * refine : ℕ) := by linarith
  have hd : 0 < lam - arc := by linarith
  rw [div_lt_iff₀ hd] at q2
  have : C / ((ys.length - 1) * refine : ℕ) < lam - arc := by
    rw [div_lt_iff₀ hNp]
    nlinarith
  linarith

/-- The parabola through three points, which is what `CubicSpline` gives for three points (`bc_type="not-a-knot"`). -/
noncomputable def parabola (xs vs : List ℝ) : Except Err (ℝ → ℝ) :=
  if xs.length = 3 ∧ xs.getD 0 0 < xs.getD 1 0 ∧ xs.getD 1 0 < xs.getD 2 0 then
    .ok fun x => vs.getD 0 0 * ((x - xs.getD 1 0) * (x - xs.getD 2 0) / ((xs.getD 0 0 - xs.getD 1 0) * (xs.getD 0 0 - xs.getD 2 0))) +
      vs.getD 1 0 * ((x - xs.getD 0 0) * (x - xs.getD 2 0) / ((xs.getD 1 0 - xs.getD 0 0) * (xs.getD 1 0 - xs.getD 2 0))) +
      vs.getD 2 0 * ((x - xs.getD 0 0) * (x - xs.getD 1 0) / ((xs.getD 2 0 - xs.getD 0 0) * (xs.getD 2 0 - xs.getD 1 0)))
  else .error (.value "`x` must be strictly increasing sequence.")

theorem parabola_ok : Interpolates parabola := by
  intro xs vs f h i hi
  unfold parabola at h
  split_ifs at h with hc
  injection h with h
  obtain ⟨hl, h01, h12⟩ := hc
  have n01 : xs.getD 0 0 - xs.getD 1 0 ≠ 0 := by linarith
  have n10 : xs.getD 1 0 - xs.getD 0 0 ≠ 0 := by linarith
  have n12 : xs.getD 1 0 - xs.getD 2 0 ≠ 0 := by linarith
  have n21 : xs.getD 2 0 - xs.getD 1 0 ≠ 0 := by linarith
  have n02 : xs.getD 0 0 - xs.getD 2 0 ≠ 0 := by linarith
  have n20 : xs.getD 2 0 - xs.getD 0 0 ≠ 0 := by linarith
  have : i = 0 ∨ i = 1 ∨ i = 2 := by omega
  rcases this with rfl | rfl | rfl <;> rw [← h] <;> dsimp only
  · rw [div_self (mul_ne_zero n01 n02)]; simp
  · rw [div_self (mul_ne_zero n10 n12)]; simp
  · rw [div_self (mul_ne_zero n20 n21)]; simp

theorem parabola_smooth (xs vs : List ℝ) (f : ℝ → ℝ) (h : parabola xs vs = .ok f) : ContDiff ℝ 2 f := by
  unfold parabola at h
  split_ifs at h with hc
  injection h with h
  rw [← h]
  have l : ∀ a b c d : ℝ, ContDiff ℝ 2 fun x : ℝ => a * ((x - b) * (x - c) / d) := by
    intro a b c d
    exact contDiff_const.mul (((contDiff_id.sub contDiff_const).mul (contDiff_id.sub contDiff_const)).div_const d)
  exact ((l _ _ _ _).add (l _ _ _ _)).add (l _ _ _ _)

theorem parabola_three (a b c u v w : ℝ) (h1 : a < b) (h2 : b < c) : parabola [a, b, c] [u, v, w] = .ok fun x =>
    u * ((x - b) * (x - c) / ((a - b) * (a - c))) + v * ((x - a) * (x - c) / ((b - a) * (b - c))) + w * ((x - a) * (x - b) / ((c - a) * (c - b))) :=
  if_pos ⟨rfl, h1, h2⟩

/-- Three equally spaced points of a line that is not straight in `R` meet the conditions of `C223_arc_partial`. -/
example : ∃ C, ∀ refine : ℕ, 1 ≤ refine → ∃ L, fieldLineLength (realLen parabola) [(1, 0), (2, 1), (5, 0)] [0, 1, 2] refine = .ok L ∧
    abs (L - abs (∫ s in (0 : ℝ)..2, √(deriv (fun s : ℝ => 1 + s ^ 2) s ^ 2 + (1 + s ^ 2) ^ 2 + deriv (fun s : ℝ => s * (2 - s)) s ^ 2))) ≤ C / (2 * refine : ℕ) := by
  have l3 : linspaceClosed (0 : ℝ) 1 3 = [0, 1 / 2, 1] := by
    simp [linspaceClosed, List.range_succ]
    norm_num
  have h1 := parabola_three 0 (1 / 2) 1 0 1 2 (by norm_num) (by norm_num)
  have h2 := parabola_three 0 1 2 1 2 5 (by norm_num) (by norm_num)
  have h3 := parabola_three 0 1 2 0 1 0 (by norm_num) (by norm_num)
  have e1 : (fun x : ℝ => 0 * ((x - 1 / 2) * (x - 1) / ((0 - 1 / 2) * (0 - 1))) + 1 * ((x - 0) * (x - 1) / ((1 / 2 - 0) * (1 / 2 - 1))) +
      2 * ((x - 0) * (x - 1 / 2) / ((1 - 0) * (1 - 1 / 2)))) = fun x => 2 * x := by
    funext x
    ring
  have e2 : (fun x : ℝ => 1 * ((x - 1) * (x - 2) / ((0 - 1) * (0 - 2))) + 2 * ((x - 0) * (x - 2) / ((1 - 0) * (1 - 2))) +
      5 * ((x - 0) * (x - 1) / ((2 - 0) * (2 - 1)))) = fun x => 1 + x ^ 2 := by
    funext x
    ring
  have e3 : (fun x : ℝ => 0 * ((x - 1) * (x - 2) / ((0 - 1) * (0 - 2))) + 1 * ((x - 0) * (x - 2) / ((1 - 0) * (1 - 2))) +
      0 * ((x - 0) * (x - 1) / ((2 - 0) * (2 - 1)))) = fun x => x * (2 - x) := by
    funext x
    ring
  rw [e1, ← l3] at h1
  rw [e2] at h2
  rw [e3] at h3
  obtain ⟨C, hC⟩ := C223_arc_partial parabola parabola_ok [(1, 0), (2, 1), (5, 0)] [0, 1, 2] (by norm_num) _ _ _ h1 h2 h3
    (parabola_smooth _ _ _ h1) (parabola_smooth _ _ _ h2) (parabola_smooth _ _ _ h3) (Or.inl fun t _ => by
      rw [((hasDerivAt_id' t).const_mul 2).deriv]
      norm_num)
  refine ⟨C, fun refine hr => ?_⟩
  obtain ⟨L, hL, ha, hb⟩ := hC refine hr
  refine ⟨L, hL, ?_⟩
  simp only [List.length_cons, List.length_nil, List.getD_cons_zero, List.getD_cons_succ, Nat.add_one_sub_one, zero_add, Nat.reduceAdd] at ha hb
  rw [abs_le]
  constructor <;> linarith

/-- The claim: the length is at most that of the arc, for all lines that the splines describe exactly. -/
def ArcClaim (spline : List ℝ → List ℝ → Except Err (ℝ → ℝ)) : Prop :=
  ∀ (rz : List (ℝ × ℝ)) (ys : List ℝ), 2 ≤ ys.length → ys.Pairwise (· < ·) → ∀ (R Z : ℝ → ℝ),
    spline ys (rz.map Prod.fst) = .ok R → spline ys (rz.map Prod.snd) = .ok Z → ContDiff ℝ 2 R → ContDiff ℝ 2 Z → ∀ (refine : ℕ) (L : ℝ), 1 ≤ refine →
      fieldLineLength (realLen spline) rz ys refine = .ok L →
        L ≤ |∫ s in (ys.getD 0 0)..(ys.getD (ys.length - 1) 0), √(deriv R s ^ 2 + R s ^ 2 + deriv Z s ^ 2)|

/-- **C223 (refutation).** Three points on a circle, at the angles 0, 1/2 and 5/2, are what `make_maps` uses for planes at -1/2, 1/2, 9/2 and
`refine_parallel_integral = 1`.  The parabola for the angle goes below zero, so the length of the line is too large. -/
theorem C223_fails : Interpolates parabola ∧ (∀ xs vs f, parabola xs vs = .ok f → ContDiff ℝ 2 f) ∧ ¬ ArcClaim parabola := by
  refine ⟨parabola_ok, parabola_smooth, ?_⟩
  intro h
  have l3 : linspaceClosed (0 : ℝ) 1 3 = [0, 1 / 2, 1] := by
    simp [linspaceClosed, List.range_succ]
    norm_num
  have h1 := parabola_three 0 (1 / 2) 1 0 (1 / 2) (5 / 2) (by norm_num) (by norm_num)
  rw [← l3] at h1
  have h2 := parabola_three 0 (1 / 2) (5 / 2) 1 1 1 (by norm_num) (by norm_num)
  have h3 := parabola_three 0 (1 / 2) (5 / 2) 0 0 0 (by norm_num) (by norm_num)
  obtain ⟨r0, hr0⟩ := C223_turns parabola parabola_ok [(1, 0), (1, 0), (1, 0)] [0, 1 / 2, 5 / 2] (by norm_num) _ _ _ h1 h2 h3 (parabola_smooth _ _ _ h1)
    (parabola_smooth _ _ _ h2) (parabola_smooth _ _ _ h3) (by
      intro s
      norm_num
      intro h
      nlinarith) (by norm_num) (1 / 12) (by constructor <;> norm_num) (by norm_num)
  obtain ⟨L, hL, hlt⟩ := hr0 (r0 + 1) (by omega)
  have := h [(1, 0), (1, 0), (1, 0)] [0, 1 / 2, 5 / 2] (by norm_num) (by norm_num) _ _ h2 h3 (parabola_smooth _ _ _ h2) (parabola_smooth _ _ _ h3)
    (r0 + 1) L (by omega) hL
  exact absurd hlt (not_lt.2 this)

end Zoidberg
