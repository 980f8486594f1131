import Verif.Model.FieldCoils
import Verif.Model.PolRect
import Mathlib.Analysis.SpecialFunctions.Trigonometric.Basic
import Mathlib.Tactic.Linarith
import Mathlib.Tactic.Positivity

/-!
# The grid of `test_make_maps_straight_stellarator` within the coils (test_zoidberg.py:58-74, C301)
-/

set_option linter.unusedSectionVars false

namespace Zoidberg

open Real

/-- A point at the distance `ρ` from the centre is at least `radius - ρ` from each coil, at all angles. -/
theorem coil_far (xc zc radius angle iota I phi x z ρ : ℝ) (hρ : 0 ≤ ρ) (hr : ρ ≤ radius) (h : (x - xc) ^ 2 + (z - zc) ^ 2 ≤ ρ ^ 2) :
    (radius - ρ) ^ 2 ≤ (coilAt xc zc radius angle iota I phi).r2 x z := by
  unfold Coil.r2 coilAt
  simp only
  set c := cos (angle + iota * phi)
  set s := sin (angle + iota * phi)
  have hcs : c ^ 2 + s ^ 2 = 1 := by rw [add_comm]; exact sin_sq_add_cos_sq _
  set u := x - xc with hu
  set v := z - zc with hv
  have e : (x - (xc + radius * c)) ^ 2 + (z - (zc + radius * s)) ^ 2 = (u ^ 2 + v ^ 2) - 2 * radius * (u * c + v * s) + radius ^ 2 := by
    have : (x - (xc + radius * c)) ^ 2 + (z - (zc + radius * s)) ^ 2 = (u ^ 2 + v ^ 2) - 2 * radius * (u * c + v * s) + radius ^ 2 * (c ^ 2 + s ^ 2) := by
      rw [hu, hv]; ring
    rw [this, hcs, mul_one]
  rw [e]
  set d := sqrt (u ^ 2 + v ^ 2) with hd
  have hd2 : d ^ 2 = u ^ 2 + v ^ 2 := sq_sqrt (by positivity)
  have hd0 : 0 ≤ d := sqrt_nonneg _
  have hdρ : d ≤ ρ := by
    rw [hd]
    exact (sqrt_le_left hρ).2 h
  have hcauchy : u * c + v * s ≤ d := by
    refine le_sqrt_of_sq_le ?_
    nlinarith [sq_nonneg (u * s - v * c)]
  rw [← hd2]
  have h1 : (radius - d) ^ 2 ≤ d ^ 2 - 2 * radius * (u * c + v * s) + radius ^ 2 := by
    nlinarith [mul_le_mul_of_nonneg_left hcauchy (hρ.trans hr)]
  refine le_trans ?_ h1
  exact pow_le_pow_left₀ (by linarith) (by linarith) 2

/-- C301: every point of a rectangle around the centre with a diagonal shorter than twice the radius is at least the difference of the radius and half of the diagonal from all coils, at all y. -/
theorem C301_fits (xc zc radius yperiod I phi Lx Lz x z : ℝ) (hr : sqrt ((Lx / 2) ^ 2 + (Lz / 2) ^ 2) ≤ radius) (hx : |x - xc| ≤ Lx / 2) (hz : |z - zc| ≤ Lz / 2) :
    ∀ c ∈ coilList xc zc radius yperiod I phi, (radius - sqrt ((Lx / 2) ^ 2 + (Lz / 2) ^ 2)) ^ 2 ≤ c.r2 x z := by
  intro c hc
  unfold coilList at hc
  obtain ⟨i, -, rfl⟩ := List.mem_map.1 hc
  refine coil_far _ _ _ _ _ _ _ _ _ _ (sqrt_nonneg _) hr ?_
  rw [sq_sqrt (by positivity)]
  have a := pow_le_pow_left₀ (abs_nonneg _) hx 2
  have b := pow_le_pow_left₀ (abs_nonneg _) hz 2
  rw [sq_abs] at a b
  linarith

theorem foldl_abs (cs : List Coil) (f : Coil → ℝ) (M : ℝ) (h : ∀ c ∈ cs, |f c| ≤ M) : ∀ a, |cs.foldl (fun B c => B + f c) a| ≤ |a| + cs.length * M := by
  induction cs with
  | nil => intro a; simp
  | cons c cs ih =>
    intro a
    rw [List.foldl_cons]
    refine (ih (fun c' hc => h c' (by simp [hc])) _).trans ?_
    have := abs_add_le a (f c)
    have := h c (by simp)
    rw [List.length_cons]
    push_cast
    linarith

/-- C301: so the field on such a grid is bounded for all y: no coil is met. -/
theorem C301_bound (xc zc radius yperiod I phi Lx Lz x z : ℝ) (hr : sqrt ((Lx / 2) ^ 2 + (Lz / 2) ^ 2) < radius) (hx : |x - xc| ≤ Lx / 2) (hz : |z - zc| ≤ Lz / 2) :
    |(straightStellarator xc zc radius yperiod I).Bx x z phi| ≤ 4 * |I| / (5 * (radius - sqrt ((Lx / 2) ^ 2 + (Lz / 2) ^ 2))) ∧
      |(straightStellarator xc zc radius yperiod I).Bz x z phi| ≤ 4 * |I| / (5 * (radius - sqrt ((Lx / 2) ^ 2 + (Lz / 2) ^ 2))) := by
  set δ := radius - sqrt ((Lx / 2) ^ 2 + (Lz / 2) ^ 2) with hδ
  have hδ0 : 0 < δ := by rw [hδ]; linarith
  have far := C301_fits xc zc radius yperiod I phi Lx Lz x z hr.le hx hz
  have hI : ∀ c ∈ coilList xc zc radius yperiod I phi, |c.I| = |I| := by
    intro c hc
    unfold coilList at hc
    obtain ⟨i, -, rfl⟩ := List.mem_map.1 hc
    simp [coilAt, abs_mul, abs_pow]
  have term : ∀ c ∈ coilList xc zc radius yperiod I phi, ∀ t : ℝ, |t| ≤ 1 → |c.I * (1 / 5) / sqrt (c.r2 x z) * t| ≤ |I| / (5 * δ) := by
    intro c hc t ht
    have hs : δ ≤ sqrt (c.r2 x z) := le_sqrt_of_sq_le (far c hc)
    rw [abs_mul, abs_div, abs_mul, hI c hc, abs_of_pos (show (0 : ℝ) < 1 / 5 by norm_num), abs_of_pos (hδ0.trans_le hs)]
    have h1 : |I| * (1 / 5) / sqrt (c.r2 x z) ≤ |I| * (1 / 5) / δ := div_le_div_of_nonneg_left (by positivity) hδ0 hs
    have h2 : |I| * (1 / 5) / sqrt (c.r2 x z) * |t| ≤ |I| * (1 / 5) / sqrt (c.r2 x z) * 1 := mul_le_mul_of_nonneg_left ht (by positivity)
    calc _ ≤ |I| * (1 / 5) / δ := by linarith
      _ = |I| / (5 * δ) := by field_simp
  have hlen : (coilList xc zc radius yperiod I phi).length = 4 := by simp [coilList]
  have e4 : 4 * |I| / (5 * δ) = |(0 : ℝ)| + ((coilList xc zc radius yperiod I phi).length : ℝ) * (|I| / (5 * δ)) := by
    rw [hlen, abs_zero]; push_cast; ring
  constructor
  · rw [e4]
    exact foldl_abs _ (fun c => c.I * (1 / 5) / sqrt (c.r2 x z) * sin (atan2R (z - c.z) (x - c.x))) _ (fun c hc => term c hc _ (abs_sin_le_one _)) 0
  · rw [e4]
    have := foldl_abs (coilList xc zc radius yperiod I phi) (fun c => -(c.I * (1 / 5) / sqrt (c.r2 x z) * cos (atan2R (z - c.z) (x - c.x)))) _
      (fun c hc => by rw [abs_neg]; exact term c hc _ (abs_cos_le_one _)) 0
    simp only [← sub_eq_add_neg] at this
    exact this

/-- Inside and outside: a point is within the coils if it is nearer to the centre than they are. -/
def WithinCoils (xc zc radius : ℝ) (p : ℝ × ℝ) : Prop := (p.1 - xc) ^ 2 + (p.2 - zc) ^ 2 < radius ^ 2

/-- C301 (refutation): the rectangular grid of the test has the default of two guard cells at both sides, so that one cell of five has the width Lx; the outermost points are 2 from the
centre and the coils only sqrt 2. -/
theorem C301_fails : ∃ g : RectPol ℝ, RectPol.init 5 7 1 1 0 0 2 = .ok g ∧
    (∀ z : ℕ, ∃ p, g.getCoordinate 0 z 0 0 = .ok p ∧ p.1 = -2 ∧ ¬ WithinCoils 0 0 (sqrt 2) p) ∧ ∀ z : ℕ, ∃ p, g.getCoordinate 4 z 0 0 = .ok p ∧ p.1 = 2 ∧ ¬ WithinCoils 0 0 (sqrt 2) p := by
  refine ⟨_, by simp only [RectPol.init]; rw [if_neg (by norm_num)], fun z => ?_, fun z => ?_⟩
  · refine ⟨_, by simp only [RectPol.getCoordinate]; norm_num; rfl, by norm_num, ?_⟩
    unfold WithinCoils
    rw [sq_sqrt (by norm_num)]
    simp only [sub_zero, not_lt]
    nlinarith [sq_nonneg (-(3 / 7 : ℝ) + z / 7)]
  · refine ⟨_, by simp only [RectPol.getCoordinate]; norm_num; rfl, by norm_num, ?_⟩
    unfold WithinCoils
    rw [sq_sqrt (by norm_num)]
    simp only [sub_zero, not_lt]
    nlinarith [sq_nonneg (-(3 / 7 : ℝ) + z / 7)]

/-- C301 (what holds): a rectangular grid without guard cells, or its part between them, is within the coils if half of its diagonal is shorter than the radius. -/
theorem C301_inside_partial (nx nz mxg : ℕ) (Lx Lz xc zc radius : ℝ) (hL : 0 ≤ Lx) (hLz : 0 ≤ Lz) (hn : 2 * mxg < nx) (hnz : 0 < nz) (hr : sqrt ((Lx / 2) ^ 2 + (Lz / 2) ^ 2) < radius) :
    ∃ g : RectPol ℝ, RectPol.init nx nz Lx Lz xc zc mxg = .ok g ∧ ∀ i j : ℕ, mxg ≤ i → i + mxg < nx → j < nz →
      ∃ p, g.getCoordinate i j 0 0 = .ok p ∧ |p.1 - xc| ≤ Lx / 2 ∧ |p.2 - zc| ≤ Lz / 2 ∧ WithinCoils xc zc radius p := by
  refine ⟨_, by simp only [RectPol.init]; rw [if_neg (by omega)], fun i j hi hi' hj => ?_⟩
  have hN : (0 : ℝ) < (nx : ℝ) - 2 * (mxg : ℝ) := by
    have : ((2 * mxg : ℕ) : ℝ) < (nx : ℝ) := by exact_mod_cast hn
    push_cast at this
    linarith
  have hZ : (0 : ℝ) < (nz : ℝ) := by exact_mod_cast hnz
  have i1 : (mxg : ℝ) ≤ i := by exact_mod_cast hi
  have i2 : (i : ℝ) + mxg + 1 ≤ nx := by exact_mod_cast (by omega : i + mxg + 1 ≤ nx)
  have j1 : (0 : ℝ) ≤ j := by positivity
  have j2 : (j : ℝ) + 1 ≤ nz := by exact_mod_cast (by omega : j + 1 ≤ nz)
  have half : ∀ L N t : ℝ, 0 ≤ L → 0 < N → |t| ≤ N / 2 → |L / N * t| ≤ L / 2 := by
    intro L N t hL hN ht
    rw [abs_mul, abs_of_nonneg (by positivity)]
    calc L / N * |t| ≤ L / N * (N / 2) := mul_le_mul_of_nonneg_left ht (by positivity)
      _ = L / 2 := by field_simp
  have hx : |xc - Lx / ((nx : ℝ) - 2 * mxg) * ((nx : ℝ) - 1) / 2 + (i : ℝ) * (Lx / ((nx : ℝ) - 2 * mxg)) - xc| ≤ Lx / 2 := by
    have := half Lx ((nx : ℝ) - 2 * mxg) ((i : ℝ) - ((nx : ℝ) - 1) / 2) hL hN (abs_le.2 ⟨by linarith, by linarith⟩)
    rw [show xc - Lx / ((nx : ℝ) - 2 * mxg) * ((nx : ℝ) - 1) / 2 + (i : ℝ) * (Lx / ((nx : ℝ) - 2 * mxg)) - xc = Lx / ((nx : ℝ) - 2 * mxg) * ((i : ℝ) - ((nx : ℝ) - 1) / 2) by ring]
    exact this
  have hz : |zc - Lz / (nz : ℝ) * ((nz : ℝ) - 1) / 2 + (j : ℝ) * (Lz / (nz : ℝ)) - zc| ≤ Lz / 2 := by
    have := half Lz (nz : ℝ) ((j : ℝ) - ((nz : ℝ) - 1) / 2) hLz hZ (abs_le.2 ⟨by linarith, by linarith⟩)
    rw [show zc - Lz / (nz : ℝ) * ((nz : ℝ) - 1) / 2 + (j : ℝ) * (Lz / (nz : ℝ)) - zc = Lz / (nz : ℝ) * ((j : ℝ) - ((nz : ℝ) - 1) / 2) by ring]
    exact this
  refine ⟨_, by simp only [RectPol.getCoordinate]; norm_num; rfl, hx, hz, ?_⟩
  have a := pow_le_pow_left₀ (abs_nonneg _) hx 2
  have b := pow_le_pow_left₀ (abs_nonneg _) hz 2
  rw [sq_abs] at a b
  have c := pow_lt_pow_left₀ hr (sqrt_nonneg _) (by norm_num : 2 ≠ 0)
  rw [sq_sqrt (by positivity)] at c
  unfold WithinCoils
  linarith

/-- The numbers of the test: the sides 1 and the radius sqrt 2, half of the diagonal is half of the radius. -/
example : sqrt (((1 : ℝ) / 2) ^ 2 + (1 / 2) ^ 2) < sqrt 2 := sqrt_lt_sqrt (by norm_num) (by norm_num)

end Zoidberg
