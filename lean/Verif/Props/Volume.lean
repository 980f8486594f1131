import Verif.Props.ParallelIntegral
import Verif.Props.MakeMapsExample
import Mathlib.MeasureTheory.Integral.IntervalIntegral.TrapezoidalRule
import Mathlib.Analysis.SpecialFunctions.Integrals.Basic

/-! # Property C222: `J` and the volume of the cells -/

set_option linter.unusedSectionVars false

namespace Zoidberg

open Set Filter Topology Interval

/-! ## The trapezoidal rule -/

/-- The mean value of `F` on `[a, b]` from the trapezoidal rule with `r` intervals. -/
noncomputable def trapMean (F : ℝ → ℝ) (r : ℕ) (a b : ℝ) : ℝ :=
  ((F a + F b) / 2 + ∑ k ∈ Finset.range (r - 1), F (a + (k + 1) * (b - a) / r)) / r

theorem trapMean_integral (F : ℝ → ℝ) (r : ℕ) (a b : ℝ) : (b - a) * trapMean F r a b = trapezoidal_integral F r a b := by
  unfold trapMean trapezoidal_integral
  ring

/-- The error of the rule is at most `C / r ^ 2`. -/
theorem trapMean_error {F : ℝ → ℝ} {a b : ℝ} (hab : a ≠ b) (hF : ContDiffOn ℝ 2 F [[a, b]]) :
    ∃ C, 0 ≤ C ∧ ∀ r : ℕ, 1 ≤ r → |trapMean F r a b - (∫ x in a..b, F x) / (b - a)| ≤ C / (r : ℝ) ^ 2 := by
  have hc : ContinuousOn (iteratedDerivWithin 2 F [[a, b]]) [[a, b]] :=
    hF.continuousOn_iteratedDerivWithin (by norm_cast) (uniqueDiffOn_uIcc hab)
  obtain ⟨ζ, hζ⟩ := isCompact_uIcc.exists_bound_of_continuousOn hc
  have hbound : ∀ x, |iteratedDerivWithin 2 F [[a, b]] x| ≤ max ζ 0 := by
    intro x
    by_cases hx : x ∈ [[a, b]]
    · exact (hζ x hx).trans (le_max_left _ _)
    · rw [iteratedDerivWithin_succ, derivWithin_zero_of_notMem_closure (by rwa [isCompact_uIcc.isClosed.closure_eq]), abs_zero]
      exact le_max_right _ _
  have hd : b - a ≠ 0 := sub_ne_zero.2 hab.symm
  refine ⟨|b - a| ^ 2 * max ζ 0 / 12, by positivity, ?_⟩
  intro r hr
  have h := trapezoidal_error_le_of_c2 hF hbound (N := r) (by omega)
  unfold trapezoidal_error at h
  rw [← trapMean_integral] at h
  have e1 : trapMean F r a b - (∫ x in a..b, F x) / (b - a) = ((b - a) * trapMean F r a b - ∫ x in a..b, F x) / (b - a) := by
    field_simp
  rw [e1, abs_div, div_le_iff₀ (abs_pos.2 hd)]
  refine h.trans_eq ?_
  have : (r : ℝ) ≠ 0 := by have : r ≠ 0 := by omega
                           exact_mod_cast this
  field_simp

theorem rangeMap_sum (g : ℕ → ℝ) (n : ℕ) : ((List.range n).map g).sum = ∑ j ∈ Finset.range n, g j := by
  induction n with
  | zero => simp
  | succ n ih => rw [List.range_succ, List.map_append, List.sum_append, ih, Finset.sum_range_succ]; simp

theorem trapSum_split (g : ℕ → ℝ) (r : ℕ) (hr : 1 ≤ r) :
    ∑ i ∈ Finset.range (2 * r + 1), (if i = 0 ∨ i = 2 * r then (1 / 2 : ℝ) else 1) * g i =
      ((g 0 + g r) / 2 + ∑ k ∈ Finset.range (r - 1), g (k + 1)) + ((g r + g (2 * r)) / 2 + ∑ k ∈ Finset.range (r - 1), g (r + k + 1)) := by
  obtain ⟨s, rfl⟩ : ∃ s, r = s + 1 := ⟨r - 1, by omega⟩
  rw [show 2 * (s + 1) + 1 = (s + 1) + (s + 1) + 1 by omega, Finset.sum_range_succ, Finset.sum_range_add, Finset.sum_range_succ',
    Finset.sum_range_succ' _ s]
  simp only [Nat.add_sub_cancel]
  have e1 : ∀ k ∈ Finset.range s, (if k + 1 = 0 ∨ k + 1 = 2 * (s + 1) then (1 / 2 : ℝ) else 1) * g (k + 1) = g (k + 1) := by
    intro k hk
    have := Finset.mem_range.1 hk
    rw [if_neg (by omega), one_mul]
  have e2 : ∀ k ∈ Finset.range s, (if s + 1 + (k + 1) = 0 ∨ s + 1 + (k + 1) = 2 * (s + 1) then (1 / 2 : ℝ) else 1) * g (s + 1 + (k + 1)) =
      g (s + 1 + k + 1) := by
    intro k hk
    have := Finset.mem_range.1 hk
    rw [if_neg (by omega), one_mul, add_assoc (s + 1)]
  rw [Finset.sum_congr rfl e1, Finset.sum_congr rfl e2]
  simp only [true_or, if_true, add_zero]
  rw [if_neg (by omega), if_pos (Or.inr (by omega))]
  rw [show s + 1 + (s + 1) = 2 * (s + 1) by omega]
  ring

/-! ## One field line -/

/-- The integrand: the major radius over the field, along the field line that is at `(R, Z)` for the angle `y`. -/
noncomputable def radiusOverField (e : MmEnv ℝ) (φ : ℝ → ℝ → ℝ → ℝ → ℝ × ℝ) (R Z y s : ℝ) : ℝ :=
  (φ R Z y s).1 / e.byfunc (φ R Z y s).1 (φ R Z y s).2 s

/-- The field at the start of the line. -/
noncomputable def fieldAt (e : MmEnv ℝ) (φ : ℝ → ℝ → ℝ → ℝ → ℝ × ℝ) (R Z y : ℝ) : ℝ := e.byfunc (φ R Z y y).1 (φ R Z y y).2 y

/-- `J` is the mean of the trapezoidal rules below and above the plane. -/
theorem lineValue_trap (e : MmEnv ℝ) (φ : ℝ → ℝ → ℝ → ℝ → ℝ × ℝ) (r : ℕ) (hr : 1 ≤ r) (jperp R Z y ylow yhigh : ℝ) :
    lineValue e r jperp (fun i => φ R Z y (yPoint r y ylow yhigh i)) (yPoint r y ylow yhigh) 0 =
      jperp * fieldAt e φ R Z y *
        ((trapMean (radiusOverField e φ R Z y) r ((ylow + y) / 2) y + trapMean (radiusOverField e φ R Z y) r y ((y + yhigh) / 2)) / 2) := by
  have hr' : (r : ℝ) ≠ 0 := by
    have : r ≠ 0 := by omega
    exact_mod_cast this
  obtain ⟨-, p1, p2, p3, -, -⟩ := C36_points r hr y ylow yhigh
  unfold lineValue
  simp only [if_true]
  rw [rangeMap_sum]
  have e0 : ∀ i, jperp * e.byfunc (φ R Z y (yPoint r y ylow yhigh (2 * r))).1 (φ R Z y (yPoint r y ylow yhigh (2 * r))).2
        (yPoint r y ylow yhigh (2 * r)) /
        e.byfunc (φ R Z y (yPoint r y ylow yhigh (r + i))).1 (φ R Z y (yPoint r y ylow yhigh (r + i))).2 (yPoint r y ylow yhigh (r + i)) *
        (φ R Z y (yPoint r y ylow yhigh (r + i))).1 =
      jperp * fieldAt e φ R Z y * radiusOverField e φ R Z y (yPoint r y ylow yhigh (r + i)) := by
    intro i
    rw [p2]
    unfold radiusOverField fieldAt
    ring
  simp only [e0]
  have hmul : ∀ i, (if i = 0 ∨ i = 2 * r then (1 / 2 : ℝ) else 1) * (jperp * fieldAt e φ R Z y * radiusOverField e φ R Z y (yPoint r y ylow yhigh (r + i))) =
      jperp * fieldAt e φ R Z y * ((if i = 0 ∨ i = 2 * r then (1 / 2 : ℝ) else 1) * radiusOverField e φ R Z y (yPoint r y ylow yhigh (r + i))) := by
    intro i; ring
  simp only [hmul]
  rw [← Finset.mul_sum, trapSum_split (fun i => radiusOverField e φ R Z y (yPoint r y ylow yhigh (r + i))) r hr]
  simp only [add_zero]
  rw [p1, show r + r = 2 * r by omega, p2, show r + 2 * r = 3 * r by omega, p3]
  have s1 : ∀ k ∈ Finset.range (r - 1), radiusOverField e φ R Z y (yPoint r y ylow yhigh (r + (k + 1))) =
      radiusOverField e φ R Z y ((ylow + y) / 2 + (k + 1) * (y - (ylow + y) / 2) / r) := by
    intro k hk
    have hk := Finset.mem_range.1 hk
    congr 1
    unfold yPoint
    rw [if_pos (by omega), show 2 * r - (r + (k + 1)) = r - (k + 1) by omega, Nat.cast_sub (by omega)]
    push_cast
    field_simp
    ring
  have s2 : ∀ k ∈ Finset.range (r - 1), radiusOverField e φ R Z y (yPoint r y ylow yhigh (r + (r + k + 1))) =
      radiusOverField e φ R Z y (y + (k + 1) * ((y + yhigh) / 2 - y) / r) := by
    intro k hk
    have hk := Finset.mem_range.1 hk
    congr 1
    unfold yPoint
    rw [if_neg (by omega), show r + (r + k + 1) - 2 * r = k + 1 by omega]
    push_cast
    field_simp
    ring
  rw [Finset.sum_congr rfl s1, Finset.sum_congr rfl s2]
  unfold trapMean
  ring

/-! ## `make_maps` -/

/-- The plane `j` is at `y`, its neighbours are at `ylow` and `yhigh`. -/
def PlaneAt (e : MmEnv ℝ) (j : ℕ) (pol : MapPol ℝ) (y ylow yhigh : ℝ) : Prop :=
  e.grid.getPoloidalGrid (j : ℝ) = .ok (some pol, y) ∧ (∃ pl, e.grid.getPoloidalGrid ((j : ℝ) + -1) = .ok (pl, ylow)) ∧
    ∃ ph, e.grid.getPoloidalGrid ((j : ℝ) + 1) = .ok (ph, yhigh)

/-- The area of a cell over `dx dz`: `sqrt(g_xx g_zz - g_xz^2)`. -/
def AreaAt (e : MmEnv ℝ) (pol : MapPol ℝ) (x z : ℕ) (A : ℝ) : Prop :=
  ∃ gxx gzz gxz, pol.metric "g_xx" = some gxx ∧ pol.metric "g_zz" = some gzz ∧ pol.metric "g_xz" = some gxz ∧
    A = e.sqrt (gxx x z * gzz x z - gxz x z ^ 2)

/-- `make_maps` with `refine_parallel_integral = r`, and any other options, gives the value `v` of `J` at a point. -/
def JIs (e : MmEnv ℝ) (r : ℕ) (c : Cell) (v : ℝ) : Prop :=
  ∃ (nslice mxg n nc : ℕ) (empty : JState ℝ) (m : ODict (MapVal ℝ)) (a : Cell → ℝ), 1 ≤ nc ∧ makeMaps e nslice mxg n r nc empty = .ok m ∧
    m.get? "J" = some (.f3 a) ∧ a c = v

/-- The claim for one cell: `J dy` is the volume of the flux tube over `dx dz`, `A B ∫ R / B`, with an error of the order `1 / r^2`. -/
def VolumeOk (e : MmEnv ℝ) (φ : ℝ → ℝ → ℝ → ℝ → ℝ × ℝ) (c : Cell) (pol : MapPol ℝ) (y ylow yhigh A : ℝ) : Prop :=
  ∃ C, ∀ r : ℕ, 1 ≤ r → ∀ v, JIs e r c v →
    |v * ((yhigh - ylow) / 2) - A * fieldAt e φ (pol.R c.1 c.2.2) (pol.Z c.1 c.2.2) y *
      ∫ s in ((ylow + y) / 2)..((y + yhigh) / 2), radiusOverField e φ (pol.R c.1 c.2.2) (pol.Z c.1 c.2.2) y s| ≤ C / (r : ℝ) ^ 2

theorem JIs_value (e : MmEnv ℝ) (hf : FollowOk e) (hg : GridOk e) (φ : ℝ → ℝ → ℝ → ℝ → ℝ × ℝ) (hφ : PointTracer e φ) (hs : e.isSlab = false)
    (first : MapPol ℝ) (y0 : ℝ) (h0 : e.grid.getPoloidalGrid ((0 : ℕ) : ℝ) = .ok (some first, y0)) (x j z : ℕ) (hx : x < first.nx) (hj : j < e.grid.ny)
    (pol : MapPol ℝ) (y ylow yhigh A : ℝ) (hp : PlaneAt e j pol y ylow yhigh) (hA : AreaAt e pol x z A) (r : ℕ) (hr : 1 ≤ r) (v : ℝ)
    (h : JIs e r (x, j, z) v) : v = A * fieldAt e φ (pol.R x z) (pol.Z x z) y *
        ((trapMean (radiusOverField e φ (pol.R x z) (pol.Z x z) y) r ((ylow + y) / 2) y +
          trapMean (radiusOverField e φ (pol.R x z) (pol.Z x z) y) r y ((y + yhigh) / 2)) / 2) := by
  obtain ⟨nslice, mxg, n, nc, empty, m, a, hc, hm, ha, rfl⟩ := h
  obtain ⟨a', ha', hv⟩ := C36_values e hf hg φ hφ nslice mxg n r nc hr hc empty m hm first y0 h0 0 "J" rfl (Or.inl hs)
  rw [ha] at ha'
  cases ha'
  obtain ⟨pol', y', yl', yh', pl', ph', gxx, gzz, gxz, q1, q2, q3, q4, q5, q6, q7⟩ := hv x j z hx hj
  obtain ⟨g1, ⟨pl, g2⟩, ⟨ph, g3⟩⟩ := hp
  rw [g1] at q1
  rw [g2] at q2
  rw [g3] at q3
  cases q1
  cases q2
  cases q3
  obtain ⟨gxx', gzz', gxz', m1, m2, m3, rfl⟩ := hA
  rw [m1] at q4
  rw [m2] at q5
  rw [m3] at q6
  cases q4
  cases q5
  cases q6
  rw [q7, lineValue_trap e φ r hr]

/-- **C222.** What `J` converges to, with the second order: the area times the field times the mean of the mean values of `R / B` over the half of the cell below
the plane and over the half above. -/
theorem C222_limit (e : MmEnv ℝ) (hf : FollowOk e) (hg : GridOk e) (φ : ℝ → ℝ → ℝ → ℝ → ℝ × ℝ) (hφ : PointTracer e φ) (hs : e.isSlab = false)
    (first : MapPol ℝ) (y0 : ℝ) (h0 : e.grid.getPoloidalGrid ((0 : ℕ) : ℝ) = .ok (some first, y0)) (x j z : ℕ) (hx : x < first.nx) (hj : j < e.grid.ny)
    (pol : MapPol ℝ) (y ylow yhigh A : ℝ) (hp : PlaneAt e j pol y ylow yhigh) (hA : AreaAt e pol x z A) (hl : ylow ≠ y) (hh : y ≠ yhigh)
    (d1 : ContDiffOn ℝ 2 (radiusOverField e φ (pol.R x z) (pol.Z x z) y) [[(ylow + y) / 2, y]])
    (d2 : ContDiffOn ℝ 2 (radiusOverField e φ (pol.R x z) (pol.Z x z) y) [[y, (y + yhigh) / 2]]) :
    ∃ C, ∀ r : ℕ, 1 ≤ r → ∀ v, JIs e r (x, j, z) v →
      |v - A * fieldAt e φ (pol.R x z) (pol.Z x z) y *
        (((∫ s in ((ylow + y) / 2)..y, radiusOverField e φ (pol.R x z) (pol.Z x z) y s) / (y - (ylow + y) / 2) +
          (∫ s in y..((y + yhigh) / 2), radiusOverField e φ (pol.R x z) (pol.Z x z) y s) / ((y + yhigh) / 2 - y)) / 2)| ≤ C / (r : ℝ) ^ 2 := by
  obtain ⟨C1, c1, e1⟩ := trapMean_error (a := (ylow + y) / 2) (b := y) (by intro h; apply hl; linarith) d1
  obtain ⟨C2, c2, e2⟩ := trapMean_error (a := y) (b := (y + yhigh) / 2) (by intro h; apply hh; linarith) d2
  refine ⟨|A * fieldAt e φ (pol.R x z) (pol.Z x z) y| * ((C1 + C2) / 2), ?_⟩
  intro r hr v hv
  rw [JIs_value e hf hg φ hφ hs first y0 h0 x j z hx hj pol y ylow yhigh A hp hA r hr v hv, ← mul_sub, abs_mul, mul_div_assoc]
  refine mul_le_mul_of_nonneg_left ?_ (abs_nonneg _)
  have f1 := abs_le.1 (e1 r hr)
  have f2 := abs_le.1 (e2 r hr)
  have hsum : (C1 + C2) / 2 / (r : ℝ) ^ 2 = (C1 / (r : ℝ) ^ 2 + C2 / (r : ℝ) ^ 2) / 2 := by ring
  rw [hsum, abs_le]
  constructor <;> linarith [f1.1, f1.2, f2.1, f2.2]

/-- The integral over the cell is that over its halves. -/
theorem halves_integral {F : ℝ → ℝ} {y ylow yhigh : ℝ} (d1 : ContDiffOn ℝ 2 F [[(ylow + y) / 2, y]]) (d2 : ContDiffOn ℝ 2 F [[y, (y + yhigh) / 2]]) :
    (∫ s in ((ylow + y) / 2)..((y + yhigh) / 2), F s) = (∫ s in ((ylow + y) / 2)..y, F s) + ∫ s in y..((y + yhigh) / 2), F s :=
  (intervalIntegral.integral_add_adjacent_intervals d1.continuousOn.intervalIntegrable d2.continuousOn.intervalIntegrable).symm

/-- **C222.** Exactly when the claim holds for a cell: the planes on both sides are at the same distance, or the mean values of `R / B` on both sides are the same
(or the area or the field is zero). -/
theorem C222_iff (e : MmEnv ℝ) (hf : FollowOk e) (hg : GridOk e) (φ : ℝ → ℝ → ℝ → ℝ → ℝ × ℝ) (hφ : PointTracer e φ) (hs : e.isSlab = false)
    (first : MapPol ℝ) (y0 : ℝ) (h0 : e.grid.getPoloidalGrid ((0 : ℕ) : ℝ) = .ok (some first, y0)) (x j z : ℕ) (hx : x < first.nx) (hj : j < e.grid.ny)
    (pol : MapPol ℝ) (y ylow yhigh A : ℝ) (hp : PlaneAt e j pol y ylow yhigh) (hA : AreaAt e pol x z A) (hl : ylow ≠ y) (hh : y ≠ yhigh)
    (d1 : ContDiffOn ℝ 2 (radiusOverField e φ (pol.R x z) (pol.Z x z) y) [[(ylow + y) / 2, y]])
    (d2 : ContDiffOn ℝ 2 (radiusOverField e φ (pol.R x z) (pol.Z x z) y) [[y, (y + yhigh) / 2]]) :
    VolumeOk e φ (x, j, z) pol y ylow yhigh A ↔
      (A * fieldAt e φ (pol.R x z) (pol.Z x z) y = 0 ∨ yhigh - y = y - ylow ∨
        (∫ s in ((ylow + y) / 2)..y, radiusOverField e φ (pol.R x z) (pol.Z x z) y s) / (y - (ylow + y) / 2) =
          (∫ s in y..((y + yhigh) / 2), radiusOverField e φ (pol.R x z) (pol.Z x z) y s) / ((y + yhigh) / 2 - y)) := by
  obtain ⟨C, hC⟩ := C222_limit e hf hg φ hφ hs first y0 h0 x j z hx hj pol y ylow yhigh A hp hA hl hh d1 d2
  unfold VolumeOk
  dsimp only
  rw [halves_integral d1 d2]
  set I1 := ∫ s in ((ylow + y) / 2)..y, radiusOverField e φ (pol.R x z) (pol.Z x z) y s with hI1
  set I2 := ∫ s in y..((y + yhigh) / 2), radiusOverField e φ (pol.R x z) (pol.Z x z) y s with hI2
  set Q := A * fieldAt e φ (pol.R x z) (pol.Z x z) y with hQ
  have n1 : y - (ylow + y) / 2 ≠ 0 := by intro h; apply hl; linarith
  have n2 : (y + yhigh) / 2 - y ≠ 0 := by intro h; apply hh; linarith
  clear_value Q I1 I2
  -- the difference of the limit and of the volume
  have key : Q * ((I1 / (y - (ylow + y) / 2) + I2 / ((y + yhigh) / 2 - y)) / 2) * ((yhigh - ylow) / 2) - Q * (I1 + I2) =
      Q * ((yhigh - y) - (y - ylow)) * (I1 / (y - (ylow + y) / 2) - I2 / ((y + yhigh) / 2 - y)) / 4 := by
    have k1 : I1 = I1 / (y - (ylow + y) / 2) * (y - (ylow + y) / 2) := (div_mul_cancel₀ _ n1).symm
    have k2 : I2 = I2 / ((y + yhigh) / 2 - y) * ((y + yhigh) / 2 - y) := (div_mul_cancel₀ _ n2).symm
    generalize I1 / (y - (ylow + y) / 2) = m1 at k1 ⊢
    generalize I2 / ((y + yhigh) / 2 - y) = m2 at k2 ⊢
    rw [k1, k2]
    ring
  have zero_iff : (Q = 0 ∨ yhigh - y = y - ylow ∨ I1 / (y - (ylow + y) / 2) = I2 / ((y + yhigh) / 2 - y)) ↔
      Q * ((I1 / (y - (ylow + y) / 2) + I2 / ((y + yhigh) / 2 - y)) / 2) * ((yhigh - ylow) / 2) - Q * (I1 + I2) = 0 := by
    rw [key]
    constructor
    · rintro (h | h | h)
      · rw [h]; ring
      · rw [h]; ring
      · rw [h]; ring
    · intro h
      rcases div_eq_zero_iff.1 h with h | h
      · rcases mul_eq_zero.1 h with h | h
        · rcases mul_eq_zero.1 h with h | h
          · exact Or.inl h
          · exact Or.inr (Or.inl (by linarith))
        · exact Or.inr (Or.inr (by linarith))
      · norm_num at h
  rw [zero_iff]
  generalize Q * ((I1 / (y - (ylow + y) / 2) + I2 / ((y + yhigh) / 2 - y)) / 2) = lim at *
  generalize Q * (I1 + I2) = vol at *
  constructor
  · rintro ⟨D, hD⟩
    -- both bounds hold for every `r`, so the difference is smaller than all `E / r ^ 2`
    have hsmall : ∀ r : ℕ, 1 ≤ r → |lim * ((yhigh - ylow) / 2) - vol| ≤ (C * |(yhigh - ylow) / 2| + D) / (r : ℝ) ^ 2 := by
      intro r hr
      obtain ⟨m, hm⟩ := makeMaps_succeeds e hf hg 1 1 1 r 1 le_rfl (by intro h; omega) hr le_rfl ⟨fun _ => 0, fun _ _ => 0, fun _ _ => 0⟩
      obtain ⟨a, ha, -⟩ := C36_values e hf hg φ hφ 1 1 1 r 1 hr le_rfl _ m hm first y0 h0 0 "J" rfl (Or.inl hs)
      have hv : JIs e r (x, j, z) (a (x, j, z)) := ⟨1, 1, 1, 1, _, m, a, le_rfl, hm, ha, rfl⟩
      have b1 := hC r hr _ hv
      have b2 := hD r hr _ hv
      have : lim * ((yhigh - ylow) / 2) - vol = (a (x, j, z) * ((yhigh - ylow) / 2) - vol) - (a (x, j, z) - lim) * ((yhigh - ylow) / 2) := by ring
      rw [this]
      refine (abs_sub _ _).trans ?_
      rw [abs_mul, add_div, mul_div_right_comm, add_comm]
      exact add_le_add (mul_le_mul_of_nonneg_right b1 (abs_nonneg _)) b2
    by_contra hne
    have hpos : 0 < |lim * ((yhigh - ylow) / 2) - vol| := abs_pos.2 hne
    set E := C * |(yhigh - ylow) / 2| + D
    obtain ⟨r, hr⟩ := exists_nat_gt (max 1 (E / |lim * ((yhigh - ylow) / 2) - vol|))
    have r1 : (1 : ℝ) < r := (le_max_left _ _).trans_lt hr
    have r2 : E / |lim * ((yhigh - ylow) / 2) - vol| < r := (le_max_right _ _).trans_lt hr
    have h1 := hsmall r (by have : 1 < r := by exact_mod_cast r1
                            omega)
    rw [le_div_iff₀ (by positivity)] at h1
    rw [div_lt_iff₀ hpos] at r2
    nlinarith [mul_pos hpos (by linarith : (0 : ℝ) < r), mul_le_mul_of_nonneg_left r1.le (mul_pos hpos (by linarith : (0 : ℝ) < r)).le]
  · intro h
    refine ⟨C * |(yhigh - ylow) / 2|, ?_⟩
    intro r hr v hv
    have b := hC r hr v hv
    have : v * ((yhigh - ylow) / 2) - vol = (v - lim) * ((yhigh - ylow) / 2) := by linarith
    rw [this, abs_mul, mul_div_right_comm]
    exact mul_le_mul_of_nonneg_right b (abs_nonneg _)

/-- **C222 (partial).** The claim holds where the planes on both sides are at the same distance.  Missing: other planes (`C222_iff`, `C222_fails`). -/
theorem C222_uniform_partial (e : MmEnv ℝ) (hf : FollowOk e) (hg : GridOk e) (φ : ℝ → ℝ → ℝ → ℝ → ℝ × ℝ) (hφ : PointTracer e φ) (hs : e.isSlab = false)
    (first : MapPol ℝ) (y0 : ℝ) (h0 : e.grid.getPoloidalGrid ((0 : ℕ) : ℝ) = .ok (some first, y0)) (x j z : ℕ) (hx : x < first.nx) (hj : j < e.grid.ny)
    (pol : MapPol ℝ) (y ylow yhigh A : ℝ) (hp : PlaneAt e j pol y ylow yhigh) (hA : AreaAt e pol x z A) (hl : ylow ≠ y) (hu : yhigh - y = y - ylow)
    (d : ContDiffOn ℝ 2 (radiusOverField e φ (pol.R x z) (pol.Z x z) y) [[(ylow + y) / 2, (y + yhigh) / 2]]) :
    VolumeOk e φ (x, j, z) pol y ylow yhigh A := by
  have hmem : y ∈ [[(ylow + y) / 2, (y + yhigh) / 2]] := by
    rcases lt_or_gt_of_ne hl with h | h
    · exact Set.mem_uIcc_of_le (by linarith) (by linarith)
    · exact Set.mem_uIcc_of_ge (by linarith) (by linarith)
  rw [C222_iff e hf hg φ hφ hs first y0 h0 x j z hx hj pol y ylow yhigh A hp hA hl (by intro h; apply hl; linarith)
    (d.mono (Set.uIcc_subset_uIcc Set.left_mem_uIcc hmem)) (d.mono (Set.uIcc_subset_uIcc hmem Set.right_mem_uIcc))]
  exact Or.inr (Or.inl hu)

/-! ## A field that falls along the line -/

/-- One cell at `R = 1`. -/
noncomputable def volPol : MapPol ℝ where
  nx := 1
  nz := 1
  R := fun _ _ => 1
  Z := fun _ _ => 0
  metric := fun k => if k = "g_xx" ∨ k = "g_zz" then some (fun _ _ => 1) else if k = "g_xz" then some (fun _ _ => 0) else none
  findIndex := fun _ _ _ _ => (0, 0)

/-- Planes at `0`, `1` and `t`, straight field lines, and a field `1 / (1 + y^2)`. -/
noncomputable def volMm (t : ℝ) : MmEnv ℝ where
  grid := ⟨[volPol, volPol, volPol], [0, 1, t], 4, false, 1, 1⟩
  follow := fun _ _ R Z ys => ys.map fun _ x z => (R x z, Z x z)
  outside := fun _ _ _ => false
  byfunc := fun _ _ y => 1 / (1 + y ^ 2)
  isSlab := false
  lineLength := fun _ _ => 0
  gauss := fun n => (List.range n).map fun i => ((2 * i + 1) / n - 1, 2 / n)
  sqrt := Real.sqrt
  repr := fun _ => "0.5"

theorem volMm_follow (t : ℝ) : FollowOk (volMm t) := by
  intro n m R Z ys
  simp [volMm]

theorem volMm_grid (t : ℝ) : GridOk (volMm t) := by
  refine ⟨by simp [volMm], by simp [volMm], ?_⟩
  intro p hp
  have : p = volPol := by simpa [volMm] using hp
  subst this
  exact ⟨fun _ _ => 1, fun _ _ => 1, fun _ _ => 0, rfl, rfl, rfl⟩

theorem volMm_point (t : ℝ) : PointTracer (volMm t) fun R Z _ _ => (R, Z) := by
  intro n m R Z y ys
  rfl

theorem volMm_init (t : ℝ) : Grid.init (fun _ => (1, 1)) (.many [volPol, volPol, volPol]) [0, 1, t] 4 false = .ok (volMm t).grid := rfl

theorem volMm_first (t : ℝ) : (volMm t).grid.getPoloidalGrid ((0 : ℕ) : ℝ) = .ok (some volPol, 0) := by
  obtain ⟨h, -, -⟩ := C21_ends _ _ _ _ _ (volMm_init t)
  obtain ⟨p, hp, h⟩ := h 0 (by norm_num)
  cases hp
  exact h

theorem volMm_plane (t : ℝ) : PlaneAt (volMm t) 1 volPol 1 0 t := by
  obtain ⟨h, -, -⟩ := C21_ends _ _ _ _ _ (volMm_init t)
  obtain ⟨p0, hp0, h0⟩ := h 0 (by norm_num)
  obtain ⟨p1, hp1, h1⟩ := h 1 (by norm_num)
  obtain ⟨p2, hp2, h2⟩ := h 2 (by norm_num)
  cases hp0
  cases hp1
  cases hp2
  refine ⟨h1, ⟨some volPol, ?_⟩, ⟨some volPol, ?_⟩⟩
  · rw [show ((1 : ℕ) : ℝ) + -1 = ((0 : ℕ) : ℝ) by norm_num]
    exact h0
  · rw [show ((1 : ℕ) : ℝ) + 1 = ((2 : ℕ) : ℝ) by norm_num]
    exact h2

theorem volMm_area (t : ℝ) : AreaAt (volMm t) volPol 0 0 1 :=
  ⟨fun _ _ => 1, fun _ _ => 1, fun _ _ => 0, rfl, rfl, rfl, by simp [volMm]⟩

theorem volMm_integrand (t : ℝ) : radiusOverField (volMm t) (fun R Z _ _ => (R, Z)) (volPol.R 0 0) (volPol.Z 0 0) 1 = fun s => 1 + s ^ 2 := by
  funext s
  simp [radiusOverField, volMm, volPol]

theorem volMm_field (t : ℝ) : fieldAt (volMm t) (fun R Z _ _ => (R, Z)) (volPol.R 0 0) (volPol.Z 0 0) 1 = 1 / 2 := by
  simp [fieldAt, volMm]
  norm_num

theorem volMm_smooth (t : ℝ) (S : Set ℝ) :
    ContDiffOn ℝ 2 (radiusOverField (volMm t) (fun R Z _ _ => (R, Z)) (volPol.R 0 0) (volPol.Z 0 0) 1) S := by
  rw [volMm_integrand]
  exact (contDiff_const.add (contDiff_id.pow 2)).contDiffOn

/-- The claim for this case holds exactly for equally spaced planes. -/
theorem volMm_iff (t : ℝ) (ht : 1 < t) : VolumeOk (volMm t) (fun R Z _ _ => (R, Z)) (0, 1, 0) volPol 1 0 t 1 ↔ t = 2 := by
  rw [C222_iff (volMm t) (volMm_follow t) (volMm_grid t) _ (volMm_point t) rfl volPol 0 (volMm_first t) 0 1 0 (by decide) (by simp [volMm, Grid.ny])
    volPol 1 0 t 1 (volMm_plane t) (volMm_area t) (by norm_num) (by linarith) (volMm_smooth t _) (volMm_smooth t _), volMm_integrand, volMm_field]
  have hi : ∀ a b : ℝ, (∫ s in a..b, (1 + s ^ 2 : ℝ)) = (b - a) + (b ^ 3 - a ^ 3) / 3 := by
    intro a b
    rw [intervalIntegral.integral_add (by simp) (by simp [intervalIntegral.intervalIntegrable_pow])]
    simp
    norm_num
  rw [hi, hi]
  constructor
  · rintro (h | h | h)
    · norm_num at h
    · linarith
    · exfalso
      have n2 : (1 + t) / 2 - 1 ≠ 0 := by intro h; linarith
      rw [div_eq_div_iff (by norm_num) n2] at h
      have : (t - 1) * (t ^ 2 + 4 * t) = 0 := by nlinarith
      rcases mul_eq_zero.1 this with h | h <;> nlinarith
  · rintro rfl
    exact Or.inr (Or.inl (by norm_num))

/-- **C222 (refutation).** With planes at 0, 1 and 3 the volume of the cell at 1 is wrong however fine the integral is. -/
theorem C222_fails : ∃ (e : MmEnv ℝ) (φ : ℝ → ℝ → ℝ → ℝ → ℝ × ℝ) (pol : MapPol ℝ) (y ylow yhigh A : ℝ), FollowOk e ∧ GridOk e ∧ PointTracer e φ ∧
    e.isSlab = false ∧ PlaneAt e 1 pol y ylow yhigh ∧ AreaAt e pol 0 0 A ∧ ylow < y ∧ y < yhigh ∧
    (∀ S, ContDiffOn ℝ 2 (radiusOverField e φ (pol.R 0 0) (pol.Z 0 0) y) S) ∧ ¬ VolumeOk e φ (0, 1, 0) pol y ylow yhigh A :=
  ⟨volMm 3, fun R Z _ _ => (R, Z), volPol, 1, 0, 3, 1, volMm_follow 3, volMm_grid 3, volMm_point 3, rfl, volMm_plane 3, volMm_area 3, by norm_num, by norm_num,
    volMm_smooth 3, fun h => by have := (volMm_iff 3 (by norm_num)).1 h; norm_num at this⟩

/-- A case for the theorem: planes at 0, 1 and 2. -/
example : VolumeOk (volMm 2) (fun R Z _ _ => (R, Z)) (0, 1, 0) volPol 1 0 2 1 :=
  C222_uniform_partial (volMm 2) (volMm_follow 2) (volMm_grid 2) _ (volMm_point 2) rfl volPol 0 (volMm_first 2) 0 1 0 (by decide) (by simp [volMm, Grid.ny])
    volPol 1 0 2 1 (volMm_plane 2) (volMm_area 2) (by norm_num) (by norm_num) (volMm_smooth 2 _)

end Zoidberg
