import Verif.Model.VolumeSlab
import Verif.Props.Volume
import Mathlib.Analysis.SpecialFunctions.Trigonometric.Deriv
import Mathlib.Analysis.Calculus.ContDiff.Operations
import Mathlib.Analysis.Calculus.MeanValue
import Mathlib.Tactic.FieldSimp
import Mathlib.Tactic.Positivity

/-!
# C293: the field and the reference volume of the volume test for slabs
-/

set_option linter.unusedSectionVars false

namespace Zoidberg

open Set Interval

section
variable {K : Type} [Field K]

theorem polyFunc_sum (sin : K → K) (a : K) (p : List K) (y : K) :
    polyFunc sin a p y = a + ∑ i ∈ Finset.range p.length, p.getD i 0 * sin (((i + 1 : ℕ) : K) * y) := by
  unfold polyFunc
  generalize p.length = n
  induction n with
  | zero => simp
  | succ n ih => rw [List.range_succ, List.foldl_append, ih, Finset.sum_range_succ]; simp [add_assoc]

/-- The reference volume and the length of the arc as sums. -/
theorem slabReference_sum (B : K → K) (pi area R y0 ya yb : K) (n : ℕ) :
    slabReference B pi area R y0 ya yb n =
      (∑ i ∈ Finset.range (n - 1), area * B y0 / (1 / 2 * (B ((linspaceClosed ya yb n).getD i 0) + B ((linspaceClosed ya yb n).getD (i + 1) 0))) *
          (((linspaceClosed ya yb n).getD (i + 1) 0 - (linspaceClosed ya yb n).getD i 0) / (2 * pi) * (R * 2 * pi)),
        ∑ i ∈ Finset.range (n - 1), ((linspaceClosed ya yb n).getD (i + 1) 0 - (linspaceClosed ya yb n).getD i 0) / (2 * pi) * (R * 2 * pi)) := by
  unfold slabReference
  generalize linspaceClosed ya yb n = t
  dsimp only
  generalize n - 1 = m
  induction m with
  | zero => simp
  | succ m ih =>
    rw [List.range_succ, List.foldl_append, ih, Finset.sum_range_succ, Finset.sum_range_succ]
    rfl

/-- The angles of the reference. -/
theorem slab_nodes [CharZero K] (ya yb : K) {n i : ℕ} (hn : 2 ≤ n) (hi : i < n) : (linspaceClosed ya yb n).getD i 0 = ya + (i : K) * (yb - ya) / ((n - 1 : ℕ) : K) := by
  unfold linspaceClosed
  rw [List.getD_eq_getElem _ _ (by simpa using hi)]
  simp only [List.getElem_map, List.getElem_range]
  rw [if_neg (by omega), Nat.cast_sub (by omega), Nat.cast_one]
  ring

end

/-- **C293.** The field repeats after a turn. -/
theorem C293_periodic (a : ℝ) (p : List ℝ) (x z y : ℝ) (k : ℤ) : (polyField Real.sin a p).By x z (y + k * (2 * Real.pi)) = (polyField Real.sin a p).By x z y := by
  show polyFunc _ _ _ _ = polyFunc _ _ _ _
  rw [polyFunc_sum, polyFunc_sum]
  congr 1
  refine Finset.sum_congr rfl fun i _ => ?_
  rw [show ((i + 1 : ℕ) : ℝ) * (y + k * (2 * Real.pi)) = ((i + 1 : ℕ) : ℝ) * y + ((((i + 1 : ℕ) : ℤ) * k : ℤ) : ℝ) * (2 * Real.pi) by push_cast; ring, Real.sin_add_int_mul_two_pi]

/-- **C293.** Field lines stay where they are. -/
theorem C293_straight (a : ℝ) (p : List ℝ) (y : ℝ) (q : ℝ × ℝ) : (polyField Real.sin a p).slope y q = (0, 0) := by
  simp [FieldFns.slope, polyField]

/-- **C293.** The field differs from its first coefficient by at most the sum of the others. -/
theorem C293_bound (a : ℝ) (p : List ℝ) (x z y : ℝ) : |(polyField Real.sin a p).By x z y - a| ≤ (p.map abs).sum := by
  show |polyFunc _ _ _ _ - a| ≤ _
  rw [polyFunc_sum, add_sub_cancel_left]
  have e : (p.map abs).sum = ∑ i ∈ Finset.range p.length, |p.getD i 0| := by
    rw [← rangeMap_sum]
    congr 1
    apply List.ext_getElem (by simp)
    intro i h1 h2
    have h3 : i < p.length := by simpa using h1
    simp [h3]
  rw [e]
  refine (Finset.abs_sum_le_sum_abs _ _).trans (Finset.sum_le_sum fun i _ => ?_)
  rw [abs_mul]
  exact mul_le_of_le_one_right (abs_nonneg _) (Real.abs_sin_le_one _)

/-- **C293.** The field of the test is positive everywhere, although its other coefficients add up to the first one. -/
theorem C293_test_positive (x z y : ℝ) : 1 / 10 < (polyField Real.sin 1 [3 / 10, -(1 / 2), 1 / 5]).By x z y := by
  show _ < polyFunc _ _ _ _
  rw [polyFunc_sum]
  simp only [List.length_cons, List.length_nil, Finset.sum_range_succ, Finset.sum_range_zero]
  norm_num
  rw [Real.sin_two_mul, Real.sin_three_mul]
  have h := Real.sin_sq_add_cos_sq y
  have h1 := Real.sin_le_one y
  have h2 := Real.neg_one_le_sin y
  generalize Real.sin y = s at *
  generalize Real.cos y = c at *
  nlinarith [sq_nonneg (s - c), mul_nonneg (sub_nonneg.2 h1) (sq_nonneg (s + 61 / 100)), sq_nonneg (s + 61 / 100), sq_nonneg (s + 63 / 100)]

/-- **C293.** The arc has the length of the circle of the radius `R` between the angles, and where the field is the same everywhere, the volume is the area times this length. -/
theorem C293_const (B : ℝ → ℝ) (area R y0 ya yb : ℝ) (n : ℕ) (hn : 2 ≤ n) : (slabReference B Real.pi area R y0 ya yb n).2 = R * (yb - ya) ∧
    ((∀ t, B t = B y0) → B y0 ≠ 0 → (slabReference B Real.pi area R y0 ya yb n).1 = area * (R * (yb - ya))) := by
  have hpi := Real.pi_pos
  have hm : ((n - 1 : ℕ) : ℝ) ≠ 0 := by have : n - 1 ≠ 0 := by omega
                                        exact_mod_cast this
  have h2 : (slabReference B Real.pi area R y0 ya yb n).2 = R * (yb - ya) := by
    rw [slabReference_sum]
    dsimp only
    have : ∀ i ∈ Finset.range (n - 1), ((linspaceClosed ya yb n).getD (i + 1) 0 - (linspaceClosed ya yb n).getD i 0) / (2 * Real.pi) * (R * 2 * Real.pi) =
        R * (yb - ya) / ((n - 1 : ℕ) : ℝ) := by
      intro i hi
      have := Finset.mem_range.1 hi
      rw [slab_nodes ya yb hn (by omega), slab_nodes ya yb hn (by omega)]
      push_cast
      field_simp
      ring
    rw [Finset.sum_congr rfl this, Finset.sum_const, Finset.card_range, nsmul_eq_mul]
    field_simp
  refine ⟨h2, fun hB h0 => ?_⟩
  rw [slabReference_sum] at h2 ⊢
  dsimp only at h2 ⊢
  rw [← h2, Finset.mul_sum]
  refine Finset.sum_congr rfl fun i _ => ?_
  rw [hB ((linspaceClosed ya yb n).getD i 0), hB ((linspaceClosed ya yb n).getD (i + 1) 0)]
  congr 1
  field_simp
  ring

/-- The mean of the inverses and the inverse of the mean. -/
theorem inv_mean {u v m d : ℝ} (hm : 0 < m) (hu : m ≤ u) (hv : m ≤ v) (hd : |u - v| ≤ d) : |1 / (1 / 2 * (u + v)) - (1 / u + 1 / v) / 2| ≤ d ^ 2 / (4 * m ^ 3) := by
  have u0 : 0 < u := by linarith
  have v0 : 0 < v := by linarith
  have e : 1 / (1 / 2 * (u + v)) - (1 / u + 1 / v) / 2 = -((u - v) ^ 2 / (2 * (u * v * (u + v)))) := by field_simp; ring
  rw [e, abs_neg, abs_of_nonneg (by positivity)]
  have h1 : (u - v) ^ 2 ≤ d ^ 2 := by rw [← sq_abs]; exact pow_le_pow_left₀ (abs_nonneg _) hd 2
  have h2 : 4 * m ^ 3 ≤ 2 * (u * v * (u + v)) := by
    have a1 : m * m ≤ u * v := mul_le_mul hu hv hm.le u0.le
    have a2 : m * m * (2 * m) ≤ u * v * (u + v) := mul_le_mul a1 (by linarith) (by linarith) (by positivity)
    nlinarith
  exact div_le_div₀ (by positivity) h1 (by positivity) h2

/-- The trapezoidal rule as a sum over the intervals. -/
theorem trapMean_sum (F : ℝ → ℝ) (r : ℕ) (hr : 1 ≤ r) (a b : ℝ) :
    trapMean F r a b = (∑ i ∈ Finset.range r, (F (a + (i : ℝ) * (b - a) / r) + F (a + ((i + 1 : ℕ) : ℝ) * (b - a) / r)) / 2) / r := by
  have hr' : (r : ℝ) ≠ 0 := by have : r ≠ 0 := by omega
                               exact_mod_cast this
  obtain ⟨s, rfl⟩ : ∃ s, r = s + 1 := ⟨r - 1, by omega⟩
  unfold trapMean
  congr 1
  rw [← Finset.sum_div, Finset.sum_add_distrib, Finset.sum_range_succ', Finset.sum_range_succ (fun i => F (a + ((i + 1 : ℕ) : ℝ) * (b - a) / ((s + 1 : ℕ) : ℝ)))]
  rw [show a + ((s + 1 : ℕ) : ℝ) * (b - a) / ((s + 1 : ℕ) : ℝ) = b by field_simp; ring]
  simp only [Nat.add_sub_cancel, Nat.cast_zero, zero_mul, zero_div, add_zero]
  push_cast
  ring

/-- **C293.** For a positive field with two continuous derivatives the reference converges with the second order to the area times the field in the plane times the integral of the arc
over the field: the volume of the flux tube. -/
theorem C293_order (B : ℝ → ℝ) (hB : ContDiff ℝ 2 B) (hpos : ∀ t, 0 < B t) (area R y0 ya yb : ℝ) (hab : ya < yb) :
    ∃ C, 0 ≤ C ∧ ∀ n : ℕ, 2 ≤ n → |(slabReference B Real.pi area R y0 ya yb n).1 - area * B y0 * R * ∫ t in ya..yb, 1 / B t| ≤ C / ((n - 1 : ℕ) : ℝ) ^ 2 := by
  have hF : ContDiff ℝ 2 fun t => 1 / B t := by
    simp only [one_div]
    exact hB.inv fun t => (hpos t).ne'
  obtain ⟨C1, c1, e1⟩ := trapMean_error hab.ne hF.contDiffOn
  -- bounds of the field and its derivative
  obtain ⟨tm, -, htm⟩ := isCompact_Icc.exists_isMinOn (nonempty_Icc.2 hab.le) (hB.continuous.continuousOn (s := Icc ya yb))
  have hm := hpos tm
  set m := B tm with hmdef
  have hmin : ∀ t ∈ Icc ya yb, m ≤ B t := fun t ht => htm ht
  obtain ⟨L, hL⟩ := isCompact_Icc.exists_bound_of_continuousOn ((hB.continuous_deriv (by norm_num)).continuousOn (s := Icc ya yb))
  have hlip : ∀ s ∈ Icc ya yb, ∀ t ∈ Icc ya yb, |B t - B s| ≤ L * |t - s| := by
    intro s hs t ht
    have := (convex_Icc ya yb).norm_image_sub_le_of_norm_deriv_le (f := B) (fun x _ => (hB.differentiable (by norm_num)) x) hL hs ht
    simpa [Real.norm_eq_abs] using this
  refine ⟨|area * B y0 * R * (yb - ya)| * (C1 + (L * (yb - ya)) ^ 2 / (4 * m ^ 3)), by positivity, ?_⟩
  intro n hn
  have hpi := Real.pi_pos
  set r := n - 1 with hr
  have hr1 : 1 ≤ r := by omega
  have hr' : (0 : ℝ) < r := by exact_mod_cast hr1
  have hd : (0 : ℝ) < yb - ya := by linarith
  set N : ℕ → ℝ := fun i => ya + (i : ℝ) * (yb - ya) / r with hN
  have hNmem : ∀ i ≤ r, N i ∈ Icc ya yb := by
    intro i hi
    have hi' : (i : ℝ) ≤ r := by exact_mod_cast hi
    have h1 : (i : ℝ) * (yb - ya) / r ≤ yb - ya := by rw [div_le_iff₀ hr']; nlinarith
    have h2 : 0 ≤ (i : ℝ) * (yb - ya) / r := by positivity
    constructor <;> simp only [hN] <;> linarith
  have hstep : ∀ i, N (i + 1) - N i = (yb - ya) / r := by
    intro i
    simp only [hN]
    push_cast
    ring
  have eS : (slabReference B Real.pi area R y0 ya yb n).1 = area * B y0 * R * (yb - ya) * ((∑ i ∈ Finset.range r, 1 / (1 / 2 * (B (N i) + B (N (i + 1))))) / r) := by
    rw [slabReference_sum]
    dsimp only
    rw [Finset.sum_div, Finset.mul_sum]
    refine Finset.sum_congr rfl fun i hi => ?_
    have := Finset.mem_range.1 hi
    rw [slab_nodes ya yb hn (by omega), slab_nodes ya yb hn (by omega)]
    show area * B y0 / (1 / 2 * (B (N i) + B (N (i + 1)))) * ((N (i + 1) - N i) / (2 * Real.pi) * (R * 2 * Real.pi)) = _
    rw [hstep i]
    have := hpos (N i)
    have := hpos (N (i + 1))
    field_simp
  have eT : trapMean (fun t => 1 / B t) r ya yb = (∑ i ∈ Finset.range r, (1 / B (N i) + 1 / B (N (i + 1))) / 2) / r := trapMean_sum _ r hr1 ya yb
  have hdiff : |(∑ i ∈ Finset.range r, 1 / (1 / 2 * (B (N i) + B (N (i + 1))))) / r - trapMean (fun t => 1 / B t) r ya yb| ≤ (L * (yb - ya)) ^ 2 / (4 * m ^ 3) / (r : ℝ) ^ 2 := by
    rw [eT, ← sub_div, ← Finset.sum_sub_distrib, abs_div, abs_of_pos hr', div_le_iff₀ hr']
    refine (Finset.abs_sum_le_sum_abs _ _).trans ?_
    have : ∀ i ∈ Finset.range r, |1 / (1 / 2 * (B (N i) + B (N (i + 1)))) - (1 / B (N i) + 1 / B (N (i + 1))) / 2| ≤ (L * (yb - ya)) ^ 2 / (4 * m ^ 3) / (r : ℝ) ^ 2 := by
      intro i hi
      have hi := Finset.mem_range.1 hi
      have h1 := hNmem i (by omega)
      have h2 := hNmem (i + 1) (by omega)
      have h3 := hlip _ h2 _ h1
      rw [abs_sub_comm (N i), hstep i, abs_of_pos (show 0 < (yb - ya) / (r : ℝ) by positivity)] at h3
      refine (inv_mean hm (hmin _ h1) (hmin _ h2) h3).trans_eq ?_
      field_simp
    refine (Finset.sum_le_sum this).trans_eq ?_
    rw [Finset.sum_const, Finset.card_range, nsmul_eq_mul, mul_comm]
  have ht := e1 r hr1
  have eI : area * B y0 * R * ∫ t in ya..yb, 1 / B t = area * B y0 * R * (yb - ya) * ((∫ t in ya..yb, 1 / B t) / (yb - ya)) := by field_simp
  rw [eS, eI, ← mul_sub, abs_mul, mul_div_assoc]
  refine mul_le_mul_of_nonneg_left ?_ (abs_nonneg _)
  rw [add_div]
  have f1 := abs_le.1 ht
  have f2 := abs_le.1 hdiff
  rw [abs_le]
  constructor <;> linarith [f1.1, f1.2, f2.1, f2.2]

theorem polyFunc_contDiff (a : ℝ) (p : List ℝ) : ContDiff ℝ 2 (polyFunc Real.sin a p) := by
  have e : polyFunc Real.sin a p = fun y => a + ∑ i ∈ Finset.range p.length, p.getD i 0 * Real.sin (((i + 1 : ℕ) : ℝ) * y) := by
    funext y
    exact polyFunc_sum _ _ _ _
  rw [e]
  refine contDiff_const.add (ContDiff.sum fun i _ => contDiff_const.mul (Real.contDiff_sin.comp (contDiff_const.mul contDiff_id)))

/-- **C293.** Every positive field of this kind, the one of the test among them. -/
theorem C293_poly (a : ℝ) (p : List ℝ) (hpos : ∀ t, 0 < polyFunc Real.sin a p t) (area R y0 ya yb : ℝ) (hab : ya < yb) :
    ∃ C, 0 ≤ C ∧ ∀ n : ℕ, 2 ≤ n →
      |(slabReference (polyFunc Real.sin a p) Real.pi area R y0 ya yb n).1 - area * polyFunc Real.sin a p y0 * R * ∫ t in ya..yb, 1 / polyFunc Real.sin a p t| ≤
        C / ((n - 1 : ℕ) : ℝ) ^ 2 :=
  C293_order _ (polyFunc_contDiff a p) hpos area R y0 ya yb hab

/-- **C293.** The error the test looks at, for a plane between planes at the same distance `d`: the volume from `J` with the refinement `r` differs from the reference with `n` points by at most
`C / r ^ 2 + D / (n - 1) ^ 2`. -/
theorem C293_error (e : MmEnv ℝ) (hf : FollowOk e) (hg : GridOk e) (φ : ℝ → ℝ → ℝ → ℝ → ℝ × ℝ) (hφ : PointTracer e φ) (hs : e.isSlab = false)
    (hstay : ∀ R Z y s, φ R Z y s = (R, Z)) (B : ℝ → ℝ) (hby : ∀ R Z s, e.byfunc R Z s = B s) (hB : ContDiff ℝ 2 B) (hpos : ∀ t, 0 < B t)
    (first : MapPol ℝ) (y0 : ℝ) (h0 : e.grid.getPoloidalGrid ((0 : ℕ) : ℝ) = .ok (some first, y0)) (x j z : ℕ) (hx : x < first.nx) (hj : j < e.grid.ny)
    (pol : MapPol ℝ) (y d A : ℝ) (hd : 0 < d) (hp : PlaneAt e j pol y (y - d) (y + d)) (hA : AreaAt e pol x z A) (dx dz : ℝ) :
    ∃ C D, ∀ r : ℕ, 1 ≤ r → ∀ n : ℕ, 2 ≤ n → ∀ v, JIs e r (x, j, z) v →
      |v * dx * d * dz - (slabReference B Real.pi (A * dx * dz) (pol.R x z) y ((y + (y - d)) / 2) ((y + (y + d)) / 2) n).1| ≤ C / (r : ℝ) ^ 2 + D / ((n - 1 : ℕ) : ℝ) ^ 2 := by
  have hF : ContDiff ℝ 2 fun t => 1 / B t := by
    simp only [one_div]
    exact hB.inv fun t => (hpos t).ne'
  have eF : radiusOverField e φ (pol.R x z) (pol.Z x z) y = fun t => pol.R x z * (1 / B t) := by
    funext t
    unfold radiusOverField
    rw [hstay, hby]
    ring
  have eB : fieldAt e φ (pol.R x z) (pol.Z x z) y = B y := by unfold fieldAt; rw [hby]
  have hC : ContDiff ℝ 2 fun t => pol.R x z * (1 / B t) := contDiff_const.mul hF
  obtain ⟨C, hC'⟩ := C222_limit e hf hg φ hφ hs first y0 h0 x j z hx hj pol y (y - d) (y + d) A hp hA (by linarith) (by linarith)
    (by rw [eF]; exact hC.contDiffOn) (by rw [eF]; exact hC.contDiffOn)
  obtain ⟨D, -, hD⟩ := C293_order B hB hpos (A * dx * dz) (pol.R x z) y ((y + (y - d)) / 2) ((y + (y + d)) / 2) (by linarith)
  refine ⟨C * |dx * d * dz|, D, ?_⟩
  intro r hr n hn v hv
  have h1 := hC' r hr v hv
  have h2 := hD n hn
  rw [eF, eB] at h1
  have hint : ∀ a b : ℝ, IntervalIntegrable (fun t => 1 / B t) MeasureTheory.volume a b := fun a b => hF.continuous.intervalIntegrable a b
  have hadd := intervalIntegral.integral_add_adjacent_intervals (hint ((y - d + y) / 2) y) (hint y ((y + (y + d)) / 2))
  simp only [intervalIntegral.integral_const_mul] at h1
  rw [show (y + (y - d)) / 2 = (y - d + y) / 2 by ring] at h2 ⊢
  rw [← hadd] at h2
  set I1 := ∫ t in ((y - d + y) / 2)..y, 1 / B t
  set I2 := ∫ t in y..((y + (y + d)) / 2), 1 / B t
  have e1 : (pol.R x z * I1 / (y - (y - d + y) / 2) + pol.R x z * I2 / ((y + (y + d)) / 2 - y)) / 2 = pol.R x z * (I1 + I2) / d := by
    rw [show y - (y - d + y) / 2 = d / 2 by ring, show (y + (y + d)) / 2 - y = d / 2 by ring]
    field_simp
  rw [e1] at h1
  have e2 : v * dx * d * dz - A * dx * dz * B y * pol.R x z * (I1 + I2) = (v - A * B y * (pol.R x z * (I1 + I2) / d)) * (dx * d * dz) := by field_simp
  have h3 : |v * dx * d * dz - A * dx * dz * B y * pol.R x z * (I1 + I2)| ≤ C * |dx * d * dz| / (r : ℝ) ^ 2 := by
    rw [e2, abs_mul]
    refine (mul_le_mul_of_nonneg_right h1 (abs_nonneg _)).trans_eq ?_
    ring
  have f1 := abs_le.1 h3
  have f2 := abs_le.1 h2
  rw [abs_le]
  constructor <;> linarith [f1.1, f1.2, f2.1, f2.2]

/-- The field of the test meets the hypotheses. -/
example (area R : ℝ) : ∃ C, 0 ≤ C ∧ ∀ n : ℕ, 2 ≤ n →
    |(slabReference (polyFunc Real.sin 1 [3 / 10, -(1 / 2), 1 / 5]) Real.pi area R 3 2 4 n).1 -
      area * polyFunc Real.sin 1 [3 / 10, -(1 / 2), 1 / 5] 3 * R * ∫ t in (2 : ℝ)..4, 1 / polyFunc Real.sin 1 [3 / 10, -(1 / 2), 1 / 5] t| ≤ C / ((n - 1 : ℕ) : ℝ) ^ 2 :=
  C293_poly 1 _ (fun t => by have := C293_test_positive 0 0 t; have e : (polyField Real.sin 1 [3 / 10, -(1 / 2), 1 / 5]).By 0 0 t = polyFunc Real.sin 1 [3 / 10, -(1 / 2), 1 / 5] t := rfl
                             linarith) area R 3 2 4 (by norm_num)

/-- A case for the error: planes at 0, 1 and 2 in a field that changes with the angle. -/
example : ∃ C D, ∀ r : ℕ, 1 ≤ r → ∀ n : ℕ, 2 ≤ n → ∀ v, JIs (volMm 2) r (0, 1, 0) v →
    |v * 2 * 1 * 3 - (slabReference (fun t => 1 / (1 + t ^ 2)) Real.pi (1 * 2 * 3) (volPol.R 0 0) 1 ((1 + (1 - 1)) / 2) ((1 + (1 + 1)) / 2) n).1| ≤
      C / (r : ℝ) ^ 2 + D / ((n - 1 : ℕ) : ℝ) ^ 2 := by
  have hp : PlaneAt (volMm 2) 1 volPol 1 (1 - 1) (1 + 1) := by
    have := volMm_plane 2
    norm_num
    exact this
  refine C293_error (volMm 2) (volMm_follow 2) (volMm_grid 2) _ (volMm_point 2) rfl (fun _ _ _ _ => rfl) (fun t => 1 / (1 + t ^ 2)) (fun _ _ _ => rfl) ?_ (fun t => by positivity)
    volPol 0 (volMm_first 2) 0 1 0 (by decide) (by simp [volMm, Grid.ny]) volPol 1 1 1 one_pos hp (volMm_area 2) 2 3
  simp only [one_div]
  exact ContDiff.inv (contDiff_const.add (contDiff_id.pow 2)) fun t => by positivity

/-- The loop with three angles and a field that is not constant. -/
example : slabReference (fun t : ℚ => t) 3 2 5 1 1 3 3 = (2 * 5 * (2 / 3 + 2 / 5), 10) := by decide +kernel

end Zoidberg
