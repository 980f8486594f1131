import Verif.Props.FieldCoils
import Mathlib.Topology.Order.Compact
import Mathlib.Tactic.FieldSimp

/-!
# C245, C246: surfaces of the straight stellarator
-/

set_option linter.unusedSectionVars false

namespace Zoidberg

open Real

/-- The four coils at `phi`, without the angles of the code. -/
theorem coilList_four (xc zc r yperiod I phi : ℝ) :
    coilList xc zc r yperiod I phi =
      [⟨xc + r * cos (2 * π / yperiod * phi), zc + r * sin (2 * π / yperiod * phi), I⟩,
        ⟨xc - r * sin (2 * π / yperiod * phi), zc + r * cos (2 * π / yperiod * phi), -I⟩,
        ⟨xc - r * cos (2 * π / yperiod * phi), zc - r * sin (2 * π / yperiod * phi), I⟩,
        ⟨xc + r * sin (2 * π / yperiod * phi), zc - r * cos (2 * π / yperiod * phi), -I⟩] := by
  unfold coilList coilAt
  generalize 2 * π / yperiod * phi = t
  have h3 : (3 : ℝ) / 2 * π + t = (t + π / 2) + π := by ring
  have h1 : (1 : ℝ) / 2 * π + t = t + π / 2 := by ring
  have h2 : (2 : ℝ) / 2 * π + t = t + π := by ring
  simp only [List.range_succ, List.range_zero, List.nil_append, List.cons_append, List.map_cons, List.map_nil, Nat.cast_zero, zero_div, zero_add,
    zero_mul, Nat.cast_one, Nat.cast_ofNat, h1, h2, h3, cos_add_pi, sin_add_pi, cos_add_pi_div_two, sin_add_pi_div_two]
  norm_num
  refine ⟨?_, ?_, ?_⟩ <;> ring_nf
  all_goals trivial

/-- The helical flux: `Afunc`, less half the rate of the coils times the square of the distance from the centre. -/
noncomputable def helicalFlux (xc zc r yperiod I x z phi : ℝ) : ℝ :=
  coilA (coilList xc zc r yperiod I phi) x z - π / yperiod * ((x - xc) ^ 2 + (z - zc) ^ 2)

/-- One coil that turns about the centre. -/
theorem coil_along (xc zc r angle w I : ℝ) {x z : ℝ → ℝ} {dx dz y : ℝ} (hx : HasDerivAt x dx y) (hz : HasDerivAt z dz y)
    (h : 0 < (coilAt xc zc r angle w I y).r2 (x y) (z y)) :
    HasDerivAt (fun t => I * (1 / 10) * log ((coilAt xc zc r angle w I t).r2 (x t) (z t)))
      (I / 5 * (((x y - (coilAt xc zc r angle w I y).x) * dx + (z y - (coilAt xc zc r angle w I y).z) * dz
        + w * ((x y - (coilAt xc zc r angle w I y).x) * (z y - zc) - (z y - (coilAt xc zc r angle w I y).z) * (x y - xc)))
          / (coilAt xc zc r angle w I y).r2 (x y) (z y))) y := by
  have ha : HasDerivAt (fun t => angle + w * t) (w * 1) y := ((hasDerivAt_id y).const_mul w).const_add angle
  have hc := ((ha.cos.const_mul r).const_add xc)
  have hs := ((ha.sin.const_mul r).const_add zc)
  have h2 := (((hx.sub hc).pow 2).add ((hz.sub hs).pow 2))
  have h3 := (h2.log (by exact h.ne')).const_mul (I * (1 / 10))
  refine h3.congr_deriv ?_
  have e : (coilAt xc zc r angle w I y).r2 (x y) (z y) = (x y - (xc + r * cos (angle + w * y))) ^ 2 + (z y - (zc + r * sin (angle + w * y))) ^ 2 := rfl
  rw [e] at *
  simp only [coilAt, Pi.add_apply, Pi.sub_apply, Pi.pow_apply] at *
  rw [mul_div_assoc', mul_div_assoc']
  simp only [Nat.cast_ofNat, Nat.add_one_sub_one, pow_one]
  ring

theorem sum_split {α : Type} (J X Z r : α → ℝ) (a b : ℝ) : ∀ l : List α,
    (l.map fun i => J i * ((X i * a + Z i * b) / r i)).sum = (l.map fun i => J i * (X i / r i)).sum * a + (l.map fun i => J i * (Z i / r i)).sum * b
  | [] => by simp
  | i :: l => by
    simp only [List.map_cons, List.sum_cons]
    rw [sum_split J X Z r a b l]
    ring

/-- Along a field line the rate of the helical flux is zero. -/
theorem helicalFlux_deriv (xc zc r yperiod I : ℝ) {x z : ℝ → ℝ} {s : Set ℝ} (h : FieldLineOn (straightStellarator xc zc r yperiod I) s x z)
    {y : ℝ} (hy : y ∈ s) (ho : OffCoils (coilList xc zc r yperiod I y) (x y) (z y)) :
    HasDerivAt (fun t => helicalFlux xc zc r yperiod I (x t) (z t) t) 0 y := by
  obtain ⟨_, hx, hz⟩ := h.deriv hy
  have ex : (straightStellarator xc zc r yperiod I).Rmaj (x y) (z y) y * (straightStellarator xc zc r yperiod I).Bx (x y) (z y) y /
      (straightStellarator xc zc r yperiod I).By (x y) (z y) y = coilBx (coilList xc zc r yperiod I y) (x y) (z y) := by
    simp [straightStellarator, FieldFns.Rmaj]
  have ez : (straightStellarator xc zc r yperiod I).Rmaj (x y) (z y) y * (straightStellarator xc zc r yperiod I).Bz (x y) (z y) y /
      (straightStellarator xc zc r yperiod I).By (x y) (z y) y = coilBz (coilList xc zc r yperiod I y) (x y) (z y) := by
    simp [straightStellarator, FieldFns.Rmaj]
  rw [ex] at hx
  rw [ez] at hz
  have hB := coilBx_eq ho
  have hC := coilBz_eq ho
  have hA : ∀ t, coilA (coilList xc zc r yperiod I t) (x t) (z t) = -((List.range 4).map fun i : ℕ =>
      ((-1) ^ (i % 2) * I) * (1 / 10) * log ((coilAt xc zc r ((i : ℝ) / 2 * π) (2 * π / yperiod) ((-1) ^ (i % 2) * I) t).r2 (x t) (z t))).sum := by
    intro t
    unfold coilA
    rw [foldl_sub_sum, zero_sub]
    unfold coilList
    rw [List.map_map]
    rfl
  have h1 := (hasDerivAt_listSum (fun (i : ℕ) t =>
      ((-1) ^ (i % 2) * I) * (1 / 10) * log ((coilAt xc zc r ((i : ℝ) / 2 * π) (2 * π / yperiod) ((-1) ^ (i % 2) * I) t).r2 (x t) (z t))) _ y (List.range 4)
      fun i hi => coil_along xc zc r ((i : ℝ) / 2 * π) (2 * π / yperiod) ((-1) ^ (i % 2) * I) hx hz
        (Coil.r2_pos (ho _ (List.mem_map_of_mem hi)))).neg
  have h2 := ((((hx.sub_const xc).pow 2).add ((hz.sub_const zc).pow 2)).const_mul (π / yperiod))
  have h3 := h1.sub h2
  refine (h3.congr_of_eventuallyEq (Filter.Eventually.of_forall fun t => ?_)).congr_deriv ?_
  · unfold helicalFlux
    rw [hA]
    rfl
  · generalize coilBx (coilList xc zc r yperiod I y) (x y) (z y) = P at *
    generalize coilBz (coilList xc zc r yperiod I y) (x y) (z y) = Q at *
    simp only [coilList, List.map_map] at hB hC
    have e := sum_split (fun i : ℕ => (-1) ^ (i % 2) * I / 5) (fun i : ℕ => x y - (coilAt xc zc r ((i : ℝ) / 2 * π) (2 * π / yperiod) ((-1) ^ (i % 2) * I) y).x)
      (fun i : ℕ => z y - (coilAt xc zc r ((i : ℝ) / 2 * π) (2 * π / yperiod) ((-1) ^ (i % 2) * I) y).z)
      (fun i : ℕ => (coilAt xc zc r ((i : ℝ) / 2 * π) (2 * π / yperiod) ((-1) ^ (i % 2) * I) y).r2 (x y) (z y))
      (P + 2 * π / yperiod * (z y - zc)) (Q - 2 * π / yperiod * (x y - xc)) (List.range 4)
    have hB' : P = ((List.range 4).map fun i : ℕ => (-1) ^ (i % 2) * I / 5 *
        ((z y - (coilAt xc zc r ((i : ℝ) / 2 * π) (2 * π / yperiod) ((-1) ^ (i % 2) * I) y).z) /
          (coilAt xc zc r ((i : ℝ) / 2 * π) (2 * π / yperiod) ((-1) ^ (i % 2) * I) y).r2 (x y) (z y))).sum := hB
    have hC' : Q = -((List.range 4).map fun i : ℕ => (-1) ^ (i % 2) * I / 5 *
        ((x y - (coilAt xc zc r ((i : ℝ) / 2 * π) (2 * π / yperiod) ((-1) ^ (i % 2) * I) y).x) /
          (coilAt xc zc r ((i : ℝ) / 2 * π) (2 * π / yperiod) ((-1) ^ (i % 2) * I) y).r2 (x y) (z y))).sum := hC
    rw [← hB', show ((List.range 4).map fun i : ℕ => (-1) ^ (i % 2) * I / 5 *
        ((x y - (coilAt xc zc r ((i : ℝ) / 2 * π) (2 * π / yperiod) ((-1) ^ (i % 2) * I) y).x) /
          (coilAt xc zc r ((i : ℝ) / 2 * π) (2 * π / yperiod) ((-1) ^ (i % 2) * I) y).r2 (x y) (z y))).sum = -Q by rw [hC', neg_neg]] at e
    rw [show ((List.range 4).map fun i : ℕ => (-1) ^ (i % 2) * I / 5 *
        (((x y - (coilAt xc zc r ((i : ℝ) / 2 * π) (2 * π / yperiod) ((-1) ^ (i % 2) * I) y).x) * P +
          (z y - (coilAt xc zc r ((i : ℝ) / 2 * π) (2 * π / yperiod) ((-1) ^ (i % 2) * I) y).z) * Q +
          2 * π / yperiod * ((x y - (coilAt xc zc r ((i : ℝ) / 2 * π) (2 * π / yperiod) ((-1) ^ (i % 2) * I) y).x) * (z y - zc) -
            (z y - (coilAt xc zc r ((i : ℝ) / 2 * π) (2 * π / yperiod) ((-1) ^ (i % 2) * I) y).z) * (x y - xc))) /
          (coilAt xc zc r ((i : ℝ) / 2 * π) (2 * π / yperiod) ((-1) ^ (i % 2) * I) y).r2 (x y) (z y))).sum =
        -Q * (P + 2 * π / yperiod * (z y - zc)) + P * (Q - 2 * π / yperiod * (x y - xc)) by
      rw [← e]
      refine congrArg List.sum (List.map_congr_left fun i _ => ?_)
      ring]
    simp only [Nat.cast_ofNat, Nat.add_one_sub_one, pow_one]
    ring

/-- **C245.** Every field line of a straight stellarator lies on a surface of the helical flux. -/
theorem C245_surface (xc zc r yperiod I : ℝ) (x z : ℝ → ℝ) (y0 y1 : ℝ) (h : FieldLineOn (straightStellarator xc zc r yperiod I) (Set.Icc y0 y1) x z)
    (ho : ∀ y ∈ Set.Icc y0 y1, OffCoils (coilList xc zc r yperiod I y) (x y) (z y)) :
    ∀ y ∈ Set.Icc y0 y1,
      coilA (coilList xc zc r yperiod I y) (x y) (z y) - π / yperiod * ((x y - xc) ^ 2 + (z y - zc) ^ 2) =
        coilA (coilList xc zc r yperiod I y0) (x y0) (z y0) - π / yperiod * ((x y0 - xc) ^ 2 + (z y0 - zc) ^ 2) :=
  const_on_Icc (g := fun t => helicalFlux xc zc r yperiod I (x t) (z t) t) fun y hy => helicalFlux_deriv xc zc r yperiod I h hy (ho y hy)

/-! ### C246: lines near the axis -/

/-- Products of the squared distances from opposite coils. -/
theorem opposite_product (u v r c s : ℝ) (h : c ^ 2 + s ^ 2 = 1) :
    ((u - r * c) ^ 2 + (v - r * s) ^ 2) * ((u + r * c) ^ 2 + (v + r * s) ^ 2) = (u ^ 2 + v ^ 2 + r ^ 2) ^ 2 - 4 * r ^ 2 * (u * c + v * s) ^ 2 := by
  have h1 : (u - r * c) ^ 2 + (v - r * s) ^ 2 = u ^ 2 + v ^ 2 + r ^ 2 - 2 * r * (u * c + v * s) := by linear_combination r ^ 2 * h
  have h2 : (u + r * c) ^ 2 + (v + r * s) ^ 2 = u ^ 2 + v ^ 2 + r ^ 2 + 2 * r * (u * c + v * s) := by linear_combination r ^ 2 * h
  rw [h1, h2]; ring

/-- Bounds of the logarithm of such a product. -/
theorem log_opposite {m n q : ℝ} (hn : 0 ≤ n) (hm : n < m) (hq : 0 ≤ q) (hqn : q ≤ n) :
    2 * log (m - n) ≤ log ((n + m) ^ 2 - 4 * m * q) ∧ log ((n + m) ^ 2 - 4 * m * q) ≤ 2 * log (m + n) := by
  have e1 : 2 * log (m - n) = log ((m - n) ^ 2) := by rw [Real.log_pow]; norm_num
  have e2 : 2 * log (m + n) = log ((m + n) ^ 2) := by rw [Real.log_pow]; norm_num
  have h0 : 0 < (m - n) ^ 2 := by have : 0 < m - n := by linarith
                                  positivity
  have h1 : (m - n) ^ 2 ≤ (n + m) ^ 2 - 4 * m * q := by nlinarith
  rw [e1, e2]
  refine ⟨Real.log_le_log h0 h1, Real.log_le_log (by linarith) ?_⟩
  nlinarith

/-- Near the centre `Afunc` is small. -/
theorem coilA_small (xc zc r yperiod I x z phi : ℝ) (h : 2 * ((x - xc) ^ 2 + (z - zc) ^ 2) < r ^ 2) :
    OffCoils (coilList xc zc r yperiod I phi) x z ∧
      |coilA (coilList xc zc r yperiod I phi) x z| * r ^ 2 ≤ 4 / 5 * |I| * ((x - xc) ^ 2 + (z - zc) ^ 2) := by
  have hcs := cos_sq_add_sin_sq (2 * π / yperiod * phi)
  rw [coilList_four]
  generalize cos (2 * π / yperiod * phi) = c at *
  generalize sin (2 * π / yperiod * phi) = s at *
  obtain ⟨u, hu⟩ : ∃ u, u = x - xc := ⟨_, rfl⟩
  obtain ⟨v, hv⟩ : ∃ v, v = z - zc := ⟨_, rfl⟩
  rw [← hu, ← hv] at h ⊢
  have hcs' : (-s) ^ 2 + c ^ 2 = 1 := by linarith [neg_sq s]
  have hn : 0 ≤ u ^ 2 + v ^ 2 := by positivity
  have hm : u ^ 2 + v ^ 2 < r ^ 2 := by linarith
  have p02 := opposite_product u v r c s hcs
  have p13 := opposite_product u v r (-s) c hcs'
  have q02 : (u * c + v * s) ^ 2 ≤ u ^ 2 + v ^ 2 := by nlinarith [sq_nonneg (u * s - v * c)]
  have q13 : (u * -s + v * c) ^ 2 ≤ u ^ 2 + v ^ 2 := by nlinarith [sq_nonneg (u * c + v * s)]
  have l02 := log_opposite hn hm (sq_nonneg (u * c + v * s)) q02
  have l13 := log_opposite hn hm (sq_nonneg (u * -s + v * c)) q13
  have pos : ∀ q, 0 ≤ q → q ≤ u ^ 2 + v ^ 2 → 0 < (u ^ 2 + v ^ 2 + r ^ 2) ^ 2 - 4 * r ^ 2 * q := by
    intro q h1 h2
    have h3 : 0 < (r ^ 2 - (u ^ 2 + v ^ 2)) ^ 2 := by
      have : 0 < r ^ 2 - (u ^ 2 + v ^ 2) := by linarith
      positivity
    nlinarith
  have t02 := pos _ (sq_nonneg (u * c + v * s)) q02
  have t13 := pos _ (sq_nonneg (u * -s + v * c)) q13
  rw [← p02] at t02 l02
  rw [← p13] at t13 l13
  have n0 := left_ne_zero_of_mul t02.ne'
  have n2 := right_ne_zero_of_mul t02.ne'
  have n1 := left_ne_zero_of_mul t13.ne'
  have n3 := right_ne_zero_of_mul t13.ne'
  rw [Real.log_mul n0 n2] at l02
  rw [Real.log_mul n1 n3] at l13
  have e0 : (x - (xc + r * c)) = u - r * c := by rw [hu]; ring
  have f0 : (z - (zc + r * s)) = v - r * s := by rw [hv]; ring
  have e1 : (x - (xc - r * s)) = u - r * -s := by rw [hu]; ring
  have f1 : (z - (zc + r * c)) = v - r * c := by rw [hv]; ring
  have e2 : (x - (xc - r * c)) = u + r * c := by rw [hu]; ring
  have f2 : (z - (zc - r * s)) = v + r * s := by rw [hv]; ring
  have e3 : (x - (xc + r * s)) = u + r * -s := by rw [hu]; ring
  have f3 : (z - (zc - r * c)) = v + r * c := by rw [hv]; ring
  constructor
  · have key : ∀ k : Coil, k.r2 x z ≠ 0 → x ≠ k.x ∨ z ≠ k.z := by
      intro k hk
      by_contra hh
      push Not at hh
      apply hk
      unfold Coil.r2
      rw [hh.1, hh.2]; ring
    intro k hk
    apply key
    simp only [List.mem_cons, List.not_mem_nil, or_false] at hk
    unfold Coil.r2
    rcases hk with rfl | rfl | rfl | rfl
    · rw [e0, f0]; exact n0
    · rw [e1, f1]; exact n1
    · rw [e2, f2]; exact n2
    · rw [e3, f3]; exact n3
  · have hA : coilA [⟨xc + r * c, zc + r * s, I⟩, ⟨xc - r * s, zc + r * c, -I⟩, ⟨xc - r * c, zc - r * s, I⟩, ⟨xc + r * s, zc - r * c, -I⟩] x z =
        -(I / 10) * ((log ((u - r * c) ^ 2 + (v - r * s) ^ 2) + log ((u + r * c) ^ 2 + (v + r * s) ^ 2)) -
          (log ((u - r * -s) ^ 2 + (v - r * c) ^ 2) + log ((u + r * -s) ^ 2 + (v + r * c) ^ 2))) := by
      unfold coilA
      simp only [List.foldl_cons, List.foldl_nil, Coil.r2]
      rw [e0, f0, e1, f1, e2, f2, e3, f3]
      ring
    rw [hA]
    generalize log ((u - r * c) ^ 2 + (v - r * s) ^ 2) + log ((u + r * c) ^ 2 + (v + r * s) ^ 2) = L at *
    generalize log ((u - r * -s) ^ 2 + (v - r * c) ^ 2) + log ((u + r * -s) ^ 2 + (v + r * c) ^ 2) = M at *
    generalize u ^ 2 + v ^ 2 = n at *
    generalize r ^ 2 = m at *
    have hmn : 0 < m - n := by linarith
    have hd : log (m + n) - log (m - n) ≤ 2 * n / (m - n) := by
      rw [← Real.log_div (by linarith) hmn.ne']
      refine (Real.log_le_sub_one_of_pos (div_pos (by linarith) hmn)).trans (le_of_eq ?_)
      field_simp
      ring
    have hd2 : 2 * n / (m - n) * m ≤ 4 * n := by
      rw [div_mul_eq_mul_div, div_le_iff₀ hmn]
      nlinarith
    have hLM : |L - M| ≤ 2 * (2 * n / (m - n)) := by
      rw [abs_le]
      constructor <;> linarith [l02.1, l02.2, l13.1, l13.2]
    have hm0 : 0 < m := by linarith
    rw [abs_mul, abs_neg, abs_div, abs_of_pos (show (0 : ℝ) < 10 by norm_num)]
    have h5 : |L - M| * m ≤ 8 * n := by
      refine (mul_le_mul_of_nonneg_right hLM hm0.le).trans ?_
      rw [mul_assoc]
      linarith
    calc |I| / 10 * |L - M| * m = |I| / 10 * (|L - M| * m) := by ring
      _ ≤ |I| / 10 * (8 * n) := mul_le_mul_of_nonneg_left h5 (by positivity)
      _ = 4 / 5 * |I| * n := by ring

/-- A continuous function that is at most `B` as long as it has been below `M` never exceeds `B`. -/
theorem trapped {g : ℝ → ℝ} {a b B M : ℝ} (hg : ContinuousOn g (Set.Icc a b)) (hB : B < M) (h0 : g a ≤ B)
    (h : ∀ t ∈ Set.Icc a b, (∀ t' ∈ Set.Icc a t, g t' < M) → g t ≤ B) : ∀ t ∈ Set.Icc a b, g t ≤ B := by
  by_contra hh
  push Not at hh
  obtain ⟨t, ht, hgt⟩ := hh
  obtain ⟨m, hm1, hm2⟩ : ∃ m, B < m ∧ m < M ∧ m ≤ g t := by
    refine ⟨min (g t) ((B + M) / 2), lt_min hgt (by linarith), lt_of_le_of_lt (min_le_right _ _) (by linarith), min_le_left _ _⟩
  have hcl : IsClosed (Set.Icc a b ∩ g ⁻¹' Set.Ici m) := hg.preimage_isClosed_of_isClosed isClosed_Icc isClosed_Ici
  have hco : IsCompact (Set.Icc a b ∩ g ⁻¹' Set.Ici m) := isCompact_Icc.of_isClosed_subset hcl Set.inter_subset_left
  obtain ⟨τ, hτ, hmin⟩ := hco.exists_isLeast ⟨t, ht, hm2.2⟩
  have hbefore : ∀ t' ∈ Set.Ico a τ, g t' < m := by
    intro t' ht'
    by_contra hc
    push Not at hc
    exact absurd (hmin ⟨⟨ht'.1, ht'.2.le.trans hτ.1.2⟩, hc⟩) (not_le.2 ht'.2)
  have haτ : a < τ := by
    rcases lt_or_eq_of_le hτ.1.1 with h1 | h1
    · exact h1
    · exfalso
      have := hτ.2
      rw [← h1] at this
      exact absurd (lt_of_lt_of_le hm1 this) (not_lt.2 h0)
  have hle : g τ ≤ m := by
    have h1 : ContinuousWithinAt g (Set.Ico a τ) τ := (hg τ hτ.1).mono fun s hs => ⟨hs.1, hs.2.le.trans hτ.1.2⟩
    have hne : (nhdsWithin τ (Set.Ico a τ)).NeBot := by
      rw [← mem_closure_iff_nhdsWithin_neBot, closure_Ico haτ.ne]
      exact ⟨haτ.le, le_refl _⟩
    exact le_of_tendsto h1 (eventually_nhdsWithin_of_forall fun s hs => (hbefore s hs).le)
  have h2 := h τ hτ.1 fun t' ht' => by
    rcases lt_or_eq_of_le ht'.2 with h3 | h3
    · exact (hbefore t' ⟨ht'.1, h3⟩).trans hm2.1
    · rw [h3]; exact lt_of_le_of_lt hle hm2.1
  exact absurd (lt_of_lt_of_le hm1 hτ.2) (not_lt.2 h2)

/-- The step from the flux to the distance. -/
theorem flux_to_distance {A A' n n' m p I : ℝ} (hp : p ≠ 0) (hI : 8 * |I| * |p| ≤ 5 * π * m) (hm : 0 < m) (hn : 0 ≤ n) (hn' : 0 ≤ n')
    (a1 : |A| * m ≤ 4 / 5 * |I| * n) (a0 : |A'| * m ≤ 4 / 5 * |I| * n') (hs : A - π / p * n = A' - π / p * n') : n ≤ 3 * n' := by
  have hyp : 0 < |p| := abs_pos.2 hp
  have key : π * |n - n'| = |p| * |A - A'| := by
    have e : p * (A - A') = π * (n - n') := by
      have : A - A' = π / p * (n - n') := by linarith
      rw [this]; field_simp
    rw [← abs_mul, e, abs_mul, abs_of_pos pi_pos]
  have b1 : |A - A'| * m ≤ 4 / 5 * |I| * (n + n') := by
    have h1 := mul_le_mul_of_nonneg_right (abs_sub A A') hm.le
    linarith
  have b2 : π * |n - n'| * m ≤ 4 / 5 * |I| * (n + n') * |p| := by
    rw [key]
    calc |p| * |A - A'| * m = |p| * (|A - A'| * m) := by ring
      _ ≤ |p| * (4 / 5 * |I| * (n + n')) := mul_le_mul_of_nonneg_left b1 hyp.le
      _ = _ := by ring
  have b3 : 4 / 5 * |I| * (n + n') * |p| ≤ 1 / 2 * π * m * (n + n') := by
    have := mul_le_mul_of_nonneg_right hI (show 0 ≤ (n + n') / 10 by positivity)
    linarith
  have b4 : |n - n'| ≤ 1 / 2 * (n + n') := by
    have h6 : 0 < π * m := by positivity
    have h7 : π * m * |n - n'| ≤ π * m * (1 / 2 * (n + n')) := by linarith
    exact le_of_mul_le_mul_left h7 h6
  have := le_abs_self (n - n')
  linarith

/-- **C246.** If the coils turn fast enough for their current, a field line that is near the axis somewhere stays near it everywhere,
in both directions: its distance never exceeds the square root of three times that one. -/
theorem C246_confined (xc zc r yperiod I : ℝ) (hp : yperiod ≠ 0) (hI : 8 * |I| * |yperiod| ≤ 5 * π * r ^ 2) (x z : ℝ → ℝ) (y0 y1 a : ℝ)
    (h : FieldLineOn (straightStellarator xc zc r yperiod I) (Set.Icc y0 y1) x z) (ha : a ∈ Set.Icc y0 y1)
    (h0 : 6 * ((x a - xc) ^ 2 + (z a - zc) ^ 2) < r ^ 2) :
    ∀ y ∈ Set.Icc y0 y1, (x y - xc) ^ 2 + (z y - zc) ^ 2 ≤ 3 * ((x a - xc) ^ 2 + (z a - zc) ^ 2) := by
  have hn0 : 0 ≤ (x a - xc) ^ 2 + (z a - zc) ^ 2 := by positivity
  have hc : ∀ t ∈ Set.Icc y0 y1, ContinuousAt (fun y => (x y - xc) ^ 2 + (z y - zc) ^ 2) t := by
    intro t ht
    obtain ⟨_, hx, hz⟩ := h.deriv ht
    exact (((hx.sub_const xc).pow 2).add ((hz.sub_const zc).pow 2)).continuousAt
  have core : ∀ s t, s ≤ t → s ∈ Set.Icc y0 y1 → t ∈ Set.Icc y0 y1 → (∀ t' ∈ Set.Icc s t, (x t' - xc) ^ 2 + (z t' - zc) ^ 2 < r ^ 2 / 2) →
      helicalFlux xc zc r yperiod I (x t) (z t) t = helicalFlux xc zc r yperiod I (x s) (z s) s := by
    intro s t hst hs ht hb
    exact C245_surface xc zc r yperiod I x z s t (fun y hy => h y ⟨hs.1.trans hy.1, hy.2.trans ht.2⟩)
      (fun y hy => (coilA_small xc zc r yperiod I (x y) (z y) y (by have := hb y hy; linarith)).1) t ⟨hst, le_refl _⟩
  have step : ∀ t, (x t - xc) ^ 2 + (z t - zc) ^ 2 < r ^ 2 / 2 →
      helicalFlux xc zc r yperiod I (x t) (z t) t = helicalFlux xc zc r yperiod I (x a) (z a) a →
      (x t - xc) ^ 2 + (z t - zc) ^ 2 ≤ 3 * ((x a - xc) ^ 2 + (z a - zc) ^ 2) := by
    intro t hb hs
    exact flux_to_distance hp hI (by linarith) (by positivity) hn0 (coilA_small xc zc r yperiod I (x t) (z t) t (by linarith)).2
      (coilA_small xc zc r yperiod I (x a) (z a) a (by linarith)).2 hs
  intro y hy
  rcases le_total a y with hay | hay
  · refine trapped (g := fun y => (x y - xc) ^ 2 + (z y - zc) ^ 2) (a := a) (b := y1) (M := r ^ 2 / 2) (fun t ht => ?_) (by linarith) (by linarith)
      (fun t ht hb => ?_) y ⟨hay, hy.2⟩
    · exact (hc t ⟨ha.1.trans ht.1, ht.2⟩).continuousWithinAt
    · exact step t (hb t ⟨ht.1, le_refl _⟩) (core a t ht.1 ha ⟨ha.1.trans ht.1, ht.2⟩ hb)
  · have hm := trapped (g := fun y => (x (-y) - xc) ^ 2 + (z (-y) - zc) ^ 2) (a := -a) (b := -y0) (B := 3 * ((x a - xc) ^ 2 + (z a - zc) ^ 2))
      (M := r ^ 2 / 2) (fun t ht => ?_) (by linarith) (by rw [neg_neg]; linarith) (fun t ht hb => ?_) (-y) ⟨by linarith, by linarith [hy.1]⟩
    · rw [neg_neg] at hm
      exact hm
    · have h1 := hc (-t) ⟨by linarith [ht.2], by linarith [ht.1, ha.2]⟩
      exact (ContinuousAt.comp (f := fun y : ℝ => -y) h1 continuous_neg.continuousAt).continuousWithinAt
    · refine step (-t) (hb t ⟨ht.1, le_refl _⟩) (core (-t) a (by linarith [ht.1]) ⟨by linarith [ht.2], by linarith [ht.1, ha.2]⟩ ha fun t' ht' => ?_).symm
      have := hb (-t') ⟨by linarith [ht'.2], by linarith [ht'.1]⟩
      rw [neg_neg] at this
      exact this

/-- **C246.** Such a line never meets a coil. -/
theorem C246_off_coils (xc zc r yperiod I : ℝ) (hp : yperiod ≠ 0) (hI : 8 * |I| * |yperiod| ≤ 5 * π * r ^ 2) (x z : ℝ → ℝ) (y0 y1 a : ℝ)
    (h : FieldLineOn (straightStellarator xc zc r yperiod I) (Set.Icc y0 y1) x z) (ha : a ∈ Set.Icc y0 y1)
    (h0 : 6 * ((x a - xc) ^ 2 + (z a - zc) ^ 2) < r ^ 2) : ∀ y ∈ Set.Icc y0 y1, OffCoils (coilList xc zc r yperiod I y) (x y) (z y) := fun y hy =>
  (coilA_small xc zc r yperiod I (x y) (z y) y (by have := C246_confined xc zc r yperiod I hp hI x z y0 y1 a h ha h0 y hy; linarith)).1

/-! ### Such lines exist -/

theorem contDiffAt_listSum {α : Type} (g : α → ℝ × ℝ × ℝ → ℝ) (p : ℝ × ℝ × ℝ) : ∀ l : List α, (∀ c ∈ l, ContDiffAt ℝ 1 (g c) p) →
    ContDiffAt ℝ 1 (fun q => (l.map fun c => g c q).sum) p
  | [], _ => by simpa using contDiffAt_const
  | c :: l, h => by
    simp only [List.map_cons, List.sum_cons]
    exact (h c (by simp)).add (contDiffAt_listSum g p l fun d hd => h d (by simp [hd]))

/-- A point near a point off the coils is off the coils, at a near time. -/
theorem offCoils_near (xc zc r yperiod I : ℝ) (p : ℝ × ℝ × ℝ) (h : OffCoils (coilList xc zc r yperiod I p.2.2) p.1 p.2.1) :
    ∀ᶠ q : ℝ × ℝ × ℝ in nhds p, OffCoils (coilList xc zc r yperiod I q.2.2) q.1 q.2.1 := by
  have h1 : ∀ i ∈ List.range 4, ∀ᶠ q : ℝ × ℝ × ℝ in nhds p,
      (coilAt xc zc r ((i : ℝ) / 2 * π) (2 * π / yperiod) ((-1) ^ (i % 2) * I) q.2.2).r2 q.1 q.2.1 ≠ 0 := by
    intro i hi
    have h2 : (coilAt xc zc r ((i : ℝ) / 2 * π) (2 * π / yperiod) ((-1) ^ (i % 2) * I) p.2.2).r2 p.1 p.2.1 ≠ 0 :=
      (Coil.r2_pos (h _ (List.mem_map_of_mem hi))).ne'
    have h3 : Continuous fun q : ℝ × ℝ × ℝ => (coilAt xc zc r ((i : ℝ) / 2 * π) (2 * π / yperiod) ((-1) ^ (i % 2) * I) q.2.2).r2 q.1 q.2.1 := by
      unfold coilAt Coil.r2
      fun_prop
    exact h3.continuousAt.eventually_ne h2
  have h4 : ∀ l : List ℕ, (∀ i ∈ l, i ∈ List.range 4) → ∀ᶠ q : ℝ × ℝ × ℝ in nhds p, ∀ i ∈ l,
      (coilAt xc zc r ((i : ℝ) / 2 * π) (2 * π / yperiod) ((-1) ^ (i % 2) * I) q.2.2).r2 q.1 q.2.1 ≠ 0 := by
    intro l
    induction l with
    | nil => intro _; simp
    | cons i l ih =>
      intro hl
      filter_upwards [h1 i (hl i (by simp)), ih fun j hj => hl j (by simp [hj])] with q h5 h6 j hj
      rcases List.mem_cons.1 hj with rfl | hj
      · exact h5
      · exact h6 j hj
  filter_upwards [h4 (List.range 4) fun i hi => hi] with q hq c hc
  obtain ⟨i, hi, rfl⟩ := List.mem_map.1 hc
  by_contra hh
  push Not at hh
  apply hq i hi
  unfold Coil.r2
  rw [hh.1, hh.2]; ring

/-- There is a field line of the straight stellarator through every point off the coils. -/
theorem stell_line_exists (xc zc r yperiod I x0 z0 y0 : ℝ) (h : OffCoils (coilList xc zc r yperiod I y0) x0 z0) :
    ∃ ε > 0, ∃ x z : ℝ → ℝ, x y0 = x0 ∧ z y0 = z0 ∧ FieldLineOn (straightStellarator xc zc r yperiod I) (Set.Icc y0 (y0 + ε)) x z ∧
      ∀ y ∈ Set.Icc y0 (y0 + ε), OffCoils (coilList xc zc r yperiod I y) (x y) (z y) := by
  let k : ℕ → ℝ → Coil := fun i t => coilAt xc zc r ((i : ℝ) / 2 * π) (2 * π / yperiod) ((-1) ^ (i % 2) * I) t
  let v : ℝ × ℝ × ℝ → ℝ × ℝ × ℝ := fun p =>
    (((List.range 4).map fun i => (k i p.2.2).I / 5 * ((p.2.1 - (k i p.2.2).z) / (k i p.2.2).r2 p.1 p.2.1)).sum,
      -((List.range 4).map fun i => (k i p.2.2).I / 5 * ((p.1 - (k i p.2.2).x) / (k i p.2.2).r2 p.1 p.2.1)).sum, 1)
  have hr : ∀ i ∈ List.range 4, (k i y0).r2 x0 z0 ≠ 0 := fun i hi => (Coil.r2_pos (h _ (List.mem_map_of_mem hi))).ne'
  have hv : ContDiffAt ℝ 1 v (x0, z0, y0) := by
    refine ContDiffAt.prodMk ?_ (ContDiffAt.prodMk (ContDiffAt.neg ?_) contDiffAt_const)
    · refine contDiffAt_listSum (fun i (p : ℝ × ℝ × ℝ) => (k i p.2.2).I / 5 * ((p.2.1 - (k i p.2.2).z) / (k i p.2.2).r2 p.1 p.2.1)) _ _ fun i hi => ?_
      refine ContDiffAt.mul ?_ (ContDiffAt.div ?_ ?_ (hr i hi)) <;> simp only [k, coilAt, Coil.r2] <;> fun_prop
    · refine contDiffAt_listSum (fun i (p : ℝ × ℝ × ℝ) => (k i p.2.2).I / 5 * ((p.1 - (k i p.2.2).x) / (k i p.2.2).r2 p.1 p.2.1)) _ _ fun i hi => ?_
      refine ContDiffAt.mul ?_ (ContDiffAt.div ?_ ?_ (hr i hi)) <;> simp only [k, coilAt, Coil.r2] <;> fun_prop
  obtain ⟨α, hα, ε, hε, hα'⟩ := hv.exists_forall_mem_closedBall_exists_eq_forall_mem_Ioo_hasDerivAt₀ y0
  have hc : ContinuousAt α y0 := (hα' y0 ⟨by linarith, by linarith⟩).continuousAt
  have h3 : ∀ᶠ t in nhds y0, OffCoils (coilList xc zc r yperiod I (α t).2.2) (α t).1 (α t).2.1 := by
    refine hc.eventually (p := fun q : ℝ × ℝ × ℝ => OffCoils (coilList xc zc r yperiod I q.2.2) q.1 q.2.1) ?_
    rw [hα]
    exact offCoils_near xc zc r yperiod I (x0, z0, y0) h
  obtain ⟨δ, hδ, h4⟩ := Metric.eventually_nhds_iff.1 h3
  have hm : 0 < min ε δ := lt_min hε hδ
  have hin : ∀ y ∈ Set.Icc y0 (y0 + min ε δ / 2), y ∈ Set.Ioo (y0 - ε) (y0 + ε) ∧ dist y y0 < δ := by
    intro y hy
    have h5 := min_le_left ε δ
    have h6 := min_le_right ε δ
    refine ⟨⟨by linarith [hy.1], by linarith [hy.2]⟩, ?_⟩
    rw [Real.dist_eq, abs_of_nonneg (by linarith [hy.1])]
    linarith [hy.2]
  have htime : ∀ y ∈ Set.Icc y0 (y0 + min ε δ / 2), (α y).2.2 = y := by
    intro y hy
    have h5 := const_on_Icc (g := fun t => (α t).2.2 - t) (a := y0) (b := y0 + min ε δ / 2) (fun t ht => by
      have h6 : HasDerivAt (fun t => (α t).2.2) 1 t := (hα' t (hin t ht).1).snd.snd
      refine (h6.sub (hasDerivAt_id t)).congr_deriv ?_
      ring) y hy
    rw [hα] at h5
    linarith
  have hoff : ∀ y ∈ Set.Icc y0 (y0 + min ε δ / 2), OffCoils (coilList xc zc r yperiod I y) (α y).1 (α y).2.1 := by
    intro y hy
    have := h4 (hin y hy).2
    rw [htime y hy] at this
    exact this
  refine ⟨min ε δ / 2, by positivity, fun t => (α t).1, fun t => (α t).2.1, by dsimp only; rw [hα], by dsimp only; rw [hα], fun y hy => ?_, hoff⟩
  have hd1 := hα' y (hin y hy).1
  have ex := coilBx_eq (hoff y hy)
  have ez := coilBz_eq (hoff y hy)
  unfold coilList at ex ez
  rw [List.map_map] at ex ez
  refine ⟨_, _, (direction_one _ _ _ _ _ _).2 ⟨?_, rfl, rfl⟩, ?_, ?_⟩
  · simp only [straightStellarator, abs_one]; norm_num
  · have h7 : HasDerivAt (fun t => (α t).1) (v (α y)).1 y := hd1.fst
    refine h7.congr_deriv ?_
    simp only [straightStellarator, FieldFns.Rmaj, one_mul, div_one, v]
    rw [htime y hy]
    exact ex.symm
  · have h7 : HasDerivAt (fun t => (α t).2.1) (v (α y)).2.1 y := hd1.snd.fst
    refine h7.congr_deriv ?_
    simp only [straightStellarator, FieldFns.Rmaj, one_mul, div_one, v]
    rw [htime y hy]
    exact ez.symm

/-- A line near the axis of the default stellarator: radius 0.8, period pi, current 0.05. -/
example : ∃ ε > 0, ∃ x z : ℝ → ℝ, x 0 = 1 / 10 ∧ z 0 = 0 ∧ FieldLineOn (straightStellarator 0 0 (4 / 5) π (1 / 20)) (Set.Icc 0 (0 + ε)) x z ∧
    ∀ y ∈ Set.Icc 0 (0 + ε), (x y - 0) ^ 2 + (z y - 0) ^ 2 ≤ 3 * ((1 / 10 - 0) ^ 2 + (0 - 0) ^ 2) := by
  obtain ⟨ε, hε, x, z, hx, hz, h, _⟩ := stell_line_exists 0 0 (4 / 5) π (1 / 20) (1 / 10) 0 0
    (coilA_small 0 0 (4 / 5) π (1 / 20) (1 / 10) 0 0 (by norm_num)).1
  refine ⟨ε, hε, x, z, hx, hz, h, ?_⟩
  have h1 := C246_confined 0 0 (4 / 5) π (1 / 20) pi_ne_zero (by rw [abs_of_pos pi_pos, abs_of_pos (by norm_num)]; nlinarith [pi_pos]) x z 0 (0 + ε) 0 h
    ⟨le_refl _, by linarith⟩ (by rw [hx, hz]; norm_num)
  rw [hx, hz] at h1
  exact h1

end Zoidberg
