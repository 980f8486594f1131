import Verif.Props.RzDistance
import Verif.Props.RzCircle
import Mathlib.Tactic.Positivity
import Mathlib.Tactic.FieldSimp

/-!
# C283: the length of a circle

`distance` along a circle: close to the arc length if the splines are close to the circle, and the
length of the polygon for straight segments.
-/

set_option linter.unusedSectionVars false

namespace Zoidberg

open Real

/-- The length of a vector close to another one. -/
theorem sqrt_near (a b c d δ : ℝ) (hδ : 0 ≤ δ) (h : (a - c) ^ 2 + (b - d) ^ 2 ≤ δ ^ 2) :
    |√(a ^ 2 + b ^ 2) - √(c ^ 2 + d ^ 2)| ≤ δ := by
  have key : ∀ a b c d : ℝ, (a - c) ^ 2 + (b - d) ^ 2 ≤ δ ^ 2 →
      √(a ^ 2 + b ^ 2) ≤ √(c ^ 2 + d ^ 2) + δ := by
    intro a b c d h
    have hs : 0 ≤ √(c ^ 2 + d ^ 2) := Real.sqrt_nonneg _
    rw [Real.sqrt_le_iff]
    refine ⟨by positivity, ?_⟩
    have hq := Real.sq_sqrt (show 0 ≤ c ^ 2 + d ^ 2 by positivity)
    have hin : (a - c) * c + (b - d) * d ≤ √(c ^ 2 + d ^ 2) * δ := by
      refine le_of_abs_le (abs_le_of_sq_le_sq ?_ (by positivity))
      have : ((a - c) * c + (b - d) * d) ^ 2 ≤ ((a - c) ^ 2 + (b - d) ^ 2) * (c ^ 2 + d ^ 2) := by
        nlinarith [sq_nonneg ((a - c) * d - (b - d) * c)]
      rw [mul_pow, hq]
      nlinarith [show 0 ≤ c ^ 2 + d ^ 2 by positivity]
    nlinarith
  rw [abs_le]
  constructor
  · have := key c d a b (by nlinarith)
    linarith
  · have := key a b c d h
    linarith

/-- **C283.** A line with `n` control points whose derivative is everywhere within `δ` of that of a
circle with radius `r`: the distance to each control point is within `2 π δ i / n` of the length of
the arc, and the distances grow if `δ < |r|`. -/
theorem C283_near (e : RzEnv ℝ) (hpi : e.pi = π) (hsq : e.sqrt = Real.sqrt) (l : RZLine ℝ)
    (ho : l.order ≠ 1) (hn : 0 < l.pts.length) (sample : ℕ) (hs : 1 ≤ sample) (r δ : ℝ) (hδ : 0 ≤ δ)
    (hd : ∀ t, ((l.value π t 1).1 - -(r * sin t)) ^ 2 + ((l.value π t 1).2 - r * cos t) ^ 2 ≤ δ ^ 2) :
    ∃ d, l.distance e sample none = .ok d ∧ d.length = l.pts.length + 1 ∧ d.getD 0 0 = 0 ∧
      (∀ i ≤ l.pts.length, |d.getD i 0 - 2 * π * |r| * ((i : ℝ) / l.pts.length)| ≤
        2 * π * δ * ((i : ℝ) / l.pts.length)) ∧
      (δ < |r| → ∀ i < l.pts.length, d.getD i 0 < d.getD (i + 1) 0) := by
  obtain ⟨d, h1, h2, h3, h4⟩ := C56_spline e l ho hn sample hs none (fun v h => by cases h) _ (fun j => rfl)
  have hv : ∀ t, |e.sqrt ((l.value e.pi t 1).1 ^ 2 + (l.value e.pi t 1).2 ^ 2) - (|r|)| ≤ δ := by
    intro t
    rw [hsq, hpi]
    have := sqrt_near _ _ _ _ δ hδ (hd t)
    have e1 : (-(r * sin t)) ^ 2 + (r * cos t) ^ 2 = r ^ 2 := by
      linear_combination r ^ 2 * Real.sin_sq_add_cos_sq t
    rwa [e1, Real.sqrt_sq_eq_abs] at this
  have hN : (0 : ℝ) < l.pts.length := by exact_mod_cast hn
  have hS : (0 : ℝ) < sample := by exact_mod_cast hs
  set N := l.pts.length with hNd
  have hstep : ∀ i < N, |d.getD (i + 1) 0 - d.getD i 0 - 2 * π * |r| / N| ≤ 2 * π * δ / N := by
    intro i hi
    rw [h4 i hi]
    have es : (2 * π * |r| / N : ℝ) = ∑ _j ∈ Finset.range sample, 2 * π / ((sample * N : ℕ) : ℝ) * |r| := by
      rw [Finset.sum_const, Finset.card_range, nsmul_eq_mul]
      push_cast
      field_simp
    have es2 : (2 * π * δ / N : ℝ) = ∑ _j ∈ Finset.range sample, 2 * π / ((sample * N : ℕ) : ℝ) * δ := by
      rw [Finset.sum_const, Finset.card_range, nsmul_eq_mul]
      push_cast
      field_simp
    rw [es, es2, ← Finset.sum_sub_distrib]
    refine (Finset.abs_sum_le_sum_abs _ _).trans (Finset.sum_le_sum fun j _ => ?_)
    have hw : ∀ f : ℝ, weightOf (none : Option (List ℝ)) f = 1 := fun _ => rfl
    rw [hw, hw, mul_one, mul_one]
    have a1 := hv (((i * sample + j + 1 : ℕ) : ℝ) * (2 * e.pi / ((sample * N : ℕ) : ℝ)))
    have a2 := hv (((i * sample + j : ℕ) : ℝ) * (2 * e.pi / ((sample * N : ℕ) : ℝ)))
    generalize e.sqrt _ = s1 at *
    generalize e.sqrt _ = s2 at *
    rw [hpi]
    have hc : 0 ≤ 2 * π / ((sample * N : ℕ) : ℝ) := by have := Real.pi_pos; positivity
    generalize 2 * π / ((sample * N : ℕ) : ℝ) = c at *
    rw [show c * (s1 + s2) / 2 - c * |r| = c * (((s1 - |r|) + (s2 - |r|)) / 2) by ring, abs_mul,
      abs_of_nonneg hc]
    apply mul_le_mul_of_nonneg_left _ hc
    rw [abs_le] at a1 a2 ⊢
    constructor <;> linarith [a1.1, a1.2, a2.1, a2.2]
  refine ⟨d, h1, h2, h3, ?_, ?_⟩
  · intro i
    induction i with
    | zero => intro _; rw [h3]; simp
    | succ i ih =>
      intro hi
      have b1 := ih (by omega)
      have b2 := hstep i (by omega)
      push_cast
      rw [abs_le] at b1 b2 ⊢
      have c1 : 2 * π * |r| * (((i : ℝ) + 1) / N) = 2 * π * |r| * ((i : ℝ) / N) + 2 * π * |r| / N := by ring
      have c2 : 2 * π * δ * (((i : ℝ) + 1) / N) = 2 * π * δ * ((i : ℝ) / N) + 2 * π * δ / N := by ring
      rw [c1, c2]
      constructor <;> linarith [b1.1, b1.2, b2.1, b2.2]
  · intro hr i hi
    have b2 := (abs_le.1 (hstep i hi)).1
    have : 2 * π * δ / N < 2 * π * |r| / N := by
      have := Real.pi_pos
      gcongr
    linarith

/-- **C283.** With exact derivatives the total is `2 π |r|`. -/
theorem C283_exact (e : RzEnv ℝ) (hpi : e.pi = π) (hsq : e.sqrt = Real.sqrt) (l : RZLine ℝ)
    (ho : l.order ≠ 1) (hn : 0 < l.pts.length) (sample : ℕ) (hs : 1 ≤ sample) (r : ℝ)
    (hd : ∀ t, l.value π t 1 = (-(r * sin t), r * cos t)) :
    ∃ d, l.distance e sample none = .ok d ∧ ∀ i ≤ l.pts.length,
      d.getD i 0 = 2 * π * |r| * ((i : ℝ) / l.pts.length) := by
  obtain ⟨d, h1, -, -, h2, -⟩ := C283_near e hpi hsq l ho hn sample hs r 0 le_rfl
    (fun t => by rw [hd t]; simp)
  refine ⟨d, h1, fun i hi => ?_⟩
  have := h2 i hi
  rw [mul_zero, zero_mul] at this
  have := abs_nonpos_iff.1 this
  linarith

/-- **C283.** Straight segments: the total is the length of the regular polygon. -/
theorem C283_polygon (e : RzEnv ℝ) (hsq : e.sqrt = Real.sqrt) (l : RZLine ℝ) (ho : l.order = 1)
    (R0 r : ℝ) (n : ℕ) (hn : 0 < n) (hp : l.pts = circlePts π cos sin R0 r n) (sample : ℕ) :
    ∃ d, l.distance e sample none = .ok d ∧ d.length = n + 1 ∧
      (∀ i < n, d.getD (i + 1) 0 - d.getD i 0 = 2 * |r| * sin (π / n)) ∧
      d.getD n 0 = 2 * n * |r| * sin (π / n) := by
  obtain ⟨d, h1, h2, h3, h4, h5⟩ := C56_polygon e l ho sample none (fun v h => by cases h)
  have hl : l.pts.length = n := by rw [hp, circlePts_length]
  have hw : ∀ f : ℝ, weightOf (none : Option (List ℝ)) f = 1 := fun _ => rfl
  have hN : (1 : ℝ) ≤ n := by exact_mod_cast hn
  have hsin : 0 ≤ sin (π / n) := by
    apply Real.sin_nonneg_of_nonneg_of_le_pi
    · have := Real.pi_pos; positivity
    · exact div_le_self Real.pi_pos.le hN
  have hseg : ∀ i < n, e.sqrt (((ptAt l.pts i).1 - (ptAt l.pts (i + 1)).1) ^ 2 +
      ((ptAt l.pts i).2 - (ptAt l.pts (i + 1)).2) ^ 2) * weightOf (none : Option (List ℝ)) ((i : ℝ) / (l.pts.length : ℝ)) =
      2 * |r| * sin (π / n) := by
    intro i hi
    rw [hw, mul_one, hsq]
    have hc1 : ptAt l.pts i = onCircle R0 r n i := by
      unfold ptAt
      rw [hp, circlePts_length, Nat.mod_eq_of_lt hi, circlePts_getD R0 r hi]
    have hc2 : ptAt l.pts (i + 1) = onCircle R0 r n (i + 1) := by
      unfold ptAt
      rw [hp, circlePts_length, circlePts_next R0 r hi]
    rw [hc1, hc2]
    unfold onCircle
    set t := 2 * π * (i : ℝ) / n + π / n with ht
    have ea : 2 * π * (i : ℝ) / n = t - π / n := by rw [ht]; ring
    have eb : 2 * π * ((i + 1 : ℕ) : ℝ) / n = t + π / n := by rw [ht]; push_cast; ring
    rw [ea, eb]
    clear_value t
    have e3 : (R0 + r * cos (t - π / n) - (R0 + r * cos (t + π / n))) ^ 2 +
        (r * sin (t - π / n) - r * sin (t + π / n)) ^ 2 = (2 * |r| * sin (π / n)) ^ 2 := by
      rw [cos_add, cos_sub, sin_add, sin_sub, mul_pow, mul_pow, sq_abs]
      linear_combination 4 * r ^ 2 * sin (π / n) ^ 2 * Real.sin_sq_add_cos_sq t
    dsimp only
    rw [e3, Real.sqrt_sq (by positivity)]
  rw [hl] at h2 h4 h5
  refine ⟨d, h1, h2, fun i hi => ?_, ?_⟩
  · rw [h4 i hi, ← hseg i hi, hl]
  · have hsum := Finset.sum_congr (rfl : Finset.range n = Finset.range n) (fun i hi => hseg i (by simpa using hi))
    rw [hl] at hsum
    rw [h5, hsum, Finset.sum_const, Finset.card_range, nsmul_eq_mul]
    ring

/-- **C283.** The line made by `circle`: the distance of the last point is within `2 π δ` of the
circumference if the derivative of the splines is within `δ` of that of the circle. -/
theorem C283_circle (e : RzEnv ℝ) (hpi : e.pi = π) (hsq : e.sqrt = Real.sqrt) (R0 r : ℝ) (hr : r ≠ 0)
    (n : ℕ) (hn : 3 ≤ n) (l : RZLine ℝ) (h : circle e cos sin R0 r n = .ok l) (sample : ℕ)
    (hs : 1 ≤ sample) (δ : ℝ) (hδ : 0 ≤ δ)
    (hd : ∀ t, ((l.value π t 1).1 - -(r * sin t)) ^ 2 + ((l.value π t 1).2 - r * cos t) ^ 2 ≤ δ ^ 2) :
    ∃ d, l.distance e sample none = .ok d ∧ d.length = n + 1 ∧ d.getD 0 0 = 0 ∧
      |d.getD n 0 - 2 * π * (|r|)| ≤ 2 * π * δ ∧ (δ < |r| → ∀ i < n, d.getD i 0 < d.getD (i + 1) 0) := by
  obtain ⟨hl, -⟩ := C123_circle e hpi R0 r hr n hn l h
  have ho : l.order ≠ 1 := by
    unfold circle RZLine.ofPts at h
    rw [if_pos rfl] at h
    by_cases h0 : orient (circlePts e.pi cos sin R0 r n) = 0
    · rw [if_pos h0] at h; cases h
    · rw [if_neg h0] at h
      dsimp only at h
      generalize (if orient (circlePts e.pi cos sin R0 r n) > 0 then (circlePts e.pi cos sin R0 r n).reverse
        else circlePts e.pi cos sin R0 r n) = q at h
      by_cases h1 : ¬ orient q < 0
      · rw [if_pos h1] at h; cases h
      · rw [if_neg h1] at h
        rw [(build_order h).1]
        decide
  obtain ⟨d, h1, h2, h3, h4, h5⟩ := C283_near e hpi hsq l ho (by omega) sample hs r δ hδ hd
  rw [hl] at h2 h4 h5
  refine ⟨d, h1, h2, h3, ?_, h5⟩
  have := h4 n le_rfl
  have hN : (n : ℝ) ≠ 0 := by exact_mod_cast (by omega : n ≠ 0)
  rwa [div_self hN, mul_one, mul_one] at this

/-- Exact derivatives: `RZLine.value` takes the angle modulo `2 π`, so the hypothesis of
`C283_exact` holds for splines with the derivative of the circle. -/
example (t : ℝ) : (⟨[(2, 0), (1, 1), (0, 0), (1, -1)], 3, fun _ t => -(1 * sin t), fun _ t => 1 * cos t⟩ :
    RZLine ℝ).value π t 1 = (-(1 * sin t), 1 * cos t) := by
  have h : npRem t (2 * π) = t - ⌊t / (2 * π)⌋ * (2 * π) := by
    unfold npRem
    ring
  unfold RZLine.value
  dsimp only
  rw [h, Real.sin_sub_int_mul_two_pi, Real.cos_sub_int_mul_two_pi]

end Zoidberg
