import Verif.Props.SmoothLoop
import Mathlib.Analysis.SpecialFunctions.Trigonometric.Basic
import Mathlib.Analysis.Real.Sqrt
import Mathlib.Tactic.LinearCombination
import Mathlib.Tactic.FieldSimp
import Mathlib.Tactic.Positivity

/-!
# C284, C285: what `find_outliers` measures

`find_outliers` compares the angle at the *last* of three points, which is half of the angle by
which the line turns if the distances are equal (C285).  On a circle all points are outliers or
none is (C284).
-/

set_option linter.unusedSectionVars false

namespace Zoidberg

open Real

/-- Point `i` of the closed line through the points, for every integer. -/
def closedPt (r z : List ℝ) (i : ℤ) : ℝ × ℝ :=
  (r.getD (i % (r.length : ℤ)).toNat 0, z.getD (i % (z.length : ℤ)).toNat 0)

theorem npGet_closed (a : List ℝ) (i : ℤ) (h1 : -(a.length : ℤ) ≤ i) (h2 : i < a.length) :
    npGet a i = .ok (a.getD (i % (a.length : ℤ)).toNat 0) := by
  unfold npGet pyIndex
  by_cases h : 0 ≤ i
  · rw [if_pos h, if_pos h2, Int.emod_eq_of_lt h h2]
  · rw [if_neg h, if_pos h1]
    have : i % (a.length : ℤ) = i + a.length := by
      rw [← Int.add_emod_right, Int.emod_eq_of_lt (by omega) (by omega)]
    rw [this]

/-- The direction of the line from the point `b` before to the point. -/
def dirIn (r z : List ℝ) (b : ℕ) (i : ℤ) : ℝ × ℝ :=
  ((closedPt r z i).1 - (closedPt r z (i - b)).1, (closedPt r z i).2 - (closedPt r z (i - b)).2)

/-- Length of a vector. -/
noncomputable def vlen (u : ℝ × ℝ) : ℝ := √(u.1 ^ 2 + u.2 ^ 2)

/-- Cosine of the angle by which the line turns at point `i`, between the directions from the
point `b` before and to the point `b` after. -/
noncomputable def turnCos (r z : List ℝ) (b : ℕ) (i : ℤ) : ℝ :=
  ((dirIn r z b i).1 * (dirIn r z b (i + b)).1 + (dirIn r z b i).2 * (dirIn r z b (i + b)).2) /
    (vlen (dirIn r z b i) * vlen (dirIn r z b (i + b)))

/-- `outlierAt` with the directions before and after the middle point. -/
theorem outlierAt_dirs (r z : List ℝ) (hl : r.length = z.length) (cutoff : ℝ) (b item : ℕ)
    (hi : item < z.length) (hb : 2 * b ≤ z.length) :
    outlierAt Real.sqrt r z cutoff b item = .ok (
      let v := dirIn r z b item
      let u := dirIn r z b ((item : ℤ) - b)
      let den := √(v.2 * v.2 + v.1 * v.1) *
        √((u.2 + v.2) * (u.2 + v.2) + (u.1 + v.1) * (u.1 + v.1))
      if den = 0 then false else decide ((v.2 * (u.2 + v.2) + v.1 * (u.1 + v.1)) / den < cutoff)) := by
  unfold outlierAt
  rw [npGet_closed z item (by omega) (by omega), npGet_closed r item (by omega) (by omega),
    npGet_closed z ((item : ℤ) - b) (by omega) (by omega),
    npGet_closed r ((item : ℤ) - b) (by omega) (by omega),
    npGet_closed z ((item : ℤ) - b * 2) (by omega) (by omega),
    npGet_closed r ((item : ℤ) - b * 2) (by omega) (by omega)]
  have e : (item : ℤ) - b * 2 = (item : ℤ) - b - b := by ring
  simp only [Except.bind, Except.map, dirIn, closedPt, e]
  have s1 : ∀ x y w : ℝ, y - w + (x - y) = x - w := fun x y w => by ring
  simp only [s1]

/-- **C285.** If the two directions have the same length, a point is an outlier exactly if the
cosine of *half* of the angle by which the line turns at the middle point is below the limit. -/
theorem C285_half_angle (r z : List ℝ) (hl : r.length = z.length) (cutoff : ℝ) (b item : ℕ)
    (hi : item < z.length) (hb : 2 * b ≤ z.length) (L : ℝ) (hL : 0 < L)
    (hu : vlen (dirIn r z b ((item : ℤ) - b)) = L) (hv : vlen (dirIn r z b item) = L) :
    outlierAt Real.sqrt r z cutoff b item = .ok true ↔
      -1 < turnCos r z b ((item : ℤ) - b) ∧ √((1 + turnCos r z b ((item : ℤ) - b)) / 2) < cutoff := by
  rw [outlierAt_dirs r z hl cutoff b item hi hb]
  have e : (item : ℤ) - b + b = item := by ring
  unfold turnCos
  rw [e]
  generalize dirIn r z b item = v at *
  generalize dirIn r z b ((item : ℤ) - b) = u at *
  rw [hu, hv]
  have hu2 : u.1 ^ 2 + u.2 ^ 2 = L ^ 2 := by
    rw [← hu, vlen, Real.sq_sqrt (by positivity)]
  have hv2 : v.1 ^ 2 + v.2 ^ 2 = L ^ 2 := by
    rw [← hv, vlen, Real.sq_sqrt (by positivity)]
  set c := (u.1 * v.1 + u.2 * v.2) / (L * L) with hc
  have hd : u.1 * v.1 + u.2 * v.2 = c * L ^ 2 := by
    rw [hc]; field_simp
  have e1 : √(v.2 * v.2 + v.1 * v.1) = L := by
    rw [show v.2 * v.2 + v.1 * v.1 = L ^ 2 by rw [← hv2]; ring, Real.sqrt_sq hL.le]
  have e2 : (u.2 + v.2) * (u.2 + v.2) + (u.1 + v.1) * (u.1 + v.1) = L ^ 2 * (4 * ((1 + c) / 2)) := by
    linear_combination hu2 + hv2 + 2 * hd
  have e3 : v.2 * (u.2 + v.2) + v.1 * (u.1 + v.1) = L ^ 2 * (1 + c) := by
    linear_combination hv2 + hd
  have hc1 : -1 ≤ c := by
    have h0 : 0 ≤ L ^ 2 * (4 * ((1 + c) / 2)) := by
      rw [← e2]; exact add_nonneg (mul_self_nonneg _) (mul_self_nonneg _)
    have hLL : 0 < L ^ 2 := by positivity
    by_contra hneg
    push Not at hneg
    nlinarith
  dsimp only
  rw [e1, e2, e3]
  have e4 : √(L ^ 2 * (4 * ((1 + c) / 2))) = L * (2 * √((1 + c) / 2)) := by
    rw [Real.sqrt_mul (by positivity), Real.sqrt_sq hL.le, Real.sqrt_mul (by norm_num),
      show (4 : ℝ) = 2 ^ 2 by norm_num, Real.sqrt_sq (by norm_num)]
  rw [e4]
  by_cases h : c = -1
  · rw [h]
    simp
  · have hpos : 0 < (1 + c) / 2 := by
      have : -1 < c := lt_of_le_of_ne hc1 (Ne.symm h)
      linarith
    have hs : 0 < √((1 + c) / 2) := Real.sqrt_pos.2 hpos
    have hden : L * (L * (2 * √((1 + c) / 2))) ≠ 0 := by positivity
    rw [if_neg hden]
    have hq : L ^ 2 * (1 + c) / (L * (L * (2 * √((1 + c) / 2)))) = √((1 + c) / 2) := by
      rw [div_eq_iff hden]
      have := Real.mul_self_sqrt hpos.le
      linear_combination -2 * L ^ 2 * this
    rw [hq]
    simp only [Except.ok.injEq, decide_eq_true_eq]
    exact ⟨fun q => ⟨by linarith, q⟩, fun q => q.2⟩

/-- **C285** `_partial`: with equal lengths every point that is found is a corner in the sense of
the documentation. -/
theorem C285_found_partial (r z : List ℝ) (hl : r.length = z.length) (cutoff : ℝ) (b item : ℕ)
    (hi : item < z.length) (hb : 2 * b ≤ z.length) (L : ℝ) (hL : 0 < L)
    (hu : vlen (dirIn r z b ((item : ℤ) - b)) = L) (hv : vlen (dirIn r z b item) = L)
    (h : outlierAt Real.sqrt r z cutoff b item = .ok true) (h1 : cutoff ≤ 1) :
    turnCos r z b ((item : ℤ) - b) < cutoff := by
  obtain ⟨h2, h3⟩ := (C285_half_angle r z hl cutoff b item hi hb L hL hu hv).1 h
  set c := turnCos r z b ((item : ℤ) - b)
  refine lt_of_le_of_lt ?_ h3
  by_cases hc : c ≤ 0
  · exact hc.trans (Real.sqrt_nonneg _)
  · push Not at hc
    apply Real.le_sqrt_of_sq_le
    have h4 : (1 + c) / 2 < 1 := by
      have h5 : √((1 + c) / 2) < 1 := lt_of_lt_of_le h3 h1
      have h6 : 0 ≤ √((1 + c) / 2) := Real.sqrt_nonneg _
      have h7 := Real.mul_self_sqrt (show 0 ≤ (1 + c) / 2 by linarith)
      nlinarith
    nlinarith

/-- **C285** fails for every limit between 0 and 1: there is a line of three points with a corner
whose cosine is below the limit, that is not found. -/
theorem C285_fails (k : ℝ) (h0 : 0 < k) (h1 : k < 1) :
    ∃ r z : List ℝ, r.length = 3 ∧ z.length = 3 ∧ vlen (dirIn r z 1 1) = 1 ∧ vlen (dirIn r z 1 2) = 1 ∧
      turnCos r z 1 1 < k ∧ outlierAt Real.sqrt r z k 1 2 = .ok false := by
  set c := 2 * k ^ 2 - 1 with hc
  have hc2 : 0 ≤ 1 - c ^ 2 := by
    have e : 1 - c ^ 2 = 4 * k ^ 2 * (1 - k ^ 2) := by rw [hc]; ring
    rw [e]
    have : k ^ 2 ≤ 1 := by nlinarith
    exact mul_nonneg (by positivity) (by linarith)
  have hcs : √(1 - c ^ 2) ^ 2 = 1 - c ^ 2 := Real.sq_sqrt hc2
  have l1 : vlen (dirIn [0, 1, 1 + c] [0, 0, √(1 - c ^ 2)] 1 1) = 1 := by
    simp [vlen, dirIn, closedPt]
  have l2 : vlen (dirIn [0, 1, 1 + c] [0, 0, √(1 - c ^ 2)] 1 2) = 1 := by
    simp [vlen, dirIn, closedPt]
    rw [hcs]
    ring
  have ht : turnCos [0, 1, 1 + c] [0, 0, √(1 - c ^ 2)] 1 1 = c := by
    unfold turnCos
    rw [show (1 : ℤ) + ((1 : ℕ) : ℤ) = 2 by norm_num, l1, l2]
    simp [dirIn, closedPt]
  refine ⟨[0, 1, 1 + c], [0, 0, √(1 - c ^ 2)], rfl, rfl, l1, l2, ?_, ?_⟩
  · rw [ht, hc]
    nlinarith
  · have hn : ¬ outlierAt Real.sqrt [0, 1, 1 + c] [0, 0, √(1 - c ^ 2)] k 1 2 = .ok true := by
      rw [C285_half_angle [0, 1, 1 + c] [0, 0, √(1 - c ^ 2)] rfl k 1 2 (by simp) (by simp) 1 one_pos (by norm_num; exact l1)
        (by exact_mod_cast l2)]
      have e : ((2 : ℕ) : ℤ) - ((1 : ℕ) : ℤ) = 1 := by norm_num
      rw [e, ht]
      rintro ⟨-, q⟩
      have : (1 + c) / 2 = k ^ 2 := by rw [hc]; ring
      rw [this, Real.sqrt_sq h0.le] at q
      exact lt_irrefl _ q
    rw [outlierAt_dirs [0, 1, 1 + c] [0, 0, √(1 - c ^ 2)] rfl k 1 2 (by simp) (by simp)] at hn ⊢
    simpa using hn

/-- The numbers of the test: with `cutoff = 0.75` a corner of 60 degrees (cosine 1/2) is not
found, one of 90 degrees (cosine 0) is. -/
example : ¬ (√((1 + 1 / 2 : ℝ) / 2) < 3 / 4) ∧ √((1 + 0 : ℝ) / 2) < 3 / 4 := by
  constructor
  · rw [not_lt]
    apply Real.le_sqrt_of_sq_le
    norm_num
  · rw [Real.sqrt_lt' (by norm_num)]
    norm_num

/-! ### points on a circle -/

/-- The first coordinates of `m` points evenly spaced on a circle. -/
noncomputable def circR (R0 ρ : ℝ) (m : ℕ) : List ℝ :=
  (List.range m).map fun i : ℕ => R0 + ρ * cos (2 * π * (i : ℝ) / m)

/-- The second coordinates. -/
noncomputable def circZ (Z0 ρ : ℝ) (m : ℕ) : List ℝ :=
  (List.range m).map fun i : ℕ => Z0 + ρ * sin (2 * π * (i : ℝ) / m)

theorem circR_length (R0 ρ : ℝ) (m : ℕ) : (circR R0 ρ m).length = m := by simp [circR]

theorem circZ_length (Z0 ρ : ℝ) (m : ℕ) : (circZ Z0 ρ m).length = m := by simp [circZ]

theorem closedPt_circ (R0 Z0 ρ : ℝ) (m : ℕ) (hm : 0 < m) (i : ℤ) :
    closedPt (circR R0 ρ m) (circZ Z0 ρ m) i =
      (R0 + ρ * cos (2 * π * (i : ℝ) / m), Z0 + ρ * sin (2 * π * (i : ℝ) / m)) := by
  unfold closedPt
  rw [circR_length, circZ_length]
  have hmz : (0 : ℤ) < m := by omega
  have h0 := Int.emod_nonneg i hmz.ne'
  have h1 := Int.emod_lt_of_pos i hmz
  obtain ⟨k, hk⟩ := Int.eq_ofNat_of_zero_le h0
  have hkm : k < m := by omega
  have hi : (i : ℝ) = k + m * (i / m : ℤ) := by
    have := Int.emod_add_mul_ediv i m
    rw [hk] at this
    exact_mod_cast this.symm
  have hmr : (m : ℝ) ≠ 0 := by exact_mod_cast hm.ne'
  have ha : 2 * π * (i : ℝ) / m = 2 * π * (k : ℝ) / m + (i / m : ℤ) * (2 * π) := by
    rw [hi]; field_simp
  rw [hk, Int.toNat_natCast, ha, Real.cos_add_int_mul_two_pi, Real.sin_add_int_mul_two_pi]
  unfold circR circZ
  rw [List.getD_eq_getElem _ _ (by simpa using hkm), List.getD_eq_getElem _ _ (by simpa using hkm)]
  simp

theorem dirIn_circ (R0 Z0 ρ : ℝ) (m : ℕ) (hm : 0 < m) (b : ℕ) (i : ℤ) :
    dirIn (circR R0 ρ m) (circZ Z0 ρ m) b i =
      (2 * ρ * sin (π * b / m) * -sin (2 * π * (i : ℝ) / m - π * b / m),
        2 * ρ * sin (π * b / m) * cos (2 * π * (i : ℝ) / m - π * b / m)) := by
  unfold dirIn
  rw [closedPt_circ R0 Z0 ρ m hm, closedPt_circ R0 Z0 ρ m hm]
  set h := π * b / m with hh
  set t := 2 * π * (i : ℝ) / m - h with ht
  have e1 : 2 * π * (i : ℝ) / m = t + h := by rw [ht]; ring
  have e2 : 2 * π * ((i - b : ℤ) : ℝ) / m = t - h := by
    rw [ht, hh]; push_cast; ring
  rw [e1, e2]
  clear_value t h
  rw [cos_add, cos_sub, sin_add, sin_sub]
  ext <;> dsimp only <;> ring

theorem sin_chord_pos (m b : ℕ) (hb : 1 ≤ b) (hbm : b < m) : 0 < sin (π * b / m) := by
  have hm : (0 : ℝ) < m := by exact_mod_cast (by omega : 0 < m)
  have hb0 : (0 : ℝ) < b := by exact_mod_cast hb
  have hlt : (b : ℝ) < m := by exact_mod_cast hbm
  apply Real.sin_pos_of_pos_of_lt_pi
  · have := Real.pi_pos; positivity
  · rw [div_lt_iff₀ hm]
    exact mul_lt_mul_of_pos_left hlt Real.pi_pos

theorem vlen_circ (R0 Z0 ρ : ℝ) (hρ : 0 < ρ) (m b : ℕ) (hb : 1 ≤ b) (hbm : b < m) (i : ℤ) :
    vlen (dirIn (circR R0 ρ m) (circZ Z0 ρ m) b i) = 2 * ρ * sin (π * b / m) := by
  have hs := sin_chord_pos m b hb hbm
  rw [dirIn_circ R0 Z0 ρ m (by omega), vlen]
  have e : ∀ s c t : ℝ, s ^ 2 + c ^ 2 = 1 → (t * -s) ^ 2 + (t * c) ^ 2 = t ^ 2 := fun s c t h => by
    linear_combination t ^ 2 * h
  dsimp only
  rw [e _ _ _ (Real.sin_sq_add_cos_sq _), Real.sqrt_sq (by positivity)]

theorem turnCos_circ (R0 Z0 ρ : ℝ) (hρ : 0 < ρ) (m b : ℕ) (hb : 1 ≤ b) (hbm : b < m) (i : ℤ) :
    turnCos (circR R0 ρ m) (circZ Z0 ρ m) b i = cos (2 * (π * b / m)) := by
  have hs := sin_chord_pos m b hb hbm
  unfold turnCos
  rw [vlen_circ R0 Z0 ρ hρ m b hb hbm, vlen_circ R0 Z0 ρ hρ m b hb hbm,
    dirIn_circ R0 Z0 ρ m (by omega), dirIn_circ R0 Z0 ρ m (by omega)]
  have hne : 2 * ρ * sin (π * b / m) * (2 * ρ * sin (π * b / m)) ≠ 0 := by positivity
  rw [div_eq_iff hne]
  set h := π * b / m with hh
  set t := 2 * π * (i : ℝ) / m - h with ht
  have e2 : 2 * π * ((i + b : ℤ) : ℝ) / m - h = t + 2 * h := by
    rw [ht, hh]; push_cast; ring
  rw [e2, cos_add, sin_add]
  dsimp only
  linear_combination (2 * ρ * sin h) ^ 2 * cos (2 * h) * Real.sin_sq_add_cos_sq t

/-- **C284.** On a circle a point is an outlier at the distance `b` exactly if the cosine of the
angle `π b / m` is below the limit; this does not depend on the point. -/
theorem C284_iff (R0 Z0 ρ : ℝ) (hρ : 0 < ρ) (m b : ℕ) (hb : 1 ≤ b) (hbm : 2 * b < m) (cutoff : ℝ)
    (item : ℕ) (hi : item < m) :
    outlierAt Real.sqrt (circR R0 ρ m) (circZ Z0 ρ m) cutoff b item = .ok true ↔
      cos (π * b / m) < cutoff := by
  have hs := sin_chord_pos m b hb (by omega)
  rw [C285_half_angle (circR R0 ρ m) (circZ Z0 ρ m) (by rw [circR_length, circZ_length]) cutoff b item
    (by rw [circZ_length]; exact hi) (by rw [circZ_length]; omega) (2 * ρ * sin (π * b / m))
    (by positivity) (vlen_circ R0 Z0 ρ hρ m b hb (by omega) _) (vlen_circ R0 Z0 ρ hρ m b hb (by omega) _),
    turnCos_circ R0 Z0 ρ hρ m b hb (by omega)]
  have hm : (0 : ℝ) < m := by exact_mod_cast (by omega : 0 < m)
  have hb0 : (0 : ℝ) < b := by exact_mod_cast hb
  have hlt : 2 * (b : ℝ) < m := by exact_mod_cast hbm
  have hpos : 0 < cos (π * b / m) := by
    apply Real.cos_pos_of_mem_Ioo
    constructor
    · have := Real.pi_pos
      have : 0 < π * b / m := by positivity
      linarith
    · rw [div_lt_iff₀ hm]
      nlinarith [Real.pi_pos]
  have e : (1 + cos (2 * (π * b / m))) / 2 = cos (π * b / m) ^ 2 := by
    rw [Real.cos_two_mul]; ring
  rw [e, Real.sqrt_sq hpos.le]
  constructor
  · exact fun h => h.2
  · intro h
    refine ⟨?_, h⟩
    rw [Real.cos_two_mul]
    nlinarith [mul_pos hpos hpos]

/-- **C284.** `find_outliers` gives all points of a circle or none. -/
theorem C284_all_or_none (R0 Z0 ρ : ℝ) (hρ : 0 < ρ) (m b : ℕ) (hb : 1 ≤ b) (hbm : 2 * b < m)
    (cutoff : ℝ) : ∃ out, findOutliers Real.sqrt (circR R0 ρ m) (circZ Z0 ρ m) cutoff b = .ok out ∧
      (cutoff ≤ cos (π * b / m) → out = []) ∧
      (cos (π * b / m) < cutoff → ∀ d : ℤ, d ∈ out ↔ -(b : ℤ) ≤ d ∧ d < (m : ℤ) - b) := by
  obtain ⟨out, ho⟩ := (C162_returns Real.sqrt (circR R0 ρ m) (circZ Z0 ρ m) cutoff b
    (by rw [circR_length, circZ_length])).2 (Or.inr (by rw [circZ_length]; omega))
  refine ⟨out, ho, fun h => ?_, fun h d => ?_⟩
  · apply List.eq_nil_iff_forall_not_mem.2
    intro d hd
    obtain ⟨item, hi, -, ht⟩ := (C162_outliers _ _ _ _ _ _ ho d).1 hd
    rw [circZ_length] at hi
    exact absurd ((C284_iff R0 Z0 ρ hρ m b hb hbm cutoff item hi).1 ht) (not_lt.2 h)
  · rw [C162_outliers _ _ _ _ _ _ ho d]
    rw [circZ_length]
    constructor
    · rintro ⟨item, hi, rfl, -⟩
      omega
    · rintro ⟨h1, h2⟩
      refine ⟨(d + b).toNat, by omega, by omega, ?_⟩
      exact (C284_iff R0 Z0 ρ hρ m b hb hbm cutoff _ (by omega)).2 h

theorem cos_chord_anti (m b c : ℕ) (hm : 0 < m) (hbc : b ≤ c) (hcm : 2 * c < m) :
    cos (π * c / m) ≤ cos (π * b / m) := by
  have hm : (0 : ℝ) < m := by exact_mod_cast hm
  have hbc' : (b : ℝ) ≤ c := by exact_mod_cast hbc
  have hlt : 2 * (c : ℝ) < m := by exact_mod_cast hcm
  apply Real.cos_le_cos_of_nonneg_of_le_pi
  · have := Real.pi_pos; positivity
  · rw [div_le_iff₀ hm]
    nlinarith [Real.pi_pos]
  · have := Real.pi_pos
    gcongr

/-- **C284.** `smooth` returns a circle unchanged if the limit is not above `cos (π bounds / m)`. -/
theorem C284_unchanged (ls : CubicSolver ℝ) (tol : ℝ) (R0 Z0 ρ : ℝ) (hρ : 0 < ρ) (m bounds : ℕ)
    (hbm : 2 * bounds < m) (cutoff : ℝ) (hc : cutoff ≤ cos (π * bounds / m)) (plot : Bool) (fuel : ℕ) :
    smoothLine Real.sqrt ls tol cutoff bounds none plot (fuel + 1) (circR R0 ρ m) (circZ Z0 ρ m) =
      .ok (circR R0 ρ m) (circZ Z0 ρ m) := by
  refine (C166_unchanged Real.sqrt ls tol cutoff bounds plot fuel _ _ ?_).1
  unfold allOutliers
  have key : ∀ l : List ℕ, (∀ b ∈ l, b < bounds) →
      (l.mapM fun b => findOutliers Real.sqrt (circR R0 ρ m) (circZ Z0 ρ m) cutoff (b + 1)) =
        .ok (l.map fun _ => []) := by
    intro l
    induction l with
    | nil => intro _; rfl
    | cons a l ih =>
      intro hl
      have ha := hl a (by simp)
      obtain ⟨out, ho, h1, -⟩ := C284_all_or_none R0 Z0 ρ hρ m (a + 1) (by omega) (by omega) cutoff
      have hz := h1 (hc.trans (cos_chord_anti m (a + 1) bounds (by omega) (by omega) hbm))
      rw [List.mapM_cons, ho, ih (fun b hb => hl b (by simp [hb])), hz]
      rfl
  rw [key _ (fun b hb => by simpa using hb)]
  simp [Except.map]

/-- The default limits with 60 points: the circle is not changed. -/
example (ls : CubicSolver ℝ) (tol : ℝ) :
    smoothLine Real.sqrt ls tol (3 / 4) 10 none false 5 (circR 3 1 60) (circZ 0 1 60) =
      .ok (circR 3 1 60) (circZ 0 1 60) := by
  apply C284_unchanged ls tol 3 0 1 one_pos 60 10 (by norm_num)
  rw [show π * ((10 : ℕ) : ℝ) / ((60 : ℕ) : ℝ) = π / 6 by push_cast; ring, Real.cos_pi_div_six]
  have : (3 / 2 : ℝ) ≤ √3 := Real.le_sqrt_of_sq_le (by norm_num)
  linarith

/-- With 30 points each of them is an outlier at distance 10. -/
example : cos (π * ((10 : ℕ) : ℝ) / ((30 : ℕ) : ℝ)) < 3 / 4 := by
  rw [show π * ((10 : ℕ) : ℝ) / ((30 : ℕ) : ℝ) = π / 3 by push_cast; ring, Real.cos_pi_div_three]
  norm_num

end Zoidberg
