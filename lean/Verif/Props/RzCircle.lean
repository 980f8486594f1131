import Verif.Model.LineFromPoints
import Verif.Props.RzLine
import Mathlib.Analysis.SpecialFunctions.Trigonometric.Basic

/-!
# C123: circles
-/

set_option linter.unusedSectionVars false

namespace Zoidberg

open Real

/-- Point `i` of the circle. -/
noncomputable def onCircle (R0 r : ℝ) (n i : ℕ) : ℝ × ℝ :=
  (R0 + r * cos (2 * π * i / n), r * sin (2 * π * i / n))

theorem circlePts_length (R0 r : ℝ) (n : ℕ) : (circlePts π cos sin R0 r n).length = n := by
  simp [circlePts, linspaceOpen]

theorem circlePts_getD (R0 r : ℝ) {n i : ℕ} (h : i < n) :
    (circlePts π cos sin R0 r n).getD i (0, 0) = onCircle R0 r n i := by
  rw [List.getD_eq_getElem?_getD]
  have e : 0 + (i : ℝ) * ((2 * π - 0) / n) = 2 * π * i / n := by ring
  simp only [circlePts, linspaceOpen, List.map_map, List.getElem?_map, List.getElem?_range h, Option.map_some,
    Option.getD_some, Function.comp, onCircle, e]

theorem onCircle_periodic (R0 r : ℝ) {n : ℕ} (hn : n ≠ 0) (i : ℕ) : onCircle R0 r n (i + n) = onCircle R0 r n i := by
  have hn' : (n : ℝ) ≠ 0 := by exact_mod_cast hn
  have : 2 * π * ((i + n : ℕ) : ℝ) / n = 2 * π * i / n + 2 * π := by push_cast; field_simp
  unfold onCircle
  rw [this, cos_add_two_pi, sin_add_two_pi]

theorem circlePts_next (R0 r : ℝ) {n i : ℕ} (h : i < n) :
    (circlePts π cos sin R0 r n).getD ((i + 1) % n) (0, 0) = onCircle R0 r n (i + 1) := by
  rcases Nat.lt_or_ge (i + 1) n with h1 | h1
  · rw [Nat.mod_eq_of_lt h1, circlePts_getD R0 r h1]
  · have : i + 1 = 0 + n := by omega
    rw [this, onCircle_periodic R0 r (by omega), Nat.zero_add, Nat.mod_self, circlePts_getD R0 r (by omega)]

/-- The area of the polygon. -/
theorem circlePts_area (R0 r : ℝ) (n : ℕ) (hn : n ≠ 0) :
    signedArea (circlePts π cos sin R0 r n) = n / 2 * r ^ 2 * sin (2 * π / n) := by
  have hn' : (n : ℝ) ≠ 0 := by exact_mod_cast hn
  unfold signedArea
  rw [circlePts_length]
  have h1 : ∀ i ∈ Finset.range n,
      ((circlePts π cos sin R0 r n).getD i (0, 0)).1 * ((circlePts π cos sin R0 r n).getD ((i + 1) % n) (0, 0)).2 -
        ((circlePts π cos sin R0 r n).getD ((i + 1) % n) (0, 0)).1 * ((circlePts π cos sin R0 r n).getD i (0, 0)).2 =
      R0 * (onCircle R0 r n (i + 1)).2 - R0 * (onCircle R0 r n i).2 + r ^ 2 * sin (2 * π / n) := by
    intro i hi
    rw [circlePts_getD R0 r (Finset.mem_range.1 hi), circlePts_next R0 r (Finset.mem_range.1 hi)]
    have e : 2 * π / n = 2 * π * ((i + 1 : ℕ) : ℝ) / n - 2 * π * i / n := by push_cast; field_simp; ring
    rw [e, sin_sub]
    unfold onCircle
    dsimp only
    ring
  rw [Finset.sum_congr rfl h1, Finset.sum_add_distrib, Finset.sum_sub_distrib,
    sum_shift (fun i => R0 * (onCircle R0 r n i).2) n (fun i => by rw [onCircle_periodic R0 r hn])]
  simp
  ring

/-- **C123.** The control points of `circle` are `n` points on the circle, anticlockwise, beginning at the
outboard side. -/
theorem C123_circle (e : RzEnv ℝ) (hpi : e.pi = π) (R0 r : ℝ) (hr : r ≠ 0) (n : ℕ) (hn : 3 ≤ n) (l : RZLine ℝ)
    (h : circle e cos sin R0 r n = .ok l) :
    l.pts.length = n ∧ (∀ i < n, l.pts.getD i (0, 0) = onCircle R0 r n i) ∧
      signedArea l.pts = n / 2 * r ^ 2 * sin (2 * π / n) ∧ 0 < signedArea l.pts ∧
      ∀ p ∈ l.pts, (p.1 - R0) ^ 2 + p.2 ^ 2 = r ^ 2 := by
  unfold circle at h
  rw [hpi] at h
  have hn' : (0 : ℝ) < n := by exact_mod_cast (by omega : 0 < n)
  have ha := circlePts_area R0 r n (by omega)
  have hpos : 0 < signedArea (circlePts π cos sin R0 r n) := by
    rw [ha]
    have h3 : (3 : ℝ) ≤ n := by exact_mod_cast hn
    have : 0 < sin (2 * π / n) := by
      apply sin_pos_of_pos_of_lt_pi
      · have := pi_pos; positivity
      · rw [div_lt_iff₀ hn']
        nlinarith [pi_pos]
    positivity
  have hl : l.pts = circlePts π cos sin R0 r n := by
    obtain ⟨h1, h2⟩ := C54_anticlockwise e _ _ _ _ h
    rcases h2 with h2 | h2
    · exact h2
    · rw [h2, signedArea_reverse] at h1
      linarith
  rw [hl]
  refine ⟨circlePts_length R0 r n, fun i hi => circlePts_getD R0 r hi, ha, hpos, ?_⟩
  intro p hp
  simp only [circlePts, List.mem_map] at hp
  obtain ⟨t, -, rfl⟩ := hp
  have := sin_sq_add_cos_sq t
  linear_combination r ^ 2 * this

/-- **C123.** One or two points, or radius zero, are an `AssertionError`. -/
theorem C123_degenerate (e : RzEnv ℝ) (hpi : e.pi = π) (R0 r : ℝ) (n : ℕ) (h : n = 1 ∨ n = 2 ∨ (n ≠ 0 ∧ r = 0)) :
    circle e cos sin R0 r n = .error (.assertion "A != 0") := by
  unfold circle
  rw [hpi]
  apply C54_zero
  rcases h with rfl | rfl | ⟨h, rfl⟩
  · rw [circlePts_area _ _ _ (by norm_num)]; simp
  · rw [circlePts_area _ _ _ (by norm_num)]; simp
  · rw [circlePts_area _ _ _ h]; simp

/-- **C123.** Without elongation, triangularity and indentation `shaped_line` is `circle`. -/
theorem C123_shaped (e : RzEnv ℝ) (R0 a : ℝ) (n : ℕ) : shapedLine e cos sin R0 a 0 0 0 n = circle e cos sin R0 a n := by
  unfold shapedLine circle shapedPts circlePts
  simp

/-- A circle for splines that never fail. -/
example : ∃ l, circle ⟨π, Real.sqrt, fun _ _ _ => .ok fun _ _ => 0⟩ cos sin 2 1 5 = .ok l ∧
    l.pts.getD 0 (0, 0) = (3, 0) := by
  have ha := circlePts_area 2 1 5 (by norm_num)
  have hs : 0 < sin (2 * π / (5 : ℕ)) := by
    apply sin_pos_of_pos_of_lt_pi
    · have := pi_pos; positivity
    · rw [div_lt_iff₀ (by norm_num)]; push_cast; nlinarith [pi_pos]
  have hd : (0 : ℝ) < signedArea (circlePts π cos sin 2 1 5) := by rw [ha]; push_cast; push_cast at hs; linarith
  have h := C54_direction (⟨π, Real.sqrt, fun _ _ _ => .ok fun _ _ => 0⟩ : RzEnv ℝ) (circlePts π cos sin 2 1 5) none none hd.ne'
  rw [if_pos hd] at h
  have hne : circlePts π cos sin 2 1 5 ≠ [] := by
    intro h0
    have := circlePts_length 2 1 5
    rw [h0] at this
    cases this
  have hb : ∃ l, RZLine.build (⟨π, Real.sqrt, fun _ _ _ => .ok fun _ _ => 0⟩ : RzEnv ℝ) (circlePts π cos sin 2 1 5) none none
      = .ok l := by
    unfold RZLine.build
    dsimp only
    rw [if_neg hne]
    exact ⟨_, rfl⟩
  obtain ⟨l, hl⟩ := hb
  have hc : circle ⟨π, Real.sqrt, fun _ _ _ => .ok fun _ _ => 0⟩ cos sin 2 1 5 = .ok l := by
    unfold circle; rw [h, hl]
  refine ⟨l, hc, ?_⟩
  rw [(C123_circle _ rfl 2 1 one_ne_zero 5 (by norm_num) l hc).2.1 0 (by norm_num)]
  unfold onCircle
  norm_num

end Zoidberg
