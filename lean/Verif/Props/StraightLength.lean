import Verif.Props.FieldLineLength
import Mathlib.Analysis.SpecialFunctions.Trigonometric.Bounds
import Mathlib.Data.List.GetD
import Mathlib.Tactic.Linarith
import Mathlib.Tactic.LinearCombination

/-!
# C280: the length of straight field lines
-/

set_option linter.unusedSectionVars false

namespace Zoidberg

open Real

/-- The points of the trace are on a straight line, one after the other. -/
def StraightTrace (rz : List (ℝ × ℝ)) (ys : List ℝ) : Prop :=
  ∃ (P V : ℝ × ℝ × ℝ) (t : ℕ → ℝ), (∀ i, i + 1 < ys.length → t i ≤ t (i + 1)) ∧ ∀ i < ys.length, cartesian rz ys i = (P.1 + t i * V.1, P.2.1 + t i * V.2.1, P.2.2 + t i * V.2.2)

/-- **C280**, the claim: the length of a straight field line is the distance of its ends. -/
def StraightExact (spline : List ℝ → List ℝ → Except Err (ℝ → ℝ)) (refine : ℕ) : Prop :=
  ∀ rz ys L, StraightTrace rz ys → fieldLineLength (realLen spline) rz ys refine = .ok L → L = chord (cartesian rz ys 0) (cartesian rz ys (ys.length - 1))

/-- **C280.** Without refinement the length is that of the polygon through the points, whatever the splines do between them. -/
theorem C280_polygon (spline) (hs : Interpolates spline) (rz : List (ℝ × ℝ)) (ys : List ℝ) (L : ℝ) (h : fieldLineLength (realLen spline) rz ys 1 = .ok L) :
    L = ∑ k ∈ Finset.range (ys.length - 1), chord (cartesian rz ys k) (cartesian rz ys (k + 1)) := by
  unfold fieldLineLength at h
  cases hp : finePath (realLen spline) rz ys 1 with
  | error x => rw [hp] at h; cases h
  | ok p =>
    rw [hp] at h
    simp only [Except.map, Except.ok.injEq] at h
    obtain ⟨yi, R, Z, h1, h2, h3, h4⟩ := finePath_fn hp
    rw [← h, h4, pathLen_fn]
    rcases Nat.lt_or_ge ys.length 2 with hl | hl
    · rw [show ys.length - 1 = 0 by omega]; simp
    · have hnode : ∀ k < ys.length, finePoint (realLen spline) R Z (yi (if (ys.length - 1) * 1 + 1 = 1 then 0 else
          0 + (k : ℝ) * ((1 - 0) / ((((ys.length - 1) * 1 + 1 : ℕ) : ℝ) - 1)))) = cartesian rz ys k := by
        intro k hk
        have hy : yi (0 + (k : ℝ) * ((1 - 0) / ((((ys.length - 1) * 1 + 1 : ℕ) : ℝ) - 1))) = ys.getD k 0 := by
          have h5 := hs _ _ _ h1 k (by simpa [linspaceClosed] using hk)
          rw [fine_linspace_getD hk, if_neg (by omega)] at h5
          rw [← h5, show (ys.length - 1) * 1 + 1 = ys.length by omega]
        have hR := hs _ _ _ h2 k hk
        have hZ := hs _ _ _ h3 k hk
        rw [getD_map_fst] at hR
        rw [getD_map_snd] at hZ
        rw [if_neg (by omega), hy]
        unfold finePoint cartesian realLen
        dsimp only
        rw [hR, hZ]
      rw [mul_one]
      refine Finset.sum_congr rfl fun k hk => ?_
      have := Finset.mem_range.1 hk
      rw [mul_one] at hnode
      rw [hnode k (by omega), hnode (k + 1) (by omega)]
      rfl

theorem chord_line (P V : ℝ × ℝ × ℝ) (a b : ℝ) (h : a ≤ b) :
    chord (P.1 + a * V.1, P.2.1 + a * V.2.1, P.2.2 + a * V.2.2) (P.1 + b * V.1, P.2.1 + b * V.2.1, P.2.2 + b * V.2.2) = (b - a) * √(V.1 ^ 2 + V.2.1 ^ 2 + V.2.2 ^ 2) := by
  unfold chord
  dsimp only
  rw [show (P.1 + b * V.1 - (P.1 + a * V.1)) ^ 2 + (P.2.1 + b * V.2.1 - (P.2.1 + a * V.2.1)) ^ 2 + (P.2.2 + b * V.2.2 - (P.2.2 + a * V.2.2)) ^ 2 =
    (b - a) ^ 2 * (V.1 ^ 2 + V.2.1 ^ 2 + V.2.2 ^ 2) by ring, Real.sqrt_mul (sq_nonneg _), Real.sqrt_sq (by linarith)]

/-- **C280 (partial).** Without refinement the length of a straight field line is the distance of its ends, for all points on it.  Missing: `refine` of two or more (`C280_fails`). -/
theorem C280_one_partial (spline) (hs : Interpolates spline) : StraightExact spline 1 := by
  rintro rz ys L ⟨P, V, t, hm, ht⟩ h
  rw [C280_polygon spline hs rz ys L h]
  rcases Nat.eq_zero_or_pos ys.length with h0 | h0
  · rw [h0, Finset.sum_range_zero, chord_self]
  · have hmono : ∀ n < ys.length, t 0 ≤ t n := by
      intro n
      induction n with
      | zero => intro _; exact le_rfl
      | succ n ih => intro hn; exact (ih (by omega)).trans (hm n hn)
    rw [ht 0 h0, ht (ys.length - 1) (by omega), chord_line P V _ _ (hmono _ (by omega))]
    have : ∀ n < ys.length, ∑ k ∈ Finset.range n, chord (cartesian rz ys k) (cartesian rz ys (k + 1)) = (t n - t 0) * √(V.1 ^ 2 + V.2.1 ^ 2 + V.2.2 ^ 2) := by
      intro n
      induction n with
      | zero => intro _; simp
      | succ n ih =>
        intro hn
        rw [Finset.sum_range_succ, ih (by omega), ht n (by omega), ht (n + 1) hn, chord_line P V _ _ (hm n hn)]
        ring
    exact this _ (by omega)

/-- **C280.** For every refinement: the length is the distance of the first and the last fine point exactly if the distance from the first one grows by the length of every step, that is, if
the interpolated points are on the straight line one after the other. -/
theorem C280_iff (spline) (rz : List (ℝ × ℝ)) (ys : List ℝ) (refine : ℕ) (p : List (ℝ × ℝ × ℝ)) (hp : finePath (realLen spline) rz ys refine = .ok p) :
    fieldLineLength (realLen spline) rz ys refine = .ok (chord (p.getD 0 (0, 0, 0)) (p.getD (p.length - 1) (0, 0, 0))) ↔
      ∀ i, i + 1 < p.length → chord (p.getD 0 (0, 0, 0)) (p.getD i (0, 0, 0)) + chord (p.getD i (0, 0, 0)) (p.getD (i + 1) (0, 0, 0)) = chord (p.getD 0 (0, 0, 0)) (p.getD (i + 1) (0, 0, 0)) := by
  have e : fieldLineLength (realLen spline) rz ys refine = .ok (∑ i ∈ Finset.range (p.length - 1), chord (p.getD i (0, 0, 0)) (p.getD (i + 1) (0, 0, 0))) := by
    unfold fieldLineLength
    rw [hp]
    simp only [Except.map]
    congr 1
    obtain ⟨yi, R, Z, -, -, -, h4⟩ := finePath_fn hp
    have hl : p.length = (ys.length - 1) * refine + 1 := by rw [h4]; simp
    have hg : ∀ i < p.length, p.getD i (0, 0, 0) = finePoint (realLen spline) R Z (yi (if (ys.length - 1) * refine + 1 = 1 then 0 else
          0 + (i : ℝ) * ((1 - 0) / ((((ys.length - 1) * refine + 1 : ℕ) : ℝ) - 1)))) := by
      intro i hi
      rw [List.getD_eq_getElem _ _ hi]
      simp [h4]
    rw [Finset.sum_congr rfl fun i hi => by
      have := Finset.mem_range.1 hi
      rw [hg i (by omega), hg (i + 1) (by omega)]]
    rw [h4, pathLen_fn, ← h4, hl]
    rfl
  rw [e, Except.ok.injEq]
  generalize hg : (fun i => p.getD i (0, 0, 0)) = g
  have hgi : ∀ i, p.getD i (0, 0, 0) = g i := fun i => by rw [← hg]
  simp only [hgi]
  have hle : ∀ n, chord (g 0) (g n) ≤ ∑ i ∈ Finset.range n, chord (g i) (g (i + 1)) := by
    intro n
    have := chord_le_sum g 0 n
    simpa only [Nat.zero_add] using this
  constructor
  · intro h
    have key : ∀ m n, n + m = p.length - 1 → chord (g 0) (g n) = ∑ i ∈ Finset.range n, chord (g i) (g (i + 1)) := by
      intro m
      induction m with
      | zero => intro n hn; rw [add_zero] at hn; rw [hn]; exact h.symm
      | succ m ih =>
        intro n hn
        have h1 := ih (n + 1) (by omega)
        rw [Finset.sum_range_succ] at h1
        have h2 := chord_triangle (g 0) (g n) (g (n + 1))
        have h3 := hle n
        linarith
    intro i hi
    have h1 := key (p.length - 1 - i) i (by omega)
    have h2 := key (p.length - 1 - (i + 1)) (i + 1) (by omega)
    rw [Finset.sum_range_succ] at h2
    linarith
  · intro h
    have key : ∀ n, n ≤ p.length - 1 → ∑ i ∈ Finset.range n, chord (g i) (g (i + 1)) = chord (g 0) (g n) := by
      intro n
      induction n with
      | zero => intro _; simp [chord_self]
      | succ n ih =>
        intro hn
        rw [Finset.sum_range_succ, ih (by omega)]
        exact h n (by omega)
    exact key _ le_rfl

/-- **C280 is false** for `refine=2` (and two points, where the splines are straight lines in the cylindrical coordinates): the interpolated line is the arc. -/
theorem C280_fails : ¬ StraightExact exSpline 2 := by
  intro h
  have hpi := pi_pos
  have hy : ((List.range 2).map fun i : ℕ => 0 + (i : ℝ) * (π / 2)) = [0, π / 2] := by simp [List.range_succ]
  have hex : ∃ L, fieldLineLength (realLen exSpline) (List.replicate 2 (1, 0)) [0, π / 2] 2 = .ok L := by
    have h1 : exSpline (linspaceClosed 0 1 2) [0, π / 2] = .ok _ := if_pos (by simp [linspaceClosed, List.range_succ])
    have h2 : exSpline [0, π / 2] [1, 1] = .ok _ := if_pos (by simp [pi_pos])
    have h3 : exSpline [0, π / 2] [0, 0] = .ok _ := if_pos (by simp [pi_pos])
    unfold fieldLineLength finePath fineY
    simp only [List.length_cons, List.length_nil, List.replicate, List.map_cons, List.map_nil]
    change ∃ L, Except.map _ (((exSpline (linspaceClosed 0 1 2) [0, π / 2]).map _).bind fun yf =>
      (exSpline [0, π / 2] [1, 1]).bind fun R => (exSpline [0, π / 2] [0, 0]).bind _) = _
    rw [h1, h2, h3]
    exact ⟨_, rfl⟩
  obtain ⟨L, hL⟩ := hex
  have e := (C124_circle exSpline exSpline_ok.2 1 0 0 (π / 2) 2 2 (by norm_num) (by norm_num) L (by rw [hy]; exact hL)).1
  have st : StraightTrace (List.replicate 2 (1, 0)) [0, π / 2] := by
    refine ⟨(1, 0, 0), (-1, 1, 0), fun i => i, fun i _ => by push_cast; linarith, fun i hi => ?_⟩
    have : i = 0 ∨ i = 1 := by simp only [List.length_cons, List.length_nil] at hi; omega
    rcases this with rfl | rfl <;> simp [cartesian]
  have e2 := h _ _ L st hL
  have c : chord (cartesian (List.replicate 2 (1, 0)) [0, π / 2] 0) (cartesian (List.replicate 2 (1, 0)) [0, π / 2] ([0, π / 2].length - 1)) = 2 * |sin (π / 4)| := by
    have := chord_circle 1 0 0 (π / 2)
    rw [show (π / 2 - 0) / 2 = π / 4 by ring, abs_one] at this
    rw [show 2 * |sin (π / 4)| = 2 * 1 * |sin (π / 4)| by ring, ← this]
    simp [cartesian]
  rw [c] at e2
  rw [e2] at e
  have s8 : 0 < sin (π / 8) := sin_pos_of_pos_of_lt_pi (by linarith) (by linarith)
  have s4 : sin (π / 4) = 2 * sin (π / 8) * cos (π / 8) := by rw [← sin_two_mul]; congr 1; ring
  have c8 : cos (π / 8) < 1 := by
    have h1 := sin_sq_add_cos_sq (π / 8)
    nlinarith [mul_pos s8 s8]
  have c80 : 0 < cos (π / 8) := cos_pos_of_mem_Ioo ⟨by linarith, by linarith⟩
  rw [show π / 2 / ((2 : ℕ) : ℝ) / 2 = π / 8 by push_cast; ring, s4, abs_of_pos (by positivity), abs_of_pos s8, abs_one] at e
  push_cast at e
  nlinarith

/-- A straight line with three points. -/
example : StraightTrace [(1, 0), (√2 / 2, 1), (1, 2)] [0, π / 4, π / 2] := by
  refine ⟨(1, 0, 0), (-(1 / 2), 1 / 2, 1), fun i => i, fun i _ => by push_cast; linarith, fun i hi => ?_⟩
  have h2 : √2 * √2 = 2 := Real.mul_self_sqrt (by norm_num)
  have : i = 0 ∨ i = 1 ∨ i = 2 := by simp only [List.length_cons, List.length_nil] at hi; omega
  rcases this with rfl | rfl | rfl
  · simp [cartesian]
  · simp only [cartesian, List.getD_cons_succ, List.getD_cons_zero, cos_pi_div_four, sin_pi_div_four]
    refine Prod.ext ?_ (Prod.ext ?_ ?_) <;> push_cast <;> linarith
  · simp only [cartesian, List.getD_cons_succ, List.getD_cons_zero, cos_pi_div_two, sin_pi_div_two]
    refine Prod.ext ?_ (Prod.ext ?_ ?_) <;> push_cast <;> norm_num

end Zoidberg
