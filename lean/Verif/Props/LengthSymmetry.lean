import Verif.Props.ArcLength
import Verif.Props.FieldMore
import Verif.Props.MapSymmetryGrids
import Mathlib.LinearAlgebra.Lagrange

/-!
# C239: the length of a field line under rotations of the machine and in the mirror
-/

set_option linter.unusedSectionVars false

namespace Zoidberg

open Real Polynomial

/-- What interpolation by splines has in common with interpolation by polynomials: it does not depend on where the angles are counted from, on their
direction, or on the unit of the values. -/
structure TurnSpline (spline : List ℝ → List ℝ → Except Err (ℝ → ℝ)) : Prop where
  shift : ∀ s xs vs, spline (xs.map fun x => s + x) vs = (spline xs vs).map fun f x => f (x - s)
  mirror : ∀ s xs vs, xs.length = vs.length → spline (xs.map fun x => s - x).reverse vs.reverse = (spline xs vs).map fun f x => f (s - x)
  affine : ∀ s a xs vs, spline xs (vs.map fun v => s + a * v) = (spline xs vs).map fun f x => s + a * f x
  short : ∀ xs vs, xs.length < 2 → ∃ err, spline xs vs = .error err

theorem linspaceClosed_mirror {n : ℕ} (hn : 2 ≤ n) : ((linspaceClosed (0 : ℝ) 1 n).map fun x => 1 - x).reverse = linspaceClosed 0 1 n := by
  unfold linspaceClosed
  rw [List.map_map]
  refine (map_range_reverse _ _ _ ?_).symm
  intro i hi
  have h1 : ((n : ℝ) - 1) ≠ 0 := by
    have : (2 : ℝ) ≤ n := by exact_mod_cast hn
    linarith
  simp only [Function.comp, show n ≠ 1 by omega, if_false]
  rw [Nat.sub_sub, Nat.cast_sub (show 1 + i ≤ n by omega)]
  push_cast
  field_simp
  ring

/-- A rotation or reflection of the machine. -/
noncomputable def turnPoint (s ε : ℝ) (a : ℝ × ℝ × ℝ) : ℝ × ℝ × ℝ :=
  (cos s * a.1 - ε * sin s * a.2.1, sin s * a.1 + ε * cos s * a.2.1, a.2.2)

theorem chord_turn (s : ℝ) {ε : ℝ} (hε : ε = 1 ∨ ε = -1) (a b : ℝ × ℝ × ℝ) : chord (turnPoint s ε a) (turnPoint s ε b) = chord a b := by
  unfold chord turnPoint
  congr 1
  have h := sin_sq_add_cos_sq s
  rcases hε with rfl | rfl <;> dsimp only <;> linear_combination ((b.1 - a.1) ^ 2 + (b.2.1 - a.2.1) ^ 2) * h

theorem chord_swap (a b : ℝ × ℝ × ℝ) : chord a b = chord b a := by rw [chord_dist, chord_dist, dist_comm]

theorem finePoint_shift (spline) (s : ℝ) (R Z : ℝ → ℝ) (y : ℝ) :
    finePoint (realLen spline) (fun x => R (x - s)) (fun x => Z (x - s)) (s + y) = turnPoint s 1 (finePoint (realLen spline) R Z y) := by
  change (cos (s + y) * R (s + y - s), sin (s + y) * R (s + y - s), Z (s + y - s)) = turnPoint s 1 (cos y * R y, sin y * R y, Z y)
  unfold turnPoint
  rw [add_sub_cancel_left, cos_add, sin_add]
  simp only [one_mul, Prod.mk.injEq, and_true]
  constructor <;> ring

theorem finePoint_mirror (spline) (s : ℝ) (R Z : ℝ → ℝ) (y : ℝ) :
    finePoint (realLen spline) (fun x => R (s - x)) (fun x => Z (s - x)) (s + -1 * y) = turnPoint s (-1) (finePoint (realLen spline) R Z y) := by
  change (cos (s + -1 * y) * R (s - (s + -1 * y)), sin (s + -1 * y) * R (s - (s + -1 * y)), Z (s - (s + -1 * y))) =
    turnPoint s (-1) (cos y * R y, sin y * R y, Z y)
  unfold turnPoint
  rw [show s - (s + -1 * y) = y by ring, cos_add, sin_add]
  simp only [neg_mul, one_mul, cos_neg, sin_neg, Prod.mk.injEq, and_true]
  constructor <;> ring

/-- **C239, the lengths.** The length of a field line is the same for the line turned by `s` and for its image in the mirror: `field_line_length` meets
what C237, C238 and C239 ask of it, for every interpolation with the symmetries above. -/
theorem C239_lengths {spline} (hs : TurnSpline spline) (s : ℝ) {ε : ℤ} (hε : ε = 1 ∨ ε = -1) (pts : List (ℝ × ℝ)) (ys : List ℝ)
    (hl : pts.length = ys.length) (refine : ℕ) :
    fieldLineLength (realLen spline) (if ε = 1 then pts else pts.reverse)
      (if ε = 1 then ys.map (fun y => s + (ε : ℝ) * y) else (ys.map fun y => s + (ε : ℝ) * y).reverse) refine =
    fieldLineLength (realLen spline) pts ys refine := by
  have hlin : ∀ m : ℕ, linspaceClosed (0 : ℝ) 1 (m + 1) = (List.range (m + 1)).map fun i : ℕ => if m = 0 then 0 else (i : ℝ) / m := by
    intro m
    unfold linspaceClosed
    refine List.map_congr_left ?_
    intro i hi
    by_cases hm : m = 0
    · simp [hm]
    · simp only [show m + 1 ≠ 1 by omega, hm, if_false]
      push_cast
      ring
  unfold fieldLineLength finePath fineY
  rcases hε with rfl | rfl
  · simp only [if_true, Int.cast_one, one_mul, List.length_map]
    change Except.map _ (Except.bind (Except.map _ (spline _ (ys.map fun y => s + y))) fun yf => (spline (ys.map fun y => s + y) _).bind fun R =>
      (spline (ys.map fun y => s + y) _).bind _) = Except.map _ (Except.bind (Except.map _ (spline _ ys)) fun yf => (spline ys _).bind fun R =>
      (spline ys _).bind _)
    have h1 := hs.affine s 1 (linspaceClosed 0 1 ys.length) ys
    simp only [one_mul] at h1
    rw [h1, hs.shift, hs.shift]
    cases spline (linspaceClosed 0 1 ys.length) ys with
    | error er => rfl
    | ok yi =>
      cases spline ys (pts.map Prod.fst) with
      | error er => rfl
      | ok R =>
        cases spline ys (pts.map Prod.snd) with
        | error er => rfl
        | ok Z =>
          simp only [Except.map, Except.bind, Except.ok.injEq]
          rw [hlin]
          simp only [List.map_map]
          rw [pathLen_fn, pathLen_fn]
          refine Finset.sum_congr rfl ?_
          intro i _
          simp only [Function.comp, stepLen_chord]
          rw [finePoint_shift, finePoint_shift, chord_turn s (Or.inl rfl)]
  · simp only [show (-1 : ℤ) ≠ 1 by norm_num, if_false, Int.cast_neg, Int.cast_one, List.length_reverse, List.length_map]
    change Except.map _ (Except.bind (Except.map _ (spline _ (ys.map fun y => s + -1 * y).reverse)) fun yf =>
      (spline (ys.map fun y => s + -1 * y).reverse _).bind fun R =>
      (spline (ys.map fun y => s + -1 * y).reverse _).bind _) = Except.map _ (Except.bind (Except.map _ (spline _ ys)) fun yf => (spline ys _).bind fun R =>
      (spline ys _).bind _)
    have e0 : (ys.map fun y => s + -1 * y) = ys.map fun y => s - y := by
      refine List.map_congr_left ?_
      intro y _
      ring
    rcases lt_or_ge ys.length 2 with hn | hn
    · obtain ⟨er, h0⟩ := hs.short (linspaceClosed 0 1 ys.length) ys (by rw [length_linspaceClosed]; exact hn)
      have h1 := hs.affine s (-1) (linspaceClosed 0 1 ys.length) ys
      have hrev : (ys.map fun y => s + -1 * y).reverse = ys.map fun y => s + -1 * y := by
        match ys, hn with
        | [], _ => rfl
        | [a], _ => rfl
      rw [hrev, h1, h0]
      rfl
    · have h1 := hs.affine s (-1) (linspaceClosed 0 1 ys.length) ys
      have h2 := hs.mirror 1 (linspaceClosed 0 1 ys.length) (ys.map fun y => s + -1 * y) (by rw [length_linspaceClosed, List.length_map])
      rw [linspaceClosed_mirror hn, h1] at h2
      rw [h2, e0, List.map_reverse, List.map_reverse, hs.mirror s ys _ (by rw [List.length_map, hl]), hs.mirror s ys _ (by rw [List.length_map, hl])]
      cases spline (linspaceClosed 0 1 ys.length) ys with
      | error er => rfl
      | ok yi =>
        cases spline ys (pts.map Prod.fst) with
        | error er => rfl
        | ok R =>
          cases spline ys (pts.map Prod.snd) with
          | error er => rfl
          | ok Z =>
            simp only [Except.map, Except.bind, Except.ok.injEq]
            rw [hlin]
            simp only [List.map_map]
            rw [pathLen_fn, pathLen_fn, ← Finset.sum_range_reflect]
            refine Finset.sum_congr rfl ?_
            intro i hi
            rw [Finset.mem_range] at hi
            generalize (ys.length - 1) * refine = m at hi ⊢
            have hm : m ≠ 0 := by omega
            have hm' : (m : ℝ) ≠ 0 := by exact_mod_cast hm
            simp only [Function.comp, stepLen_chord, hm, if_false]
            have t1 : (1 : ℝ) - ((m - 1 - i : ℕ) : ℝ) / m = ((i + 1 : ℕ) : ℝ) / m := by
              rw [Nat.sub_sub, Nat.cast_sub (show 1 + i ≤ m by omega)]
              push_cast
              field_simp
              ring
            have t2 : (1 : ℝ) - ((m - 1 - i + 1 : ℕ) : ℝ) / m = (i : ℝ) / m := by
              rw [show m - 1 - i + 1 = m - i by omega, Nat.cast_sub (show i ≤ m by omega)]
              field_simp
              ring
            rw [t1, t2, finePoint_mirror, finePoint_mirror, chord_turn s (Or.inr rfl), chord_swap]

/-! ## An interpolation with these symmetries -/

/-- The polynomial through the points; `CubicSpline` refuses angles that do not increase and numbers that do not fit.  Through at most four points
`CubicSpline` is this polynomial. -/
noncomputable def polySpline (xs vs : List ℝ) : Except Err (ℝ → ℝ) :=
  if xs.Pairwise (· < ·) ∧ xs.length = vs.length ∧ 2 ≤ xs.length then
    .ok fun x => (Lagrange.interpolate (Finset.range xs.length) (fun i => xs.getD i 0) fun i => vs.getD i 0).eval x
  else .error (.value "CubicSpline")

theorem pairwise_inj {xs : List ℝ} (h : xs.Pairwise (· < ·)) : Set.InjOn (fun i => xs.getD i 0) (Finset.range xs.length : Set ℕ) := by
  intro i hi j hj e
  simp only [Finset.coe_range, Set.mem_Iio] at hi hj
  simp only [List.getD_eq_getElem _ _ hi, List.getD_eq_getElem _ _ hj] at e
  rw [List.pairwise_iff_getElem] at h
  rcases lt_trichotomy i j with hij | hij | hij
  · have := h i j hi hj hij; linarith
  · exact hij
  · have := h j i hj hi hij; linarith

/-- Only one polynomial of this degree goes through the points. -/
theorem polySpline_unique {xs vs : List ℝ} (h : xs.Pairwise (· < ·) ∧ xs.length = vs.length ∧ 2 ≤ xs.length) (P : ℝ[X])
    (hP : P.natDegree < xs.length) (hv : ∀ i < xs.length, P.eval (xs.getD i 0) = vs.getD i 0) :
    polySpline xs vs = .ok fun x => P.eval x := by
  unfold polySpline
  rw [if_pos h, Lagrange.eq_interpolate_of_eval_eq (f := P) (fun i => vs.getD i 0) (pairwise_inj h.1) ?_ ?_]
  · rw [Finset.card_range]
    exact lt_of_le_of_lt degree_le_natDegree (by exact_mod_cast hP)
  · intro i hi
    exact hv i (Finset.mem_range.1 hi)

theorem polySpline_poly {xs vs : List ℝ} (h : xs.Pairwise (· < ·) ∧ xs.length = vs.length ∧ 2 ≤ xs.length) :
    ∃ P : ℝ[X], P.natDegree < xs.length ∧ (∀ i < xs.length, P.eval (xs.getD i 0) = vs.getD i 0) ∧ polySpline xs vs = .ok fun x => P.eval x := by
  refine ⟨Lagrange.interpolate (Finset.range xs.length) (fun i => xs.getD i 0) fun i => vs.getD i 0, ?_, ?_, ?_⟩
  · have := Lagrange.degree_interpolate_lt (fun i => vs.getD i 0) (pairwise_inj h.1)
    rw [Finset.card_range] at this
    by_cases hz : Lagrange.interpolate (Finset.range xs.length) (fun i => xs.getD i 0) (fun i => vs.getD i 0) = 0
    · rw [hz, natDegree_zero]
      omega
    · exact (natDegree_lt_iff_degree_lt hz).2 this
  · intro i hi
    exact Lagrange.eval_interpolate_at_node _ (pairwise_inj h.1) (Finset.mem_range.2 hi)
  · unfold polySpline
    rw [if_pos h]

theorem polySpline_error {xs vs : List ℝ} (h : ¬ (xs.Pairwise (· < ·) ∧ xs.length = vs.length ∧ 2 ≤ xs.length)) :
    polySpline xs vs = .error (.value "CubicSpline") := if_neg h

theorem linear_degree (s a : ℝ) (P : ℝ[X]) : (P.comp (C s + C a * X)).natDegree ≤ P.natDegree := by
  refine natDegree_comp_le.trans ?_
  have : (C s + C a * X : ℝ[X]).natDegree ≤ 1 := by
    rw [add_comm]
    exact natDegree_linear_le
  calc P.natDegree * (C s + C a * X : ℝ[X]).natDegree ≤ P.natDegree * 1 := Nat.mul_le_mul_left _ this
    _ = P.natDegree := mul_one _

/-- Interpolation by polynomials has the symmetries. -/
theorem polySpline_turn : TurnSpline polySpline := by
  refine ⟨?_, ?_, ?_, ?_⟩
  · intro s xs vs
    have hiff : (xs.map fun x => s + x).Pairwise (· < ·) ↔ xs.Pairwise (· < ·) := by
      rw [List.pairwise_map]
      simp
    by_cases h : xs.Pairwise (· < ·) ∧ xs.length = vs.length ∧ 2 ≤ xs.length
    · obtain ⟨P, h1, h2, h3⟩ := polySpline_poly h
      rw [h3, polySpline_unique (P := P.comp (C (-s) + C 1 * X)) (by rw [hiff, List.length_map]; exact h) ?_ ?_]
      · simp only [Except.map, Except.ok.injEq]
        funext x
        simp only [eval_comp, eval_add, eval_C, eval_mul, eval_X]
        congr 1
        ring
      · rw [List.length_map]
        exact lt_of_le_of_lt (linear_degree _ _ _) h1
      · intro i hi
        rw [List.length_map] at hi
        rw [← h2 i hi, List.getD_eq_getElem _ _ (by rw [List.length_map]; exact hi), List.getElem_map, List.getD_eq_getElem _ _ hi]
        simp [eval_comp]
    · rw [polySpline_error h, polySpline_error (by rw [hiff, List.length_map]; exact h)]
      rfl
  · intro s xs vs hl
    have hiff : (xs.map fun x => s - x).reverse.Pairwise (· < ·) ↔ xs.Pairwise (· < ·) := by
      rw [List.pairwise_reverse, List.pairwise_map]
      simp
    have hlen : (xs.map fun x => s - x).reverse.length = xs.length := by simp
    by_cases h : xs.Pairwise (· < ·) ∧ xs.length = vs.length ∧ 2 ≤ xs.length
    · obtain ⟨P, h1, h2, h3⟩ := polySpline_poly h
      rw [h3, polySpline_unique (P := P.comp (C s + C (-1) * X)) (by rw [hiff, hlen, List.length_reverse]; exact h) ?_ ?_]
      · simp only [Except.map, Except.ok.injEq]
        funext x
        simp only [eval_comp, eval_add, eval_C, eval_mul, eval_X]
        congr 1
        ring
      · rw [hlen]
        exact lt_of_le_of_lt (linear_degree _ _ _) h1
      · intro i hi
        rw [hlen] at hi
        have h4 := h2 (xs.length - 1 - i) (by omega)
        rw [List.getD_eq_getElem _ _ (by omega), List.getD_eq_getElem _ _ (by omega)] at h4
        rw [List.getD_eq_getElem _ _ (by rw [hlen]; exact hi), List.getElem_reverse, List.getElem_map,
          List.getD_eq_getElem _ _ (by rw [List.length_reverse]; omega), List.getElem_reverse]
        simp only [eval_comp, eval_add, eval_C, eval_mul, eval_X, List.length_map]
        rw [show s + -1 * (s - xs[xs.length - 1 - i]) = xs[xs.length - 1 - i] by ring, h4]
        congr 1
        omega
    · rw [polySpline_error h, polySpline_error (by rw [hiff, hlen, List.length_reverse]; exact h)]
      rfl
  · intro s a xs vs
    by_cases h : xs.Pairwise (· < ·) ∧ xs.length = vs.length ∧ 2 ≤ xs.length
    · obtain ⟨P, h1, h2, h3⟩ := polySpline_poly h
      rw [h3, polySpline_unique (P := C s + C a * P) (by rw [List.length_map]; exact h) ?_ ?_]
      · simp only [Except.map, Except.ok.injEq]
        funext x
        simp
      · refine lt_of_le_of_lt (natDegree_add_le _ _) ?_
        rw [natDegree_C]
        refine max_lt (by omega) (lt_of_le_of_lt (natDegree_C_mul_le _ _) h1)
      · intro i hi
        simp only [eval_add, eval_C, eval_mul]
        rw [h2 i hi, List.getD_eq_getElem vs _ (by omega), List.getD_eq_getElem (vs.map _) _ (by rw [List.length_map]; omega), List.getElem_map]
    · rw [polySpline_error h, polySpline_error (by rw [List.length_map]; exact h)]
      rfl
  · intro xs vs h
    exact ⟨_, polySpline_error (by omega)⟩

/-- Three points of a line, and the same line turned by 1. -/
example : ∃ v, fieldLineLength (realLen polySpline) [(2, 0), (3, 1), (5, 1)] [0, 1, 2] 4 = .ok v ∧
    fieldLineLength (realLen polySpline) [(2, 0), (3, 1), (5, 1)] [1, 2, 3] 4 = .ok v ∧
    fieldLineLength (realLen polySpline) [(5, 1), (3, 1), (2, 0)] [0, 1, 2] 4 = .ok v := by
  have hp : ([0, 1, 2] : List ℝ).Pairwise (· < ·) ∧ ([0, 1, 2] : List ℝ).length = 3 ∧ 2 ≤ ([0, 1, 2] : List ℝ).length := by
    refine ⟨?_, rfl, by simp⟩
    simp
  obtain ⟨y, _, _, h1⟩ := polySpline_poly (xs := linspaceClosed 0 1 3) (vs := [0, 1, 2])
    ⟨linspaceClosed_pairwise 0 1 3 (Or.inl one_pos), by rw [length_linspaceClosed]; rfl, by rw [length_linspaceClosed]; omega⟩
  obtain ⟨R, _, _, h2⟩ := polySpline_poly (xs := [0, 1, 2]) (vs := [2, 3, 5]) hp
  obtain ⟨Z, _, _, h3⟩ := polySpline_poly (xs := [0, 1, 2]) (vs := [0, 1, 1]) hp
  have h := fieldLineLength_polygon polySpline [(2, 0), (3, 1), (5, 1)] [0, 1, 2] 4 (by simp) (by norm_num) _ _ _ h1 h2 h3
  refine ⟨_, h, ?_, ?_⟩
  · have := C239_lengths polySpline_turn 1 (ε := 1) (Or.inl rfl) [(2, 0), (3, 1), (5, 1)] [0, 1, 2] rfl 4
    rw [← h, ← this]
    norm_num
  · have := C239_lengths polySpline_turn 2 (ε := -1) (Or.inr rfl) [(2, 0), (3, 1), (5, 1)] [0, 1, 2] rfl 4
    rw [← h, ← this]
    norm_num

end Zoidberg
