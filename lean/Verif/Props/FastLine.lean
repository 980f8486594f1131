import Verif.Props.TwoOptLocal
import Verif.Props.Spectral
import Mathlib.Tactic.FieldSimp

/-!
# C230: `line_from_points_fast` finds the order of the points again
-/

set_option linter.unusedSectionVars false

namespace Zoidberg

open Real

/-- A line that goes round `m` once, seen from `m` always in the same direction. -/
def StarShaped (p : List (ℝ × ℝ)) (m : ℝ × ℝ) : Prop :=
  ∃ θ ρ : ℕ → ℝ, (∀ i < p.length, 0 < ρ i ∧ p.getD i (0, 0) = (m.1 + ρ i * cos (θ i), m.2 + ρ i * sin (θ i))) ∧
    ∀ i j, i < j → j < p.length → θ i < θ j ∧ θ j < θ i + 2 * π

/-- The angle by which `line_from_points_fast` sorts. -/
noncomputable def fastAngle (m p : ℝ × ℝ) : ℝ := Complex.arg ⟨p.2 - m.2, p.1 - m.1⟩

theorem fastAngle_polar (m : ℝ × ℝ) {ρ : ℝ} (hρ : 0 < ρ) (θ : ℝ) :
    ∃ d : ℤ, fastAngle m (m.1 + ρ * cos θ, m.2 + ρ * sin θ) = π / 2 - θ - 2 * π * d ∧
      -π < fastAngle m (m.1 + ρ * cos θ, m.2 + ρ * sin θ) ∧ fastAngle m (m.1 + ρ * cos θ, m.2 + ρ * sin θ) ≤ π := by
  refine ⟨toIocDiv two_pi_pos (-π) (π / 2 - θ), ?_, Complex.neg_pi_lt_arg _, Complex.arg_le_pi _⟩
  have h := Complex.arg_mul_cos_add_sin_mul_I_eq_toIocMod hρ (π / 2 - θ)
  have e : fastAngle m (m.1 + ρ * cos θ, m.2 + ρ * sin θ) = Complex.arg (ρ * (Complex.cos ((π / 2 - θ : ℝ) : ℂ) + Complex.sin ((π / 2 - θ : ℝ) : ℂ) * Complex.I)) := by
    unfold fastAngle
    congr 1
    rw [← Complex.ofReal_cos, ← Complex.ofReal_sin, cos_pi_div_two_sub, sin_pi_div_two_sub]
    generalize cos θ = a
    generalize sin θ = b
    apply Complex.ext <;> simp
  rw [e, h, toIocMod, zsmul_eq_mul]
  ring

/-- The points of a star-shaped line, sorted by the angle, are a rotation of the reversed line. -/
theorem star_sorted {p : List (ℝ × ℝ)} {m : ℝ × ℝ} (h : StarShaped p m) :
    ∃ j, (((p.rotate j).reverse).map (fastAngle m)).Pairwise (· < ·) := by
  obtain ⟨θ, ρ, hp, hθ⟩ := h
  rcases Nat.eq_zero_or_pos p.length with h0 | h0
  · rw [List.length_eq_zero_iff.1 h0]
    exact ⟨0, by simp⟩
  have hd : ∀ i, ∃ d : ℤ, i < p.length → fastAngle m (p.getD i (0, 0)) = π / 2 - θ i - 2 * π * d ∧ -π < fastAngle m (p.getD i (0, 0)) ∧
      fastAngle m (p.getD i (0, 0)) ≤ π := by
    intro i
    by_cases hi : i < p.length
    · obtain ⟨h1, h2⟩ := hp i hi
      obtain ⟨d, hd⟩ := fastAngle_polar m h1 (θ i)
      rw [← h2] at hd
      exact ⟨d, fun _ => hd⟩
    · exact ⟨0, fun h => absurd h hi⟩
  choose d hd using hd
  have hpi := pi_pos
  have step : ∀ i i', i < i' → i' < p.length → d i' ≤ d i ∧ d i ≤ d i' + 1 := by
    intro i i' hii hi'
    obtain ⟨a1, a2, a3⟩ := hd i (by omega)
    obtain ⟨b1, b2, b3⟩ := hd i' hi'
    obtain ⟨t1, t2⟩ := hθ i i' hii hi'
    constructor
    · by_contra hcon
      have : (d i : ℝ) + 1 ≤ d i' := by exact_mod_cast not_le.1 hcon
      nlinarith
    · by_contra hcon
      have : (d i' : ℝ) + 2 ≤ d i := by
        have : d i' + 2 ≤ d i := by omega
        exact_mod_cast this
      nlinarith
  obtain ⟨j, hj, hj1, hj2⟩ : ∃ j ≤ p.length, (∀ i < j, d i = d 0) ∧ ∀ i, j ≤ i → i < p.length → d i = d 0 - 1 := by
    by_cases hex : ∃ i, i < p.length ∧ d i ≠ d 0
    · classical
      refine ⟨Nat.find hex, (Nat.find_spec hex).1.le, ?_, ?_⟩
      · intro i hi
        by_contra hne
        exact Nat.find_min hex hi ⟨lt_trans hi (Nat.find_spec hex).1, hne⟩
      · intro i hi hi'
        obtain ⟨f1, f2⟩ := Nat.find_spec hex
        have hpos : 0 < Nat.find hex := by
          rcases Nat.eq_zero_or_pos (Nat.find hex) with hz | hz
          · rw [hz] at f2; exact absurd rfl f2
          · exact hz
        have s1 := step 0 (Nat.find hex) hpos f1
        have s2 := step 0 i (by omega) hi'
        have s3 : d i ≤ d (Nat.find hex) := by
          rcases Nat.eq_or_lt_of_le hi with he | hl
          · rw [he]
          · exact (step _ _ hl hi').1
        omega
    · push Not at hex
      exact ⟨p.length, le_rfl, fun i hi => hex i hi, fun i h1 h2 => by omega⟩
  have same : ∀ i i', i < i' → i' < p.length → d i = d i' → fastAngle m (p.getD i' (0, 0)) < fastAngle m (p.getD i (0, 0)) := by
    intro i i' hii hi' he
    rw [(hd i (by omega)).1, (hd i' hi').1, he]
    have := (hθ i i' hii hi').1
    linarith
  have other : ∀ i i', i < i' → i' < p.length → d i' = d i - 1 → fastAngle m (p.getD i (0, 0)) < fastAngle m (p.getD i' (0, 0)) := by
    intro i i' hii hi' he
    rw [(hd i (by omega)).1, (hd i' hi').1, he]
    have := (hθ i i' hii hi').2
    push_cast
    linarith
  refine ⟨j, ?_⟩
  rw [List.rotate_eq_drop_append_take hj, List.reverse_append, List.map_append, List.pairwise_append, List.map_reverse, List.map_reverse,
    List.pairwise_reverse, List.pairwise_reverse]
  have gt : ∀ i (hi : i < p.length), p[i] = p.getD i (0, 0) := fun i hi => (List.getD_eq_getElem _ _ hi).symm
  refine ⟨?_, ?_, ?_⟩
  · rw [List.pairwise_iff_getElem]
    intro i i' h1 h2 h3
    simp only [List.length_map, List.length_take] at h1 h2
    simp only [List.getElem_map, List.getElem_take]
    rw [gt, gt]
    exact same i i' h3 (by omega) (by rw [hj1 i (by omega), hj1 i' (by omega)])
  · rw [List.pairwise_iff_getElem]
    intro i i' h1 h2 h3
    simp only [List.length_map, List.length_drop] at h1 h2
    simp only [List.getElem_map, List.getElem_drop]
    rw [gt, gt]
    exact same _ _ (by omega) (by omega) (by rw [hj2 (j + i) (by omega) (by omega), hj2 (j + i') (by omega) (by omega)])
  · intro a ha b hb
    rw [List.mem_reverse, List.mem_map] at ha hb
    obtain ⟨x, hx, rfl⟩ := ha
    obtain ⟨y, hy, rfl⟩ := hb
    obtain ⟨i, hi, rfl⟩ := List.mem_iff_getElem.1 hx
    obtain ⟨i', hi', rfl⟩ := List.mem_iff_getElem.1 hy
    simp only [List.length_take, List.length_drop] at hi hi'
    rw [List.getElem_take, List.getElem_drop, gt, gt]
    exact other _ _ (by omega) (by omega) (by rw [hj1 i (by omega), hj2 (j + i') (by omega) (by omega)])

theorem meanPt_perm {s t : List (ℝ × ℝ)} (h : s.Perm t) : meanPt s = meanPt t := by
  unfold meanPt
  rw [(h.map Prod.fst).sum_eq, (h.map Prod.snd).sum_eq, h.length_eq]

/-- **C230.** If an anticlockwise line is star-shaped about the mean of its points, `line_from_points_fast` finds it again from its points in any order; only
the first point may be another one. -/
theorem C230_partial (e : RzEnv ℝ) (he : SplrepTotal e) (argsort : List ℝ → List ℕ) (ha : IsArgsort argsort) (p : List (ℝ × ℝ))
    (hs : StarShaped p (meanPt p)) (harea : 0 < signedArea p) (pts : List (ℝ × ℝ)) (hp : pts.Perm p) (order smooth : Option ℕ) :
    ∃ l k, lineFromPointsFast e (fun y x => Complex.arg ⟨x, y⟩) argsort pts order smooth = .ok l ∧ l.pts = p.rotate k := by
  obtain ⟨j, hj⟩ := star_sorted hs
  rw [← meanPt_perm hp] at hj
  have hperm : (takePts pts (argsort (pts.map (fastAngle (meanPt pts))))).Perm pts := takePts_perm (by
    have := (ha (pts.map (fastAngle (meanPt pts)))).1
    rwa [List.length_map] at this)
  have ht : takePts pts (argsort (pts.map (fastAngle (meanPt pts)))) = (p.rotate j).reverse := by
    refine sorted_unique (f := fastAngle (meanPt pts)) ?_ (takePts_sorted ha) hj
    exact (hperm.trans hp).trans ((List.rotate_perm p j).symm.trans (List.reverse_perm _).symm)
  have hneg : signedArea (p.rotate j).reverse = -signedArea p := by rw [signedArea_reverse, signedArea_rotate]
  obtain ⟨l, hl⟩ := ofPts_ok he (p := (p.rotate j).reverse) (by rw [hneg]; linarith) order smooth
  refine ⟨l, j, ?_, ?_⟩
  · unfold lineFromPointsFast
    dsimp only
    have : takePts pts (argsort (pts.map fun q => Complex.arg ⟨q.2 - (meanPt pts).2, q.1 - (meanPt pts).1⟩)) = (p.rotate j).reverse := ht
    unfold meanPt at this
    dsimp only at this
    rw [this]
    exact hl
  · obtain ⟨h1, h2 | h2⟩ := C54_anticlockwise _ _ _ _ _ hl
    · rw [h2, hneg] at h1; linarith
    · rw [h2, List.reverse_reverse]

/-! ## Ellipses -/

/-- Vectors that are near the directions `t i`, whose cross products have the signs of the sines, go round once. -/
theorem star_of_cross {n : ℕ} {t : ℕ → ℝ} {x y : ℕ → ℝ} {c : ℝ} (hc : 0 < c) (ht : ∀ i j, i < j → j < n → t i < t j ∧ t j < t i + 2 * π)
    (hdot : ∀ i < n, 0 < x i * cos (t i) + y i * sin (t i)) (hcross : ∀ i j, i < n → j < n → x i * y j - y i * x j = c * sin (t j - t i)) :
    ∃ θ ρ : ℕ → ℝ, (∀ i < n, 0 < ρ i ∧ x i = ρ i * cos (θ i) ∧ y i = ρ i * sin (θ i)) ∧ ∀ i j, i < j → j < n → θ i < θ j ∧ θ j < θ i + 2 * π := by
  let w : ℕ → ℂ := fun i => ⟨x i * cos (t i) + y i * sin (t i), y i * cos (t i) - x i * sin (t i)⟩
  have hw : ∀ i < n, w i ≠ 0 := fun i hi h0 => by
    have := congrArg Complex.re h0
    simp only [w, Complex.zero_re] at this
    exact absurd this (hdot i hi).ne'
  have hpolar : ∀ i < n, x i = ‖w i‖ * cos (t i + (w i).arg) ∧ y i = ‖w i‖ * sin (t i + (w i).arg) := by
    intro i hi
    have h1 : ‖w i‖ * cos (w i).arg = x i * cos (t i) + y i * sin (t i) := Complex.norm_mul_cos_arg (w i)
    have h2 : ‖w i‖ * sin (w i).arg = y i * cos (t i) - x i * sin (t i) := Complex.norm_mul_sin_arg (w i)
    have h3 := sin_sq_add_cos_sq (t i)
    rw [cos_add, sin_add]
    constructor
    · linear_combination -cos (t i) * h1 + sin (t i) * h2 - x i * h3
    · linear_combination -sin (t i) * h1 - cos (t i) * h2 - y i * h3
  have harg : ∀ i < n, -(π / 2) < (w i).arg ∧ (w i).arg < π / 2 := by
    intro i hi
    have := Complex.abs_arg_lt_pi_div_two_iff.2 (Or.inl (show 0 < (w i).re from hdot i hi))
    exact abs_lt.1 this
  refine ⟨fun i => t i + (w i).arg, fun i => ‖w i‖, fun i hi => ⟨norm_pos_iff.2 (hw i hi), hpolar i hi⟩, ?_⟩
  intro i j hij hj
  have hi : i < n := by omega
  dsimp only
  obtain ⟨a1, a2⟩ := harg i hi
  obtain ⟨b1, b2⟩ := harg j hj
  obtain ⟨t1, t2⟩ := ht i j hij hj
  obtain ⟨p1, p2⟩ := hpolar i hi
  obtain ⟨q1, q2⟩ := hpolar j hj
  have hpi := pi_pos
  have hs : ‖w i‖ * ‖w j‖ * sin (t j + (w j).arg - (t i + (w i).arg)) = c * sin (t j - t i) := by
    rw [← hcross i j hi hj, p1, p2, q1, q2, sin_sub]
    ring
  have hn : 0 < ‖w i‖ * ‖w j‖ := mul_pos (norm_pos_iff.2 (hw i hi)) (norm_pos_iff.2 (hw j hj))
  generalize hD : t j + (w j).arg - (t i + (w i).arg) = D at hs
  have sgn1 : 0 < sin (t j - t i) → 0 < sin D := fun h => by
    have : 0 < ‖w i‖ * ‖w j‖ * sin D := by rw [hs]; positivity
    exact (pos_iff_pos_of_mul_pos this).1 hn
  have sgn2 : sin (t j - t i) < 0 → sin D < 0 := fun h => by
    have : ‖w i‖ * ‖w j‖ * sin D < 0 := by rw [hs]; exact mul_neg_of_pos_of_neg hc h
    by_contra hcon
    have := mul_nonneg hn.le (not_lt.1 hcon)
    linarith
  have sgn3 : sin (t j - t i) = 0 → sin D = 0 := fun h => by
    rw [h, mul_zero] at hs
    exact (mul_eq_zero.1 hs).resolve_left hn.ne'
  have lo : t j - t i - π < D := by linarith
  have hi' : D < t j - t i + π := by linarith
  rcases lt_trichotomy (t j - t i) π with h | h | h
  · have h1 := sgn1 (sin_pos_of_pos_of_lt_pi (by linarith) h)
    have : 0 < D := by
      by_contra hcon
      have := sin_nonpos_of_nonpos_of_neg_pi_le (not_lt.1 hcon) (by linarith)
      linarith
    constructor <;> linarith
  · constructor <;> linarith
  · have h1 := sgn2 (by
      have := sin_neg_of_neg_of_neg_pi_lt (x := t j - t i - 2 * π) (by linarith) (by linarith)
      rwa [sin_sub_two_pi] at this)
    have : D < 2 * π := by
      by_contra hcon
      have := sin_nonneg_of_nonneg_of_le_pi (x := D - 2 * π) (by linarith) (by linarith)
      rw [sin_sub_two_pi] at this
      linarith
    constructor <;> linarith

theorem ellipse_eq (R0 a elong : ℝ) (n : ℕ) :
    shapedPts π cos sin R0 a elong 0 0 n = (circlePts π cos sin R0 a n).map fun q => (q.1, (1 + elong) * q.2) := by
  unfold shapedPts circlePts
  rw [List.map_map]
  apply List.map_congr_left
  intro t _
  simp
  ring

theorem ellipse_length (R0 a elong : ℝ) (n : ℕ) : (shapedPts π cos sin R0 a elong 0 0 n).length = n := by
  rw [ellipse_eq, List.length_map, circlePts_length]

theorem ellipse_getD (R0 a elong : ℝ) {n i : ℕ} (h : i < n) :
    (shapedPts π cos sin R0 a elong 0 0 n).getD i (0, 0) = (R0 + a * cos (2 * π * i / n), (1 + elong) * (a * sin (2 * π * i / n))) := by
  have h1 : i < (circlePts π cos sin R0 a n).length := by rw [circlePts_length]; exact h
  have h2 : i < (shapedPts π cos sin R0 a elong 0 0 n).length := by rw [ellipse_length]; exact h
  have := circlePts_getD R0 a h
  rw [List.getD_eq_getElem _ _ h1] at this
  rw [List.getD_eq_getElem _ _ h2]
  simp only [ellipse_eq, List.getElem_map, this, onCircle]

theorem signedArea_scale (p : List (ℝ × ℝ)) (c : ℝ) : signedArea (p.map fun q => (q.1, c * q.2)) = c * signedArea p := by
  unfold signedArea
  rw [List.length_map, mul_div_assoc', Finset.mul_sum]
  congr 1
  apply Finset.sum_congr rfl
  intro i hi
  have hg : ∀ k, (p.map fun q => (q.1, c * q.2)).getD k (0, 0) = ((p.getD k (0, 0)).1, c * (p.getD k (0, 0)).2) := by
    intro k
    simp only [List.getD_eq_getElem?_getD, List.getElem?_map]
    cases p[k]? <;> simp
  rw [hg, hg]
  ring

theorem ellipse_area (R0 a elong : ℝ) (ha : a ≠ 0) (he : 0 < 1 + elong) (n : ℕ) (hn : 3 ≤ n) : 0 < signedArea (shapedPts π cos sin R0 a elong 0 0 n) := by
  rw [ellipse_eq, signedArea_scale, circlePts_area R0 a n (by omega)]
  have hn' : (0 : ℝ) < n := by exact_mod_cast (by omega : 0 < n)
  have hs : 0 < sin (2 * π / n) := by
    apply sin_pos_of_pos_of_lt_pi
    · have := pi_pos; positivity
    · rw [div_lt_iff₀ hn']
      have : (3 : ℝ) ≤ n := by exact_mod_cast hn
      nlinarith [pi_pos]
  positivity

theorem circle_angle (n i : ℕ) (hn : n ≠ 0) : 2 * π * i / n = errAngle n i + π := by
  unfold errAngle
  have : (n : ℝ) ≠ 0 := by exact_mod_cast hn
  field_simp
  ring

theorem ellipse_mean (R0 a elong : ℝ) (n : ℕ) (hn : 2 ≤ n) : meanPt (shapedPts π cos sin R0 a elong 0 0 n) = (R0, 0) := by
  have hn0 : (n : ℝ) ≠ 0 := by exact_mod_cast (by omega : n ≠ 0)
  have hsum : ∀ f : ℝ × ℝ → ℝ, ((shapedPts π cos sin R0 a elong 0 0 n).map f).sum =
      ∑ i ∈ Finset.range n, f (R0 + a * cos (2 * π * i / n), (1 + elong) * (a * sin (2 * π * i / n))) := by
    intro f
    have hl : shapedPts π cos sin R0 a elong 0 0 n =
        (List.range n).map fun i : ℕ => (R0 + a * cos (2 * π * i / n), (1 + elong) * (a * sin (2 * π * i / n))) := by
      apply List.ext_getElem (by rw [ellipse_length]; simp)
      intro i h1 h2
      have h3 : i < n := by rwa [ellipse_length] at h1
      have := ellipse_getD R0 a elong h3
      rw [List.getD_eq_getElem _ _ h1] at this
      rw [this]
      simp
    rw [hl, List.map_map, sum_map_range]
    rfl
  have hc := sum_cos_angles (n := n) (m := 1) one_ne_zero (by simp; omega)
  have hs := sum_sin_angles (n := n) (m := 1) (by simp; omega)
  simp only [Int.cast_one, one_mul] at hc hs
  have e1 : ∑ i ∈ Finset.range n, cos (2 * π * i / n) = 0 := by
    rw [Finset.sum_congr rfl fun i _ => by rw [circle_angle n i (by omega), cos_add_pi], Finset.sum_neg_distrib, hc, neg_zero]
  have e2 : ∑ i ∈ Finset.range n, sin (2 * π * i / n) = 0 := by
    rw [Finset.sum_congr rfl fun i _ => by rw [circle_angle n i (by omega), sin_add_pi], Finset.sum_neg_distrib, hs, neg_zero]
  unfold meanPt
  rw [hsum, hsum, ellipse_length]
  dsimp only
  rw [Finset.sum_add_distrib, ← Finset.mul_sum, ← Finset.mul_sum, ← Finset.mul_sum, e1, e2]
  simp [hn0]

/-- Ellipses are star-shaped. -/
theorem ellipse_star (R0 a elong : ℝ) (ha : 0 < a) (he : 0 < 1 + elong) (n : ℕ) (hn : 3 ≤ n) : StarShaped (shapedPts π cos sin R0 a elong 0 0 n) (R0, 0) := by
  have hn' : (0 : ℝ) < n := by exact_mod_cast (by omega : 0 < n)
  have hpi := pi_pos
  obtain ⟨θ, ρ, h1, h2⟩ := star_of_cross (n := n) (t := fun i => 2 * π * i / n) (x := fun i => a * cos (2 * π * i / n))
    (y := fun i => (1 + elong) * (a * sin (2 * π * i / n))) (c := a ^ 2 * (1 + elong)) (by positivity) (by
      intro i j hij hj
      have h1 : (i : ℝ) < j := by exact_mod_cast hij
      have h2 : (j : ℝ) < n := by exact_mod_cast hj
      have h3 : (0 : ℝ) ≤ i := by positivity
      constructor
      · gcongr
      · rw [div_add' _ _ _ hn'.ne', div_lt_div_iff_of_pos_right hn']
        nlinarith) (by
      intro i _
      have hsc := sin_sq_add_cos_sq (2 * π * i / n)
      have : 0 < cos (2 * π * i / n) ^ 2 + (1 + elong) * sin (2 * π * i / n) ^ 2 := by
        rcases eq_or_ne (cos (2 * π * i / n)) 0 with h0 | h0
        · rw [h0] at hsc ⊢
          nlinarith
        · have : 0 < cos (2 * π * i / n) ^ 2 := by positivity
          have : 0 ≤ (1 + elong) * sin (2 * π * i / n) ^ 2 := by positivity
          linarith
      have e : a * cos (2 * π * i / n) * cos (2 * π * i / n) + (1 + elong) * (a * sin (2 * π * i / n)) * sin (2 * π * i / n) =
          a * (cos (2 * π * i / n) ^ 2 + (1 + elong) * sin (2 * π * i / n) ^ 2) := by ring
      rw [e]
      positivity) (by
      intro i j _ _
      rw [sin_sub]
      ring)
  refine ⟨θ, ρ, ?_, ?_⟩
  · intro i hi
    rw [ellipse_length] at hi
    obtain ⟨g1, g2, g3⟩ := h1 i hi
    refine ⟨g1, ?_⟩
    rw [ellipse_getD R0 a elong hi, ← g2, ← g3]
    simp
  · rw [ellipse_length]; exact h2

/-- **C230.** Circles and ellipses, however elongated, are found again. -/
theorem C230_ellipse_partial (e : RzEnv ℝ) (he : SplrepTotal e) (argsort : List ℝ → List ℕ) (ha : IsArgsort argsort) (R0 a elong : ℝ) (h0 : 0 < a)
    (h1 : 0 < 1 + elong) (n : ℕ) (hn : 3 ≤ n) (pts : List (ℝ × ℝ)) (hp : pts.Perm (shapedPts π cos sin R0 a elong 0 0 n)) (order smooth : Option ℕ) :
    ∃ l k, lineFromPointsFast e (fun y x => Complex.arg ⟨x, y⟩) argsort pts order smooth = .ok l ∧ l.pts = (shapedPts π cos sin R0 a elong 0 0 n).rotate k := by
  refine C230_partial e he argsort ha _ ?_ (ellipse_area R0 a elong h0.ne' h1 n hn) pts hp order smooth
  rw [ellipse_mean R0 a elong n (by omega)]
  exact ellipse_star R0 a elong h0 h1 n hn

/-! ## A line that is not star-shaped -/

/-- Every line that does not cross itself is found again. -/
def ReconstructsFast : Prop := ∀ (e : RzEnv ℝ), SplrepTotal e → ∀ argsort : List ℝ → List ℕ, IsArgsort argsort → ∀ p : List (ℝ × ℝ), p.Nodup →
  0 < signedArea p → (∀ i j, i < j → j < p.length → ¬ Crosses (corner p i) (corner p (i + 1)) (corner p j) (corner p (j + 1))) →
    ∀ pts : List (ℝ × ℝ), pts.Perm p → ∃ l k, lineFromPointsFast e (fun y x => Complex.arg ⟨x, y⟩) argsort pts none none = .ok l ∧ l.pts = p.rotate k

/-- The flat triangle with the inner point between the two far corners. -/
def dentPts : List (ℝ × ℝ) := [(10, 0), (0, 4), (-10, 0), (1, 2)]

theorem dent_simple : ∀ i j, i < j → j < dentPts.length → ¬ Crosses (corner dentPts i) (corner dentPts (i + 1)) (corner dentPts j) (corner dentPts (j + 1)) := by
  intro i j hij hj
  have hj' : j < 4 := hj
  interval_cases j <;> interval_cases i <;> simp [corner, dentPts, Crosses] <;> intro _ s hs hs1 t ht ht1 e1 <;> intro e2 <;> nlinarith

/-- **C230 (refutation).** -/
theorem C230_fails : ¬ ReconstructsFast := by
  intro h
  obtain ⟨argsort, ha⟩ := isArgsort_exists (K := ℝ)
  let e : RzEnv ℝ := ⟨Real.pi, Real.sqrt, fun _ _ _ => .ok fun _ _ => 0⟩
  have he : SplrepTotal e := fun _ _ _ => ⟨_, rfl⟩
  have hperm : flatPts.Perm dentPts := by
    unfold flatPts dentPts
    exact (List.Perm.swap _ _ _).trans (List.perm_append_comm (l₁ := [((0 : ℝ), (4 : ℝ)), (-10, 0), (1, 2)]) (l₂ := [(10, 0)]))
  obtain ⟨l, k, hl, hk⟩ := h e he argsort ha dentPts (by norm_num [dentPts]) (by norm_num [signedArea, dentPts, Finset.sum_range_succ]) dent_simple flatPts hperm
  obtain ⟨l0, hl0, hp0⟩ := flat_fast he ha
  rw [hl0] at hl
  obtain rfl : l0 = l := by injection hl
  rw [hp0, ← List.rotate_mod] at hk
  have hk4 : k % 4 < 4 := Nat.mod_lt _ (by norm_num)
  have : dentPts.length = 4 := rfl
  rw [this] at hk
  generalize k % 4 = m at hk hk4
  interval_cases m <;> norm_num [flatPts, dentPts] at hk

/-- A strongly elongated ellipse of seven points, taken in steps of three. -/
example (e : RzEnv ℝ) (he : SplrepTotal e) (argsort : List ℝ → List ℕ) (ha : IsArgsort argsort) (pts : List (ℝ × ℝ))
    (hp : pts.Perm (shapedPts π cos sin 3 1 9 0 0 7)) :
    ∃ l k, lineFromPointsFast e (fun y x => Complex.arg ⟨x, y⟩) argsort pts none none = .ok l ∧ l.pts = (shapedPts π cos sin 3 1 9 0 0 7).rotate k :=
  C230_ellipse_partial e he argsort ha 3 1 9 one_pos (by norm_num) 7 (by norm_num) pts hp none none

end Zoidberg
