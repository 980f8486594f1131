import Verif.Props.ClosestStraight
import Mathlib.Tactic.Linarith
import Mathlib.Tactic.Positivity
import Mathlib.Tactic.FieldSimp
import Mathlib.Tactic.IntervalCases
import Mathlib.Analysis.Real.Pi.Bounds

/-!
# C254: `closestPoint` everywhere beside a straight part of a line
-/

set_option linter.unusedSectionVars false

namespace Zoidberg

variable {K : Type} [Field K] [LinearOrder K] [IsStrictOrderedRing K] [FloorRing K]

/-- One refinement takes the angle whose position is closest along the line. -/
theorem refine_along (l : RZLine K) (pi : K) (hpi : 0 < pi) (k : ℕ) (v : K × K) (f : K) (p : K × K) (hlen : 0 < l.pts.length) (hs : StraightAt l k v)
    (hb : Beside l k v f p) (u r : K) (hr : 0 < r) (h0 : -1 ≤ u - r) (h2 : u + 9 / 10 * r < 1) :
    ∃ j : ℕ, j < 20 ∧ l.refine pi p 20 (((k : K) + u) * (2 * pi / (l.pts.length : K)), r * (2 * pi / (l.pts.length : K))) =
        .ok (((k : K) + (u - r + (j : K) * (r / 10))) * (2 * pi / (l.pts.length : K)), r / 10 * (2 * pi / (l.pts.length : K))) ∧
      ∀ i : ℕ, i < 20 → |posAlong (2 * pi / (l.pts.length : K)) (u - r + (j : K) * (r / 10)) - f| ≤ |posAlong (2 * pi / (l.pts.length : K)) (u - r + (i : K) * (r / 10)) - f| := by
  set d := 2 * pi / (l.pts.length : K) with hdd
  obtain ⟨h, hp⟩ := hb
  have hv := sq_pos_of_ne hs.step
  obtain ⟨j, hj, hres, hmin, -⟩ := refine_ok l pi p 20 (by norm_num) (((k : K) + u) * d, r * d)
  have hpos : ∀ i : ℕ, i < 20 → dist2 (l.positionPolygon pi (((k : K) + u) * d - r * d + (i : K) * (2 * (r * d) / ((20 : ℕ) : K)))) p =
      (v.1 ^ 2 + v.2 ^ 2) * ((posAlong d (u - r + (i : K) * (r / 10)) - f) ^ 2 + h ^ 2) := by
    intro i hi
    have e : ((k : K) + u) * d - r * d + (i : K) * (2 * (r * d) / ((20 : ℕ) : K)) = ((k : K) + (u - r + (i : K) * (r / 10))) * d := by
      push_cast; ring
    have hi' : (i : K) ≤ 19 := by exact_mod_cast (by omega : i ≤ 19)
    have hi0 : (0 : K) ≤ (i : K) := Nat.cast_nonneg i
    rw [e, hdd, position_straight l pi hpi k v hs hlen _ (by nlinarith) (by nlinarith), ← hdd, dist2_beside hp]
  refine ⟨j, hj, ?_, fun i hi => ?_⟩
  · rw [hres]
    congr 2
    · push_cast; ring
    · push_cast; ring
  · have h3 := hmin i hi
    simp only at h3
    rw [hpos j hj, hpos i hi] at h3
    have h4 := le_of_mul_le_mul_left h3 hv
    exact sq_le_sq.mp (by linarith)

/-- One refinement within the reach of `positionPolygon` after the nearest point. -/
theorem refine_middle (l : RZLine K) (pi : K) (hpi : 0 < pi) (k : ℕ) (v : K × K) (w : K) (p : K × K) (hlen : 0 < l.pts.length) (hs : StraightAt l k v)
    (hd1 : 2 * pi / (l.pts.length : K) ≤ 10 / 11) (hb : Beside l k v (w * (2 * pi / (l.pts.length : K))) p) (hw : 0 < w) (m : ℕ) (r : K) (hr : 0 < r)
    (hm : ((m : K) + 1) * r ≤ 1) (hwm : |(m : K) * r - w| ≤ r) :
    ∃ m' : ℕ, l.refine pi p 20 (((k : K) + (m : K) * r) * (2 * pi / (l.pts.length : K)), r * (2 * pi / (l.pts.length : K))) =
        .ok (((k : K) + (m' : K) * (r / 10)) * (2 * pi / (l.pts.length : K)), r / 10 * (2 * pi / (l.pts.length : K))) ∧
      ((m' : K) + 1) * (r / 10) ≤ 1 ∧ |(m' : K) * (r / 10) - w| ≤ r / 10 := by
  have hd : 0 < 2 * pi / (l.pts.length : K) := by
    have : (0 : K) < (l.pts.length : K) := by exact_mod_cast hlen
    positivity
  have hm0 : (0 : K) ≤ (m : K) := Nat.cast_nonneg m
  obtain ⟨j, hj, hres, hmin⟩ := refine_along l pi hpi k v _ p hlen hs hb ((m : K) * r) r hr (by nlinarith) (by nlinarith)
  set d := 2 * pi / (l.pts.length : K) with hdd
  rw [abs_le] at hwm
  -- an angle nearby
  obtain ⟨i, hi, hi0, hi1⟩ : ∃ i : ℕ, i < 20 ∧ 0 ≤ (m : K) * r - r + (i : K) * (r / 10) ∧ |(m : K) * r - r + (i : K) * (r / 10) - w| ≤ r / 10 := by
    set x := (w - ((m : K) * r - r)) / (r / 10) with hx
    have hr10 : 0 < r / 10 := by linarith
    have hxr : x * (r / 10) = w - ((m : K) * r - r) := div_mul_cancel₀ _ hr10.ne'
    have hx0 : 0 ≤ x := div_nonneg (by linarith) hr10.le
    have hx20 : x ≤ 20 := by rw [hx, div_le_iff₀ hr10]; linarith
    have hxm : m = 0 → 10 ≤ x := by
      intro h
      rw [hx, le_div_iff₀ hr10, h]
      push_cast
      linarith
    have hf1 := Nat.floor_le hx0
    have hf2 := Nat.lt_floor_add_one x
    have key : ∀ i : ℕ, (i : K) ≤ x → x ≤ (i : K) + 1 → (m = 0 → 10 ≤ i) → 0 ≤ (m : K) * r - r + (i : K) * (r / 10) ∧ |(m : K) * r - r + (i : K) * (r / 10) - w| ≤ r / 10 := by
      intro i a b c
      have ha := mul_le_mul_of_nonneg_right a hr10.le
      have hb' := mul_le_mul_of_nonneg_right b hr10.le
      refine ⟨?_, ?_⟩
      · rcases Nat.eq_zero_or_pos m with hm' | hm'
        · have : (10 : K) ≤ (i : K) := by exact_mod_cast c hm'
          rw [hm']
          push_cast
          nlinarith
        · have : (1 : K) ≤ (m : K) := by exact_mod_cast hm'
          have hi0 : (0 : K) ≤ (i : K) := Nat.cast_nonneg i
          nlinarith
      · rw [abs_le]
        constructor <;> linarith
    rcases Nat.lt_or_ge ⌊x⌋₊ 20 with hlt | hge
    · have hc : m = 0 → 10 ≤ ⌊x⌋₊ := fun h => Nat.le_floor (by exact_mod_cast hxm h)
      exact ⟨_, hlt, key _ hf1 hf2.le hc⟩
    · have : (20 : K) ≤ x := le_trans (by exact_mod_cast hge) hf1
      exact ⟨19, by norm_num, key 19 (by push_cast; linarith) (by push_cast; linarith) (fun _ => by norm_num)⟩
  have hij := hmin i hi
  have pi' : posAlong d ((m : K) * r - r + (i : K) * (r / 10)) = ((m : K) * r - r + (i : K) * (r / 10)) * d := if_pos hi0
  have hbound : |posAlong d ((m : K) * r - r + (i : K) * (r / 10)) - w * d| ≤ r / 10 * d := by
    rw [pi', ← sub_mul, abs_mul, abs_of_pos hd]
    exact mul_le_mul_of_nonneg_right hi1 hd.le
  have hjb := hij.trans hbound
  have hr1 : r ≤ 1 := by nlinarith
  have hj0 : 0 ≤ (m : K) * r - r + (j : K) * (r / 10) := by
    by_contra hc
    have e : posAlong d ((m : K) * r - r + (j : K) * (r / 10)) = (1 + ((m : K) * r - r + (j : K) * (r / 10))) * d - 1 := if_neg hc
    push Not at hc
    rw [e, abs_le] at hjb
    have a1 := mul_lt_mul_of_pos_right hc hd
    have a2 := mul_pos hw hd
    have a3 := mul_le_mul_of_nonneg_right hr1 hd.le
    nlinarith
  have ej : posAlong d ((m : K) * r - r + (j : K) * (r / 10)) = ((m : K) * r - r + (j : K) * (r / 10)) * d := if_pos hj0
  rw [ej, ← sub_mul, abs_mul, abs_of_pos hd] at hjb
  have hjw := le_of_mul_le_mul_right hjb hd
  have hnat : 10 ≤ 10 * m + j := by
    by_contra hc
    push Not at hc
    have : (10 : K) * (m : K) + (j : K) ≤ 9 := by exact_mod_cast (by omega : 10 * m + j ≤ 9)
    nlinarith
  have ecast : ((10 * m + j - 10 : ℕ) : K) * (r / 10) = (m : K) * r - r + (j : K) * (r / 10) := by
    rw [Nat.cast_sub hnat]
    push_cast
    ring
  refine ⟨10 * m + j - 10, ?_, ?_, ?_⟩
  · rw [ecast]; exact hres
  · rw [add_mul, ecast]
    have : (j : K) ≤ 19 := by exact_mod_cast (by omega : j ≤ 19)
    nlinarith
  · rw [ecast]; exact hjw

/-- **C254.** Beside a straight part, up to `2 pi / n` (in units of the distance of the points) after the nearest point: the angle converges to `f` radians after the angle of the point,
instead of `f` steps of `2 pi / n`. -/
theorem C254_middle (l : RZLine K) (pi : K) (hpi : 0 < pi) (k : ℕ) (v : K × K) (f : K) (p : K × K) (hk : k + 1 < l.pts.length) (hs : StraightAt l k v)
    (hn : NearestNode l p k) (hb : Beside l k v f p) (hd1 : 2 * pi / (l.pts.length : K) ≤ 10 / 11) (hf0 : 0 < f) (hf1 : f ≤ 2 * pi / (l.pts.length : K)) (niter : ℕ) :
    ∃ t, l.closestPoint pi p niter 20 = .ok t ∧ |t - ((k : K) * (2 * pi / (l.pts.length : K)) + f)| ≤ 1 / 10 ^ niter * (2 * pi / (l.pts.length : K)) := by
  have hlen : (0 : K) < (l.pts.length : K) := by exact_mod_cast (by omega : 0 < l.pts.length)
  have hd : 0 < 2 * pi / (l.pts.length : K) := by positivity
  obtain ⟨w, hw⟩ : ∃ w, f = w * (2 * pi / (l.pts.length : K)) := ⟨f / (2 * pi / (l.pts.length : K)), (div_mul_cancel₀ _ hd.ne').symm⟩
  have hw0 : 0 < w := by
    rw [hw] at hf0
    by_contra hc
    push Not at hc
    linarith [mul_nonpos_of_nonpos_of_nonneg hc hd.le]
  have hw1 : w ≤ 1 := by
    rw [hw] at hf1
    exact le_of_mul_le_mul_right (by rw [one_mul]; exact hf1) hd
  rw [hw] at hb
  have key : ∀ (n m : ℕ) (r : K), 0 < r → ((m : K) + 1) * r ≤ 1 → |(m : K) * r - w| ≤ r → ∃ m' : ℕ,
      l.refineLoop pi p 20 n (((k : K) + (m : K) * r) * (2 * pi / (l.pts.length : K)), r * (2 * pi / (l.pts.length : K))) =
        .ok (((k : K) + (m' : K) * (r / 10 ^ n)) * (2 * pi / (l.pts.length : K)), r / 10 ^ n * (2 * pi / (l.pts.length : K))) ∧
      ((m' : K) + 1) * (r / 10 ^ n) ≤ 1 ∧ |(m' : K) * (r / 10 ^ n) - w| ≤ r / 10 ^ n := by
    intro n
    induction n with
    | zero => intro m r _ h1 h2; exact ⟨m, by simp [RZLine.refineLoop], by simpa using h1, by simpa using h2⟩
    | succ n ih =>
      intro m r hr h1 h2
      obtain ⟨m1, e1, a1, b1⟩ := refine_middle l pi hpi k v w p (by omega) hs hd1 hb hw0 m r hr h1 h2
      obtain ⟨m2, e2, a2, b2⟩ := ih m1 (r / 10) (by linarith) a1 b1
      have ep : r / 10 / 10 ^ n = r / 10 ^ (n + 1) := by rw [pow_succ]; field_simp
      rw [ep] at e2 a2 b2
      exact ⟨m2, by rw [RZLine.refineLoop, e1]; exact e2, a2, b2⟩
  obtain ⟨m', e, a, b⟩ := key niter 0 1 one_pos (by norm_num) (by rw [abs_le]; push_cast; constructor <;> linarith)
  rw [Nat.cast_zero, zero_mul, add_zero, one_mul] at e
  have hr' : (0 : K) < 1 / 10 ^ niter := by positivity
  have hm' : (0 : K) ≤ (m' : K) * (1 / 10 ^ niter) := mul_nonneg (Nat.cast_nonneg _) hr'.le
  refine ⟨((k : K) + (m' : K) * (1 / 10 ^ niter)) * (2 * pi / (l.pts.length : K)), ?_, ?_⟩
  · rw [closestPoint_eq l pi p niter 20 (by omega), (nearestNode_iff l p k (by omega)).1 hn, e]
    simp only [Except.map]
    rw [npRem_id (mul_nonneg (by have := Nat.cast_nonneg (α := K) k; linarith) hd.le)]
    have hk' : (k : K) + 1 + 1 ≤ (l.pts.length : K) := by exact_mod_cast hk
    calc ((k : K) + (m' : K) * (1 / 10 ^ niter)) * (2 * pi / (l.pts.length : K)) < (l.pts.length : K) * (2 * pi / (l.pts.length : K)) :=
          mul_lt_mul_of_pos_right (by linarith) hd
      _ = 2 * pi := by field_simp
  · rw [hw, ← add_mul, ← sub_mul, add_sub_add_left_eq_sub, abs_mul, abs_of_pos hd]
    exact mul_le_mul_of_nonneg_right b hd.le

/-- One refinement before the nearest point. -/
theorem refine_before (l : RZLine K) (pi : K) (hpi : 0 < pi) (k : ℕ) (v : K × K) (f : K) (p : K × K) (hlen : 0 < l.pts.length) (hs : StraightAt l k v)
    (hb : Beside l k v f p) (hd1 : 2 * pi / (l.pts.length : K) ≤ 1 / 2) (hf : f ≤ 0) (hf2 : -(1 / 2) ≤ f) (u r : K) (hr : 0 < r) (hu : (u = 0 ∧ r ≤ 1) ∨ (u = -r ∧ r ≤ 1 / 2)) :
    ∃ u', l.refine pi p 20 (((k : K) + u) * (2 * pi / (l.pts.length : K)), r * (2 * pi / (l.pts.length : K))) =
        .ok (((k : K) + u') * (2 * pi / (l.pts.length : K)), r / 10 * (2 * pi / (l.pts.length : K))) ∧
      ((u' = 0 ∧ r / 10 ≤ 1) ∨ (u' = -(r / 10) ∧ r / 10 ≤ 1 / 2)) := by
  have hd : 0 < 2 * pi / (l.pts.length : K) := by
    have : (0 : K) < (l.pts.length : K) := by exact_mod_cast hlen
    positivity
  obtain ⟨j, hj, hres, hmin⟩ := refine_along l pi hpi k v _ p hlen hs hb u r hr (by rcases hu with h | h <;> linarith [h.1, h.2]) (by rcases hu with h | h <;> linarith [h.1, h.2])
  set d := 2 * pi / (l.pts.length : K) with hdd
  refine ⟨_, hres, ?_⟩
  have hj' : (j : K) ≤ 19 := by exact_mod_cast (by omega : j ≤ 19)
  -- positions before the point are all before `f`, and the later the closer
  have neg : ∀ x y : K, -1 ≤ x → x < y → y < 0 → |posAlong d y - f| < |posAlong d x - f| := by
    intro x y h1 h2 h3
    have ex : posAlong d x = (1 + x) * d - 1 := if_neg (by linarith)
    have ey : posAlong d y = (1 + y) * d - 1 := if_neg (by linarith)
    have a1 := mul_lt_mul_of_pos_right h2 hd
    have a2 := mul_lt_mul_of_pos_right h3 hd
    rw [ex, ey, abs_of_neg (by linarith), abs_of_neg (by linarith)]
    linarith
  rcases hu with ⟨rfl, h1⟩ | ⟨rfl, h1⟩
  · rcases lt_trichotomy j 10 with hlt | heq | hgt
    · right
      refine ⟨?_, by linarith⟩
      by_contra hne
      have h9 : j < 9 := by
        rcases Nat.lt_or_ge j 9 with h | h
        · exact h
        · exfalso
          apply hne
          rw [show j = 9 by omega]
          push_cast
          ring
      have hj9 : (j : K) ≤ 8 := by exact_mod_cast (by omega : j ≤ 8)
      have hj0 : (0 : K) ≤ (j : K) := Nat.cast_nonneg j
      have := neg (0 - r + (j : K) * (r / 10)) (0 - r + ((9 : ℕ) : K) * (r / 10)) (by nlinarith) (by push_cast; nlinarith) (by push_cast; nlinarith)
      exact absurd (hmin 9 (by norm_num)) (not_le.mpr this)
    · left
      refine ⟨?_, by linarith⟩
      rw [heq]
      push_cast
      ring
    · exfalso
      have h11 : (11 : K) ≤ (j : K) := by exact_mod_cast hgt
      have h10 := hmin 10 (by norm_num)
      have e10 : posAlong d (0 - r + ((10 : ℕ) : K) * (r / 10)) = 0 := by
        unfold posAlong
        rw [show 0 - r + ((10 : ℕ) : K) * (r / 10) = 0 by push_cast; ring, if_pos le_rfl, zero_mul]
      have hp : 0 < 0 - r + (j : K) * (r / 10) := by nlinarith
      have ej : posAlong d (0 - r + (j : K) * (r / 10)) = (0 - r + (j : K) * (r / 10)) * d := if_pos hp.le
      have := mul_pos hp hd
      rw [e10, ej, abs_of_nonneg (by linarith), abs_of_nonneg (by linarith)] at h10
      linarith
  · right
    refine ⟨?_, by linarith⟩
    by_contra hne
    have h19 : j < 19 := by
      rcases Nat.lt_or_ge j 19 with h | h
      · exact h
      · exfalso
        apply hne
        rw [show j = 19 by omega]
        push_cast
        ring
    have hj18 : (j : K) ≤ 18 := by exact_mod_cast (by omega : j ≤ 18)
    have hj0 : (0 : K) ≤ (j : K) := Nat.cast_nonneg j
    have := neg (-r - r + (j : K) * (r / 10)) (-r - r + ((19 : ℕ) : K) * (r / 10)) (by nlinarith) (by push_cast; nlinarith) (by push_cast; nlinarith)
    exact absurd (hmin 19 (by norm_num)) (not_le.mpr this)

/-- The closest point is not more than half the way to the previous one. -/
theorem beside_half_before {l : RZLine K} {k : ℕ} {v : K × K} {f : K} {p : K × K} (hk : k + 1 < l.pts.length) (hs : StraightAt l k v) (hn : NearestNode l p k)
    (hb : Beside l k v f p) : -(1 / 2) ≤ f := by
  obtain ⟨h, hp⟩ := hb
  have hv := sq_pos_of_ne hs.step
  have hpos := hs.pos
  have h1 := hn.nearest (k - 1) (by omega)
  have d0 := dist2_beside (l := l) hp 0
  have d1 := dist2_beside (l := l) hp (-1)
  have e0 : (((ptAt l.pts k).1 + 0 * v.1, (ptAt l.pts k).2 + 0 * v.2) : K × K) = ptAt l.pts k := by ext <;> simp
  have e1 : (((ptAt l.pts k).1 + -1 * v.1, (ptAt l.pts k).2 + -1 * v.2) : K × K) = ptAt l.pts (k - 1) := by rw [hs.prev]; ext <;> simp
  rw [e0] at d0
  rw [e1] at d1
  rw [d0, d1] at h1
  have := le_of_mul_le_mul_left h1 hv
  nlinarith

/-- **C254.** Before the nearest point the angle of this point is returned, or one that is `10 ^ -niter` steps less, wherever the closest point is. -/
theorem C254_before (l : RZLine K) (pi : K) (hpi : 0 < pi) (k : ℕ) (v : K × K) (f : K) (p : K × K) (hk : k + 1 < l.pts.length) (hs : StraightAt l k v)
    (hn : NearestNode l p k) (hb : Beside l k v f p) (hd1 : 2 * pi / (l.pts.length : K) ≤ 1 / 2) (hf : f ≤ 0) (niter : ℕ) :
    ∃ u, l.closestPoint pi p niter 20 = .ok (((k : K) + u) * (2 * pi / (l.pts.length : K))) ∧ (u = 0 ∨ u = -(1 / 10 ^ niter)) := by
  have hlen : (0 : K) < (l.pts.length : K) := by exact_mod_cast (by omega : 0 < l.pts.length)
  have hd : 0 < 2 * pi / (l.pts.length : K) := by positivity
  have hf2 := beside_half_before hk hs hn hb
  have key : ∀ (n : ℕ) (u r : K), 0 < r → ((u = 0 ∧ r ≤ 1) ∨ (u = -r ∧ r ≤ 1 / 2)) → ∃ u',
      l.refineLoop pi p 20 n (((k : K) + u) * (2 * pi / (l.pts.length : K)), r * (2 * pi / (l.pts.length : K))) =
        .ok (((k : K) + u') * (2 * pi / (l.pts.length : K)), r / 10 ^ n * (2 * pi / (l.pts.length : K))) ∧ (u' = 0 ∨ u' = -(r / 10 ^ n)) := by
    intro n
    induction n with
    | zero =>
      intro u r _ h
      refine ⟨u, by simp [RZLine.refineLoop], ?_⟩
      rw [pow_zero, div_one]
      exact h.imp And.left And.left
    | succ n ih =>
      intro u r hr h
      obtain ⟨u1, e1, a1⟩ := refine_before l pi hpi k v f p (by omega) hs hb hd1 hf hf2 u r hr h
      obtain ⟨u2, e2, a2⟩ := ih u1 (r / 10) (by linarith) a1
      have ep : r / 10 / 10 ^ n = r / 10 ^ (n + 1) := by rw [pow_succ]; field_simp
      rw [ep] at e2 a2
      exact ⟨u2, by rw [RZLine.refineLoop, e1]; exact e2, a2⟩
  obtain ⟨u, e, a⟩ := key niter 0 1 one_pos (Or.inl ⟨rfl, le_rfl⟩)
  rw [add_zero, one_mul] at e
  refine ⟨u, ?_, a⟩
  rw [closestPoint_eq l pi p niter 20 (by omega), (nearestNode_iff l p k (by omega)).1 hn, e]
  simp only [Except.map]
  have hk' : (k : K) + 1 + 1 ≤ (l.pts.length : K) := by exact_mod_cast hk
  have hk1 : (1 : K) ≤ (k : K) := by exact_mod_cast hs.pos
  have h10 : (1 : K) / 10 ^ niter ≤ 1 := by
    rw [div_le_one (by positivity)]
    exact one_le_pow₀ (by norm_num)
  have h10' : (0 : K) < 1 / 10 ^ niter := by positivity
  have hu : -1 ≤ u ∧ u ≤ 0 := by rcases a with a | a <;> rw [a] <;> constructor <;> linarith
  rw [npRem_id (mul_nonneg (by linarith) hd.le)]
  calc ((k : K) + u) * (2 * pi / (l.pts.length : K)) < (l.pts.length : K) * (2 * pi / (l.pts.length : K)) := mul_lt_mul_of_pos_right (by linarith) hd
    _ = 2 * pi := by field_simp

/-- **C254.** So the default is right to a thousandth of the distance only for points beside the points of the line: those that are at most two thousandths before one of them, or after it
at most so far that `f` steps and `f` radians differ by two thousandths of a step. -/
theorem C254_only (l : RZLine K) (pi : K) (hpi : 0 < pi) (k : ℕ) (v : K × K) (f : K) (p : K × K) (hk : k + 1 < l.pts.length) (hs : StraightAt l k v)
    (hn : NearestNode l p k) (hb : Beside l k v f p) (hd1 : 2 * pi / (l.pts.length : K) ≤ 1 / 2)
    (h : ∃ t, l.closestPoint pi p 3 20 = .ok t ∧ |t - ((k : K) + f) * (2 * pi / (l.pts.length : K))| ≤ 1 / 1000 * (2 * pi / (l.pts.length : K))) :
    -(2 / 1000) ≤ f ∧ f * (1 - 2 * pi / (l.pts.length : K)) ≤ 2 / 1000 * (2 * pi / (l.pts.length : K)) := by
  have hlen : (0 : K) < (l.pts.length : K) := by exact_mod_cast (by omega : 0 < l.pts.length)
  have hd : 0 < 2 * pi / (l.pts.length : K) := by positivity
  obtain ⟨t, ht, hb1⟩ := h
  rcases le_or_gt f 0 with hf | hf
  · obtain ⟨u, e, a⟩ := C254_before l pi hpi k v f p hk hs hn hb hd1 hf 3
    rw [e] at ht
    cases ht
    rw [← sub_mul, abs_mul, abs_of_pos hd] at hb1
    have := abs_le.mp (le_of_mul_le_mul_right hb1 hd)
    have hu : -(1 / 1000) ≤ u := by rcases a with a | a <;> rw [a] <;> norm_num
    refine ⟨by linarith, ?_⟩
    have : f * (1 - 2 * pi / (l.pts.length : K)) ≤ 0 := mul_nonpos_of_nonpos_of_nonneg hf (by linarith)
    linarith
  · refine ⟨by linarith, ?_⟩
    rcases le_or_gt f (2 * pi / (l.pts.length : K)) with hf1 | hf1
    · obtain ⟨t', e, a⟩ := C254_middle l pi hpi k v f p hk hs hn hb (by linarith) hf hf1 3
      rw [e] at ht
      cases ht
      have h1 := abs_le.mp a
      have h2 := abs_le.mp hb1
      norm_num at h1
      linarith
    · obtain ⟨t', t0, e, -, a, -⟩ := C254_misses l pi hpi k v f p hk hs hn hb hf1.le
      rw [e] at ht
      cases ht
      exfalso
      linarith

/-- A square whose sides are divided into four parts: the points after the third one of the lower side are wrong at a hundredth of the distance. -/
example : ∃ t, square16.closestPoint Real.pi (2 + 1 / 100, -1) 3 20 = .ok t ∧ |t - (((2 : ℕ) : ℝ) * (2 * Real.pi / 16) + 1 / 100)| ≤ 1 / 10 ^ 3 * (2 * Real.pi / 16) := by
  have hlen : square16.pts.length = 16 := rfl
  have hpi4 := Real.pi_lt_d2
  have hpi3 := Real.pi_gt_three
  have := C254_middle square16 Real.pi Real.pi_pos 2 (1, 0) (1 / 100) (2 + 1 / 100, -1) (by rw [hlen]; norm_num) square16_straight
    ⟨by rw [hlen]; norm_num, fun i hi => by rw [hlen] at hi; interval_cases i <;> norm_num [square16, ptAt, dist2],
      fun i hi => by interval_cases i <;> norm_num [square16, ptAt, dist2]⟩
    ⟨-1, by norm_num [square16, ptAt], by norm_num [square16, ptAt]⟩ (by rw [hlen]; push_cast; linarith) (by norm_num) (by rw [hlen]; push_cast; linarith) 3
  rw [hlen] at this
  exact_mod_cast this

end Zoidberg
