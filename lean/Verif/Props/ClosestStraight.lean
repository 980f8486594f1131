import Verif.Props.RzClosest
import Verif.Model.EllLines
import Verif.Proofs.Jacobian
import Mathlib.Tactic.IntervalCases
import Mathlib.Analysis.Real.Pi.Bounds

/-!
# C254: `closestPoint` on straight parts of a line
-/

set_option linter.unusedSectionVars false

namespace Zoidberg

variable {K : Type} [Field K] [LinearOrder K] [IsStrictOrderedRing K] [FloorRing K]

/-- The line goes straight through point `k`, and its neighbours have the same distance `v` from it. -/
structure StraightAt (l : RZLine K) (k : ℕ) (v : K × K) : Prop where
  pos : 1 ≤ k
  step : v ≠ 0
  next : ptAt l.pts (k + 1) = ptAt l.pts k + v
  prev : ptAt l.pts k = ptAt l.pts (k - 1) + v

/-- The point `p` is beside the point a fraction `f` of the way from point `k` to the next. -/
def Beside (l : RZLine K) (k : ℕ) (v : K × K) (f : K) (p : K × K) : Prop :=
  ∃ h, p.1 = (ptAt l.pts k).1 + f * v.1 - h * v.2 ∧ p.2 = (ptAt l.pts k).2 + f * v.2 + h * v.1

/-- **C254**, the claim: `closestPoint` finds the closest point to a thousandth of the distance of the points of the line. -/
def FindsClosest (l : RZLine K) (pi : K) : Prop :=
  ∀ k v f p, k + 1 < l.pts.length → StraightAt l k v → NearestNode l p k → Beside l k v f p →
    ∃ t, l.closestPoint pi p 3 20 = .ok t ∧ |t - ((k : K) + f) * (2 * pi / (l.pts.length : K))| ≤ 1 / 1000 * (2 * pi / (l.pts.length : K))

/-- Where `positionPolygon` puts the angle `k + u` steps, in units of the distance of the points from point `k`. -/
def posAlong (d u : K) : K := if 0 ≤ u then u * d else (1 + u) * d - 1

theorem position_straight (l : RZLine K) (pi : K) (hpi : 0 < pi) (k : ℕ) (v : K × K) (hs : StraightAt l k v) (hn : 0 < l.pts.length) (u : K) (h0 : -1 ≤ u) (h1 : u < 1) :
    l.positionPolygon pi (((k : K) + u) * (2 * pi / (l.pts.length : K))) =
      ((ptAt l.pts k).1 + posAlong (2 * pi / (l.pts.length : K)) u * v.1, (ptAt l.pts k).2 + posAlong (2 * pi / (l.pts.length : K)) u * v.2) := by
  unfold posAlong
  by_cases hu : 0 ≤ u
  · rw [C55_segment_partial l pi hpi hn k u hu h1, if_pos hu, hs.next]
    unfold onSegment
    ext
    · simp only [Prod.fst_add]; ring
    · simp only [Prod.snd_add]; ring
  · push Not at hu
    have hk := hs.pos
    have e : ((k : K) + u) = ((k - 1 : ℕ) : K) + (1 + u) := by
      rw [Nat.cast_sub hk]
      push_cast
      ring
    rw [e, C55_segment_partial l pi hpi hn (k - 1) (1 + u) (by linarith) (by linarith), if_neg (not_le.2 hu)]
    have e2 : k - 1 + 1 = k := by omega
    have e3 : ptAt l.pts (k - 1) = ptAt l.pts k - v := by rw [hs.prev]; abel
    rw [e2, e3]
    unfold onSegment
    ext
    · simp only [Prod.fst_sub]; ring
    · simp only [Prod.snd_sub]; ring

theorem dist2_beside {l : RZLine K} {k : ℕ} {v : K × K} {f : K} {p : K × K} {h : K}
    (hp : p.1 = (ptAt l.pts k).1 + f * v.1 - h * v.2 ∧ p.2 = (ptAt l.pts k).2 + f * v.2 + h * v.1) (x : K) :
    dist2 ((ptAt l.pts k).1 + x * v.1, (ptAt l.pts k).2 + x * v.2) p = (v.1 ^ 2 + v.2 ^ 2) * ((x - f) ^ 2 + h ^ 2) := by
  unfold dist2
  simp only
  rw [hp.1, hp.2]
  ring

theorem sq_pos_of_ne {v : K × K} (h : v ≠ 0) : 0 < v.1 ^ 2 + v.2 ^ 2 := by
  rcases (sq_nonneg v.1).lt_or_eq with h1 | h1
  · nlinarith [sq_nonneg v.2]
  · rcases (sq_nonneg v.2).lt_or_eq with h2 | h2
    · nlinarith
    · exfalso
      apply h
      ext
      · simpa using h1.symm
      · simpa using h2.symm

/-- The closest point is not more than half the way to the next. -/
theorem beside_half {l : RZLine K} {k : ℕ} {v : K × K} {f : K} {p : K × K} (hk : k + 1 < l.pts.length) (hs : StraightAt l k v) (hn : NearestNode l p k)
    (hb : Beside l k v f p) : f ≤ 1 / 2 := by
  obtain ⟨h, hp⟩ := hb
  have hv := sq_pos_of_ne hs.step
  have h1 := hn.nearest (k + 1) hk
  have d0 := dist2_beside (l := l) hp 0
  have d1 := dist2_beside (l := l) hp 1
  have e0 : (((ptAt l.pts k).1 + 0 * v.1, (ptAt l.pts k).2 + 0 * v.2) : K × K) = ptAt l.pts k := by ext <;> simp
  have e1 : (((ptAt l.pts k).1 + 1 * v.1, (ptAt l.pts k).2 + 1 * v.2) : K × K) = ptAt l.pts (k + 1) := by rw [hs.next]; ext <;> simp
  rw [e0] at d0
  rw [e1] at d1
  rw [d0, d1] at h1
  have := le_of_mul_le_mul_left h1 hv
  nlinarith

/-- One refinement takes the last angle. -/
theorem refine_last (l : RZLine K) (pi : K) (hpi : 0 < pi) (k : ℕ) (v : K × K) (f : K) (p : K × K) (hk : k + 1 < l.pts.length) (hs : StraightAt l k v)
    (hn : NearestNode l p k) (hb : Beside l k v f p) (hf : 2 * pi / (l.pts.length : K) ≤ f) (u r : K) (hr : 0 < r) (h0 : -1 ≤ u - r)
    (h1 : 0 ≤ u + 9 / 10 * r) (h2 : u + 9 / 10 * r < 1) :
    l.refine pi p 20 (((k : K) + u) * (2 * pi / (l.pts.length : K)), r * (2 * pi / (l.pts.length : K))) =
      .ok (((k : K) + (u + 9 / 10 * r)) * (2 * pi / (l.pts.length : K)), r / 10 * (2 * pi / (l.pts.length : K))) := by
  have hlen : 0 < l.pts.length := by omega
  have hd : 0 < 2 * pi / (l.pts.length : K) := by
    have : (0 : K) < (l.pts.length : K) := by exact_mod_cast hlen
    positivity
  have hf2 := beside_half hk hs hn hb
  set d := 2 * pi / (l.pts.length : K) with hdd
  obtain ⟨h, hp⟩ := hb
  have hv := sq_pos_of_ne hs.step
  obtain ⟨j, hj, hres, hmin, -⟩ := refine_ok l pi p 20 (by norm_num) (((k : K) + u) * d, r * d)
  have hpos : ∀ i : ℕ, i < 20 → dist2 (l.positionPolygon pi (((k : K) + u) * d - r * d + (i : K) * (2 * (r * d) / ((20 : ℕ) : K)))) p =
      (v.1 ^ 2 + v.2 ^ 2) * ((posAlong d (u - r + (i : K) * (r / 10)) - f) ^ 2 + h ^ 2) := by
    intro i hi
    have e : ((k : K) + u) * d - r * d + (i : K) * (2 * (r * d) / ((20 : ℕ) : K)) = ((k : K) + (u - r + (i : K) * (r / 10))) * d := by
      push_cast; ring
    have hi' : (i : K) ≤ 19 := by exact_mod_cast (by omega : i ≤ 19)
    have hi0 : (0 : K) ≤ (i : K) := Nat.cast_nonneg i
    rw [e, hdd, position_straight l pi hpi k v hs hlen _ (by nlinarith) (by nlinarith), ← hdd, dist2_beside hp]
  have hj19 : j = 19 := by
    by_contra hne
    have hlt : j < 19 := by omega
    have h3 := hmin 19 (by norm_num)
    simp only at h3
    rw [hpos j hj, hpos 19 (by norm_num)] at h3
    have h4 := le_of_mul_le_mul_left h3 hv
    have hj' : (j : K) ≤ 18 := by exact_mod_cast (by omega : j ≤ 18)
    have a19 : posAlong d (u - r + ((19 : ℕ) : K) * (r / 10)) = (u + 9 / 10 * r) * d := by
      unfold posAlong
      have e : u - r + ((19 : ℕ) : K) * (r / 10) = u + 9 / 10 * r := by push_cast; ring
      rw [e, if_pos h1]
    have hlast : (u + 9 / 10 * r) * d ≤ f := by nlinarith
    have aj : posAlong d (u - r + (j : K) * (r / 10)) < (u + 9 / 10 * r) * d := by
      unfold posAlong
      split_ifs with hc
      · exact mul_lt_mul_of_pos_right (by nlinarith) hd
      · push Not at hc
        have : (1 + (u - r + (j : K) * (r / 10))) * d < 1 := by nlinarith
        have := mul_nonneg h1 hd.le
        linarith
    rw [a19] at h4
    nlinarith
  rw [hres, hj19]
  congr 2
  · push_cast; ring
  · push_cast; ring

theorem refineLoop_last (l : RZLine K) (pi : K) (hpi : 0 < pi) (k : ℕ) (v : K × K) (f : K) (p : K × K) (hk : k + 1 < l.pts.length) (hs : StraightAt l k v)
    (hn : NearestNode l p k) (hb : Beside l k v f p) (hf : 2 * pi / (l.pts.length : K) ≤ f) : ∀ (m : ℕ) (r : K), 0 < r → r ≤ 1 →
    l.refineLoop pi p 20 m (((k : K) + (1 - r)) * (2 * pi / (l.pts.length : K)), r * (2 * pi / (l.pts.length : K))) =
      .ok (((k : K) + (1 - r / 10 ^ m)) * (2 * pi / (l.pts.length : K)), r / 10 ^ m * (2 * pi / (l.pts.length : K))) := by
  intro m
  induction m with
  | zero => intro r _ _; simp [RZLine.refineLoop]
  | succ m ih =>
    intro r hr h1
    rw [RZLine.refineLoop, refine_last l pi hpi k v f p hk hs hn hb hf (1 - r) r hr (by linarith) (by linarith) (by linarith)]
    have e : (k : K) + (1 - r + 9 / 10 * r) = (k : K) + (1 - r / 10) := by ring
    simp only [Except.bind]
    rw [e, ih (r / 10) (by linarith) (by linarith), pow_succ]
    congr 2 <;> field_simp

/-- **C254.** On straight parts, for every point that is beside a part of the line at least `2 pi / n` (in units of the distance of the points) after
the nearest one of them, `niter` refinements always lead to `1 - 10 ^ -niter`, wherever the closest point is. -/
theorem C254_stuck (l : RZLine K) (pi : K) (hpi : 0 < pi) (k : ℕ) (v : K × K) (f : K) (p : K × K) (hk : k + 1 < l.pts.length) (hs : StraightAt l k v)
    (hn : NearestNode l p k) (hb : Beside l k v f p) (hf : 2 * pi / (l.pts.length : K) ≤ f) (niter : ℕ) :
    l.closestPoint pi p niter 20 = .ok (((k : K) + (1 - 1 / 10 ^ niter)) * (2 * pi / (l.pts.length : K))) := by
  have hlen : (0 : K) < (l.pts.length : K) := by exact_mod_cast (by omega : 0 < l.pts.length)
  have hd : 0 < 2 * pi / (l.pts.length : K) := by positivity
  rw [closestPoint_eq l pi p niter 20 (by omega), (nearestNode_iff l p k (by omega)).1 hn]
  have := refineLoop_last l pi hpi k v f p hk hs hn hb hf niter 1 one_pos le_rfl
  rw [sub_self, add_zero, one_mul] at this
  rw [this]
  simp only [Except.map]
  have h10 : (1 : K) / 10 ^ niter ≤ 1 := by
    rw [div_le_one (by positivity)]
    exact one_le_pow₀ (by norm_num)
  have h10' : (0 : K) < 1 / 10 ^ niter := by positivity
  rw [npRem_id (mul_nonneg (by have := Nat.cast_nonneg (α := K) k; linarith) hd.le)]
  have hk' : (k : K) + 1 + 1 ≤ (l.pts.length : K) := by exact_mod_cast hk
  calc ((k : K) + (1 - 1 / 10 ^ niter)) * (2 * pi / (l.pts.length : K)) < (l.pts.length : K) * (2 * pi / (l.pts.length : K)) :=
        mul_lt_mul_of_pos_right (by linarith) hd
    _ = 2 * pi := by field_simp

/-- So the default misses the closest point by almost half the distance of the points or more, and is worse than the nearest point itself
(`niter=0`). -/
theorem C254_misses (l : RZLine K) (pi : K) (hpi : 0 < pi) (k : ℕ) (v : K × K) (f : K) (p : K × K) (hk : k + 1 < l.pts.length) (hs : StraightAt l k v)
    (hn : NearestNode l p k) (hb : Beside l k v f p) (hf : 2 * pi / (l.pts.length : K) ≤ f) :
    ∃ t t0, l.closestPoint pi p 3 20 = .ok t ∧ l.closestPoint pi p 0 20 = .ok t0 ∧
      499 / 1000 * (2 * pi / (l.pts.length : K)) ≤ |t - ((k : K) + f) * (2 * pi / (l.pts.length : K))| ∧
      |t0 - ((k : K) + f) * (2 * pi / (l.pts.length : K))| ≤ 1 / 2 * (2 * pi / (l.pts.length : K)) := by
  have hlen : (0 : K) < (l.pts.length : K) := by exact_mod_cast (by omega : 0 < l.pts.length)
  have hd : 0 < 2 * pi / (l.pts.length : K) := by positivity
  have hf2 := beside_half hk hs hn hb
  refine ⟨_, _, C254_stuck l pi hpi k v f p hk hs hn hb hf 3, C254_stuck l pi hpi k v f p hk hs hn hb hf 0, ?_, ?_⟩
  · rw [← sub_mul, abs_mul, abs_of_pos hd]
    refine mul_le_mul_of_nonneg_right ?_ hd.le
    rw [abs_of_nonneg (by norm_num; linarith)]
    norm_num
    linarith
  · rw [← sub_mul, abs_mul, abs_of_pos hd]
    refine mul_le_mul_of_nonneg_right ?_ hd.le
    rw [abs_le]
    constructor <;> norm_num <;> linarith

/-- One refinement keeps the angle of the nearest point. -/
theorem refine_node (l : RZLine K) (pi : K) (hpi : 0 < pi) (k : ℕ) (v : K × K) (f : K) (p : K × K) (hlen : 0 < l.pts.length) (hs : StraightAt l k v)
    (hb : Beside l k v f p) (hf : f ≤ 0) (hf2 : 2 * pi / (l.pts.length : K) - 1 < 2 * f) (r : K) (hr : 0 < r) (h1 : r ≤ 1) :
    l.refine pi p 20 ((k : K) * (2 * pi / (l.pts.length : K)), r * (2 * pi / (l.pts.length : K))) =
      .ok ((k : K) * (2 * pi / (l.pts.length : K)), r / 10 * (2 * pi / (l.pts.length : K))) := by
  have hd : 0 < 2 * pi / (l.pts.length : K) := by
    have : (0 : K) < (l.pts.length : K) := by exact_mod_cast hlen
    positivity
  set d := 2 * pi / (l.pts.length : K) with hdd
  obtain ⟨h, hp⟩ := hb
  have hv := sq_pos_of_ne hs.step
  obtain ⟨j, hj, hres, hmin, -⟩ := refine_ok l pi p 20 (by norm_num) ((k : K) * d, r * d)
  have hpos : ∀ i : ℕ, i < 20 → dist2 (l.positionPolygon pi ((k : K) * d - r * d + (i : K) * (2 * (r * d) / ((20 : ℕ) : K)))) p =
      (v.1 ^ 2 + v.2 ^ 2) * ((posAlong d (-r + (i : K) * (r / 10)) - f) ^ 2 + h ^ 2) := by
    intro i hi
    have e : (k : K) * d - r * d + (i : K) * (2 * (r * d) / ((20 : ℕ) : K)) = ((k : K) + (-r + (i : K) * (r / 10))) * d := by
      push_cast; ring
    have hi' : (i : K) ≤ 19 := by exact_mod_cast (by omega : i ≤ 19)
    have hi0 : (0 : K) ≤ (i : K) := Nat.cast_nonneg i
    rw [e, hdd, position_straight l pi hpi k v hs hlen _ (by nlinarith) (by nlinarith), ← hdd, dist2_beside hp]
  have hj10 : j = 10 := by
    by_contra hne
    have h3 := hmin 10 (by norm_num)
    simp only at h3
    rw [hpos j hj, hpos 10 (by norm_num)] at h3
    have h4 := le_of_mul_le_mul_left h3 hv
    have a10 : posAlong d (-r + ((10 : ℕ) : K) * (r / 10)) = 0 := by
      unfold posAlong
      have e : -r + ((10 : ℕ) : K) * (r / 10) = 0 := by push_cast; ring
      rw [e, if_pos le_rfl, zero_mul]
    rw [a10] at h4
    rcases Nat.lt_or_ge j 10 with hlt | hge
    · have hj' : (j : K) ≤ 9 := by exact_mod_cast (by omega : j ≤ 9)
      have aj : posAlong d (-r + (j : K) * (r / 10)) < 2 * f := by
        unfold posAlong
        rw [if_neg (by nlinarith)]
        have h5 : 1 + (-r + (j : K) * (r / 10)) ≤ 1 := by nlinarith
        have := mul_le_mul_of_nonneg_right h5 hd.le
        linarith
      nlinarith
    · have hj' : (11 : K) ≤ (j : K) := by exact_mod_cast (by omega : 11 ≤ j)
      have aj : 0 < posAlong d (-r + (j : K) * (r / 10)) := by
        unfold posAlong
        rw [if_pos (by nlinarith)]
        exact mul_pos (by nlinarith) hd
      nlinarith
  rw [hres, hj10]
  congr 2
  · push_cast; ring
  · push_cast; ring

/-- **C254**, partial: beside the points of the line, and before them up to `(1 - 2 pi / n) / 2` of their distance, the angle of the point is returned,
which is right beside the points.  Missing: everywhere else, see `C254_misses`. -/
theorem C254_node_partial (l : RZLine K) (pi : K) (hpi : 0 < pi) (k : ℕ) (v : K × K) (f : K) (p : K × K) (hk : k + 1 < l.pts.length) (hs : StraightAt l k v)
    (hn : NearestNode l p k) (hb : Beside l k v f p) (hf : f ≤ 0) (hf2 : 2 * pi / (l.pts.length : K) - 1 < 2 * f) (niter : ℕ) :
    l.closestPoint pi p niter 20 = .ok ((k : K) * (2 * pi / (l.pts.length : K))) := by
  have key : ∀ (m : ℕ) (r : K), 0 < r → r ≤ 1 → ∃ q, l.refineLoop pi p 20 m ((k : K) * (2 * pi / (l.pts.length : K)), r * (2 * pi / (l.pts.length : K))) =
      .ok ((k : K) * (2 * pi / (l.pts.length : K)), q) := by
    intro m
    induction m with
    | zero => intro r _ _; exact ⟨_, rfl⟩
    | succ m ih =>
      intro r hr h1
      rw [RZLine.refineLoop, refine_node l pi hpi k v f p (by omega) hs hb hf hf2 r hr h1]
      exact ih (r / 10) (by linarith) (by linarith)
  obtain ⟨q, hq⟩ := key niter 1 one_pos le_rfl
  rw [one_mul] at hq
  rw [closestPoint_eq l pi p niter 20 (by omega), (nearestNode_iff l p k (by omega)).1 hn, hq]
  have hlen : (0 : K) < (l.pts.length : K) := by exact_mod_cast (by omega : 0 < l.pts.length)
  simp only [Except.map]
  rw [npRem_id (by positivity) (node_angle_lt hpi (by omega))]

/-- **C254.** In `grid_elliptic` with `inner_ort`: the angle for every such outer point is wrong before it is smoothed. -/
theorem C254_inner (e : RzEnv K) (hpi : 0 < e.pi) (t : OrtOpts K) (l : RZLine K) (ps : List (K × K)) (y : List K) (h : innerAngles e t l ps = .ok y) :
    ∃ (x z : List K), x.length = ps.length ∧ laplace e.pi (lapNumbers ps.length).1 (lapNumbers (K := K) ps.length).2 t.maxfac t.fuel x = .ok z ∧
      ∀ (i k : ℕ) (v : K × K) (f : K) (p : K × K), ps[i]? = some p → k + 1 < l.pts.length → StraightAt l k v → NearestNode l p k → Beside l k v f p →
        2 * e.pi / (l.pts.length : K) ≤ f → x[i]? = some (((k : K) + 999 / 1000) * (2 * e.pi / (l.pts.length : K))) := by
  unfold innerAngles at h
  cases hx : (ps.mapM fun p => l.closestPoint e.pi p 3 20) with
  | error err => rw [hx] at h; cases h
  | ok x =>
    rw [hx] at h
    simp only [Except.bind] at h
    cases hz : laplace e.pi (lapNumbers ps.length).1 (lapNumbers (K := K) ps.length).2 t.maxfac t.fuel x with
    | error err => rw [hz] at h; cases h
    | ok z =>
      refine ⟨x, z, mapM_length hx, hz, ?_⟩
      intro i k v f p hi hk hs hn hb hf
      obtain ⟨b, hb1, hb2⟩ := mapM_getElem? hx i p hi
      rw [hb1]
      have := C254_stuck l e.pi hpi k v f p hk hs hn hb hf 3
      rw [this] at hb2
      cases hb2
      norm_num

/-! ### A square with five points on each side -/

/-- A square with sixteen points. -/
def square16 : RZLine ℝ := ⟨[(0, 0), (1, 0), (2, 0), (3, 0), (4, 0), (4, 1), (4, 2), (4, 3), (4, 4), (3, 4), (2, 4), (1, 4), (0, 4), (0, 3), (0, 2), (0, 1)],
  1, fun _ _ => 0, fun _ _ => 0⟩

theorem square16_straight : StraightAt square16 2 (1, 0) where
  pos := by norm_num
  step := by simp
  next := by simp [square16, ptAt]; norm_num
  prev := by simp [square16, ptAt]; norm_num

theorem square16_nearest : NearestNode square16 (9 / 4 + 1 / 5, -1) 2 where
  lt := by simp [square16]
  nearest := by
    intro i hi
    have : square16.pts.length = 16 := rfl
    rw [this] at hi
    interval_cases i <;> norm_num [square16, ptAt, dist2]
  first := by
    intro i hi
    interval_cases i <;> norm_num [square16, ptAt, dist2]

theorem square16_beside : Beside square16 2 (1, 0) (9 / 20) (9 / 4 + 1 / 5, -1) := by
  refine ⟨-1, ?_, ?_⟩ <;> norm_num [square16, ptAt]

/-- **C254 is false**: a point below the lower side of a square. -/
theorem C254_fails : ¬ FindsClosest square16 Real.pi := by
  intro h
  have hlen : square16.pts.length = 16 := rfl
  obtain ⟨t, h1, h2⟩ := h 2 (1, 0) (9 / 20) (9 / 4 + 1 / 5, -1) (by rw [hlen]; norm_num) square16_straight square16_nearest square16_beside
  have hpi := Real.pi_pos
  have hpi4 := Real.pi_lt_d2
  obtain ⟨t', -, g1, -, g2, -⟩ := C254_misses square16 Real.pi hpi 2 (1, 0) (9 / 20) (9 / 4 + 1 / 5, -1) (by rw [hlen]; norm_num) square16_straight square16_nearest
    square16_beside (by rw [hlen]; push_cast; linarith)
  rw [h1] at g1
  cases g1
  rw [hlen] at g2 h2
  push_cast at g2 h2
  linarith

/-- Beside the third point it is right. -/
example : square16.closestPoint Real.pi (2, -1) 3 20 = .ok (((2 : ℕ) : ℝ) * (2 * Real.pi / ((16 : ℕ) : ℝ))) := by
  have hlen : square16.pts.length = 16 := rfl
  have hpi4 := Real.pi_lt_d2
  have := C254_node_partial square16 Real.pi Real.pi_pos 2 (1, 0) 0 (2, -1) (by rw [hlen]; norm_num) square16_straight
    ⟨by rw [hlen]; norm_num, fun i hi => by rw [hlen] at hi; interval_cases i <;> norm_num [square16, ptAt, dist2],
      fun i hi => by interval_cases i <;> norm_num [square16, ptAt, dist2]⟩
    ⟨-1, by norm_num [square16, ptAt], by norm_num [square16, ptAt]⟩ le_rfl (by rw [hlen]; push_cast; linarith) 3
  rw [this, hlen]

/-- The same square with rational numbers, and points around it. -/
def square16Q : RZLine ℚ := ⟨[(0, 0), (1, 0), (2, 0), (3, 0), (4, 0), (4, 1), (4, 2), (4, 3), (4, 4), (3, 4), (2, 4), (1, 4), (0, 4), (0, 3), (0, 2), (0, 1)],
  1, fun _ _ => 0, fun _ _ => 0⟩

def around16 : List (ℚ × ℚ) := [(9 / 20, -1), (29 / 20, -1), (49 / 20, -1), (4, -1), (5, 1), (5, 2), (5, 3), (4, 5), (2, 5), (1, 5), (-1, 4), (-1, 2)]

def env16 : RzEnv ℚ := ⟨22 / 7, id, fun _ _ _ => .ok fun _ _ => 0⟩

/-- The inner angles for these points exist, so `C254_inner` says that the third one is wrong at first. -/
example : ∃ y, innerAngles env16 ⟨none, none, 100⟩ square16Q around16 = .ok y := by
  have : (innerAngles env16 ⟨none, none, 100⟩ square16Q around16).toBool = true := by decide +kernel
  cases h : innerAngles env16 ⟨none, none, 100⟩ square16Q around16 with
  | error err => rw [h] at this; cases this
  | ok y => exact ⟨y, rfl⟩

end Zoidberg
