import Verif.Props.RzLine
import Mathlib.Data.List.GetD
import Mathlib.Analysis.Real.Pi.Bounds

/-!
# C61, C118: `closestPoint`
-/

set_option linter.unusedSectionVars false

namespace Zoidberg

variable {K : Type} [Field K] [LinearOrder K] [IsStrictOrderedRing K] [FloorRing K]

theorem argmin_lt : ∀ {l : List K}, l ≠ [] → argmin l < l.length
  | [a], _ => by simp [argmin]
  | a :: b :: l, _ => by
    have := argmin_lt (l := b :: l) (by simp)
    rw [argmin]
    split
    · simp
    · simp only [List.length_cons] at this ⊢; omega

/-- `argmin` is the index of a smallest entry. -/
theorem argmin_le : ∀ {l : List K} (i : ℕ), i < l.length → l.getD (argmin l) 0 ≤ l.getD i 0
  | a :: l, i, h => by
    rw [argmin]
    split
    · rename_i ha
      rw [List.all_eq_true] at ha
      cases i with
      | zero => exact le_rfl
      | succ i =>
        have hi : i < l.length := by simpa using h
        have := ha (l.getD i 0) (by rw [List.getD_eq_getElem _ _ hi]; exact List.getElem_mem hi)
        simpa using this
    · rename_i ha
      cases i with
      | zero =>
        simp only [List.all_eq_true, decide_eq_true_eq, not_forall] at ha
        obtain ⟨b, hb, hab⟩ := ha
        obtain ⟨j, hj, rfl⟩ := List.mem_iff_getElem.1 hb
        have := argmin_le (l := l) j hj
        rw [List.getD_eq_getElem _ _ hj] at this
        simp only [List.getD_cons_succ, List.getD_cons_zero]
        exact this.trans (not_le.1 hab).le
      | succ i =>
        simp only [List.getD_cons_succ]
        exact argmin_le i (by simpa using h)

/-- It is the first one. -/
theorem argmin_first : ∀ {l : List K} (i : ℕ), i < argmin l → l.getD (argmin l) 0 < l.getD i 0
  | [], i, h => by simp [argmin] at h
  | a :: l, i, h => by
    rw [argmin] at h ⊢
    split at h
    · simp at h
    · rename_i ha
      rw [if_neg ha]
      cases i with
      | zero =>
        simp only [List.all_eq_true, decide_eq_true_eq, not_forall] at ha
        obtain ⟨b, hb, hab⟩ := ha
        obtain ⟨j, hj, rfl⟩ := List.mem_iff_getElem.1 hb
        have := argmin_le (l := l) j hj
        rw [List.getD_eq_getElem _ _ hj] at this
        simp only [List.getD_cons_succ, List.getD_cons_zero]
        exact lt_of_le_of_lt this (not_le.1 hab)
      | succ i =>
        simp only [List.getD_cons_succ]
        exact argmin_first i (by omega)

theorem argmin_unique {l : List K} {k : ℕ} (hk : k < l.length) (h1 : ∀ i < l.length, l.getD k 0 ≤ l.getD i 0)
    (h2 : ∀ i < k, l.getD k 0 < l.getD i 0) : argmin l = k := by
  rcases Nat.lt_trichotomy (argmin l) k with h | h | h
  · exact absurd (argmin_le k hk) (not_le.2 (h2 _ h))
  · exact h
  · have := argmin_first k h
    exact absurd (h1 _ (argmin_lt (by intro h0; rw [h0] at hk; simp at hk))) (not_le.2 this)

theorem npRem_range {n : K} (h : 0 < n) (x : K) : 0 ≤ npRem x n ∧ npRem x n < n := by
  unfold npRem
  have a := Int.floor_le (x / n)
  have b := Int.lt_floor_add_one (x / n)
  rw [le_div_iff₀ h] at a
  rw [div_lt_iff₀ h] at b
  constructor <;> nlinarith

/-- **C61.** `closestPoint` returns an angle in `[0, 2 pi)`. -/
theorem C61_range (l : RZLine K) (pi : K) (hpi : 0 < pi) (p : K × K) (niter subdivide : ℕ) (t : K)
    (h : l.closestPoint pi p niter subdivide = .ok t) : 0 ≤ t ∧ t < 2 * pi := by
  unfold RZLine.closestPoint at h
  dsimp only at h
  split at h
  · cases h
  · simp only [Except.map] at h
    split at h
    · cases h
    · injection h with h
      rw [← h]
      exact npRem_range (by linarith) _

theorem rzTheta_getD (pi : K) {n i : ℕ} (h : i < n) : (rzTheta pi n).getD i 0 = (i : K) * (2 * pi / (n : K)) := by
  unfold rzTheta linspaceOpen
  rw [List.getD_eq_getElem?_getD, List.getElem?_map, List.getElem?_range h]
  simp

/-- The step between the angles of two control points. -/
theorem rzTheta_step (pi : K) {n : ℕ} (h : 1 < n) :
    (rzTheta pi n).getD 1 0 - (rzTheta pi n).getD 0 0 = 2 * pi / (n : K) := by
  rw [rzTheta_getD pi h, rzTheta_getD pi (by omega)]; simp

/-- The result in terms of the loop. -/
theorem closestPoint_eq (l : RZLine K) (pi : K) (p : K × K) (niter subdivide : ℕ) (h : 1 < l.pts.length) :
    l.closestPoint pi p niter subdivide =
      (l.refineLoop pi p subdivide niter (((argmin (l.pts.map fun q => dist2 q p) : ℕ) : K) *
        (2 * pi / (l.pts.length : K)), 2 * pi / (l.pts.length : K))).map fun s => npRem s.1 (2 * pi) := by
  have hlt : argmin (l.pts.map fun q => dist2 q p) < l.pts.length := by
    have := argmin_lt (l := l.pts.map fun q => dist2 q p) (by
      intro h0; rw [List.map_eq_nil_iff] at h0; rw [h0] at h; simp at h)
    simpa using this
  unfold RZLine.closestPoint
  rw [if_neg (by omega)]
  dsimp only
  rw [rzTheta_step pi h, rzTheta_getD pi hlt]

/-- The index of the control point that is nearest to `p`: the smallest one among equals. -/
structure NearestNode (l : RZLine K) (p : K × K) (k : ℕ) : Prop where
  lt : k < l.pts.length
  nearest : ∀ i < l.pts.length, dist2 (ptAt l.pts k) p ≤ dist2 (ptAt l.pts i) p
  first : ∀ i < k, dist2 (ptAt l.pts k) p < dist2 (ptAt l.pts i) p

theorem getD_map_dist2 (l : RZLine K) (p : K × K) {i : ℕ} (h : i < l.pts.length) :
    (l.pts.map fun q => dist2 q p).getD i 0 = dist2 (ptAt l.pts i) p := by
  rw [ptAt_lt _ h, List.getD_eq_getElem?_getD, List.getElem?_map, List.getElem?_eq_getElem h,
    List.getD_eq_getElem _ _ h]
  rfl

theorem nearestNode_iff (l : RZLine K) (p : K × K) (k : ℕ) (hn : 0 < l.pts.length) :
    NearestNode l p k ↔ argmin (l.pts.map fun q => dist2 q p) = k := by
  have hlt : argmin (l.pts.map fun q => dist2 q p) < l.pts.length := by
    have := argmin_lt (l := l.pts.map fun q => dist2 q p) (by
      intro h0; rw [List.map_eq_nil_iff] at h0; rw [h0] at hn; simp at hn)
    simpa using this
  constructor
  · intro h
    apply argmin_unique (by simpa using h.lt)
    · intro i hi
      rw [List.length_map] at hi
      rw [getD_map_dist2 l p h.lt, getD_map_dist2 l p hi]
      exact h.nearest i hi
    · intro i hi
      rw [getD_map_dist2 l p h.lt, getD_map_dist2 l p (hi.trans h.lt)]
      exact h.first i hi
  · rintro rfl
    refine ⟨hlt, fun i hi => ?_, fun i hi => ?_⟩
    · have := argmin_le (l := l.pts.map fun q => dist2 q p) i (by simpa using hi)
      rwa [getD_map_dist2 l p hlt, getD_map_dist2 l p hi] at this
    · have := argmin_first (l := l.pts.map fun q => dist2 q p) i hi
      rwa [getD_map_dist2 l p hlt, getD_map_dist2 l p (hi.trans hlt)] at this

theorem npRem_id {n x : K} (h0 : 0 ≤ x) (h1 : x < n) : npRem x n = x := by
  have hn : 0 < n := lt_of_le_of_lt h0 h1
  unfold npRem
  have : ⌊x / n⌋ = 0 := by
    rw [Int.floor_eq_zero_iff]
    exact ⟨by positivity, (div_lt_one hn).2 h1⟩
  rw [this]; simp

theorem node_angle_lt {pi : K} (hpi : 0 < pi) {n k : ℕ} (h : k < n) :
    (k : K) * (2 * pi / (n : K)) < 2 * pi := by
  have hn : (0 : K) < (n : K) := by exact_mod_cast (by omega : 0 < n)
  have hk : (k : K) < (n : K) := by exact_mod_cast h
  rw [← mul_div_assoc, div_lt_iff₀ hn]
  nlinarith

/-- **C61.** Without refinements it is the angle of the nearest control point, the first one
if there are several. -/
theorem C61_start (l : RZLine K) (pi : K) (hpi : 0 < pi) (p : K × K) (subdivide k : ℕ) (h : 1 < l.pts.length)
    (hk : NearestNode l p k) : l.closestPoint pi p 0 subdivide = .ok ((k : K) * (2 * pi / (l.pts.length : K))) := by
  rw [closestPoint_eq l pi p 0 subdivide h, (nearestNode_iff l p k (by omega)).1 hk]
  have hn : (0 : K) < (l.pts.length : K) := by exact_mod_cast (by omega : 0 < l.pts.length)
  simp only [RZLine.refineLoop, Except.map]
  rw [npRem_id (by positivity) (node_angle_lt hpi hk.lt)]

theorem linspaceOpen_getD (a b : K) {n i : ℕ} (h : i < n) :
    (linspaceOpen a b n).getD i 0 = a + (i : K) * ((b - a) / (n : K)) := by
  unfold linspaceOpen
  rw [List.getD_eq_getElem?_getD, List.getElem?_map, List.getElem?_range h]
  rfl

/-- One refinement: the new angle is one of the equally spaced ones, and no other of them is
nearer. -/
theorem refine_ok (l : RZLine K) (pi : K) (p : K × K) (subdivide : ℕ) (hs : 2 ≤ subdivide) (s : K × K) :
    ∃ j < subdivide, l.refine pi p subdivide s =
        .ok (s.1 - s.2 + (j : K) * (2 * s.2 / (subdivide : K)), 2 * s.2 / (subdivide : K)) ∧
      (∀ i < subdivide, dist2 (l.positionPolygon pi (s.1 - s.2 + (j : K) * (2 * s.2 / (subdivide : K)))) p ≤
        dist2 (l.positionPolygon pi (s.1 - s.2 + (i : K) * (2 * s.2 / (subdivide : K)))) p) ∧
      ∀ i < j, dist2 (l.positionPolygon pi (s.1 - s.2 + (j : K) * (2 * s.2 / (subdivide : K)))) p <
        dist2 (l.positionPolygon pi (s.1 - s.2 + (i : K) * (2 * s.2 / (subdivide : K)))) p := by
  have e : ∀ i < subdivide, (linspaceOpen (s.1 - s.2) (s.1 + s.2) subdivide).getD i 0 =
      s.1 - s.2 + (i : K) * (2 * s.2 / (subdivide : K)) := by
    intro i hi
    rw [linspaceOpen_getD _ _ hi]
    congr 2
    ring
  have hlen : (linspaceOpen (s.1 - s.2) (s.1 + s.2) subdivide).length = subdivide := by simp [linspaceOpen]
  set L := (linspaceOpen (s.1 - s.2) (s.1 + s.2) subdivide).map fun t => dist2 (l.positionPolygon pi t) p with hL
  have hv : ∀ i < subdivide, L.getD i 0 =
      dist2 (l.positionPolygon pi (s.1 - s.2 + (i : K) * (2 * s.2 / (subdivide : K)))) p := by
    intro i hi
    have h' : i < (linspaceOpen (s.1 - s.2) (s.1 + s.2) subdivide).length := by rw [hlen]; exact hi
    rw [← e i hi, hL, List.getD_eq_getElem?_getD, List.getElem?_map, List.getElem?_eq_getElem h',
      List.getD_eq_getElem _ _ h']
    rfl
  have hLl : L.length = subdivide := by rw [hL, List.length_map, hlen]
  have hj : argmin L < subdivide := by
    rw [← hLl]; exact argmin_lt (by intro h0; rw [h0] at hLl; simp at hLl; omega)
  refine ⟨argmin L, hj, ?_, ?_, ?_⟩
  · unfold RZLine.refine
    dsimp only
    rw [if_neg (by omega), if_neg (by omega), ← hL, e _ hj, e 1 (by omega), e 0 (by omega)]
    congr 2
    push_cast
    ring
  · intro i hi
    have := argmin_le (l := L) i (by omega)
    rwa [hv _ hj, hv _ hi] at this
  · intro i hi
    have := argmin_first (l := L) i hi
    rwa [hv _ hj, hv _ (by omega)] at this

/-- **C61.** The result exists, and if the search refines with at least four points, it is the
remainder of an angle that is less than two steps away from the angle of the nearest
control point. -/
theorem C61_near (l : RZLine K) (pi : K) (hpi : 0 < pi) (p : K × K) (niter subdivide k : ℕ) (h : 1 < l.pts.length)
    (hs : 4 ≤ subdivide) (hk : NearestNode l p k) :
    ∃ s, l.closestPoint pi p niter subdivide = .ok (npRem s (2 * pi)) ∧
      |s - (k : K) * (2 * pi / (l.pts.length : K))| < 2 * (2 * pi / (l.pts.length : K)) := by
  have hn : (0 : K) < (l.pts.length : K) := by exact_mod_cast (by omega : 0 < l.pts.length)
  have hd : (0 : K) < 2 * pi / (l.pts.length : K) := by positivity
  have hS : (4 : K) ≤ (subdivide : K) := by exact_mod_cast hs
  have key : ∀ (m : ℕ) (s : K × K), 0 < s.2 → ∃ r, l.refineLoop pi p subdivide m s = .ok r ∧
      |r.1 - s.1| < 2 * s.2 := by
    intro m
    induction m with
    | zero => intro s h0; exact ⟨s, rfl, by simpa using h0⟩
    | succ m ih =>
      intro s h0
      obtain ⟨j, hj, hr, -, -⟩ := refine_ok l pi p subdivide (by omega) s
      have hw : 0 < 2 * s.2 / (subdivide : K) := by positivity
      obtain ⟨r, h1, h2⟩ := ih (s.1 - s.2 + (j : K) * (2 * s.2 / (subdivide : K)), 2 * s.2 / (subdivide : K)) hw
      refine ⟨r, ?_, ?_⟩
      · rw [RZLine.refineLoop, hr]; exact h1
      · have hw2 : 2 * s.2 / (subdivide : K) ≤ s.2 / 2 := by
          rw [div_le_iff₀ (by linarith)]; nlinarith
        have hj' : (j : K) + 1 ≤ (subdivide : K) := by exact_mod_cast hj
        have hj0 : (0 : K) ≤ (j : K) := by positivity
        have hprod : ((j : K) + 1) * (2 * s.2 / (subdivide : K)) ≤ 2 * s.2 := by
          calc ((j : K) + 1) * (2 * s.2 / (subdivide : K)) ≤ (subdivide : K) * (2 * s.2 / (subdivide : K)) :=
                mul_le_mul_of_nonneg_right hj' hw.le
            _ = 2 * s.2 := by field_simp
        have hp0 : 0 ≤ (j : K) * (2 * s.2 / (subdivide : K)) := by positivity
        simp only at h2
        rw [abs_lt] at h2 ⊢
        constructor <;> nlinarith [h2.1, h2.2]
  obtain ⟨r, h1, h2⟩ := key niter ((k : K) * (2 * pi / (l.pts.length : K)), 2 * pi / (l.pts.length : K)) hd
  refine ⟨r.1, ?_, h2⟩
  rw [closestPoint_eq l pi p niter subdivide h, (nearestNode_iff l p k (by omega)).1 hk, h1]
  rfl

/-- A point to the right of a square. -/
example : NearestNode (⟨[(0, 0), (1, 0), (1, 1), (0, 1)], 1, fun _ _ => 0, fun _ _ => 0⟩ : RZLine ℚ) (2, 1) 2 := by
  rw [nearestNode_iff _ _ _ (by decide)]
  decide +kernel

/-! ## C118 -/

/-- **C118**, the claim: the position at the returned angle is not farther away than any control
point. -/
def NoFarther (l : RZLine K) (pi : K) (p : K × K) (niter subdivide : ℕ) : Prop :=
  ∃ t, l.closestPoint pi p niter subdivide = .ok t ∧
    ∀ i < l.pts.length, dist2 (l.positionPolygon pi t) p ≤ dist2 (ptAt l.pts i) p

theorem position_periodic (l : RZLine K) (pi : K) (hpi : 0 < pi) (hn : 0 < l.pts.length) (t : K) (ht : 0 ≤ t) :
    ∀ k : ℕ, l.positionPolygon pi (t + (k : K) * (2 * pi)) = l.positionPolygon pi t
  | 0 => by simp
  | k + 1 => by
    have : t + ((k + 1 : ℕ) : K) * (2 * pi) = (t + (k : K) * (2 * pi)) + 2 * pi := by push_cast; ring
    rw [this, C55_periodic_partial l pi hpi hn _ (by positivity), position_periodic l pi hpi hn t ht k]

theorem position_npRem (l : RZLine K) (pi : K) (hpi : 0 < pi) (hn : 0 < l.pts.length) (t : K) (ht : 0 ≤ t) :
    l.positionPolygon pi (npRem t (2 * pi)) = l.positionPolygon pi t := by
  have h2 : (0 : K) < 2 * pi := by linarith
  have hf : 0 ≤ ⌊t / (2 * pi)⌋ := Int.floor_nonneg.2 (by positivity)
  have hc : ((⌊t / (2 * pi)⌋.toNat : ℕ) : K) = ((⌊t / (2 * pi)⌋ : ℤ) : K) := by
    exact_mod_cast congrArg (Int.cast : ℤ → K) (Int.toNat_of_nonneg hf)
  rw [← position_periodic l pi hpi hn _ (npRem_range h2 t).1 ⌊t / (2 * pi)⌋.toNat, hc]
  congr 1
  unfold npRem
  ring

/-- **C118** if the nearest control point is not the first one, for every number of iterations and
every even subdivision.  Missing: points near the first control point, for which it is false,
see `C118_fails`. -/
theorem C118_not_first_partial (l : RZLine K) (pi : K) (hpi : 0 < pi) (p : K × K) (niter m k : ℕ)
    (h : 1 < l.pts.length) (hm : 1 ≤ m) (hk : NearestNode l p k) (hk0 : k ≠ 0) :
    NoFarther l pi p niter (2 * m) := by
  have hn : (0 : K) < (l.pts.length : K) := by exact_mod_cast (by omega : 0 < l.pts.length)
  have hd : (0 : K) < 2 * pi / (l.pts.length : K) := by positivity
  have hm' : (0 : K) < (m : K) := by exact_mod_cast hm
  have hP0 : l.positionPolygon pi 0 = ptAt l.pts 0 := by
    have := C55_nodes l pi hpi (by omega) 0
    simpa using this
  have key : ∀ (q : ℕ) (s : K × K) (j : ℕ), 0 < s.2 → 1 ≤ j → s.1 = (j : K) * s.2 →
      dist2 (l.positionPolygon pi s.1) p ≤ dist2 (ptAt l.pts k) p →
      ∃ r, l.refineLoop pi p (2 * m) q s = .ok r ∧ 0 ≤ r.1 ∧
        dist2 (l.positionPolygon pi r.1) p ≤ dist2 (ptAt l.pts k) p := by
    intro q
    induction q with
    | zero => intro s j h0 _ hs hp; exact ⟨s, rfl, by rw [hs]; positivity, hp⟩
    | succ q ih =>
      intro s j h0 hj hs hp
      obtain ⟨i, hi, hr, hmin, -⟩ := refine_ok l pi p (2 * m) (by omega) s
      have hw : 2 * s.2 / ((2 * m : ℕ) : K) = s.2 / (m : K) := by push_cast; field_simp
      rw [hw] at hr hmin
      have hmid := hmin m (by omega)
      have e : s.1 - s.2 + (m : K) * (s.2 / (m : K)) = s.1 := by field_simp; ring
      rw [e] at hmid
      have hnew := hmid.trans hp
      have e2 : s.1 - s.2 + (i : K) * (s.2 / (m : K)) = (((j - 1) * m + i : ℕ) : K) * (s.2 / (m : K)) := by
        rw [hs]
        push_cast [Nat.cast_sub hj]
        field_simp
      obtain ⟨r, h1, h2, h3⟩ := ih (s.1 - s.2 + (i : K) * (s.2 / (m : K)), s.2 / (m : K)) ((j - 1) * m + i)
        (by positivity) (by
          by_contra hz
          have hz : (j - 1) * m + i = 0 := by omega
          rw [e2, hz, Nat.cast_zero, zero_mul, hP0] at hnew
          exact absurd hnew (not_le.2 (hk.first 0 (Nat.pos_of_ne_zero hk0)))) e2 hnew
      refine ⟨r, ?_, h2, h3⟩
      rw [RZLine.refineLoop, hr]; exact h1
  obtain ⟨r, h1, h2, h3⟩ := key niter ((k : K) * (2 * pi / (l.pts.length : K)), 2 * pi / (l.pts.length : K)) k hd
    (Nat.pos_of_ne_zero hk0) rfl (by rw [C55_nodes l pi hpi (by omega) k])
  refine ⟨npRem r.1 (2 * pi), ?_, ?_⟩
  · rw [closestPoint_eq l pi p niter (2 * m) h, (nearestNode_iff l p k (by omega)).1 hk, h1]
    rfl
  · intro i hi
    rw [position_npRem l pi hpi (by omega) _ h2]
    exact h3.trans (hk.nearest i hi)

/-- The point to the right of the square, default parameters. -/
example : NoFarther (⟨[(0, 0), (1, 0), (1, 1), (0, 1)], 1, fun _ _ => 0, fun _ _ => 0⟩ : RZLine ℚ) 3 (2, 1) 3
    (2 * 10) := by
  apply C118_not_first_partial _ _ (by norm_num) _ _ _ 2 (by decide) (by decide) _ (by decide)
  rw [nearestNode_iff _ _ _ (by decide)]
  decide +kernel

/-- The unit square. -/
def unitSquare : RZLine ℝ := ⟨[(0, 0), (1, 0), (1, 1), (0, 1)], 1, fun _ _ => 0, fun _ _ => 0⟩

/-- A position on the bottom, at an angle before the start. -/
theorem unitSquare_neg (f : ℝ) (h0 : 0 < f) (h1 : f < 1) :
    unitSquare.positionPolygon Real.pi ((f - 1) * (Real.pi / 2)) = (f * (Real.pi / 2), 0) := by
  have a := position_negative unitSquare Real.pi Real.pi_pos (by simp [unitSquare]) f h0 h1
  have b := C55_segment_partial unitSquare Real.pi Real.pi_pos (by simp [unitSquare]) 0 f h0.le h1
  have e : 2 * Real.pi / (unitSquare.pts.length : ℝ) = Real.pi / 2 := by simp [unitSquare]; ring
  rw [e] at a b
  rw [Nat.cast_zero, zero_add] at b
  rw [a, b]
  simp [onSegment, ptAt, unitSquare]

theorem unitSquare_first (f : ℝ) (h0 : 0 ≤ f) (h1 : f < 1) :
    unitSquare.positionPolygon Real.pi (f * (Real.pi / 2)) = (f * (Real.pi / 2), 0) := by
  have b := C55_segment_partial unitSquare Real.pi Real.pi_pos (by simp [unitSquare]) 0 f h0 h1
  have e : 2 * Real.pi / (unitSquare.pts.length : ℝ) = Real.pi / 2 := by simp [unitSquare]; ring
  rw [e] at b
  rw [Nat.cast_zero, zero_add] at b
  rw [b]
  simp [onSegment, ptAt, unitSquare]

/-- A refinement around the wrong angle of the point `(pi / 10, 0)` stays there. -/
theorem refine_wrong (w : ℝ) (h0 : 0 < w) (h1 : w ≤ 1 / 10) :
    unitSquare.refine Real.pi (Real.pi / 10, 0) 20 ((1 / 5 - 1) * (Real.pi / 2), w * (Real.pi / 2)) =
      .ok ((1 / 5 - 1) * (Real.pi / 2), w / 10 * (Real.pi / 2)) := by
  have hpi := Real.pi_pos
  obtain ⟨j, hj, hr, hmin, -⟩ := refine_ok unitSquare Real.pi (Real.pi / 10, 0) 20 (by norm_num)
    ((1 / 5 - 1) * (Real.pi / 2), w * (Real.pi / 2))
  have hpos : ∀ i : ℕ, i < 20 → unitSquare.positionPolygon Real.pi
      ((1 / 5 - 1) * (Real.pi / 2) - w * (Real.pi / 2) + (i : ℝ) * (2 * (w * (Real.pi / 2)) / ((20 : ℕ) : ℝ))) =
        ((1 / 5 - w + (i : ℝ) * (w / 10)) * (Real.pi / 2), 0) := by
    intro i hi
    have hi' : (i : ℝ) ≤ 19 := by exact_mod_cast (by omega : i ≤ 19)
    have hi0 : (0 : ℝ) ≤ (i : ℝ) := by positivity
    rw [← unitSquare_neg (1 / 5 - w + (i : ℝ) * (w / 10)) (by nlinarith) (by nlinarith)]
    congr 1
    push_cast
    ring
  have hz := hmin 10 (by norm_num)
  simp only at hz hr
  rw [hpos j hj, hpos 10 (by norm_num)] at hz
  have hj10 : (j : ℝ) = 10 := by
    have h3 : dist2 ((1 / 5 - w + ((10 : ℕ) : ℝ) * (w / 10)) * (Real.pi / 2), 0) (Real.pi / 10, (0 : ℝ)) = 0 := by
      unfold dist2; push_cast; ring
    rw [h3] at hz
    unfold dist2 at hz
    have h4 : ((1 / 5 - w + (j : ℝ) * (w / 10)) * (Real.pi / 2) - Real.pi / 10) = 0 := by
      simp only [sub_zero] at hz
      nlinarith [sq_nonneg ((1 / 5 - w + (j : ℝ) * (w / 10)) * (Real.pi / 2) - Real.pi / 10)]
    have h5 : ((j : ℝ) - 10) * (w * Real.pi) = 0 := by linear_combination 20 * h4
    rcases mul_eq_zero.1 h5 with h6 | h6
    · linarith
    · exact absurd h6 (by positivity)
  rw [hr, hj10]
  congr 2 <;> push_cast <;> ring

/-- **C118** is false near the first control point, with the default parameters: for this point
on the bottom of the unit square `closestPoint` returns an angle on the left side. -/
theorem C118_fails : ¬ NoFarther unitSquare Real.pi (Real.pi / 10, 0) 3 20 ∧
    unitSquare.positionPolygon Real.pi (1 / 5 * (Real.pi / 2)) = (Real.pi / 10, 0) := by
  have hpi := Real.pi_pos
  have hpi3 := Real.pi_gt_three
  have hpi4 := Real.pi_le_four
  refine ⟨?_, ?_⟩
  swap
  · rw [unitSquare_first _ (by norm_num) (by norm_num)]
    ext
    · simp only; ring
    · rfl
  have hlen : unitSquare.pts.length = 4 := rfl
  have hk : NearestNode unitSquare (Real.pi / 10, 0) 0 := by
    refine ⟨by rw [hlen]; norm_num, fun i hi => ?_, fun i hi => absurd hi (by omega)⟩
    rw [hlen] at hi
    interval_cases i <;> simp [dist2, ptAt, unitSquare] <;> nlinarith
  have e4 : 2 * Real.pi / (unitSquare.pts.length : ℝ) = Real.pi / 2 := by rw [hlen]; push_cast; ring
  -- the first refinement
  have h1 : unitSquare.refine Real.pi (Real.pi / 10, 0) 20 (0, Real.pi / 2) =
      .ok ((1 / 5 - 1) * (Real.pi / 2), 1 / 10 * (Real.pi / 2)) := by
    obtain ⟨j, hj, hr, hmin, hfirst⟩ := refine_ok unitSquare Real.pi (Real.pi / 10, 0) 20 (by norm_num)
      (0, Real.pi / 2)
    have hpos : ∀ i : ℕ, 0 < i → i < 10 → unitSquare.positionPolygon Real.pi
        (0 - Real.pi / 2 + (i : ℝ) * (2 * (Real.pi / 2) / ((20 : ℕ) : ℝ))) =
          (((i : ℝ) / 10) * (Real.pi / 2), 0) := by
      intro i hi0 hi
      have hi' : (i : ℝ) ≤ 9 := by exact_mod_cast (by omega : i ≤ 9)
      have hi0' : (1 : ℝ) ≤ (i : ℝ) := by exact_mod_cast hi0
      rw [← unitSquare_neg ((i : ℝ) / 10) (by linarith) (by linarith)]
      congr 1
      push_cast
      ring
    have hzero : dist2 (((2 : ℕ) : ℝ) / 10 * (Real.pi / 2), 0) (Real.pi / 10, (0 : ℝ)) = 0 := by
      unfold dist2; push_cast; ring
    have hnn : ∀ a b : ℝ × ℝ, 0 ≤ dist2 a b := fun a b => by unfold dist2; positivity
    have hj2 : j ≤ 2 := by
      by_contra hc
      have := hfirst 2 (by omega)
      simp only at this
      rw [hpos 2 (by norm_num) (by norm_num), hzero] at this
      exact absurd (hnn _ _) (not_le.2 this)
    have hz := hmin 2 (by norm_num)
    simp only at hz hr
    rw [hpos 2 (by norm_num) (by norm_num), hzero] at hz
    have hj3 : j = 2 := by
      interval_cases j
      · exfalso
        have e : (0 - Real.pi / 2 + ((0 : ℕ) : ℝ) * (2 * (Real.pi / 2) / ((20 : ℕ) : ℝ))) = -1 * (Real.pi / 2) := by
          push_cast; ring
        rw [e] at hz
        have hp : unitSquare.positionPolygon Real.pi (-1 * (Real.pi / 2)) = (0, 1) := by
          have hq : -1 * (Real.pi / 2) / (2 * Real.pi / (unitSquare.pts.length : ℝ)) = ((-1 : ℤ) : ℝ) := by
            rw [e4]; push_cast; field_simp
          have i1 : pyInt (((-1 : ℤ) : ℝ)) = -1 := by
            unfold pyInt; rw [if_neg (by norm_num), Int.ceil_intCast]
          unfold RZLine.positionPolygon npRem
          dsimp only
          rw [hq, i1, Int.floor_intCast, e4]
          have i2 : (pyMod (-1) (unitSquare.pts.length : ℤ)).toNat = 3 := by rw [hlen]; rfl
          rw [i2]
          ext <;> simp [ptAt, unitSquare]
        rw [hp] at hz
        unfold dist2 at hz
        simp only at hz
        nlinarith
      · exfalso
        rw [hpos 1 (by norm_num) (by norm_num)] at hz
        unfold dist2 at hz
        push_cast at hz
        nlinarith
      · rfl
    subst hj3
    rw [hr]
    congr 2 <;> push_cast <;> ring
  have h2 := refine_wrong (1 / 10) (by norm_num) le_rfl
  have h3 := refine_wrong (1 / 10 / 10) (by norm_num) (by norm_num)
  rintro ⟨t, ht, hle⟩
  rw [closestPoint_eq unitSquare Real.pi _ 3 20 (by rw [hlen]; norm_num),
    (nearestNode_iff unitSquare _ 0 (by rw [hlen]; norm_num)).1 hk, e4, Nat.cast_zero, zero_mul] at ht
  simp only [RZLine.refineLoop, Except.bind, h1, h2, h3, Except.map, Except.ok.injEq] at ht
  have hrem : npRem ((1 / 5 - 1) * (Real.pi / 2)) (2 * Real.pi) = (((3 : ℕ) : ℝ) + 1 / 5) * (Real.pi / 2) := by
    unfold npRem
    have : ⌊(1 / 5 - 1) * (Real.pi / 2) / (2 * Real.pi)⌋ = -1 := by
      have : (1 / 5 - 1) * (Real.pi / 2) / (2 * Real.pi) = -1 / 5 := by field_simp; ring
      rw [this, Int.floor_eq_iff]; norm_num
    rw [this]
    push_cast
    ring
  have hseg := C55_segment_partial unitSquare Real.pi hpi (by rw [hlen]; norm_num) 3 (1 / 5) (by norm_num)
    (by norm_num)
  rw [e4] at hseg
  have h0 := hle 0 (by rw [hlen]; norm_num)
  rw [← ht, hrem, hseg] at h0
  simp [dist2, ptAt, unitSquare, onSegment] at h0
  nlinarith

end Zoidberg
