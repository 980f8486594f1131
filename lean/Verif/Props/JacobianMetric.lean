import Verif.Props.Volume
import Verif.Props.FluxCheck

/-! # Property C265: `J` and the metric in the same file -/

set_option linter.unusedSectionVars false

namespace Zoidberg

open Set Filter Topology

/-! ## The limit of close planes -/

theorem trapMean_near (F : ℝ → ℝ) (r : ℕ) (hr : 1 ≤ r) (a b y d c ε : ℝ) (ha : |a - y| ≤ d) (hb : |b - y| ≤ d) (h : ∀ s, |s - y| ≤ d → |F s - c| ≤ ε) :
    |trapMean F r a b - c| ≤ ε := by
  have hr' : (0 : ℝ) < r := by exact_mod_cast hr
  have hpt : ∀ k ∈ Finset.range (r - 1), |F (a + (k + 1) * (b - a) / r) - c| ≤ ε := by
    intro k hk
    have hk' : k + 1 ≤ r := by have := Finset.mem_range.1 hk; omega
    have hk2 : ((k : ℝ) + 1) ≤ r := by exact_mod_cast hk'
    apply h
    have t0 : 0 ≤ ((k : ℝ) + 1) / r := by positivity
    have t1 : ((k : ℝ) + 1) / r ≤ 1 := by rw [div_le_one hr']; exact hk2
    have e : a + (k + 1) * (b - a) / r - y = (1 - ((k : ℝ) + 1) / r) * (a - y) + ((k : ℝ) + 1) / r * (b - y) := by ring
    rw [e]
    rw [abs_le] at ha hb ⊢
    constructor <;> nlinarith [ha.1, ha.2, hb.1, hb.2]
  have hsum : |∑ k ∈ Finset.range (r - 1), (F (a + (k + 1) * (b - a) / r) - c)| ≤ (r - 1) * ε := by
    refine (Finset.abs_sum_le_sum_abs _ _).trans ((Finset.sum_le_sum hpt).trans_eq ?_)
    rw [Finset.sum_const, Finset.card_range, nsmul_eq_mul, Nat.cast_sub hr, Nat.cast_one]
  have e : trapMean F r a b - c = (((F a - c) + (F b - c)) / 2 + ∑ k ∈ Finset.range (r - 1), (F (a + (k + 1) * (b - a) / r) - c)) / r := by
    unfold trapMean
    rw [Finset.sum_sub_distrib, Finset.sum_const, Finset.card_range, nsmul_eq_mul, Nat.cast_sub hr, Nat.cast_one]
    generalize (∑ k ∈ Finset.range (r - 1), F (a + (k + 1) * (b - a) / r)) = S
    field_simp
    ring
  rw [e, abs_div, abs_of_pos hr', div_le_iff₀ hr']
  have h1 := abs_le.1 (h a ha)
  have h2 := abs_le.1 (h b hb)
  have h3 := abs_le.1 hsum
  rw [abs_le]
  constructor <;> nlinarith [h1.1, h1.2, h2.1, h2.2, h3.1, h3.2]

/-- A run of `make_maps` in which plane `j` is the plane `p` at `y`, for a field with the toroidal component `by` and the lines `φ`, with planes at `ylow` and `yhigh` on both sides. -/
structure RunAt (e : MmEnv ℝ) (bt : ℝ → ℝ → ℝ → ℝ) (φ : ℝ → ℝ → ℝ → ℝ → ℝ × ℝ) (p : PolGrid ℝ) (x j : ℕ) (y ylow yhigh : ℝ) : Prop where
  follow : FollowOk e
  grid : GridOk e
  tracer : PointTracer e φ
  slab : e.isSlab = false
  byfunc : e.byfunc = bt
  sqrt : e.sqrt = Real.sqrt
  first : ∃ first y0, e.grid.getPoloidalGrid ((0 : ℕ) : ℝ) = .ok (some first, y0) ∧ x < first.nx
  inside : j < e.grid.ny
  plane : ∃ pol : MapPol ℝ, pol.toPolGrid = p ∧ PlaneAt e j pol y ylow yhigh

/-- In the limit of close planes, `J` of the cell `(x, z)` of the plane `p` at `y` is `L`, for all numbers of points in the integral. -/
def JTendsTo (bt : ℝ → ℝ → ℝ → ℝ) (φ : ℝ → ℝ → ℝ → ℝ → ℝ × ℝ) (p : PolGrid ℝ) (x z : ℕ) (y L : ℝ) : Prop :=
  ∀ ε > 0, ∃ δ > 0, ∀ (e : MmEnv ℝ) (j : ℕ) (ylow yhigh : ℝ), RunAt e bt φ p x j y ylow yhigh → |ylow - y| < δ → |yhigh - y| < δ →
    ∀ r : ℕ, 1 ≤ r → ∀ v, JIs e r (x, j, z) v → |v - L| < ε

theorem areaAt_cell {e : MmEnv ℝ} {pol : MapPol ℝ} (hs : e.sqrt = Real.sqrt) (hp : HasPerp pol) (x z : ℕ) : AreaAt e pol x z (cellArea Real.sqrt pol.toPolGrid x z) := by
  obtain ⟨a, b, c, h1, h2, h3⟩ := hp
  refine ⟨a, b, c, h1, h2, h3, ?_⟩
  unfold cellArea
  rw [h1, h2, h3, hs]
  rfl

/-- **C265.** For close planes `J` is the area of the cell times the major radius. -/
theorem C265_limit (bt : ℝ → ℝ → ℝ → ℝ) (φ : ℝ → ℝ → ℝ → ℝ → ℝ × ℝ) (p : PolGrid ℝ) (hc : p.Complete) (x z : ℕ) (y : ℝ) (hφ : φ (p.R x z) (p.Z x z) y y = (p.R x z, p.Z x z))
    (hb : bt (p.R x z) (p.Z x z) y ≠ 0)
    (hcont : ContinuousAt (fun s => (φ (p.R x z) (p.Z x z) y s).1 / bt (φ (p.R x z) (p.Z x z) y s).1 (φ (p.R x z) (p.Z x z) y s).2 s) y) :
    JTendsTo bt φ p x z y (cellArea Real.sqrt p x z * p.R x z) := by
  intro ε hε
  set A := cellArea Real.sqrt p x z with hA
  set B := bt (p.R x z) (p.Z x z) y with hB
  set F := fun s => (φ (p.R x z) (p.Z x z) y s).1 / bt (φ (p.R x z) (p.Z x z) y s).1 (φ (p.R x z) (p.Z x z) y s).2 s with hF
  have hFy : F y = p.R x z / B := by simp only [hF, hφ, hB]
  have hη : 0 < ε / (2 * (|A * B| + 1)) := by positivity
  obtain ⟨δ, hδ, h⟩ := Metric.continuousAt_iff.1 hcont _ hη
  refine ⟨δ, hδ, ?_⟩
  intro e j ylow yhigh hrun h1 h2 r hr v hv
  obtain ⟨pol, hpol, hplane⟩ := hrun.plane
  obtain ⟨first, y0, h0, hx⟩ := hrun.first
  have hperp : HasPerp pol := by
    have g1 := hc "g_xx" (by simp)
    have g2 := hc "g_zz" (by simp)
    have g3 := hc "g_xz" (by simp)
    rw [← hpol] at g1 g2 g3
    obtain ⟨a, ha⟩ := Option.ne_none_iff_exists'.1 g1
    obtain ⟨b, hb⟩ := Option.ne_none_iff_exists'.1 g2
    obtain ⟨c, hc⟩ := Option.ne_none_iff_exists'.1 g3
    exact ⟨a, b, c, ha, hb, hc⟩
  have hval := JIs_value e hrun.follow hrun.grid φ hrun.tracer hrun.slab first y0 h0 x j z hx hrun.inside pol y ylow yhigh _ hplane (areaAt_cell hrun.sqrt hperp x z) r hr v hv
  have eF : radiusOverField e φ (pol.R x z) (pol.Z x z) y = F := by
    funext s
    unfold radiusOverField
    rw [hrun.byfunc, hpol]
  have eB : fieldAt e φ (pol.R x z) (pol.Z x z) y = B := by
    unfold fieldAt
    rw [hrun.byfunc, hpol, hφ]
  rw [eF, eB, hpol, ← hA] at hval
  have hnear : ∀ s, |s - y| ≤ max |ylow - y| |yhigh - y| → |F s - F y| ≤ ε / (2 * (|A * B| + 1)) := by
    intro s hs
    have := h (x := s) (by rw [Real.dist_eq]; exact lt_of_le_of_lt hs (max_lt h1 h2))
    rw [Real.dist_eq] at this
    exact this.le
  have hd0 : 0 ≤ max |ylow - y| |yhigh - y| := le_max_of_le_left (abs_nonneg _)
  have hy : |y - y| ≤ max |ylow - y| |yhigh - y| := by rw [sub_self, abs_zero]; exact hd0
  have hlo : |(ylow + y) / 2 - y| ≤ max |ylow - y| |yhigh - y| := by
    rw [show (ylow + y) / 2 - y = (ylow - y) / 2 by ring, abs_div, abs_two]
    linarith [le_max_left |ylow - y| |yhigh - y|, abs_nonneg (ylow - y)]
  have hhi : |(y + yhigh) / 2 - y| ≤ max |ylow - y| |yhigh - y| := by
    rw [show (y + yhigh) / 2 - y = (yhigh - y) / 2 by ring, abs_div, abs_two]
    linarith [le_max_right |ylow - y| |yhigh - y|, abs_nonneg (yhigh - y)]
  have t1 := abs_le.1 (trapMean_near F r hr _ _ y _ (F y) _ hlo hy hnear)
  have t2 := abs_le.1 (trapMean_near F r hr _ _ y _ (F y) _ hy hhi hnear)
  have e2 : v - A * p.R x z = A * B * ((trapMean F r ((ylow + y) / 2) y + trapMean F r y ((y + yhigh) / 2)) / 2 - F y) := by
    rw [hval, hFy]
    field_simp
  rw [e2, abs_mul]
  have h3 : |(trapMean F r ((ylow + y) / 2) y + trapMean F r y ((y + yhigh) / 2)) / 2 - F y| ≤ ε / (2 * (|A * B| + 1)) := by
    rw [abs_le]
    constructor <;> linarith [t1.1, t1.2, t2.1, t2.2]
  have h4 : |A * B| * (ε / (2 * (|A * B| + 1))) < ε := by
    rw [← mul_div_assoc, div_lt_iff₀ (by positivity)]
    nlinarith [abs_nonneg (A * B)]
  exact lt_of_le_of_lt (mul_le_mul_of_nonneg_left h3 (abs_nonneg _)) h4

/-! ## The determinant of the metric -/

/-- The determinant of the covariant metric in a cell; `g_xy` and `g_yz` are zero (they are not written). -/
def MetricDet (m : Metric ℝ) (c : Cell) (d : ℝ) : Prop :=
  ∃ gxx gyy gzz gxz, m.get? "g_xx" = some gxx ∧ m.get? "g_yy" = some gyy ∧ m.get? "g_zz" = some gzz ∧ m.get? "g_xz" = some gxz ∧
    d = gyy c * (gxx c * gzz c - gxz c ^ 2)

/-- **C265.** The square root of the determinant of what `get_metric` gives for a field in cylindrical coordinates. -/
theorem C265_det (g : Grid (PolGrid ℝ) ℝ) (l : List (PolGrid ℝ)) (ys : List ℝ) (hg : MetricGrid g l ys) (f : MagField ℝ) (R : ℝ → ℝ → ℝ → ℝ) (hR : f.Rfunc = some R)
    (m : Metric ℝ) (b : Cell → ℝ) (h : getMetric Real.sqrt g f none = .ok (m, b)) (x y z : ℕ) (p : PolGrid ℝ) (hp : l[y]? = some p) :
    ∃ d, MetricDet m (x, y, z) d ∧
      √d = |R (p.R x z) (p.Z x z) (ys.getD y 0) * pitch f p (ys.getD y 0) x z| * cellArea Real.sqrt p x z := by
  obtain ⟨⟨size, Ly, per, hi⟩, hc, hJ⟩ := hg
  obtain ⟨h1, h2, _, _, h3, _⟩ := Grid.init_many hi
  obtain ⟨M, hM⟩ := (C23_succeeds_iff size l ys Ly per g hi hc).2 hJ
  obtain ⟨a, bb, c⟩ := C23_components size l ys Ly per g hi hc M hM
  obtain ⟨xx, hxx, vxx⟩ := a "g_xx" (by simp)
  obtain ⟨zz, hzz, vzz⟩ := a "g_zz" (by simp)
  obtain ⟨xz, hxz, vxz⟩ := a "g_xz" (by simp)
  obtain ⟨r, e, r1, -, -, -, -, r6⟩ := getMetric_eq Real.sqrt g (by rw [h1, h2]; exact h3) f none M hM _ _ xx zz xz c bb hxx hzz hxz
  rw [h] at e
  cases e
  have hy : y < l.length := (List.getElem?_eq_some_iff.1 hp).1
  obtain ⟨p1, v1, q1, q2, q3⟩ := vxx y hy
  obtain ⟨p2, v2, s1, s2, s3⟩ := vzz y hy
  obtain ⟨p3, v3, t1, t2, t3⟩ := vxz y hy
  rw [hp] at q1 s1 t1
  cases q1
  cases s1
  cases t1
  refine ⟨_, ⟨xx, _, zz, xz, (r6 _ (by simp)).trans hxx, r1, (r6 _ (by simp)).trans hzz, (r6 _ (by simp)).trans hxz, rfl⟩, ?_⟩
  have hy2 : y < g.ycoords.length := by rw [h2, ← h3]; exact hy
  unfold scaled baseLow
  rw [hR]
  dsimp only
  rw [if_pos hy2, if_pos hy2, q3, s3, t3]
  unfold cellArea pitch evalAt
  rw [q2, s2, t2, h1, h2]
  dsimp only
  rw [hp]
  dsimp only [Option.getD_some]
  rw [← mul_pow, Real.sqrt_mul (sq_nonneg _), Real.sqrt_sq_eq_abs]

/-- What the statement says for a cell: for close planes `J` tends to the square root of the determinant of the metric in the same file. -/
def JMetricOk (f : MagField ℝ) (φ : ℝ → ℝ → ℝ → ℝ → ℝ × ℝ) (p : PolGrid ℝ) (x z : ℕ) (y : ℝ) : Prop :=
  ∀ ε > 0, ∃ δ > 0, ∀ (e : MmEnv ℝ) (j : ℕ) (ylow yhigh : ℝ), RunAt e f.Byfunc φ p x j y ylow yhigh → |ylow - y| < δ → |yhigh - y| < δ →
    ∀ (g : Grid (PolGrid ℝ) ℝ) (l : List (PolGrid ℝ)) (ys : List ℝ) (m : Metric ℝ) (b : Cell → ℝ), MetricGrid g l ys → l[j]? = some p → ys.getD j 0 = y →
      getMetric Real.sqrt g f none = .ok (m, b) → ∀ r : ℕ, 1 ≤ r → ∀ v, JIs e r (x, j, z) v → ∀ d, MetricDet m (x, j, z) d → |v - √d| < ε

theorem MetricDet.unique {m : Metric ℝ} {c : Cell} {d d' : ℝ} (h : MetricDet m c d) (h' : MetricDet m c d') : d = d' := by
  obtain ⟨a1, a2, a3, a4, b1, b2, b3, b4, rfl⟩ := h
  obtain ⟨c1, c2, c3, c4, d1, d2, d3, d4, rfl⟩ := h'
  rw [b1] at d1
  rw [b2] at d2
  rw [b3] at d3
  rw [b4] at d4
  cases d1
  cases d2
  cases d3
  cases d4
  rfl

/-! ## Runs with close planes -/

/-- Three planes that are all `p`, at `y - t`, `y` and `y + t`. -/
noncomputable def closeRun (bt : ℝ → ℝ → ℝ → ℝ) (φ : ℝ → ℝ → ℝ → ℝ → ℝ × ℝ) (p : PolGrid ℝ) (y t : ℝ) : MmEnv ℝ where
  grid := ⟨[⟨p, fun _ _ _ _ => (0, 0)⟩, ⟨p, fun _ _ _ _ => (0, 0)⟩, ⟨p, fun _ _ _ _ => (0, 0)⟩], [y - t, y, y + t], 1, false, p.nx, p.nz⟩
  follow := fun _ _ R Z ys => ys.map fun s x z => φ (R x z) (Z x z) (ys.headD 0) s
  outside := fun _ _ _ => false
  byfunc := bt
  isSlab := false
  lineLength := fun _ _ => 0
  gauss := fun n => (List.range n).map fun i => ((2 * i + 1) / n - 1, 2 / n)
  sqrt := Real.sqrt
  repr := fun _ => "0.5"

theorem closeRun_at (bt : ℝ → ℝ → ℝ → ℝ) (φ : ℝ → ℝ → ℝ → ℝ → ℝ × ℝ) (p : PolGrid ℝ) (hc : p.Complete) (x : ℕ) (hx : x < p.nx) (y t : ℝ) :
    RunAt (closeRun bt φ p y t) bt φ p x 1 y (y - t) (y + t) := by
  have hi : Grid.init (fun q : MapPol ℝ => (q.nx, q.nz)) (.many [⟨p, fun _ _ _ _ => (0, 0)⟩, ⟨p, fun _ _ _ _ => (0, 0)⟩, ⟨p, fun _ _ _ _ => (0, 0)⟩]) [y - t, y, y + t] 1 false =
      .ok (closeRun bt φ p y t).grid := rfl
  obtain ⟨h, -, -⟩ := C21_ends _ _ _ _ _ hi
  obtain ⟨p0, hp0, h0⟩ := h 0 (by norm_num)
  obtain ⟨p1, hp1, h1⟩ := h 1 (by norm_num)
  obtain ⟨p2, hp2, h2⟩ := h 2 (by norm_num)
  cases hp0
  cases hp1
  cases hp2
  refine ⟨?_, ⟨rfl, by simp [closeRun], ?_⟩, ?_, rfl, rfl, rfl, ⟨_, _, h0, hx⟩, by simp [closeRun, Grid.ny], ⟨_, rfl, h1, ⟨some ⟨p, fun _ _ _ _ => (0, 0)⟩, ?_⟩, ⟨some ⟨p, fun _ _ _ _ => (0, 0)⟩, ?_⟩⟩⟩
  · intro n m R Z ys
    simp [closeRun]
  · intro q hq
    have : q = ⟨p, fun _ _ _ _ => (0, 0)⟩ := by simpa [closeRun] using hq
    subst this
    obtain ⟨a, ha⟩ := Option.ne_none_iff_exists'.1 (hc "g_xx" (by simp))
    obtain ⟨b, hb⟩ := Option.ne_none_iff_exists'.1 (hc "g_zz" (by simp))
    obtain ⟨c, hc⟩ := Option.ne_none_iff_exists'.1 (hc "g_xz" (by simp))
    exact ⟨a, b, c, ha, hb, hc⟩
  · intro n m R Z s ys
    rfl
  · rw [show ((1 : ℕ) : ℝ) + -1 = ((0 : ℕ) : ℝ) by norm_num]
    exact h0
  · rw [show ((1 : ℕ) : ℝ) + 1 = ((2 : ℕ) : ℝ) by norm_num]
    exact h2

/-- The metric for the same planes. -/
theorem closeMetric (f : MagField ℝ) (p : PolGrid ℝ) (hc : p.Complete) (hJ : ¬ p.ProvidesJ) (y t : ℝ) :
    ∃ g m b, MetricGrid g [p, p, p] [y - t, y, y + t] ∧ getMetric Real.sqrt g f none = .ok (m, b) := by
  have hg : ∃ g, Grid.init (fun p : PolGrid ℝ => (p.nx, p.nz)) (.many [p, p, p]) [y - t, y, y + t] 1 false = .ok g := by
    unfold Grid.init
    simp only
    rw [if_neg (by simp)]
    exact ⟨_, rfl⟩
  obtain ⟨g, hg⟩ := hg
  have hmg : MetricGrid g [p, p, p] [y - t, y, y + t] := ⟨⟨_, _, _, hg⟩, by simp [hc], Or.inr (by simp [hJ])⟩
  obtain ⟨f1, f2, hl, M, xx, zz, xz, hM, M1, M2, hxx, hzz, hxz⟩ := hmg.facts
  obtain ⟨r, e, -⟩ := getMetric_eq Real.sqrt g (by rw [f1, f2]; exact hl) f none M hM _ _ xx zz xz M1 M2 hxx hzz hxz
  exact ⟨g, r, _, hmg, e⟩

theorem closeRun_J (bt : ℝ → ℝ → ℝ → ℝ) (φ : ℝ → ℝ → ℝ → ℝ → ℝ × ℝ) (p : PolGrid ℝ) (hc : p.Complete) (x z : ℕ) (hx : x < p.nx) (y t : ℝ) :
    ∃ v, JIs (closeRun bt φ p y t) 1 (x, 1, z) v := by
  have hrun := closeRun_at bt φ p hc x hx y t
  obtain ⟨first, y0, h0, -⟩ := hrun.first
  obtain ⟨m, hm⟩ := makeMaps_succeeds _ hrun.follow hrun.grid 1 1 1 1 1 le_rfl (by intro h; omega) le_rfl le_rfl ⟨fun _ => 0, fun _ _ => 0, fun _ _ => 0⟩
  obtain ⟨a, ha, -⟩ := C36_values _ hrun.follow hrun.grid φ hrun.tracer 1 1 1 1 1 le_rfl le_rfl _ m hm first y0 h0 0 "J" rfl (Or.inl hrun.slab)
  exact ⟨a (x, 1, z), 1, 1, 1, 1, _, m, a, le_rfl, hm, ha, rfl⟩

/-! ## The exact condition -/

section
variable (f : MagField ℝ) (hR : f.Rfunc = some fun a _ _ => a) (φ : ℝ → ℝ → ℝ → ℝ → ℝ × ℝ) (p : PolGrid ℝ) (hc : p.Complete) (hJ : ¬ p.ProvidesJ) (x z : ℕ) (hx : x < p.nx) (y : ℝ)
  (hφ : φ (p.R x z) (p.Z x z) y y = (p.R x z, p.Z x z)) (hb : f.Byfunc (p.R x z) (p.Z x z) y ≠ 0)
  (hcont : ContinuousAt (fun s => (φ (p.R x z) (p.Z x z) y s).1 / f.Byfunc (φ (p.R x z) (p.Z x z) y s).1 (φ (p.R x z) (p.Z x z) y s).2 s) y)
include hR hc hJ hx hφ hb hcont

/-- **C265.** Exactly when the two agree, for a cell with an area at a positive radius: the field is perpendicular to the plane there. -/
theorem C265_iff (hA : 0 < cellArea Real.sqrt p x z) (hp : 0 < p.R x z) : JMetricOk f φ p x z y ↔ |f.Bmag (p.R x z) (p.Z x z) y| = |f.Byfunc (p.R x z) (p.Z x z) y| := by
  have hlim := C265_limit f.Byfunc φ p hc x z y hφ hb hcont
  set A := cellArea Real.sqrt p x z with hAdef
  have hdet : ∀ (g : Grid (PolGrid ℝ) ℝ) (l : List (PolGrid ℝ)) (ys : List ℝ) (m : Metric ℝ) (b : Cell → ℝ) (j : ℕ) (d : ℝ), MetricGrid g l ys → l[j]? = some p → ys.getD j 0 = y →
      getMetric Real.sqrt g f none = .ok (m, b) → MetricDet m (x, j, z) d → √d = A * p.R x z * |pitch f p y x z| := by
    intro g l ys m b j d hg hl hy hm hd
    obtain ⟨d', hd', e⟩ := C265_det g l ys hg f _ hR m b hm x j z p hl
    rw [hd.unique hd', e, hy, abs_mul, abs_of_pos hp]
    ring
  have hiff : |f.Bmag (p.R x z) (p.Z x z) y| = |f.Byfunc (p.R x z) (p.Z x z) y| ↔ |pitch f p y x z| = 1 := by
    unfold pitch
    rw [abs_div, div_eq_one_iff_eq (abs_ne_zero.2 hb)]
  rw [hiff]
  generalize |pitch f p y x z| = q at hdet ⊢
  constructor
  · intro h
    by_contra hne
    have hpos : 0 < |A * p.R x z - A * p.R x z * q| := by
      rw [abs_pos, show A * p.R x z - A * p.R x z * q = A * p.R x z * (1 - q) by ring]
      exact mul_ne_zero (mul_pos hA hp).ne' (sub_ne_zero.2 (Ne.symm hne))
    obtain ⟨δ1, hδ1, h1⟩ := h _ (half_pos hpos)
    obtain ⟨δ2, hδ2, h2⟩ := hlim _ (half_pos hpos)
    set t := min δ1 δ2 / 2 with ht
    have ht0 : 0 < t := by positivity
    have e1 : |(y - t) - y| = t := by rw [show (y - t) - y = -t by ring, abs_neg, abs_of_pos ht0]
    have e2 : |(y + t) - y| = t := by rw [show (y + t) - y = t by ring, abs_of_pos ht0]
    have l1 : t < δ1 := by
      have := min_le_left δ1 δ2
      rw [ht]; linarith
    have l2 : t < δ2 := by
      have := min_le_right δ1 δ2
      rw [ht]; linarith
    obtain ⟨v, hv⟩ := closeRun_J f.Byfunc φ p hc x z hx y t
    obtain ⟨g, m, b, hg, hm⟩ := closeMetric f p hc hJ y t
    have hrun := closeRun_at f.Byfunc φ p hc x hx y t
    obtain ⟨d, hd, -⟩ := C265_det g _ _ hg f _ hR m b hm x 1 z p rfl
    have a1 := h1 _ 1 _ _ hrun (by rw [e1]; exact l1) (by rw [e2]; exact l1) g _ _ m b hg rfl rfl hm 1 le_rfl v hv d hd
    have a2 := h2 _ 1 _ _ hrun (by rw [e1]; exact l2) (by rw [e2]; exact l2) 1 le_rfl v hv
    rw [hdet g _ _ m b 1 d hg rfl rfl hm hd] at a1
    have a3 := abs_sub_abs_le_abs_sub (A * p.R x z - A * p.R x z * q) (v - A * p.R x z * q)
    rw [show A * p.R x z - A * p.R x z * q - (v - A * p.R x z * q) = -(v - A * p.R x z) by ring, abs_neg] at a3
    linarith
  · intro h ε hε
    obtain ⟨δ, hδ, h1⟩ := hlim ε hε
    refine ⟨δ, hδ, ?_⟩
    intro e j ylow yhigh hrun hl hh g l ys m b hg hlp hy hm r hr v hv d hd
    rw [hdet g l ys m b j d hg hlp hy hm hd, h, mul_one]
    exact h1 e j ylow yhigh hrun hl hh r hr v hv

/-- **C265.** So `J` is that square root times `|By| / |B|`, in the limit: the square root is the limit of `J` times `|B / By|`. -/
theorem C265_ratio (hp : 0 < p.R x z) (g : Grid (PolGrid ℝ) ℝ) (l : List (PolGrid ℝ)) (ys : List ℝ) (m : Metric ℝ) (b : Cell → ℝ) (j : ℕ) (d : ℝ) (hg : MetricGrid g l ys)
    (hl : l[j]? = some p) (hy : ys.getD j 0 = y) (hm : getMetric Real.sqrt g f none = .ok (m, b)) (hd : MetricDet m (x, j, z) d)
    (hB : f.Bmag (p.R x z) (p.Z x z) y ≠ 0) :
    JTendsTo f.Byfunc φ p x z y (√d / |pitch f p y x z|) := by
  obtain ⟨d', hd', e⟩ := C265_det g l ys hg f _ hR m b hm x j z p hl
  have hne : |pitch f p y x z| ≠ 0 := abs_ne_zero.2 (div_ne_zero hB hb)
  have e2 : √d / |pitch f p y x z| = cellArea Real.sqrt p x z * p.R x z := by
    rw [hd.unique hd', e, hy, abs_mul, abs_of_pos hp]
    field_simp
  rw [e2]
  exact C265_limit f.Byfunc φ p hc x z y hφ hb hcont

end

/-- **C265 (partial).** The claim holds for fields that are perpendicular to the planes.  Missing: all other fields (`C265_iff`, `C265_fails`). -/
theorem C265_partial (f : MagField ℝ) (hR : f.Rfunc = some fun a _ _ => a) (φ : ℝ → ℝ → ℝ → ℝ → ℝ × ℝ) (p : PolGrid ℝ) (hc : p.Complete) (hJ : ¬ p.ProvidesJ) (x z : ℕ)
    (hx : x < p.nx) (y : ℝ) (hφ : φ (p.R x z) (p.Z x z) y y = (p.R x z, p.Z x z)) (hb : f.Byfunc (p.R x z) (p.Z x z) y ≠ 0)
    (hcont : ContinuousAt (fun s => (φ (p.R x z) (p.Z x z) y s).1 / f.Byfunc (φ (p.R x z) (p.Z x z) y s).1 (φ (p.R x z) (p.Z x z) y s).2 s) y)
    (hA : 0 < cellArea Real.sqrt p x z) (hp : 0 < p.R x z) (hperp : ∀ a b s, f.Bmag a b s = |f.Byfunc a b s|) : JMetricOk f φ p x z y :=
  (C265_iff f hR φ p hc hJ x z hx y hφ hb hcont hA hp).2 (by rw [hperp, abs_abs])

/-- A field that goes up as fast as it goes round. -/
noncomputable def risingField : MagField ℝ := ⟨some fun a _ _ => a, fun _ _ _ => √2, fun _ _ _ => 0, fun _ _ _ => 1, []⟩

/-- Its lines. -/
def risingLine (R Z y s : ℝ) : ℝ × ℝ := (R, Z + R * (s - y))

/-- **C265 (refutation).** For this field `J` and the metric disagree in every cell of every plane. -/
theorem C265_fails (p : PolGrid ℝ) (hc : p.Complete) (hJ : ¬ p.ProvidesJ) (x z : ℕ) (hx : x < p.nx) (y : ℝ) (hA : 0 < cellArea Real.sqrt p x z) (hp : 0 < p.R x z) :
    ¬ JMetricOk risingField risingLine p x z y := by
  rw [C265_iff risingField rfl risingLine p hc hJ x z hx y (by simp [risingLine]) (by simp [risingField]) (by simp [risingField, risingLine]; exact continuousAt_const) hA hp]
  simp only [risingField, abs_one]
  rw [abs_of_nonneg (Real.sqrt_nonneg _)]
  intro h
  have := Real.sq_sqrt (show (0 : ℝ) ≤ 2 by norm_num)
  rw [h] at this
  norm_num at this

/-- Non-vacuity: such a plane, for the refutation and with another field for the other direction. -/
example : ¬ JMetricOk risingField risingLine (shearedPol 0) 0 0 3 ∧
    JMetricOk ⟨some fun a _ _ => a, fun a _ _ => |1 / a|, fun _ _ _ => 0, fun a _ _ => 1 / a, []⟩ (fun R Z _ _ => (R, Z)) (shearedPol 0) 0 0 3 := by
  have hJ : ¬ (shearedPol 0).ProvidesJ := by simp [PolGrid.ProvidesJ, shearedPol]
  have hA : 0 < cellArea Real.sqrt (shearedPol 0) 0 0 := by rw [shearedPol_area]; norm_num
  have hp : 0 < (shearedPol 0).R 0 0 := by simp [shearedPol]
  refine ⟨C265_fails _ (shearedPol_complete 0) hJ 0 0 (by simp [shearedPol]) 3 hA hp, ?_⟩
  exact C265_partial _ rfl _ _ (shearedPol_complete 0) hJ 0 0 (by simp [shearedPol]) 3 rfl (by simp [shearedPol]) continuousAt_const hA hp fun _ _ _ => rfl

end Zoidberg
