import Verif.Model.GridVolume
import Verif.Props.TorusVolume
import Verif.Props.PolMetric
import Verif.Props.FastLine
import Verif.Props.VolumeOrder
import Mathlib.Analysis.SpecialFunctions.Log.Deriv

/-!
# The volume of a grid in a torus (C294)

`dommaschk_grid_volume` adds up `J dx dy dz` over all cells.  The first and the last row of a curvilinear poloidal grid lie on the inner and the outer line, so the cells of these rows
reach over the lines by half of their size: the sum converges to the volume, but with the first order only.
-/

set_option linter.unusedSectionVars false

namespace Zoidberg

open Finset

/-- A torus: the same curvilinear poloidal grid at every plane, and a tracer that follows circles. -/
structure TorusEnv (g : StrPol ℝ) (p : MapPol ℝ) (ys : List ℝ) (Ly : ℝ) (B : ℝ → ℝ → ℝ) (e : MmEnv ℝ) : Prop where
  grid : Grid.init (fun p => (p.nx, p.nz)) (.many (List.replicate ys.length p)) ys Ly true = .ok e.grid
  nx : p.nx = g.nx
  nz : p.nz = g.nz
  R : p.R = g.R
  Z : p.Z = g.Z
  metric : g.metric = .ok p.metric
  follow : PointTracer e fun R Z _ _ => (R, Z)
  lengths : FollowOk e
  field : ∀ R Z s, e.byfunc R Z s = B R Z
  torus : e.isSlab = false
  sqrt : e.sqrt = Real.sqrt

/-- The volume of the grid: `J` from `make_maps` with any options, the rest from `Grid.metric`. -/
def GridVolumeIs (e : MmEnv ℝ) (nx nz r : ℕ) (V : ℝ) : Prop :=
  ∃ (nslice mxg n nc : ℕ) (empty : JState ℝ) (m : ODict (MapVal ℝ)) (M : Metric ℝ) (J dx dy dz : Cell → ℝ), 1 ≤ nc ∧ makeMaps e nslice mxg n r nc empty = .ok m ∧
    m.get? "J" = some (.f3 J) ∧ e.grid.asPol.metric none = .ok M ∧ M.get? "dx" = some dx ∧ M.get? "dy" = some dy ∧ M.get? "dz" = some dz ∧
    V = gridVolume nx e.grid.ny nz J dx dy dz

section
variable {g : StrPol ℝ} {p : MapPol ℝ} {ys : List ℝ} {Ly : ℝ} {B : ℝ → ℝ → ℝ} {e : MmEnv ℝ}

theorem torus_dict (h : TorusEnv g p ys Ly B e) : p.metric = g.metricDict := by
  have hm := h.metric
  unfold StrPol.metric at hm
  split_ifs at hm
  injection hm with hm
  exact hm.symm

theorem torus_gridOk (h : TorusEnv g p ys Ly B e) : GridOk e := by
  obtain ⟨h1, h2, h3, h4, h5, h6⟩ := Grid.init_many h.grid
  refine ⟨?_, ?_, ?_⟩
  · rw [h1, h2, List.length_replicate]
  · rw [h2]; exact h6
  · intro q hq
    rw [h1, List.mem_replicate] at hq
    rw [hq.2]
    unfold HasPerp
    rw [torus_dict h]
    exact ⟨_, _, _, rfl, rfl, rfl⟩

theorem torus_pol (h : TorusEnv g p ys Ly B e) (y : ℝ) (q : MapPol ℝ) (y' : ℝ) (hp : e.grid.getPoloidalGrid y = .ok (some q, y')) : q = p := by
  have := getPoloidalGrid_mem _ _ _ _ hp
  rw [(Grid.init_many h.grid).1, List.mem_replicate] at this
  exact this.2

theorem torus_first (h : TorusEnv g p ys Ly B e) : ∃ y0, e.grid.getPoloidalGrid ((0 : ℕ) : ℝ) = .ok (some p, y0) := by
  obtain ⟨p0, y0, h0, -⟩ := C19_periodic_shift _ _ _ _ _ h.grid 0 0
  have hp0 := torus_pol h _ _ _ h0
  subst hp0
  exact ⟨y0, by simpa using h0⟩

theorem torus_complete (h : TorusEnv g p ys Ly B e) (n : ℕ) : ∀ q ∈ List.replicate n p.toPolGrid, q.Complete := by
  intro q hq
  rw [List.mem_replicate] at hq
  rw [hq.2]
  intro n hn
  rw [torus_dict h]
  simp only [List.mem_cons, List.not_mem_nil, or_false] at hn
  rcases hn with rfl | rfl | rfl | rfl | rfl | rfl | rfl | rfl <;> exact Option.some_ne_none _

theorem torus_asPol (h : TorusEnv g p ys Ly B e) :
    Grid.init (fun p => (p.nx, p.nz)) (.many (List.replicate ys.length p.toPolGrid)) ys Ly true = .ok e.grid.asPol := by
  have hg := h.grid
  unfold Grid.init at hg ⊢
  dsimp only at hg ⊢
  by_cases h1 : ys.length ≠ (List.replicate ys.length p).length
  · rw [if_pos h1] at hg; cases hg
  · rw [if_neg h1] at hg
    rw [if_neg (by rw [List.length_replicate]; exact fun h => h rfl)]
    cases hl : (List.replicate ys.length p)[0]? with
    | none => rw [hl] at hg; cases hg
    | some q =>
      rw [hl] at hg
      have hp : q = p ∧ 0 < ys.length := by
        obtain ⟨hlt, he⟩ := List.getElem?_eq_some_iff.1 hl
        rw [List.getElem_replicate] at he
        exact ⟨he.symm, by simpa using hlt⟩
      have hl2 : (List.replicate ys.length p.toPolGrid)[0]? = some p.toPolGrid := by
        rw [List.getElem?_replicate, if_pos hp.2]
      rw [hl2]
      injection hg with hg
      rw [← hg, hp.1]
      unfold Grid.asPol
      simp only [List.map_replicate]

/-- **C294.** `J dx dz` is the area of the cell times the major radius, for all curvilinear grids. -/
theorem C294_cell (h : TorusEnv g p ys Ly B e) (Rx Zx Rz Zz : ℕ → ℕ → ℝ) (hd : g.Derivs Rx Zx Rz Zz) (hB : ∀ x < g.nx, ∀ z < g.nz, B (g.R x z) (g.Z x z) ≠ 0)
    (nslice mxg n r nc : ℕ) (hr : 1 ≤ r) (hc : 1 ≤ nc) (empty : JState ℝ) (m : ODict (MapVal ℝ)) (hm : makeMaps e nslice mxg n r nc empty = .ok m)
    (J : Cell → ℝ) (hJ : m.get? "J" = some (.f3 J)) (dx dz : ℕ → ℕ → ℝ) (hdx : p.metric "dx" = some dx) (hdz : p.metric "dz" = some dz)
    (x j z : ℕ) (hx : x < g.nx) (hj : j < e.grid.ny) (hz : z < g.nz) :
    J (x, j, z) * dx x z * dz x z = |Rx x z * Zz x z - Rz x z * Zx x z| * g.R x z := by
  obtain ⟨dx', dz', gxx', gxz', gzz', k1, k2, k3, k4, k5, k6⟩ := C49_area g p.metric h.metric Rx Zx Rz Zz hd
  rw [hdx] at k1
  cases k1
  rw [hdz] at k2
  cases k2
  obtain ⟨y0, h0⟩ := torus_first h
  obtain ⟨a', ha', hv⟩ := C36_values e h.lengths (torus_gridOk h) _ h.follow nslice mxg n r nc hr hc empty m hm _ _ h0 0 "J" rfl (Or.inl h.torus)
  rw [hJ] at ha'
  cases ha'
  obtain ⟨pol, y, yl, yh, pl, ph, gxx, gzz, gxz, q1, q2, q3, q4, q5, q6, q7⟩ := hv x j z (by rw [h.nx]; exact hx) hj
  have hpol := torus_pol h _ _ _ q1
  subst hpol
  rw [k3] at q4
  cases q4
  rw [k5] at q5
  cases q5
  rw [k4] at q6
  cases q6
  rw [q7, lineValue_trap e (fun R Z _ _ => (R, Z)) r hr]
  have hF : radiusOverField e (fun R Z _ _ => (R, Z)) (pol.R x z) (pol.Z x z) y = fun _ => g.R x z / B (g.R x z) (g.Z x z) := by
    funext s
    unfold radiusOverField
    rw [h.field, h.R, h.Z]
  have hf : fieldAt e (fun R Z _ _ => (R, Z)) (pol.R x z) (pol.Z x z) y = B (g.R x z) (g.Z x z) := by
    unfold fieldAt
    rw [h.field, h.R, h.Z]
  rw [hF, hf, trapMean_const _ _ hr, trapMean_const _ _ hr, h.sqrt, ← k6 x hx z hz]
  have := hB x hx z hz
  field_simp
  ring

/-- **C294.** The volume of the grid: the areas of the cells times the major radius, times the sum of `dy`, whatever the options. -/
theorem C294_total (h : TorusEnv g p ys Ly B e) (Rx Zx Rz Zz : ℕ → ℕ → ℝ) (hd : g.Derivs Rx Zx Rz Zz) (hB : ∀ x < g.nx, ∀ z < g.nz, B (g.R x z) (g.Z x z) ≠ 0)
    (r : ℕ) (hr : 1 ≤ r) (V : ℝ) (hV : GridVolumeIs e g.nx g.nz r V) :
    ∃ dy, e.grid.dy = .ok dy ∧ V = (∑ j ∈ range ys.length, dy.getD j 0) * ∑ x ∈ range g.nx, ∑ z ∈ range g.nz, |Rx x z * Zz x z - Rz x z * Zx x z| * g.R x z := by
  obtain ⟨nslice, mxg, n, nc, empty, m, M, J, dx, dy3, dz, hc, hm, hJ, hM, kx, ky, kz, rfl⟩ := hV
  obtain ⟨h1, h2, h3, h4, h5, h6⟩ := Grid.init_many h.grid
  obtain ⟨dy, hdy, -⟩ := dy_eq e.grid (by rw [h2]; exact h6)
  refine ⟨dy, hdy, ?_⟩
  have hny : e.grid.ny = ys.length := by unfold Grid.ny; rw [h2]
  obtain ⟨hcm, -, -⟩ := C23_components _ _ _ _ _ _ (torus_asPol h) (torus_complete h _) M hM
  have hentry : ∀ (name : String) (arr : Cell → ℝ), (∃ w, M.get? name = some w ∧ CopyOf (List.replicate ys.length p.toPolGrid) (List.replicate ys.length p.toPolGrid).length w name) →
      M.get? name = some arr → ∀ j < ys.length, ∃ u, p.metric name = some u ∧ ∀ x z, arr (x, j, z) = u x z := by
    rintro name arr ⟨w, hw, hcopy⟩ ha j hj
    rw [ha] at hw
    cases hw
    obtain ⟨q, u, hp, hu, harr⟩ := hcopy j (by rw [List.length_replicate]; exact hj)
    rw [List.getElem?_replicate, if_pos hj] at hp
    cases hp
    exact ⟨u, hu, harr⟩
  have ey : ∀ x j z, dy3 (x, j, z) = dy.getD j 0 := by
    intro x j z
    obtain ⟨m', d, q1, q2, q3⟩ := dyIs_of e.grid.asPol dy hdy M hM j
    rw [hM] at q1
    cases q1
    rw [ky] at q2
    cases q2
    exact q3 x z
  unfold gridVolume
  rw [Finset.mul_sum]
  refine Finset.sum_congr rfl fun x hx => ?_
  rw [hny, Finset.sum_mul]
  refine Finset.sum_congr rfl fun j hj => ?_
  rw [Finset.mul_sum]
  refine Finset.sum_congr rfl fun z hz => ?_
  obtain ⟨ux, ex1, ex2⟩ := hentry "dx" dx (hcm "dx" (by simp)) kx j (mem_range.1 hj)
  obtain ⟨uz, ez1, ez2⟩ := hentry "dz" dz (hcm "dz" (by simp)) kz j (mem_range.1 hj)
  rw [ex2, ez2, ey, ← C294_cell h Rx Zx Rz Zz hd hB nslice mxg n r nc hr hc empty m hm J hJ ux uz ex1 ez1 x j z (mem_range.1 hx)
    (by rw [hny]; exact mem_range.1 hj) (mem_range.1 hz)]
  ring

/-- Rows on circles with the radii `r`, `ρ` their derivative by the index, and points at equal angles. -/
structure CircleRows (g : StrPol ℝ) (R0 : ℝ) (r ρ : ℕ → ℝ) : Prop where
  R : ∀ x < g.nx, ∀ z < g.nz, g.R x z = R0 + r x * Real.cos (2 * Real.pi * z / g.nz)
  Z : ∀ x < g.nx, ∀ z < g.nz, g.Z x z = r x * Real.sin (2 * Real.pi * z / g.nz)
  derivs : g.Derivs (fun x z => ρ x * Real.cos (2 * Real.pi * z / g.nz)) (fun x z => ρ x * Real.sin (2 * Real.pi * z / g.nz))
    (fun x z => -(r x * (2 * Real.pi / g.nz) * Real.sin (2 * Real.pi * z / g.nz))) (fun x z => r x * (2 * Real.pi / g.nz) * Real.cos (2 * Real.pi * z / g.nz))
  pos : ∀ x < g.nx, 0 < r x ∧ 0 < ρ x

/-- The volume between two circles, over the angle `Ly`. -/
noncomputable def circleShell (R0 a b Ly : ℝ) : ℝ := Ly * R0 * (Real.pi * (b ^ 2 - a ^ 2))

/-- **C294.** For rows on circles the points in each row are exact: what is left is the sum over the rows in place of the integral `∫ r dr`. -/
theorem C294_rows (h : TorusEnv g p ys Ly B e) (R0 : ℝ) (r ρ : ℕ → ℝ) (hc : CircleRows g R0 r ρ) (hz : 2 ≤ g.nz) (hB : ∀ x < g.nx, ∀ z < g.nz, B (g.R x z) (g.Z x z) ≠ 0)
    (y0 : ℝ) (hu : ∀ i < ys.length, ys.getD i 0 = y0 + i * (Ly / ys.length)) (k : ℕ) (hk : 1 ≤ k) (V : ℝ) (hV : GridVolumeIs e g.nx g.nz k V) :
    V = Ly * R0 * (2 * Real.pi * ∑ x ∈ range g.nx, r x * ρ x) := by
  obtain ⟨-, e2, e3, -, -, h6⟩ := Grid.init_many h.grid
  obtain ⟨dy, hdy, hVe⟩ := C294_total h _ _ _ _ hc.derivs hB k hk V hV
  obtain ⟨s1, s2⟩ := sum_dy e.grid (by rw [e2]; exact h6) dy hdy
  rw [e2, e3] at s1
  rw [e2] at s2
  have hL : ∑ j ∈ range ys.length, dy.getD j 0 = Ly := by
    rcases Nat.lt_or_ge ys.length 2 with hl | hl
    · exact s1 (by omega)
    · rw [s2 hl, hu _ (by omega), hu _ (by omega), hu _ (by omega), hu _ (by omega)]
      obtain ⟨k, hk⟩ : ∃ k, ys.length = k + 2 := ⟨ys.length - 2, by omega⟩
      rw [hk, show k + 2 - 1 = k + 1 by omega, show k + 2 - 2 = k by omega]
      have : (k : ℝ) + 2 ≠ 0 := by positivity
      push_cast
      field_simp
      ring
  have hn : (0 : ℝ) < g.nz := by exact_mod_cast (by omega : 0 < g.nz)
  have hsc : ∑ z ∈ range g.nz, Real.cos (2 * Real.pi * (z : ℝ) / g.nz) = 0 := by
    have h := sum_cos_angles (n := g.nz) (m := 1) one_ne_zero (by simp; omega)
    simp only [Int.cast_one, one_mul] at h
    rw [Finset.sum_congr rfl fun i _ => by rw [circle_angle g.nz i (by omega), Real.cos_add_pi], Finset.sum_neg_distrib, h, neg_zero]
  rw [hVe, hL, mul_assoc, Finset.mul_sum, Finset.mul_sum, Finset.mul_sum, Finset.mul_sum]
  refine Finset.sum_congr rfl fun x hx => ?_
  obtain ⟨p1, p2⟩ := hc.pos x (mem_range.1 hx)
  have hcell : ∀ z ∈ range g.nz, |ρ x * Real.cos (2 * Real.pi * (z : ℝ) / g.nz) * (r x * (2 * Real.pi / g.nz) * Real.cos (2 * Real.pi * (z : ℝ) / g.nz)) -
      -(r x * (2 * Real.pi / g.nz) * Real.sin (2 * Real.pi * (z : ℝ) / g.nz)) * (ρ x * Real.sin (2 * Real.pi * (z : ℝ) / g.nz))| * g.R x z =
      r x * ρ x * (2 * Real.pi / g.nz) * R0 + r x * ρ x * (2 * Real.pi / g.nz) * r x * Real.cos (2 * Real.pi * (z : ℝ) / g.nz) := by
    intro z hz'
    have hs := Real.sin_sq_add_cos_sq (2 * Real.pi * (z : ℝ) / g.nz)
    rw [show ρ x * Real.cos (2 * Real.pi * (z : ℝ) / g.nz) * (r x * (2 * Real.pi / g.nz) * Real.cos (2 * Real.pi * (z : ℝ) / g.nz)) -
      -(r x * (2 * Real.pi / g.nz) * Real.sin (2 * Real.pi * (z : ℝ) / g.nz)) * (ρ x * Real.sin (2 * Real.pi * (z : ℝ) / g.nz)) = r x * ρ x * (2 * Real.pi / g.nz) by
        linear_combination r x * ρ x * (2 * Real.pi / g.nz) * hs]
    have hp : 0 < r x * ρ x * (2 * Real.pi / g.nz) := by have := Real.pi_pos; positivity
    rw [abs_of_pos hp, hc.R x (mem_range.1 hx) z (mem_range.1 hz')]
    ring
  rw [Finset.sum_congr rfl hcell, Finset.sum_add_distrib, Finset.sum_const, card_range, nsmul_eq_mul, ← Finset.mul_sum, hsc]
  field_simp
  ring

/-- **C294.** Rows at equal distances, from the inner to the outer line: the volume is too large by the factor `nx / (nx - 1)`. -/
theorem C294_linear (h : TorusEnv g p ys Ly B e) (R0 a b : ℝ) (hx : 2 ≤ g.nx) (hc : CircleRows g R0 (fun x => a + x * ((b - a) / (g.nx - 1))) (fun _ => (b - a) / (g.nx - 1)))
    (hz : 2 ≤ g.nz) (hB : ∀ x < g.nx, ∀ z < g.nz, B (g.R x z) (g.Z x z) ≠ 0) (y0 : ℝ) (hu : ∀ i < ys.length, ys.getD i 0 = y0 + i * (Ly / ys.length))
    (k : ℕ) (hk : 1 ≤ k) (V : ℝ) (hV : GridVolumeIs e g.nx g.nz k V) : V = circleShell R0 a b Ly * (g.nx / (g.nx - 1)) := by
  rw [C294_rows h R0 _ _ hc hz hB y0 hu k hk V hV]
  have hsum : ∀ (c : ℝ) (n : ℕ), ∑ x ∈ range n, (a + (x : ℝ) * c) * c = c * n * (a + ((n : ℝ) - 1) / 2 * c) := by
    intro c n
    induction n with
    | zero => simp
    | succ n ih => rw [sum_range_succ, ih]; push_cast; ring
  have hn : ((g.nx : ℝ) - 1) ≠ 0 := by
    have : (2 : ℝ) ≤ g.nx := by exact_mod_cast hx
    intro h
    linarith
  rw [hsum]
  unfold circleShell
  field_simp
  ring

/-- **C294.** So the error is of the first order, not of a higher one, whatever the number of planes, of points in each row and of points along the line. -/
theorem C294_error (h : TorusEnv g p ys Ly B e) (R0 a b : ℝ) (hx : 2 ≤ g.nx) (hc : CircleRows g R0 (fun x => a + x * ((b - a) / (g.nx - 1))) (fun _ => (b - a) / (g.nx - 1)))
    (hz : 2 ≤ g.nz) (hB : ∀ x < g.nx, ∀ z < g.nz, B (g.R x z) (g.Z x z) ≠ 0) (y0 : ℝ) (hu : ∀ i < ys.length, ys.getD i 0 = y0 + i * (Ly / ys.length))
    (k : ℕ) (hk : 1 ≤ k) (V : ℝ) (hV : GridVolumeIs e g.nx g.nz k V) : |V - circleShell R0 a b Ly| = |circleShell R0 a b Ly| / (g.nx - 1) := by
  have hn : (0 : ℝ) < (g.nx : ℝ) - 1 := by
    have : (2 : ℝ) ≤ g.nx := by exact_mod_cast hx
    linarith
  rw [C294_linear h R0 a b hx hc hz hB y0 hu k hk V hV, show circleShell R0 a b Ly * (g.nx / (g.nx - 1)) - circleShell R0 a b Ly = circleShell R0 a b Ly / (g.nx - 1) by
    field_simp; ring, abs_div, abs_of_pos hn]

end

/-- **C294.** With these errors, for `nx = 8 scale`, the test passes. -/
theorem C294_test (V : ℝ) (hV : 0 < V) : dommaschkPasses ([2, 4, 8].map fun s : ℝ => V / (8 * s - 1)) := by
  simp only [List.map_cons, List.map_nil]
  rw [C275_iff _ _ _ (by norm_num; positivity) (by norm_num; positivity)]
  have h1 : (2 : ℝ) ^ (-2 : ℝ) ≤ (2 : ℝ) ^ (-1.8 : ℝ) := Real.rpow_le_rpow_of_exponent_le (by norm_num) (by norm_num)
  have h2 : (2 : ℝ) ^ (-2 : ℝ) = 1 / 4 := by
    rw [Real.rpow_neg (by norm_num)]
    norm_num
  rw [h2] at h1
  have h3 : V / (8 * 2 - 1) * (1 / 4) ≤ V / (8 * 2 - 1) * (2 : ℝ) ^ (-1.8 : ℝ) := mul_le_mul_of_nonneg_left h1 (by norm_num; positivity)
  refine le_trans ?_ h3
  norm_num
  linarith

theorem two_mul_le_log (u : ℝ) (hu : 1 < u) : 2 * (u - 1) / (u + 1) ≤ Real.log u := by
  have h := Real.hasSum_log_one_add_inv (a := 1 / (u - 1)) (by apply one_div_pos.2; linarith)
  have h0 : u - 1 ≠ 0 := by intro h; linarith
  have e1 : (1 : ℝ) + (1 / (u - 1))⁻¹ = u := by rw [one_div, inv_inv]; ring
  rw [e1] at h
  have hpos : 0 < 1 / (2 * (1 / (u - 1)) + 1) := by
    have : 0 < u - 1 := by linarith
    positivity
  have := le_hasSum h 0 (fun k _ => by positivity)
  refine le_trans (le_of_eq ?_) this
  have : u + 1 ≠ 0 := by intro h; linarith
  have e2 : 1 / (2 * (1 / (u - 1)) + 1) = (u - 1) / (u + 1) := by
    rw [show 2 * (1 / (u - 1)) + 1 = (u + 1) / (u - 1) by field_simp; ring, one_div_div]
  rw [e2]
  norm_num
  ring

/-- **C294.** Rows of a conformal grid (the solution of the elliptic equations between two circles), `r = a q^x`: the error is of the first order too, with bounds from both sides. -/
theorem C294_conformal {g : StrPol ℝ} {p : MapPol ℝ} {ys : List ℝ} {Ly : ℝ} {B : ℝ → ℝ → ℝ} {e : MmEnv ℝ} (h : TorusEnv g p ys Ly B e) (R0 a q : ℝ) (hL : 0 < Ly * R0) (hq : 1 < q)
    (hx : 2 ≤ g.nx) (hc : CircleRows g R0 (fun x => a * q ^ x) (fun x => a * q ^ x * Real.log q))
    (hz : 2 ≤ g.nz) (hB : ∀ x < g.nx, ∀ z < g.nz, B (g.R x z) (g.Z x z) ≠ 0) (y0 : ℝ) (hu : ∀ i < ys.length, ys.getD i 0 = y0 + i * (Ly / ys.length))
    (k : ℕ) (hk : 1 ≤ k) (V : ℝ) (hV : GridVolumeIs e g.nx g.nz k V) (b : ℝ) (hb : b = a * q ^ (g.nx - 1)) :
    Ly * R0 * Real.pi * (a ^ 2 + b ^ 2) * (Real.log (b / a) / (g.nx - 1)) ≤ V - circleShell R0 a b Ly ∧
      V - circleShell R0 a b Ly ≤ Ly * R0 * Real.pi * (2 * b ^ 2) * (Real.log (b / a) / (g.nx - 1)) := by
  obtain ⟨N, hN⟩ : ∃ N, g.nx = N + 1 := ⟨g.nx - 1, by omega⟩
  have hN1 : 1 ≤ N := by omega
  have ha : 0 < a := by simpa using (hc.pos 0 (by omega)).1
  rw [C294_rows h R0 _ _ hc hz hB y0 hu k hk V hV]
  rw [hN] at hb ⊢
  rw [Nat.add_sub_cancel] at hb
  have hlog : Real.log (b / a) / (((N + 1 : ℕ) : ℝ) - 1) = Real.log q := by
    rw [hb, mul_div_cancel_left₀ _ ha.ne', Real.log_pow]
    have : (N : ℝ) ≠ 0 := by
      have : N ≠ 0 := by omega
      exact_mod_cast this
    push_cast
    rw [add_sub_cancel_right, mul_div_cancel_left₀ _ this]
  rw [hlog]
  have hl0 : 0 < Real.log q := Real.log_pos hq
  have hu1 : 1 < q ^ 2 := by nlinarith
  have hlu : Real.log (q ^ 2) = 2 * Real.log q := by rw [Real.log_pow]; norm_num
  have hkey := two_mul_le_log (q ^ 2) hu1
  rw [hlu, div_le_iff₀ (by linarith)] at hkey
  have hkey2 : 2 * Real.log q ≤ q ^ 2 - 1 := by
    rw [← hlu]
    exact Real.log_le_sub_one_of_pos (by linarith)
  have hgeo : (∑ x ∈ range (N + 1), a * q ^ x * (a * q ^ x * Real.log q)) * (q ^ 2 - 1) = a ^ 2 * Real.log q * ((q ^ 2) ^ (N + 1) - 1) := by
    rw [← geom_sum_mul (q ^ 2) (N + 1), Finset.sum_congr rfl fun x _ => show a * q ^ x * (a * q ^ x * Real.log q) = a ^ 2 * Real.log q * (q ^ 2) ^ x by ring, ← Finset.mul_sum]
    ring
  set S := ∑ x ∈ range (N + 1), a * q ^ x * (a * q ^ x * Real.log q) with hS
  clear_value S
  have hb2 : b ^ 2 = a ^ 2 * (q ^ 2) ^ N := by rw [hb]; ring
  set u := q ^ 2
  set w := u ^ N with hw
  have hw1 : 1 < w := one_lt_pow₀ hu1 (by omega)
  have hpow : u ^ (N + 1) = w * u := pow_succ _ _
  rw [hpow] at hgeo
  set l := Real.log q
  clear_value l w u
  have hlow : (a ^ 2 + b ^ 2) * l ≤ 2 * S - (b ^ 2 - a ^ 2) := by
    rw [hb2]
    have hpu : 0 < u - 1 := by linarith
    refine le_of_mul_le_mul_right ?_ hpu
    have : 0 ≤ a ^ 2 * (w - 1) * (2 * l * (u + 1) - 2 * (u - 1)) := by
      have : 0 ≤ w - 1 := by linarith
      have : 0 ≤ 2 * l * (u + 1) - 2 * (u - 1) := by linarith
      positivity
    nlinarith
  have hup : 2 * S - (b ^ 2 - a ^ 2) ≤ 2 * b ^ 2 * l := by
    rw [hb2]
    have hpu : 0 < u - 1 := by linarith
    refine le_of_mul_le_mul_right ?_ hpu
    have : 0 ≤ a ^ 2 * (w - 1) * ((u - 1) - 2 * l) := by
      have : 0 ≤ w - 1 := by linarith
      have : 0 ≤ (u - 1) - 2 * l := by linarith
      positivity
    nlinarith
  have hpi := Real.pi_pos
  have hP : 0 ≤ Ly * R0 * Real.pi := by positivity
  unfold circleShell
  constructor
  · have := mul_le_mul_of_nonneg_left hlow hP
    linarith
  · have := mul_le_mul_of_nonneg_left hup hP
    linarith

/-! ## Examples -/

/-- A grid with rows on circles, with exact derivatives. -/
noncomputable def annulus (nx nz : ℕ) (R0 : ℝ) (r ρ : ℝ → ℝ) : StrPol ℝ :=
  ⟨nx, nz, fun x z => R0 + r x * Real.cos (2 * Real.pi * z / nz), fun x z => r x * Real.sin (2 * Real.pi * z / nz),
    fun dx dz x z => if dx = 1 then ρ x * Real.cos (2 * Real.pi * z / nz) else if dz = 1 then -(r x * (2 * Real.pi / nz) * Real.sin (2 * Real.pi * z / nz)) else
      R0 + r x * Real.cos (2 * Real.pi * z / nz),
    fun dx dz x z => if dx = 1 then ρ x * Real.sin (2 * Real.pi * z / nz) else if dz = 1 then r x * (2 * Real.pi / nz) * Real.cos (2 * Real.pi * z / nz) else
      r x * Real.sin (2 * Real.pi * z / nz)⟩

theorem annulus_rows (nx nz : ℕ) (R0 : ℝ) (r ρ : ℝ → ℝ) (hz : 1 ≤ nz) (hr : ∀ x : ℕ, x < nx → 0 < r x ∧ 0 < ρ x) :
    CircleRows (annulus nx nz R0 r ρ) R0 (fun x => r x) (fun x => ρ x) := by
  refine ⟨fun _ _ _ _ => rfl, fun _ _ _ _ => rfl, ?_, fun x hx => hr x hx⟩
  intro x hx' z hz'
  have hx2 : (x : ℝ) + 1 ≤ nx := by exact_mod_cast hx'
  have hz2 : (z : ℝ) < nz := by exact_mod_cast hz'
  have hzp : (0 : ℝ) < nz := by exact_mod_cast hz
  have hin : ¬ ((x : ℝ) < 0 ∨ (x : ℝ) > ((annulus nx nz R0 r ρ).nx : ℝ) - 1) := by
    rw [not_or, not_lt, not_lt]
    exact ⟨by positivity, by show (x : ℝ) ≤ (nx : ℝ) - 1; linarith⟩
  have hrem : npRem (z : ℝ) (nz : ℝ) = z := by
    unfold npRem
    rw [Int.floor_eq_zero_iff.2 ⟨by positivity, (div_lt_one hzp).2 hz2⟩]
    simp
  have hang : 2 * Real.pi * ((z : ℝ) + nz) / nz = 2 * Real.pi * z / nz + 2 * Real.pi := by field_simp
  unfold StrPol.getCoordinate
  rw [if_neg hin, if_neg hin]
  simp only [annulus, hrem, hang, Real.cos_add_two_pi, Real.sin_add_two_pi, if_true]
  simp

theorem annulus_metric (nx nz : ℕ) (R0 : ℝ) (r ρ : ℝ → ℝ) (hz : 1 ≤ nz) (hr : ∀ x : ℕ, x < nx → 0 < r x ∧ 0 < ρ x) :
    (annulus nx nz R0 r ρ).metric = .ok (annulus nx nz R0 r ρ).metricDict := by
  have hc := annulus_rows nx nz R0 r ρ hz hr
  have hzp : (0 : ℝ) < nz := by exact_mod_cast hz
  obtain ⟨m, hm⟩ := (C112_regular (annulus nx nz R0 r ρ)).2 (by
    intro x hx' z hz'
    obtain ⟨e1, e2⟩ := hc.derivs x hx' z hz'
    refine ⟨_, _, _, _, e1, e2, ?_⟩
    obtain ⟨p1, p2⟩ := hc.pos x hx'
    have hs := Real.sin_sq_add_cos_sq (2 * Real.pi * (z : ℝ) / (annulus nx nz R0 r ρ).nz)
    have hw : 0 < 2 * Real.pi / ((annulus nx nz R0 r ρ).nz : ℝ) := div_pos (by have := Real.pi_pos; positivity) hzp
    intro h0
    have hp := mul_pos (mul_pos p1 p2) hw
    refine hp.ne' ?_
    linear_combination h0 - r x * ρ x * (2 * Real.pi / ((annulus nx nz R0 r ρ).nz : ℝ)) * hs)
  have := hm
  unfold StrPol.metric at this ⊢
  split_ifs at this ⊢
  rfl

/-- The same as a slice of a grid. -/
noncomputable def annulusPol (nx nz : ℕ) (R0 : ℝ) (r ρ : ℝ → ℝ) : MapPol ℝ where
  nx := nx
  nz := nz
  R := (annulus nx nz R0 r ρ).R
  Z := (annulus nx nz R0 r ρ).Z
  metric := (annulus nx nz R0 r ρ).metricDict
  findIndex := fun _ _ x z => (x, z)

/-- A torus with the field `1 / R`. -/
noncomputable def annulusMm (nx nz : ℕ) (R0 : ℝ) (r ρ : ℝ → ℝ) (ys : List ℝ) (Ly : ℝ) : MmEnv ℝ where
  grid := ⟨List.replicate ys.length (annulusPol nx nz R0 r ρ), ys, Ly, true, nx, nz⟩
  follow := fun _ _ R Z ys => ys.map fun _ x z => (R x z, Z x z)
  outside := fun _ _ _ => false
  byfunc := fun R _ _ => 1 / R
  isSlab := false
  lineLength := fun _ _ => 0
  gauss := fun n => (List.range n).map fun i => ((2 * i + 1) / n - 1, 2 / n)
  sqrt := Real.sqrt
  repr := fun _ => "0.5"

theorem annulusMm_env (nx nz : ℕ) (R0 : ℝ) (r ρ : ℝ → ℝ) (hz : 1 ≤ nz) (hr : ∀ x : ℕ, x < nx → 0 < r x ∧ 0 < ρ x) (ys : List ℝ) (hys : ys ≠ []) (Ly : ℝ) :
    TorusEnv (annulus nx nz R0 r ρ) (annulusPol nx nz R0 r ρ) ys Ly (fun R _ => 1 / R) (annulusMm nx nz R0 r ρ ys Ly) := by
  refine ⟨?_, rfl, rfl, rfl, rfl, annulus_metric nx nz R0 r ρ hz hr, fun _ _ _ _ _ _ => rfl, ?_, fun _ _ _ => rfl, rfl, rfl⟩
  · cases ys with
    | nil => exact absurd rfl hys
    | cons y l =>
      unfold Grid.init annulusMm
      simp [List.replicate_succ, annulusPol]
  · intro n m R Z ys
    simp [annulusMm]

/-- Such a torus has a volume. -/
theorem torus_total {g : StrPol ℝ} {p : MapPol ℝ} {ys : List ℝ} {Ly : ℝ} {B : ℝ → ℝ → ℝ} {e : MmEnv ℝ} (h : TorusEnv g p ys Ly B e) : ∃ V, GridVolumeIs e g.nx g.nz 1 V := by
  obtain ⟨m, hm⟩ := C31_succeeds e h.lengths (torus_gridOk h) 1 1 1 1 1 (le_refl _) (by intro h; omega) (le_refl _) (le_refl _)
    ⟨fun _ => 0, fun _ _ => 0, fun _ _ => 0⟩
  obtain ⟨y0, h0⟩ := torus_first h
  obtain ⟨J, hJ, -⟩ := C36_values _ h.lengths (torus_gridOk h) _ h.follow 1 1 1 1 1 (le_refl _) (le_refl _) _ m hm _ _ h0 0 "J" rfl (Or.inl h.torus)
  obtain ⟨M, hM⟩ := (C23_succeeds_iff _ _ _ _ _ _ (torus_asPol h) (torus_complete h _)).2 (Or.inr (by
    intro q hq
    rw [List.mem_replicate] at hq
    rw [hq.2]
    intro hJ
    apply hJ
    show p.metric "J" = none
    rw [torus_dict h]
    rfl))
  obtain ⟨hcm, -, -⟩ := C23_components _ _ _ _ _ _ (torus_asPol h) (torus_complete h _) M hM
  obtain ⟨dx, kx, -⟩ := hcm "dx" (by simp)
  obtain ⟨dz, kz, -⟩ := hcm "dz" (by simp)
  obtain ⟨-, e2, -, -, -, h6⟩ := Grid.init_many h.grid
  obtain ⟨dyl, hdy, -⟩ := dy_eq e.grid (by rw [e2]; exact h6)
  obtain ⟨m', dy, q1, ky, -⟩ := dyIs_of e.grid.asPol dyl hdy M hM 0
  rw [hM] at q1
  cases q1
  exact ⟨_, 1, 1, 1, 1, _, m, M, J, dx, dy, dz, le_refl _, hm, hJ, hM, kx, ky, kz, rfl⟩

/-- The field is not zero where the radius is small enough. -/
theorem annulus_field (nx nz : ℕ) (R0 : ℝ) (r ρ : ℝ → ℝ) (hr : ∀ x : ℕ, x < nx → 0 < r x ∧ r x < R0) :
    ∀ x < (annulus nx nz R0 r ρ).nx, ∀ z < (annulus nx nz R0 r ρ).nz, (fun R _ => 1 / R : ℝ → ℝ → ℝ) ((annulus nx nz R0 r ρ).R x z) ((annulus nx nz R0 r ρ).Z x z) ≠ 0 := by
  intro x hx z hz
  apply one_div_ne_zero
  obtain ⟨h1, h2⟩ := hr x hx
  have h3 := Real.neg_one_le_cos (2 * Real.pi * (z : ℝ) / nz)
  have : 0 < R0 + r x * Real.cos (2 * Real.pi * (z : ℝ) / nz) := by nlinarith
  exact this.ne'

/-- A torus between the radii 1/4 and 1/2 around `R = 2`: with 8 rows, 16 points in each and two planes, the volume of the grid is 8/7 of the volume. -/
example : ∃ e V, GridVolumeIs e 8 16 1 V ∧ V = circleShell 2 (1 / 4) (1 / 2) 2 * (8 / 7) := by
  have hr : ∀ x : ℕ, x < 8 → 0 < (1 / 4 + (x : ℝ) * ((1 / 2 - 1 / 4) / (((8 : ℕ) : ℝ) - 1))) ∧ 0 < ((1 / 2 - 1 / 4) / (((8 : ℕ) : ℝ) - 1) : ℝ) := by
    intro x _
    norm_num
    positivity
  have he := annulusMm_env 8 16 2 (fun x => 1 / 4 + x * ((1 / 2 - 1 / 4) / (((8 : ℕ) : ℝ) - 1))) (fun _ => (1 / 2 - 1 / 4) / (((8 : ℕ) : ℝ) - 1)) (by norm_num) hr [0, 1] (by simp) 2
  obtain ⟨V, hV⟩ := torus_total he
  refine ⟨_, V, hV, ?_⟩
  have := C294_linear he 2 (1 / 4) (1 / 2) (by show 2 ≤ 8; norm_num) (annulus_rows _ _ _ _ _ (by norm_num) hr) (by show 2 ≤ 16; norm_num) (by
    apply annulus_field
    intro x hx
    refine ⟨(hr x hx).1, ?_⟩
    have h2 : (x : ℝ) + 1 ≤ 8 := by exact_mod_cast hx
    norm_num
    linarith) 0 (by
    intro i hi
    have : i < 2 := hi
    interval_cases i <;> norm_num) 1 (le_refl _) V hV
  rw [this]
  show _ * (((8 : ℕ) : ℝ) / (((8 : ℕ) : ℝ) - 1)) = _
  norm_num

/-- A conformal grid with 3 rows, at the radii 1/4, 1/2 and 1. -/
example : ∃ e V, GridVolumeIs e 3 16 1 V ∧ circleShell 2 (1 / 4) 1 2 < V := by
  have hr : ∀ x : ℕ, x < 3 → 0 < (1 / 4 * (2 : ℝ) ^ (x : ℝ)) ∧ 0 < (1 / 4 * (2 : ℝ) ^ (x : ℝ) * Real.log 2) := by
    intro x _
    have : 0 < Real.log 2 := Real.log_pos (by norm_num)
    constructor <;> positivity
  have he := annulusMm_env 3 16 2 (fun x => 1 / 4 * (2 : ℝ) ^ x) (fun x => 1 / 4 * (2 : ℝ) ^ x * Real.log 2) (by norm_num) hr [0, 1] (by simp) 2
  obtain ⟨V, hV⟩ := torus_total he
  refine ⟨_, V, hV, ?_⟩
  have hc := annulus_rows 3 16 2 (fun x => 1 / 4 * (2 : ℝ) ^ x) (fun x => 1 / 4 * (2 : ℝ) ^ x * Real.log 2) (by norm_num) hr
  simp only [Real.rpow_natCast] at hc
  obtain ⟨h1, -⟩ := C294_conformal he 2 (1 / 4) 2 (by norm_num) (by norm_num) (by show 2 ≤ 3; norm_num) hc (by show 2 ≤ 16; norm_num) (by
    apply annulus_field
    intro x hx
    refine ⟨(hr x hx).1, ?_⟩
    interval_cases x <;> norm_num) 0 (by
    intro i hi
    have : i < 2 := hi
    interval_cases i <;> norm_num) 1 (le_refl _) V hV 1 (by show (1 : ℝ) = 1 / 4 * 2 ^ (3 - 1); norm_num)
  have hlog : 0 < Real.log (1 / (1 / 4)) := Real.log_pos (by norm_num)
  have hpos : 0 < 2 * 2 * Real.pi * ((1 / 4) ^ 2 + 1 ^ 2) * (Real.log (1 / (1 / 4)) / ((((3 : ℕ)) : ℝ) - 1)) := by
    have := Real.pi_pos
    have : (0 : ℝ) < ((3 : ℕ) : ℝ) - 1 := by norm_num
    positivity
  have := lt_of_lt_of_le hpos h1
  linarith

end Zoidberg
