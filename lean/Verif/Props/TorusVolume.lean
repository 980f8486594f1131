import Verif.Props.Volume
import Verif.Props.GridMetric
import Verif.Props.SubSamples
import Verif.Model.EndToEnd
import Mathlib.Analysis.SpecialFunctions.Integrals.Basic

/-!
# The volume of a ring (C234)

A field that is purely toroidal and the same at all angles has circles as field lines.  On a rectangular poloidal grid the volumes `J dx dy dz` of all cells then should add up
to the volume of the ring they fill, for all numbers of points, all refinements and all choices of the planes.
-/

set_option linter.unusedSectionVars false

namespace Zoidberg

open Finset

/-- The same grid, as `Grid.metric` uses it. -/
def Grid.asPol (g : Grid (MapPol ℝ) ℝ) : Grid (PolGrid ℝ) ℝ :=
  ⟨g.polGrids.map MapPol.toPolGrid, g.ycoords, g.Ly, g.yperiodic, g.nx, g.nz⟩

/-- The volume of a ring with a rectangular cross-section, over the angle `Ly`. -/
noncomputable def ringVolume (R1 R2 Z1 Z2 Ly : ℝ) : ℝ := ∫ _ in (0 : ℝ)..Ly, ∫ _ in Z1..Z2, ∫ R in R1..R2, R

theorem ringVolume_eq (R1 R2 Z1 Z2 Ly : ℝ) : ringVolume R1 R2 Z1 Z2 Ly = Ly * ((Z2 - Z1) * ((R2 ^ 2 - R1 ^ 2) / 2)) := by
  unfold ringVolume
  simp only [integral_id, intervalIntegral.integral_const, smul_eq_mul, sub_zero]

/-- The volume that the cells of a rectangular grid fill. -/
noncomputable def RectPol.ring (g : RectPol ℝ) (Ly : ℝ) : ℝ :=
  ringVolume (g.Rmin - g.dR / 2) (g.Rmin + ((g.nx : ℝ) - 1 / 2) * g.dR) (g.Zmin - g.dZ / 2) (g.Zmin + ((g.nz : ℝ) - 1 / 2) * g.dZ) Ly

/-- A ring: a rectangular poloidal grid at every plane, and a tracer that follows circles. -/
structure RingEnv (g : RectPol ℝ) (ys : List ℝ) (Ly : ℝ) (B : ℝ → ℝ → ℝ) (e : MmEnv ℝ) : Prop where
  grid : Grid.init (fun p => (p.nx, p.nz)) (.many (List.replicate ys.length g.mapPol)) ys Ly true = .ok e.grid
  follow : PointTracer e fun R Z _ _ => (R, Z)
  lengths : FollowOk e
  field : ∀ R Z s, e.byfunc R Z s = B R Z
  torus : e.isSlab = false
  sqrt : e.sqrt = Real.sqrt

/-- The sum of `J dx dy dz` over all cells, `J` from `make_maps` with any options, the rest from `Grid.metric`. -/
def TotalIs (e : MmEnv ℝ) (nx nz r : ℕ) (V : ℝ) : Prop :=
  ∃ (nslice mxg n nc : ℕ) (empty : JState ℝ) (m : ODict (MapVal ℝ)) (M : Metric ℝ) (J dx dy dz : Cell → ℝ), 1 ≤ nc ∧ makeMaps e nslice mxg n r nc empty = .ok m ∧
    m.get? "J" = some (.f3 J) ∧ e.grid.asPol.metric none = .ok M ∧ M.get? "dx" = some dx ∧ M.get? "dy" = some dy ∧ M.get? "dz" = some dz ∧
    V = ∑ x ∈ range nx, ∑ j ∈ range e.grid.ny, ∑ z ∈ range nz, J (x, j, z) * dx (x, j, z) * dy (x, j, z) * dz (x, j, z)

theorem trapMean_const (c : ℝ) (r : ℕ) (hr : 1 ≤ r) (a b : ℝ) : trapMean (fun _ => c) r a b = c := by
  have h : (r : ℝ) ≠ 0 := by
    have : r ≠ 0 := by omega
    exact_mod_cast this
  unfold trapMean
  rw [Finset.sum_const, card_range, nsmul_eq_mul, Nat.cast_sub hr]
  field_simp
  push_cast
  ring

theorem ring_gridOk {g : RectPol ℝ} {ys : List ℝ} {Ly : ℝ} {B : ℝ → ℝ → ℝ} {e : MmEnv ℝ} (h : RingEnv g ys Ly B e) : GridOk e := by
  obtain ⟨h1, h2, h3, h4, h5, h6⟩ := Grid.init_many h.grid
  refine ⟨?_, ?_, ?_⟩
  · rw [h1, h2, List.length_replicate]
  · rw [h2]; exact h6
  · intro p hp
    rw [h1, List.mem_replicate] at hp
    rw [hp.2]
    exact ⟨fun _ _ => 1, fun _ _ => 1, fun _ _ => 0, rfl, rfl, rfl⟩

theorem ring_pol {g : RectPol ℝ} {ys : List ℝ} {Ly : ℝ} {B : ℝ → ℝ → ℝ} {e : MmEnv ℝ} (h : RingEnv g ys Ly B e) (y : ℝ) (p : MapPol ℝ) (y' : ℝ)
    (hp : e.grid.getPoloidalGrid y = .ok (some p, y')) : p = g.mapPol := by
  have := getPoloidalGrid_mem _ _ _ _ hp
  rw [(Grid.init_many h.grid).1, List.mem_replicate] at this
  exact this.2

theorem ring_first {g : RectPol ℝ} {ys : List ℝ} {Ly : ℝ} {B : ℝ → ℝ → ℝ} {e : MmEnv ℝ} (h : RingEnv g ys Ly B e) :
    ∃ y0, e.grid.getPoloidalGrid ((0 : ℕ) : ℝ) = .ok (some g.mapPol, y0) := by
  obtain ⟨p0, y0, h0, -⟩ := C19_periodic_shift _ _ _ _ _ h.grid 0 0
  have hp0 := ring_pol h _ _ _ h0
  subst hp0
  exact ⟨y0, by simpa using h0⟩

theorem rect_complete (g : RectPol ℝ) (n : ℕ) : ∀ p ∈ List.replicate n g.pol, p.Complete := by
  intro p hp
  rw [List.mem_replicate] at hp
  rw [hp.2]
  intro n hn
  simp only [List.mem_cons, List.not_mem_nil, or_false] at hn
  rcases hn with rfl | rfl | rfl | rfl | rfl | rfl | rfl | rfl <;> exact Option.some_ne_none _

/-- **C234.** `J` is the major radius. -/
theorem C234_J (g : RectPol ℝ) (ys : List ℝ) (Ly : ℝ) (B : ℝ → ℝ → ℝ) (e : MmEnv ℝ) (h : RingEnv g ys Ly B e)
    (hB : ∀ x z, B (g.Rmin + (x : ℕ) * g.dR) (g.Zmin + (z : ℕ) * g.dZ) ≠ 0) (nslice mxg n r nc : ℕ) (hr : 1 ≤ r) (hc : 1 ≤ nc) (empty : JState ℝ) (m : ODict (MapVal ℝ))
    (hm : makeMaps e nslice mxg n r nc empty = .ok m) (J : Cell → ℝ) (hJ : m.get? "J" = some (.f3 J)) (x j z : ℕ) (hx : x < g.nx) (hj : j < e.grid.ny) :
    J (x, j, z) = g.Rmin + (x : ℝ) * g.dR := by
  obtain ⟨h1, h2, h3, h4, h5, h6⟩ := Grid.init_many h.grid
  obtain ⟨y0, h0⟩ := ring_first h
  obtain ⟨a', ha', hv⟩ := C36_values e h.lengths (ring_gridOk h) _ h.follow nslice mxg n r nc hr hc empty m hm _ _ h0 0 "J" rfl (Or.inl h.torus)
  rw [hJ] at ha'
  cases ha'
  obtain ⟨pol, y, yl, yh, pl, ph, gxx, gzz, gxz, q1, q2, q3, q4, q5, q6, q7⟩ := hv x j z hx hj
  have hpol := ring_pol h _ _ _ q1
  subst hpol
  cases q4
  cases q5
  cases q6
  rw [q7, lineValue_trap e (fun R Z _ _ => (R, Z)) r hr]
  have hF : radiusOverField e (fun R Z _ _ => (R, Z)) (g.mapPol.R x z) (g.mapPol.Z x z) y =
      fun _ => (g.Rmin + (x : ℝ) * g.dR) / B (g.Rmin + (x : ℝ) * g.dR) (g.Zmin + (z : ℝ) * g.dZ) := by
    funext s
    unfold radiusOverField
    rw [h.field]
    rfl
  have hf : fieldAt e (fun R Z _ _ => (R, Z)) (g.mapPol.R x z) (g.mapPol.Z x z) y = B (g.Rmin + (x : ℝ) * g.dR) (g.Zmin + (z : ℝ) * g.dZ) := by
    unfold fieldAt
    rw [h.field]
    rfl
  rw [hF, hf, trapMean_const _ _ hr, trapMean_const _ _ hr, h.sqrt]
  have := hB x z
  norm_num
  field_simp

/-- The sum of `dy` over all planes. -/
theorem sum_dy {G : Type} (g : Grid G ℝ) (h0 : 0 < g.ycoords.length) (dy : List ℝ) (hdy : g.dy = .ok dy) :
    (g.ycoords.length = 1 → ∑ j ∈ range g.ycoords.length, dy.getD j 0 = g.Ly) ∧
      (2 ≤ g.ycoords.length → ∑ j ∈ range g.ycoords.length, dy.getD j 0 = 3 / 2 * (g.ycoords.getD (g.ycoords.length - 1) 0 - g.ycoords.getD 0 0) -
        (g.ycoords.getD (g.ycoords.length - 2) 0 - g.ycoords.getD 1 0) / 2) := by
  obtain ⟨dy', h1, _, h2, h3⟩ := dy_eq g h0
  rw [hdy] at h1
  cases h1
  constructor
  · intro h
    rw [h2 h, h]
    simp
  · intro h
    obtain ⟨a, b, c⟩ := h3 h
    obtain ⟨k, hk⟩ : ∃ k, g.ycoords.length = k + 2 := ⟨g.ycoords.length - 2, by omega⟩
    have hs : ∀ i ≤ k, ∑ j ∈ range i, dy.getD (j + 1) 0 = (g.ycoords.getD (i + 1) 0 + g.ycoords.getD i 0 - g.ycoords.getD 1 0 - g.ycoords.getD 0 0) / 2 := by
      intro i
      induction i with
      | zero => intro _; simp
      | succ i ih =>
        intro hi
        rw [sum_range_succ, ih (by omega), c (i + 1) (by omega) (by omega), show i + 1 + 1 = i + 2 by omega, Nat.add_sub_cancel]
        ring
    rw [hk, sum_range_succ, sum_range_succ', hs k (le_refl _), a]
    rw [hk] at b
    rw [show k + 2 - 1 = k + 1 by omega, show k + 2 - 2 = k by omega] at *
    rw [b]
    ring

theorem ring_asPol {g : RectPol ℝ} {ys : List ℝ} {Ly : ℝ} {B : ℝ → ℝ → ℝ} {e : MmEnv ℝ} (h : RingEnv g ys Ly B e) :
    Grid.init (fun p => (p.nx, p.nz)) (.many (List.replicate ys.length g.pol)) ys Ly true = .ok e.grid.asPol := by
  have hg := h.grid
  unfold Grid.init at hg ⊢
  dsimp only at hg ⊢
  by_cases h1 : ys.length ≠ (List.replicate ys.length g.mapPol).length
  · rw [if_pos h1] at hg; cases hg
  · rw [if_neg h1] at hg
    rw [if_neg (by rw [List.length_replicate]; exact fun h => h rfl)]
    cases hl : (List.replicate ys.length g.mapPol)[0]? with
    | none => rw [hl] at hg; cases hg
    | some p =>
      rw [hl] at hg
      have hp : p = g.mapPol ∧ 0 < ys.length := by
        obtain ⟨hlt, he⟩ := List.getElem?_eq_some_iff.1 hl
        rw [List.getElem_replicate] at he
        exact ⟨he.symm, by simpa using hlt⟩
      have hl2 : (List.replicate ys.length g.pol)[0]? = some g.pol := by
        rw [List.getElem?_replicate, if_pos hp.2]
      rw [hl2]
      injection hg with hg
      rw [← hg, hp.1]
      unfold Grid.asPol
      simp only [List.map_replicate]
      rfl

/-- **C234.** The sum over all cells: the cross-section is exact, the angle is the sum of `dy`. -/
theorem C234_total (g : RectPol ℝ) (ys : List ℝ) (Ly : ℝ) (B : ℝ → ℝ → ℝ) (e : MmEnv ℝ) (h : RingEnv g ys Ly B e)
    (hB : ∀ x z, B (g.Rmin + (x : ℕ) * g.dR) (g.Zmin + (z : ℕ) * g.dZ) ≠ 0) (r : ℕ) (hr : 1 ≤ r) (V : ℝ) (hV : TotalIs e g.nx g.nz r V) :
    ∃ dy, e.grid.dy = .ok dy ∧ V = g.ring (∑ j ∈ range ys.length, dy.getD j 0) := by
  obtain ⟨nslice, mxg, n, nc, empty, m, M, J, dx, dy3, dz, hc, hm, hJ, hM, kx, ky, kz, rfl⟩ := hV
  obtain ⟨h1, h2, h3, h4, h5, h6⟩ := Grid.init_many h.grid
  obtain ⟨dy, hdy, -⟩ := dy_eq e.grid (by rw [h2]; exact h6)
  refine ⟨dy, hdy, ?_⟩
  have hny : e.grid.ny = ys.length := by unfold Grid.ny; rw [h2]
  obtain ⟨hcm, -, -⟩ := C23_components _ _ _ _ _ _ (ring_asPol h) (rect_complete g _) M hM
  have hentry : ∀ (name : String) (v : ℝ) (arr : Cell → ℝ), (∃ w, M.get? name = some w ∧ CopyOf (List.replicate ys.length g.pol) (List.replicate ys.length g.pol).length w name) →
      M.get? name = some arr → g.pol.metric name = some (fun _ _ => v) → ∀ x j z, j < ys.length → arr (x, j, z) = v := by
    rintro name v arr ⟨w, hw, hcopy⟩ ha hv x j z hj
    rw [ha] at hw
    cases hw
    obtain ⟨p, u, hp, hu, harr⟩ := hcopy j (by rw [List.length_replicate]; exact hj)
    rw [List.getElem?_replicate, if_pos hj] at hp
    cases hp
    rw [hv] at hu
    cases hu
    exact harr x z
  have ex := hentry "dx" g.dR dx (hcm "dx" (by simp)) kx rfl
  have ez := hentry "dz" g.dZ dz (hcm "dz" (by simp)) kz rfl
  have ey : ∀ x j z, dy3 (x, j, z) = dy.getD j 0 := by
    intro x j z
    obtain ⟨m', d, q1, q2, q3⟩ := dyIs_of e.grid.asPol dy hdy M hM j
    rw [hM] at q1
    cases q1
    rw [ky] at q2
    cases q2
    exact q3 x z
  have hterm : ∀ x ∈ range g.nx, ∑ j ∈ range e.grid.ny, ∑ z ∈ range g.nz, J (x, j, z) * dx (x, j, z) * dy3 (x, j, z) * dz (x, j, z) =
      (∑ j ∈ range ys.length, dy.getD j 0) * ((g.nz : ℝ) * g.dZ) * ((g.Rmin + (x : ℝ) * g.dR) * g.dR) := by
    intro x hx
    rw [hny, Finset.sum_mul, Finset.sum_mul]
    refine Finset.sum_congr rfl fun j hj => ?_
    have hj' := mem_range.1 hj
    have : ∀ z ∈ range g.nz, J (x, j, z) * dx (x, j, z) * dy3 (x, j, z) * dz (x, j, z) = (g.Rmin + (x : ℝ) * g.dR) * g.dR * dy.getD j 0 * g.dZ := by
      intro z _
      rw [C234_J g ys Ly B e h hB nslice mxg n r nc hr hc empty m hm J hJ x j z (mem_range.1 hx) (by rw [hny]; exact hj'), ex x j z hj', ez x j z hj', ey]
    rw [Finset.sum_congr rfl this, Finset.sum_const, card_range, nsmul_eq_mul]
    ring
  rw [Finset.sum_congr rfl hterm, ← Finset.mul_sum]
  have hsum : ∀ k : ℕ, ∑ x ∈ range k, (g.Rmin + (x : ℝ) * g.dR) * g.dR = ((g.Rmin + ((k : ℝ) - 1 / 2) * g.dR) ^ 2 - (g.Rmin - g.dR / 2) ^ 2) / 2 := by
    intro k
    induction k with
    | zero => simp; ring
    | succ k ih => rw [sum_range_succ, ih]; push_cast; ring
  rw [hsum]
  unfold RectPol.ring
  rw [ringVolume_eq]
  ring

/-- The claim for a ring: whatever the options, the volumes of the cells add up to the volume of the ring. -/
def RingOk (g : RectPol ℝ) (Ly : ℝ) (e : MmEnv ℝ) : Prop := ∀ r V, 1 ≤ r → TotalIs e g.nx g.nz r V → V = g.ring Ly

/-- **C234.** Exactly when it holds: the distance from the last plane to the first one of the next period is the mean of the first and the last distance between planes. -/
theorem C234_iff (g : RectPol ℝ) (hR : 0 < g.dR) (hR0 : g.dR / 2 < g.Rmin) (hZ : 0 < g.dZ) (hx : 1 ≤ g.nx) (hz : 1 ≤ g.nz) (ys : List ℝ) (h2 : 2 ≤ ys.length) (Ly : ℝ) (B : ℝ → ℝ → ℝ) (e : MmEnv ℝ)
    (h : RingEnv g ys Ly B e) (hB : ∀ x z, B (g.Rmin + (x : ℕ) * g.dR) (g.Zmin + (z : ℕ) * g.dZ) ≠ 0) (hex : ∃ r V, 1 ≤ r ∧ TotalIs e g.nx g.nz r V) :
    RingOk g Ly e ↔ ys.getD 0 0 + Ly - ys.getD (ys.length - 1) 0 = ((ys.getD 1 0 - ys.getD 0 0) + (ys.getD (ys.length - 1) 0 - ys.getD (ys.length - 2) 0)) / 2 := by
  obtain ⟨-, e2, -, -, -, h6⟩ := Grid.init_many h.grid
  have hx' : (1 : ℝ) ≤ g.nx := by exact_mod_cast hx
  have hz' : (1 : ℝ) ≤ g.nz := by exact_mod_cast hz
  have hpos : 0 < (g.Zmin + ((g.nz : ℝ) - 1 / 2) * g.dZ - (g.Zmin - g.dZ / 2)) * (((g.Rmin + ((g.nx : ℝ) - 1 / 2) * g.dR) ^ 2 - (g.Rmin - g.dR / 2) ^ 2) / 2) := by
    have e1 : g.Zmin + ((g.nz : ℝ) - 1 / 2) * g.dZ - (g.Zmin - g.dZ / 2) = g.nz * g.dZ := by ring
    have e2 : ((g.Rmin + ((g.nx : ℝ) - 1 / 2) * g.dR) ^ 2 - (g.Rmin - g.dR / 2) ^ 2) / 2 = (g.nx * g.dR) * (g.Rmin + ((g.nx : ℝ) - 1) / 2 * g.dR) := by ring
    rw [e1, e2]
    have : 0 ≤ ((g.nx : ℝ) - 1) / 2 * g.dR := mul_nonneg (by linarith) hR.le
    have h3 : 0 < g.Rmin + ((g.nx : ℝ) - 1) / 2 * g.dR := by linarith
    positivity
  have hval : ∀ r V, 1 ≤ r → TotalIs e g.nx g.nz r V → V = g.ring (3 / 2 * (ys.getD (ys.length - 1) 0 - ys.getD 0 0) - (ys.getD (ys.length - 2) 0 - ys.getD 1 0) / 2) := by
    intro r V hr hV
    obtain ⟨dy, hdy, hVe⟩ := C234_total g ys Ly B e h hB r hr V hV
    have := (sum_dy e.grid (by rw [e2]; exact h6) dy hdy).2 (by rw [e2]; exact h2)
    rw [e2] at this
    rw [hVe, this]
  have hring : ∀ a b, g.ring a = g.ring b ↔ a = b := by
    intro a b
    unfold RectPol.ring
    rw [ringVolume_eq, ringVolume_eq]
    exact mul_left_inj' hpos.ne'
  constructor
  · intro hok
    obtain ⟨r, V, hr, hV⟩ := hex
    have := (hval r V hr hV).symm.trans (hok r V hr hV)
    rw [hring] at this
    linarith
  · intro heq r V hr hV
    rw [hval r V hr hV, hring]
    linarith

/-- **C234 (partial).** It holds for planes with the same distance everywhere.  Missing: other planes, see `C234_iff`. -/
theorem C234_uniform_partial (g : RectPol ℝ) (ys : List ℝ) (Ly : ℝ) (B : ℝ → ℝ → ℝ) (e : MmEnv ℝ) (h : RingEnv g ys Ly B e)
    (hB : ∀ x z, B (g.Rmin + (x : ℕ) * g.dR) (g.Zmin + (z : ℕ) * g.dZ) ≠ 0) (y0 : ℝ) (hu : ∀ i < ys.length, ys.getD i 0 = y0 + i * (Ly / ys.length)) : RingOk g Ly e := by
  obtain ⟨-, e2, e3, -, -, h6⟩ := Grid.init_many h.grid
  intro r V hr hV
  obtain ⟨dy, hdy, hVe⟩ := C234_total g ys Ly B e h hB r hr V hV
  obtain ⟨s1, s2⟩ := sum_dy e.grid (by rw [e2]; exact h6) dy hdy
  rw [e2, e3] at s1
  rw [e2] at s2
  rw [hVe]
  congr 1
  rcases Nat.lt_or_ge ys.length 2 with hl | hl
  · exact s1 (by omega)
  · rw [s2 hl, hu _ (by omega), hu _ (by omega), hu _ (by omega), hu _ (by omega)]
    obtain ⟨k, hk⟩ : ∃ k, ys.length = k + 2 := ⟨ys.length - 2, by omega⟩
    rw [hk, show k + 2 - 1 = k + 1 by omega, show k + 2 - 2 = k by omega]
    have : (k : ℝ) + 2 ≠ 0 := by positivity
    push_cast
    field_simp
    ring

/-! ## Examples -/

/-- A ring between the radii 2 and 3, with the field `1 / R`. -/
noncomputable def ringMm (g : RectPol ℝ) (ys : List ℝ) (Ly : ℝ) : MmEnv ℝ where
  grid := ⟨List.replicate ys.length g.mapPol, ys, Ly, true, g.nx, g.nz⟩
  follow := fun _ _ R Z ys => ys.map fun _ x z => (R x z, Z x z)
  outside := fun _ _ _ => false
  byfunc := fun R _ _ => 1 / R
  isSlab := false
  lineLength := fun _ _ => 0
  gauss := fun n => (List.range n).map fun i => ((2 * i + 1) / n - 1, 2 / n)
  sqrt := Real.sqrt
  repr := fun _ => "0.5"

theorem ringMm_env (g : RectPol ℝ) (ys : List ℝ) (hys : ys ≠ []) (Ly : ℝ) : RingEnv g ys Ly (fun R _ => 1 / R) (ringMm g ys Ly) := by
  refine ⟨?_, fun _ _ _ _ _ _ => rfl, ?_, fun _ _ _ => rfl, rfl, rfl⟩
  · cases ys with
    | nil => exact absurd rfl hys
    | cons y l =>
      unfold Grid.init ringMm
      simp [List.replicate_succ, RectPol.mapPol, RectPol.pol]
  · intro n m R Z ys
    simp [ringMm]

theorem ringMm_total (g : RectPol ℝ) (ys : List ℝ) (hys : ys ≠ []) (Ly : ℝ) : ∃ r V, 1 ≤ r ∧ TotalIs (ringMm g ys Ly) g.nx g.nz r V := by
  have h := ringMm_env g ys hys Ly
  obtain ⟨m, hm⟩ := C31_succeeds (ringMm g ys Ly) h.lengths (ring_gridOk h) 1 1 1 1 1 (le_refl _) (by intro h; omega) (le_refl _) (le_refl _)
    ⟨fun _ => 0, fun _ _ => 0, fun _ _ => 0⟩
  obtain ⟨y0, h0⟩ := ring_first h
  obtain ⟨J, hJ, -⟩ := C36_values _ h.lengths (ring_gridOk h) _ h.follow 1 1 1 1 1 (le_refl _) (le_refl _) _ m hm _ _ h0 0 "J" rfl (Or.inl h.torus)
  obtain ⟨M, hM⟩ := (C23_succeeds_iff _ _ _ _ _ _ (ring_asPol h) (rect_complete g _)).2 (Or.inr (by
    intro p hp
    rw [List.mem_replicate] at hp
    rw [hp.2]
    intro hJ
    exact hJ rfl))
  obtain ⟨hcm, -, -⟩ := C23_components _ _ _ _ _ _ (ring_asPol h) (rect_complete g _) M hM
  obtain ⟨dx, kx, -⟩ := hcm "dx" (by simp)
  obtain ⟨dz, kz, -⟩ := hcm "dz" (by simp)
  obtain ⟨-, e2, -, -, -, h6⟩ := Grid.init_many h.grid
  obtain ⟨dyl, hdy, -⟩ := dy_eq (ringMm g ys Ly).grid (by rw [e2]; exact h6)
  obtain ⟨m', dy, q1, ky, -⟩ := dyIs_of (ringMm g ys Ly).grid.asPol dyl hdy M hM 0
  rw [hM] at q1
  cases q1
  exact ⟨1, _, le_refl _, 1, 1, 1, 1, _, m, M, J, dx, dy, dz, le_refl _, hm, hJ, hM, kx, ky, kz, rfl⟩

/-- The claim for all rings. -/
def RingsOk : Prop :=
  ∀ (g : RectPol ℝ) (ys : List ℝ) (Ly : ℝ) (B : ℝ → ℝ → ℝ) (e : MmEnv ℝ), 0 < g.dR → g.dR / 2 < g.Rmin → 0 < g.dZ → RingEnv g ys Ly B e →
    (∀ x z, B (g.Rmin + (x : ℕ) * g.dR) (g.Zmin + (z : ℕ) * g.dZ) ≠ 0) → ys.Pairwise (· < ·) → (∀ y ∈ ys, 0 ≤ y ∧ y < Ly) → RingOk g Ly e

/-- A ring between the radii 2 and 3, with four by four cells. -/
noncomputable def thickRing : RectPol ℝ := ⟨4, 4, 1 / 4, 1 / 4, 2 + 1 / 8, 0⟩

theorem thickRing_field (x z : ℕ) : (fun R _ => 1 / R : ℝ → ℝ → ℝ) (thickRing.Rmin + (x : ℝ) * thickRing.dR) (thickRing.Zmin + (z : ℝ) * thickRing.dZ) ≠ 0 := by
  have : (0 : ℝ) < thickRing.Rmin + (x : ℝ) * thickRing.dR := by
    unfold thickRing
    positivity
  exact (one_div_pos.2 this).ne'

/-- **C234 (refutation).** With planes at 0, 1, 3 and the period 4 the sum is too large. -/
theorem C234_fails : ¬ RingsOk := by
  intro h
  have hok := h thickRing [0, 1, 3] 4 _ _ (by norm_num [thickRing]) (by norm_num [thickRing]) (by norm_num [thickRing]) (ringMm_env thickRing [0, 1, 3] (by simp) 4) thickRing_field
    (by norm_num) (by intro y hy; simp only [List.mem_cons, List.not_mem_nil, or_false] at hy; rcases hy with rfl | rfl | rfl <;> norm_num)
  rw [C234_iff thickRing (by norm_num [thickRing]) (by norm_num [thickRing]) (by norm_num [thickRing]) (by norm_num [thickRing]) (by norm_num [thickRing]) [0, 1, 3] (by norm_num) 4 _ _
    (ringMm_env thickRing [0, 1, 3] (by simp) 4) thickRing_field (ringMm_total thickRing [0, 1, 3] (by simp) 4)] at hok
  norm_num at hok

/-- The hypotheses are met by this ring with planes at 0 and 3 and the period 6; the volume is that between the radii 2 and 3. -/
example : RingOk thickRing 6 (ringMm thickRing [0, 3] 6) ∧ (∃ r V, 1 ≤ r ∧ TotalIs (ringMm thickRing [0, 3] 6) thickRing.nx thickRing.nz r V) ∧ thickRing.ring 6 = 6 * ((3 ^ 2 - 2 ^ 2) / 2) := by
  refine ⟨C234_uniform_partial thickRing [0, 3] 6 _ _ (ringMm_env thickRing [0, 3] (by simp) 6) thickRing_field 0 ?_, ringMm_total thickRing [0, 3] (by simp) 6, ?_⟩
  · intro i hi
    have : i = 0 ∨ i = 1 := by simp at hi; omega
    rcases this with rfl | rfl <;> norm_num
  · unfold RectPol.ring
    rw [ringVolume_eq]
    norm_num [thickRing]

end Zoidberg
