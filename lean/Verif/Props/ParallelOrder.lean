import Verif.Props.EndToEnd
import Verif.Props.WeightsOrderAny

/-!
# C257: parallel derivatives made of the operators
-/

set_option linter.unusedSectionVars false

namespace Zoidberg

open Weights

/-- Rectangular grids, the same on all planes, and a tracer that gives the field lines `φ`. -/
structure LineEnv (e : MmEnv ℝ) (g : RectPol ℝ) (φ : ℝ → ℝ → ℝ → ℝ → ℝ × ℝ) : Prop where
  follow : FollowOk e
  lines : PointTracer e φ
  pols : ∀ (k : ℤ) (p : MapPol ℝ) (y : ℝ), e.grid.getPoloidalGrid (k : ℝ) = .ok (some p, y) → p = g.mapPol
  dR : 0 < g.dR
  dZ : 0 < g.dZ

/-- The plane in the other grid period: the same plane, a number of lengths away. -/
theorem plane_period (e : MmEnv ℝ) (k : ℤ) (hny : 0 < e.grid.ny) (p : MapPol ℝ) (y : ℝ) (h : e.grid.getPoloidalGrid (k : ℝ) = .ok (some p, y)) :
    ∃ (y' : ℝ) (n : ℤ), e.grid.getPoloidalGrid (((k % (e.grid.ny : ℤ)).toNat : ℕ) : ℝ) = .ok (some p, y') ∧ y = y' + n * e.grid.Ly := by
  have hm0 := Int.emod_nonneg k (by omega : (e.grid.ny : ℤ) ≠ 0)
  have hm1 := Int.emod_lt_of_pos k (by omega : (0 : ℤ) < e.grid.ny)
  have hc : ((((k % (e.grid.ny : ℤ)).toNat : ℕ)) : ℝ) = ((k % (e.grid.ny : ℤ) : ℤ) : ℝ) := by exact_mod_cast Int.toNat_of_nonneg hm0
  rw [hc, Grid.getPoloidalGrid_int]
  rw [Grid.getPoloidalGrid_int] at h
  have hin : e.grid.getInt ((k % (e.grid.ny : ℤ) : ℤ) : ℝ) = (e.grid.at (k % (e.grid.ny : ℤ))).map fun p => (some p.1, p.2) := by
    unfold Grid.getInt
    rw [pyInt_intCast, if_pos ⟨by exact_mod_cast hm0, by exact_mod_cast hm1⟩]
  rw [hin]
  unfold Grid.getInt at h
  rw [pyInt_intCast] at h
  dsimp only at h
  split_ifs at h with h1 h2 h3
  · obtain ⟨a, b⟩ := h1
    have a' : 0 ≤ k := by exact_mod_cast a
    have b' : k < e.grid.ny := by exact_mod_cast b
    rw [Int.emod_eq_of_lt a' b']
    exact ⟨y, 0, h, by simp⟩
  · have hpm : pyMod k (e.grid.ny : ℤ) = k % (e.grid.ny : ℤ) := rfl
    rw [hpm] at h
    cases ha : e.grid.at (k % (e.grid.ny : ℤ)) with
    | error s => rw [ha] at h; cases h
    | ok q =>
      rw [ha] at h
      simp only [Except.map, Except.ok.injEq, Prod.mk.injEq, Option.some.injEq] at h ⊢
      exact ⟨q.2, _, ⟨h.1, rfl⟩, h.2.symm⟩
  · cases h
  · cases h

/-- The values of a function of the three coordinates on the cells. -/
def OnCells (e : MmEnv ℝ) (g : RectPol ℝ) (mxg : ℕ) (o : Ops ℝ) (F : ℝ → ℝ → ℝ → ℝ) (v : ℤ → ℝ) : Prop :=
  ∀ (j : ℕ) (p : MapPol ℝ) (y : ℝ), j < e.grid.ny → e.grid.getPoloidalGrid (j : ℝ) = .ok (some p, y) → ∀ ix iz, mxg ≤ ix → ix + mxg < g.nx → iz < g.nz →
    v (o.cellNumber (ix, j, iz)) = F (g.Rmin + ix * g.dR) y (g.Zmin + iz * g.dZ)

/-- The value of `F` along the field line through `(R, Z)` at `y`. -/
def onLine (φ : ℝ → ℝ → ℝ → ℝ → ℝ × ℝ) (F : ℝ → ℝ → ℝ → ℝ) (R Z y s : ℝ) : ℝ := F (φ R Z y s).1 s (φ R Z y s).2

/-- A smooth function, periodic in z and, if the grid is, in y. -/
structure SmoothOn (e : MmEnv ℝ) (g : RectPol ℝ) (F : ℝ → ℝ → ℝ → ℝ) (Mx Mz : ℝ) : Prop where
  gx : ∀ y z, ContDiff ℝ 3 fun x => F x y z
  gz : ∀ x y, ContDiff ℝ 3 (F x y)
  bx : ∀ x y z, |iteratedDeriv 3 (fun x => F x y z) x| ≤ Mx
  bz : ∀ x y z, |iteratedDeriv 3 (F x y) z| ≤ Mz
  perz : ∀ x y z, F x y (z + g.nz * g.dZ) = F x y z
  pery : ∀ x y z, F x (y + e.grid.Ly) z = F x y z

/-- The whole stencil in x is inside the evolving region. -/
def StencilInside (g : RectPol ℝ) (mxg : ℕ) (R : ℝ) : Prop := (mxg : ℤ) + 1 ≤ ⌊(R - g.Rmin) / g.dR⌋ ∧ ⌊(R - g.Rmin) / g.dR⌋ + 3 + mxg ≤ (g.nx : ℤ)

theorem per_all {F : ℝ → ℝ} {L : ℝ} (h : ∀ y, F (y + L) = F y) (y : ℝ) (n : ℤ) : F (y + n * L) = F y := by
  have hp : Function.Periodic F L := h
  have := hp.int_mul n y
  exact this

section

variable {e : MmEnv ℝ} {g : RectPol ℝ} {φ : ℝ → ℝ → ℝ → ℝ → ℝ × ℝ} (le : LineEnv e g φ)
  {mxg r nc : ℕ} {empty : JState ℝ} {m : ODict (MapVal ℝ)} (h : makeMaps e 1 mxg 1 r nc empty = .ok m)
  {i : Input ℝ} (hi : ReadFrom e mxg 1 m g.mapPol i) (jc : ℕ → ℤ) (jw : ℕ → ℝ) (hm : 2 * mxg ≤ g.nx) (o : Ops ℝ)
  (ho : calculateOps jc jw (asMapDict g.nx e.grid.ny g.nz 1 m) = .ok o)
  {x j z : ℕ} (hx1 : mxg ≤ x) (hx2 : x + mxg < g.nx) (hj : j < e.grid.ny) (hz : z < g.nz)
  {F : ℝ → ℝ → ℝ → ℝ} {Mx Mz : ℝ} (hF : SmoothOn e g F Mx Mz) {v : ℤ → ℝ} {M0 : ℝ} (hv0 : ∀ k, |v k| ≤ M0) (hv : OnCells e g mxg o F v)
  {pol : MapPol ℝ} {y : ℝ} (hy : e.grid.getPoloidalGrid (j : ℝ) = .ok (some pol, y))

include le h hi hm ho hx1 hx2 hj hz hF hv0 hv hy in
/-- One row of the operators from maps, applied to the values of a smooth function: the value at the end of the field line. -/
theorem C257_row (fwd : Bool) {p : MapPol ℝ} {yt : ℝ}
    (hyt : e.grid.getPoloidalGrid ((j : ℝ) + (stepOf fwd : ℝ)) = .ok (some p, yt)) (R Z : ℝ) (hR : R = g.Rmin + x * g.dR) (hZ : Z = g.Zmin + z * g.dZ)
    (hin : e.outside (φ R Z y yt).1 yt (φ R Z y yt).2 = false) (hst : StencilInside g mxg (φ R Z y yt).1) :
    |applyRow ((o.legs fwd).op.row ((o.legs fwd).legInterior (x, j, z)).toNat) v - onLine φ F R Z y yt| ≤
      36 / 10 ^ 10 * M0 + (7 / 20 * (Mx * g.dR ^ 3) + 35 / 12 * (Mz * g.dZ ^ 3)) := by
  have hp : pol = g.mapPol := le.pols (j : ℤ) pol y (by push_cast; exact hy)
  have hp' : p = g.mapPol := le.pols ((j : ℤ) + stepOf fwd) p yt (by push_cast; exact hyt)
  subst hp hp'
  obtain ⟨pol, y', t, yt', g1, g2, g3⟩ := C207_positions e le.follow _ le.lines mxg r nc empty m h _ i hi fwd j hj
  rw [hy] at g1
  injection g1 with g1
  injection g1 with ga gb
  injection ga with ga
  subst ga gb
  rw [hyt] at g2
  injection g2 with g2
  injection g2 with ga gb
  subst ga gb
  have hq := g3 x z
  have eR : g.mapPol.R x z = R := by rw [hR]; rfl
  have eZ : g.mapPol.Z x z = Z := by rw [hZ]; rfl
  rw [eR, eZ] at hq
  simp only [hin, Bool.false_eq_true, if_false] at hq
  have h1 : i.xs fwd (x, j, z) 0 = ((φ R Z y yt).1 - g.Rmin) / g.dR := by
    have := congrArg Prod.fst hq
    simp only [RectPol.mapPol, RectPol.findIndex] at this
    rw [this, ← eR, ← eZ]
    rfl
  have h2 : i.zs fwd (x, j, z) 0 = ((φ R Z y yt).2 - g.Zmin) / g.dZ := by
    have := congrArg Prod.snd hq
    simp only [RectPol.mapPol, RectPol.findIndex] at this
    rw [this, ← eR, ← eZ]
    rfl
  have hnx : i.nx = g.nx := hi.enx
  have hnz : i.nz = g.nz := hi.enz
  have hny : i.ny = e.grid.ny := hi.eny
  have hn : i.n = 1 := by rw [hi.en]; norm_num
  have hc : i.Interior (x, j, z) := by
    refine ⟨by rw [hi.emxg]; exact hx1, by rw [hi.emxg, hnx]; exact hx2, by rw [hi.eny]; exact hj, by rw [hnz]; exact hz⟩
  have hne : ¬ i.Escapes (i.xs fwd (x, j, z) 0) := by
    rw [h1]
    obtain ⟨a, b⟩ := hst
    have a' : ((mxg : ℤ) + 1 : ℝ) ≤ (⌊((φ R Z y yt).1 - g.Rmin) / g.dR⌋ : ℝ) := by exact_mod_cast a
    have b' : ((⌊((φ R Z y yt).1 - g.Rmin) / g.dR⌋ : ℝ) + 3 + (mxg : ℤ)) ≤ ((g.nx : ℤ) : ℝ) := by exact_mod_cast b
    have c1 := Int.floor_le (((φ R Z y yt).1 - g.Rmin) / g.dR)
    have c2 := Int.lt_floor_add_one (((φ R Z y yt).1 - g.Rmin) / g.dR)
    unfold Input.Escapes
    rw [hi.emxg, hnx, not_or, not_lt, not_lt]
    push_cast at a' b' ⊢
    constructor <;> linarith
  have hs : i.SomeStay fwd (x, j, z) := ⟨0, by omega, hne⟩
  have hsg : i.staying fwd (x, j, z) = {0} := by
    unfold Input.staying
    rw [hn]
    ext t
    simp only [Finset.mem_filter, Finset.mem_range, Finset.mem_singleton]
    constructor
    · rintro ⟨h, -⟩; omega
    · rintro rfl; exact ⟨by omega, hne⟩
  have hw0 : 0 < i.w.getD 0 0 := by
    have hl : 0 < i.w.length := by rw [hi.good.len, hn]; norm_num
    rw [List.getD_eq_getElem _ _ hl]
    exact hi.good.pos _ (List.getElem_mem hl)
  obtain ⟨y0, n, k1, k2⟩ := plane_period e ((j : ℤ) + stepOf fwd) (by omega) _ yt (by push_cast; exact hyt)
  have hpl : i.plane fwd j = (((j : ℤ) + stepOf fwd) % (e.grid.ny : ℤ)).toNat := by
    unfold Input.plane stepOf
    rw [hny]
  have hpl' : i.plane fwd j < e.grid.ny := by
    rw [hpl]
    have hm0 := Int.emod_nonneg ((j : ℤ) + stepOf fwd) (by omega : (e.grid.ny : ℤ) ≠ 0)
    have hm1 := Int.emod_lt_of_pos ((j : ℤ) + stepOf fwd) (by omega : (0 : ℤ) < e.grid.ny)
    omega
  rw [← hpl] at k1
  have key := C232_any_z_partial jc jw _ i hi.repr (by rw [hi.emxg, hnx]; exact hm) hi.good o ho fwd (x, j, z) hc hs
    (by
      rw [hsg]
      simp only [Finset.mem_singleton, forall_eq]
      rw [h1, hi.emxg, hnx]
      exact hst)
    (fun R Z => F R yt Z) g.Rmin g.Zmin g.dR g.dZ Mx Mz le.dR.le le.dZ.le (fun z => hF.gx yt z) (fun x => hF.gz x yt) (fun x z => hF.bx x yt z)
    (fun x z => hF.bz x yt z) (fun x z => by rw [hnz]; exact hF.perz x yt z) v M0 hv0
    (by
      intro ix iz a b c
      rw [hi.emxg] at a b
      rw [hnx] at b
      rw [hnz] at c
      show v (o.cellNumber (ix, i.plane fwd j, iz)) = _
      rw [hv (i.plane fwd j) _ y0 hpl' k1 ix iz a b c, k2]
      exact (per_all (F := fun y => F (g.Rmin + ix * g.dR) y (g.Zmin + iz * g.dZ)) (fun y => hF.pery _ y _) y0 n).symm)
  rw [hsg, Finset.sum_singleton, Finset.sum_singleton, h1, h2, mul_comm (i.w.getD 0 0), mul_div_assoc, div_self hw0.ne', mul_one,
    div_mul_cancel₀ _ le.dR.ne', div_mul_cancel₀ _ le.dZ.ne', add_sub_cancel, add_sub_cancel] at key
  exact key

include le h hi hm ho hx1 hx2 hj hz hF hv0 hv hy in
/-- **C257.** Where both ends are inside, half the difference of the forward and the backward row, divided by the distance of the planes, is the
derivative along the field line, up to the square of that distance and the error of the interpolation divided by it. -/
theorem C257_partial {pf pb : MapPol ℝ} {d : ℝ} (hd : 0 < d)
    (hyf : e.grid.getPoloidalGrid ((j : ℝ) + (stepOf true : ℝ)) = .ok (some pf, y + d))
    (hyb : e.grid.getPoloidalGrid ((j : ℝ) + (stepOf false : ℝ)) = .ok (some pb, y - d))
    (R Z : ℝ) (hR : R = g.Rmin + x * g.dR) (hZ : Z = g.Zmin + z * g.dZ)
    (inf : e.outside (φ R Z y (y + d)).1 (y + d) (φ R Z y (y + d)).2 = false) (stf : StencilInside g mxg (φ R Z y (y + d)).1)
    (inb : e.outside (φ R Z y (y - d)).1 (y - d) (φ R Z y (y - d)).2 = false) (stb : StencilInside g mxg (φ R Z y (y - d)).1)
    {M : ℝ} (hf : ContDiff ℝ 3 (onLine φ F R Z y)) (hM : ∀ s ∈ Set.Icc (y - d) (y + d), |iteratedDeriv 3 (onLine φ F R Z y) s| ≤ M) :
    |(applyRow ((o.legs true).op.row ((o.legs true).legInterior (x, j, z)).toNat) v -
        applyRow ((o.legs false).op.row ((o.legs false).legInterior (x, j, z)).toNat) v) / 2 / d - deriv (onLine φ F R Z y) y| ≤
      M * d ^ 2 / 6 + (36 / 10 ^ 10 * M0 + (7 / 20 * (Mx * g.dR ^ 3) + 35 / 12 * (Mz * g.dZ ^ 3))) / d := by
  have a1 := C257_row le h hi jc jw hm o ho hx1 hx2 hj hz hF hv0 hv hy true hyf R Z hR hZ inf stf
  have a2 := C257_row le h hi jc jw hm o ho hx1 hx2 hj hz hF hv0 hv hy false hyb R Z hR hZ inb stb
  have a3 := stencil2_mid hf Set.ordConnected_Icc hM hd ⟨le_rfl, by linarith⟩ ⟨by linarith, le_rfl⟩
  set E := 36 / 10 ^ 10 * M0 + (7 / 20 * (Mx * g.dR ^ 3) + 35 / 12 * (Mz * g.dZ ^ 3))
  set A := applyRow ((o.legs true).op.row ((o.legs true).legInterior (x, j, z)).toNat) v
  set B := applyRow ((o.legs false).op.row ((o.legs false).legInterior (x, j, z)).toNat) v
  set P := onLine φ F R Z y (y + d)
  set Q := onLine φ F R Z y (y - d)
  have a4 : |(A - B) / 2 / d - (P - Q) / 2 / d| ≤ E / d := by
    have : (A - B) / 2 / d - (P - Q) / 2 / d = ((A - P) - (B - Q)) / 2 / d := by ring
    rw [this, abs_div, abs_of_pos hd]
    gcongr
    rw [abs_le] at a1 a2 ⊢
    constructor <;> linarith [a1.1, a1.2, a2.1, a2.2]
  rw [abs_le] at a3 a4 ⊢
  constructor <;> linarith [a3.1, a3.2, a4.1, a4.2]

end

/-- The full claim: also next to the edge of the grid, wherever both ends stay in the evolving region. -/
def DerivRight : Prop := ∃ C : ℝ, ∀ (e : MmEnv ℝ) (g : RectPol ℝ) (φ : ℝ → ℝ → ℝ → ℝ → ℝ × ℝ) (mxg r nc : ℕ) (empty : JState ℝ) (m : ODict (MapVal ℝ)) (i : Input ℝ)
    (o : Ops ℝ) (x j z : ℕ) (F : ℝ → ℝ → ℝ → ℝ) (Mx Mz : ℝ) (v : ℤ → ℝ) (M0 : ℝ) (pol pf pb : MapPol ℝ) (y d R Z M : ℝ),
    LineEnv e g φ → makeMaps e 1 mxg 1 r nc empty = .ok m → ReadFrom e mxg 1 m g.mapPol i → 2 * mxg ≤ g.nx →
    calculateOps (fun _ => 0) (fun _ => 0) (asMapDict g.nx e.grid.ny g.nz 1 m) = .ok o → mxg ≤ x → x + mxg < g.nx → j < e.grid.ny → z < g.nz →
    SmoothOn e g F Mx Mz → (∀ k, |v k| ≤ M0) → OnCells e g mxg o F v → e.grid.getPoloidalGrid (j : ℝ) = .ok (some pol, y) → 0 < d →
    e.grid.getPoloidalGrid ((j : ℝ) + (stepOf true : ℝ)) = .ok (some pf, y + d) → e.grid.getPoloidalGrid ((j : ℝ) + (stepOf false : ℝ)) = .ok (some pb, y - d) →
    R = g.Rmin + x * g.dR → Z = g.Zmin + z * g.dZ →
    e.outside (φ R Z y (y + d)).1 (y + d) (φ R Z y (y + d)).2 = false → ¬ i.Escapes (((φ R Z y (y + d)).1 - g.Rmin) / g.dR) →
    e.outside (φ R Z y (y - d)).1 (y - d) (φ R Z y (y - d)).2 = false → ¬ i.Escapes (((φ R Z y (y - d)).1 - g.Rmin) / g.dR) →
    ContDiff ℝ 3 (onLine φ F R Z y) → (∀ s ∈ Set.Icc (y - d) (y + d), |iteratedDeriv 3 (onLine φ F R Z y) s| ≤ M) →
    |(applyRow ((o.legs true).op.row ((o.legs true).legInterior (x, j, z)).toNat) v -
        applyRow ((o.legs false).op.row ((o.legs false).legInterior (x, j, z)).toNat) v) / 2 / d - deriv (onLine φ F R Z y) y| ≤
      C * (M * d ^ 2) + (36 / 10 ^ 10 * M0 + C * (Mx * g.dR ^ 3 + Mz * g.dZ ^ 3)) / d

/-- Seven points in x, with one boundary row on each side. -/
noncomputable def driftPol : RectPol ℝ := ⟨7, 1, 1, 1, 0, 0⟩

/-- Field lines that move outward by half a cell from plane to plane. -/
noncomputable def driftLine (R Z y y' : ℝ) : ℝ × ℝ := (R + 1 / 2 * (y' - y), Z)

/-- See `driftPol`. -/
noncomputable def driftMm : MmEnv ℝ where
  grid := ⟨[driftPol.mapPol], [0], 1, true, 7, 1⟩
  follow := fun _ _ R Z ys => ys.map fun y x z => driftLine (R x z) (Z x z) (ys.headD 0) y
  outside := fun _ _ _ => false
  byfunc := fun _ _ _ => 1
  isSlab := true
  lineLength := fun _ _ => 1
  gauss := fun n => (List.range n).map fun i => ((2 * i + 1) / n - 1, 2 / n)
  sqrt := fun x => x
  repr := fun _ => "0.5"

theorem driftMm_int (k : ℤ) : driftMm.grid.getPoloidalGrid (k : ℝ) = .ok (some driftPol.mapPol, k) := by
  have hk := Grid.getInt_periodic driftMm.grid rfl Nat.one_pos rfl 0 Nat.one_pos k
  have e1 : ((0 : ℕ) : ℤ) + k * ((driftMm.grid.ycoords.length : ℕ) : ℤ) = k := by
    have : driftMm.grid.ycoords.length = 1 := rfl
    rw [this]; push_cast; ring
  rw [e1] at hk
  rw [hk]
  simp [driftMm]

theorem driftMm_env : LineEnv driftMm driftPol driftLine where
  follow := by intro n m R Z ys; simp [driftMm]
  lines := by intro n m R Z y ys; rfl
  pols := by
    intro k p y h
    rw [driftMm_int] at h
    injection h with h
    injection h with h _
    injection h with h
    exact h.symm
  dR := by norm_num [driftPol]
  dZ := by norm_num [driftPol]

theorem driftMm_grid : GridOk driftMm := by
  refine ⟨rfl, Nat.one_pos, ?_⟩
  intro p hp
  have : p = driftPol.mapPol := by simpa [driftMm] using hp
  subst this
  exact ⟨fun _ _ => 1, fun _ _ => 1, fun _ _ => 0, rfl, rfl, rfl⟩

theorem driftMm_all : ∃ m i o, makeMaps driftMm 1 1 1 1 1 ⟨fun _ => 0, fun _ _ => 0, fun _ _ => 0⟩ = .ok m ∧
    ReadFrom driftMm 1 1 m driftPol.mapPol i ∧
    calculateOps (fun _ => 0) (fun _ => 0) (asMapDict driftPol.nx driftMm.grid.ny driftPol.nz 1 m) = .ok o := by
  have hf := driftMm_env.follow
  have hgs : GaussOk driftMm 1 := fun h => absurd h (by norm_num)
  have hlen : (driftMm.gauss 1).length = 1 := rfl
  have hpos : ∀ p ∈ driftMm.gauss 1, 0 < p.2 := by
    intro p hp
    obtain ⟨i, _, rfl⟩ := List.mem_map.1 hp
    norm_num
  obtain ⟨m, h⟩ := makeMaps_succeeds driftMm hf driftMm_grid 1 1 1 1 1 le_rfl hgs le_rfl le_rfl ⟨fun _ => 0, fun _ _ => 0, fun _ _ => 0⟩
  have h0 : driftMm.grid.getPoloidalGrid ((0 : ℕ) : ℝ) = .ok (some driftPol.mapPol, 0) := by
    have := driftMm_int 0
    push_cast at this ⊢
    exact this
  obtain ⟨f, i, hi⟩ := C205_read _ hf driftMm_grid 1 1 1 1 1 le_rfl le_rfl hgs hlen hpos _ m h
  have e1 := hi.first_eq h0
  subst e1
  obtain ⟨o, ho⟩ := C205_operators (fun _ => 0) (fun _ => 0) _ hf driftMm_grid 1 1 1 1 1 le_rfl le_rfl hgs hlen hpos _ m h _ 0 h0 (by
    simp [RectPol.mapPol, RectPol.pol, driftPol])
  exact ⟨m, i, o, h, hi, ho⟩

theorem driftMm_here : driftMm.grid.getPoloidalGrid ((0 : ℕ) : ℝ) = .ok (some driftPol.mapPol, 0) ∧
    driftMm.grid.getPoloidalGrid (((0 : ℕ) : ℝ) + (stepOf true : ℝ)) = .ok (some driftPol.mapPol, 0 + 1) ∧
    driftMm.grid.getPoloidalGrid (((0 : ℕ) : ℝ) + (stepOf false : ℝ)) = .ok (some driftPol.mapPol, 0 - 1) := by
  have h0 := driftMm_int 0
  have h1 := driftMm_int 1
  have h2 := driftMm_int (-1)
  push_cast at h0 h1 h2
  refine ⟨by push_cast; exact h0, ?_, ?_⟩
  · have : ((0 : ℕ) : ℝ) + (stepOf true : ℝ) = 1 := by norm_num [stepOf]
    rw [this, zero_add]
    exact h1
  · have : ((0 : ℕ) : ℝ) + (stepOf false : ℝ) = -1 := by norm_num [stepOf]
    rw [this, zero_sub]
    exact h2

/-- The function `R`. -/
theorem drift_smooth : SmoothOn driftMm driftPol (fun R _ _ => R) 0 0 where
  gx := fun _ _ => contDiff_id
  gz := fun _ _ => contDiff_const
  bx := fun x _ _ => by have := line_third 1 0 x; simp only [one_mul, add_zero] at this; simp [this]
  bz := fun x y z => by simp [iteratedDeriv_const]
  perz := fun _ _ _ => rfl
  pery := fun _ _ _ => rfl

theorem drift_along (R Z : ℝ) : onLine driftLine (fun R _ _ => R) R Z 0 = fun s => 1 / 2 * s + R := by
  funext s
  simp only [onLine, driftLine]
  ring

theorem drift_cells (m : ODict (MapVal ℝ)) (i : Input ℝ) (o : Ops ℝ) (hi : ReadFrom driftMm 1 1 m driftPol.mapPol i)
    (ho : calculateOps (fun _ => 0) (fun _ => 0) (asMapDict driftPol.nx driftMm.grid.ny driftPol.nz 1 m) = .ok o) :
    OnCells driftMm driftPol 1 o (fun R _ _ => R) (fun k => ramp k + 1) := by
  intro j p y hj hy ix iz h1 h2 h3
  have hnx : i.nx = 7 := hi.enx
  have hny : i.ny = 1 := hi.eny
  have hnz : i.nz = 1 := hi.enz
  have hmx : i.mxg = 1 := hi.emxg
  have hj' : j < 1 := hj
  have h2' : ix + 1 < 7 := h2
  have h3' : iz < 1 := h3
  obtain rfl : j = 0 := by omega
  obtain rfl : iz = 0 := by omega
  have := (C02_numbering_order _ _ _ _ hi.repr (by rw [hmx, hnx]; norm_num) o ho).1 ix 0 0 (by rw [hmx]; exact h1) (by rw [hmx, hnx]; exact h2')
    (by rw [hny]; exact Nat.one_pos) (by rw [hnz]; exact Nat.one_pos)
  obtain ⟨k, rfl⟩ := Nat.exists_eq_add_of_le h1
  rw [this, hny, hnz, hmx]
  have : ((1 + k - 1) * 1 + 0) * 1 + 0 = k := by omega
  rw [this]
  simp only [driftPol, ramp]
  rw [if_pos (by omega)]
  push_cast
  ring

/-- **C257 is false next to the edge of the grid**: the derivative of a straight line is wrong there. -/
theorem C257_fails : ¬ DerivRight := by
  rintro ⟨C, hall⟩
  obtain ⟨m, i, o, h, hi, ho⟩ := driftMm_all
  obtain ⟨h0, h1, h2⟩ := driftMm_here
  have hnx : i.nx = 7 := hi.enx
  have hny : i.ny = 1 := hi.eny
  have hnz : i.nz = 1 := hi.enz
  have hmx : i.mxg = 1 := hi.emxg
  have hn : i.n = 1 := by rw [hi.en]; norm_num
  have hcells := drift_cells m i o hi ho
  have hM0 : ∀ k, |ramp k + 1| ≤ 5 := by
    intro k
    have := abs_le.1 (ramp_le k)
    rw [abs_le]
    constructor <;> linarith [this.1, this.2]
  have esc : ∀ t : ℝ, 1 ≤ t → t ≤ 5 → ¬ i.Escapes t := by
    intro t a b
    unfold Input.Escapes
    rw [hnx, hmx, not_or, not_lt, not_lt]
    push_cast
    constructor <;> linarith
  have key := hall driftMm driftPol driftLine 1 1 1 _ m i o 2 0 0 (fun R _ _ => R) 0 0 (fun k => ramp k + 1) 5 _ _ _ 0 1 2 0 0 driftMm_env h hi
    (by simp [driftPol]) ho (by norm_num) (by simp [driftPol]) Nat.one_pos (by simp [driftPol]) drift_smooth hM0 hcells h0 one_pos h1 h2
    (by norm_num [driftPol]) (by norm_num [driftPol]) rfl (esc _ (by norm_num [driftPol, driftLine]) (by norm_num [driftPol, driftLine])) rfl
    (esc _ (by norm_num [driftPol, driftLine]) (by norm_num [driftPol, driftLine]))
    (by rw [drift_along]; fun_prop) (by intro s _; rw [drift_along, line_third]; simp)
  have fw := C257_row driftMm_env h hi _ _ (by simp [driftPol]) o ho (x := 2) (j := 0) (z := 0) (by norm_num) (by simp [driftPol]) Nat.one_pos (by simp [driftPol])
    drift_smooth hM0 hcells h0 true h1 2 0 (by norm_num [driftPol]) (by norm_num [driftPol]) rfl (by
      have : ⌊(5 / 2 : ℝ)⌋ = 2 := by norm_num [Int.floor_eq_iff]
      have e : ((driftLine 2 0 0 (0 + 1)).1 - driftPol.Rmin) / driftPol.dR = 5 / 2 := by norm_num [driftLine, driftPol]
      unfold StencilInside
      rw [e, this]
      simp [driftPol])
  rw [drift_along] at key fw
  have hpos : i.xs false (2, 0, 0) 0 = 3 / 2 ∧ i.zs false (2, 0, 0) 0 = 0 := by
    obtain ⟨pol, y', t, yt', g1, g2, g3⟩ := C207_positions driftMm driftMm_env.follow _ driftMm_env.lines 1 1 1 _ m h _ i hi false 0 Nat.one_pos
    rw [h0] at g1
    injection g1 with g1
    injection g1 with ga gb
    injection ga with ga
    subst ga gb
    rw [h2] at g2
    injection g2 with g2
    injection g2 with ga gb
    subst ga gb
    have q := g3 2 0
    have a := congrArg Prod.fst q
    have b := congrArg Prod.snd q
    simp only [driftMm, Bool.false_eq_true, if_false, RectPol.mapPol, RectPol.pol, RectPol.findIndex, driftLine, driftPol] at a b
    rw [a, b]
    norm_num
  have hs : i.SomeStay false (2, 0, 0) := ⟨0, by omega, by rw [hpos.1]; exact esc _ (by norm_num) (by norm_num)⟩
  have hsg : i.staying false (2, 0, 0) = {0} := by
    unfold Input.staying
    rw [hn]
    ext t
    simp only [Finset.mem_filter, Finset.mem_range, Finset.mem_singleton]
    constructor
    · rintro ⟨h, -⟩; omega
    · rintro rfl; exact ⟨by omega, by rw [hpos.1]; exact esc _ (by norm_num) (by norm_num)⟩
  have hw0 : 0 < i.w.getD 0 0 := by
    have hl : 0 < i.w.length := by rw [hi.good.len, hn]; norm_num
    rw [List.getD_eq_getElem _ _ hl]
    exact hi.good.pos _ (List.getElem_mem hl)
  have hc : i.Interior (2, 0, 0) := ⟨by rw [hmx]; norm_num, by rw [hmx, hnx]; norm_num, by rw [hny]; norm_num, by rw [hnz]; norm_num⟩
  have bw := row_any_skip _ _ _ i hi.repr (by rw [hmx, hnx]; norm_num) hi.good o ho false (2, 0, 0) hc hs (fun k => ramp k + 1) 5 hM0
  rw [hsg, Finset.sum_singleton, Finset.sum_singleton, mul_comm (i.w.getD 0 0), mul_div_assoc, div_self hw0.ne', mul_one, hpos.1, hpos.2] at bw
  have hpl : i.plane false 0 = 0 := by unfold Input.plane; rw [hny]; simp
  have val : ∀ ix : ℕ, 1 ≤ ix → ix + 1 < 7 → ramp (o.cellNumber (ix, 0, 0)) + 1 = ix := by
    intro ix a b
    have := hcells 0 _ 0 Nat.one_pos h0 ix 0 a b Nat.one_pos
    simp only [driftPol] at this
    rw [this]
    ring
  have itp : i.interpFrom (fun d => ramp (o.cellNumber d) + 1) (i.plane false 0) (3 / 2) (pyInt (0 : ℝ)) (0 - ((pyInt (0 : ℝ) : ℤ) : ℝ)) = 23 / 16 := by
    have f1 : ⌊(3 / 2 : ℝ)⌋ = 1 := by norm_num [Int.floor_eq_iff]
    have f2 : pyInt (0 : ℝ) = 0 := by simp [pyInt]
    have c0 : i.clampX (1 + -1) = 1 := by unfold Input.clampX; rw [hmx, hnx]; rfl
    have c1 : i.clampX (1 + 0) = 1 := by unfold Input.clampX; rw [hmx, hnx]; rfl
    have c2 : i.clampX (1 + 1) = 2 := by unfold Input.clampX; rw [hmx, hnx]; rfl
    have c3 : i.clampX (1 + 2) = 3 := by unfold Input.clampX; rw [hmx, hnx]; rfl
    have hz : ∀ k : ℤ, (k % ((i.nz : ℕ) : ℤ)).toNat = 0 := fun k => by rw [hnz]; simp
    unfold Input.interpFrom
    simp only [f1, f2, hz, hpl]
    unfold catmullRomSpline
    simp only [c0, c1, c2, c3, val 1 (by norm_num) (by norm_num), val 2 (by norm_num) (by norm_num), val 3 (by norm_num) (by norm_num)]
    norm_num
  rw [itp] at bw
  have hd : deriv (fun s : ℝ => 1 / 2 * s + 2) 0 = 1 / 2 := by
    simp
  rw [hd] at key
  rw [abs_le] at key fw bw
  norm_num at key fw bw
  linarith [key.1, key.2, fw.1, fw.2, bw.1, bw.2]

/-- A case for C257: one cell further in, the derivative of the straight line is right. -/
example : ∃ m i o, makeMaps driftMm 1 1 1 1 1 ⟨fun _ => 0, fun _ _ => 0, fun _ _ => 0⟩ = .ok m ∧ ReadFrom driftMm 1 1 m driftPol.mapPol i ∧
    calculateOps (fun _ => 0) (fun _ => 0) (asMapDict driftPol.nx driftMm.grid.ny driftPol.nz 1 m) = .ok o ∧
    |(applyRow ((o.legs true).op.row ((o.legs true).legInterior (3, 0, 0)).toNat) (fun k => ramp k + 1) -
        applyRow ((o.legs false).op.row ((o.legs false).legInterior (3, 0, 0)).toNat) (fun k => ramp k + 1)) / 2 / 1 - 1 / 2| ≤ 36 / 10 ^ 10 * 5 := by
  obtain ⟨m, i, o, h, hi, ho⟩ := driftMm_all
  refine ⟨m, i, o, h, hi, ho, ?_⟩
  obtain ⟨h0, h1, h2⟩ := driftMm_here
  have hM0 : ∀ k, |ramp k + 1| ≤ 5 := by
    intro k
    have := abs_le.1 (ramp_le k)
    rw [abs_le]
    constructor <;> linarith [this.1, this.2]
  have key := C257_partial driftMm_env h hi _ _ (by simp [driftPol]) o ho (x := 3) (j := 0) (z := 0) (by norm_num) (by simp [driftPol]) Nat.one_pos (by simp [driftPol])
    drift_smooth hM0 (drift_cells m i o hi ho) h0 one_pos h1 h2 3 0 (by norm_num [driftPol]) (by norm_num [driftPol]) rfl (by
      have : ⌊(7 / 2 : ℝ)⌋ = 3 := by norm_num [Int.floor_eq_iff]
      have e : ((driftLine 3 0 0 (0 + 1)).1 - driftPol.Rmin) / driftPol.dR = 7 / 2 := by norm_num [driftLine, driftPol]
      unfold StencilInside
      rw [e, this]
      simp [driftPol]) rfl (by
      have : ⌊(5 / 2 : ℝ)⌋ = 2 := by norm_num [Int.floor_eq_iff]
      have e : ((driftLine 3 0 0 (0 - 1)).1 - driftPol.Rmin) / driftPol.dR = 5 / 2 := by norm_num [driftLine, driftPol]
      unfold StencilInside
      rw [e, this]
      simp [driftPol]) (M := 0) (by rw [drift_along]; fun_prop) (by intro s _; rw [drift_along, line_third]; simp)
  rw [drift_along] at key
  have hd : deriv (fun s : ℝ => 1 / 2 * s + 3) 0 = 1 / 2 := by
    simp
  rw [hd] at key
  simpa using key

end Zoidberg
