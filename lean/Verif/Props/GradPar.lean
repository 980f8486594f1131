import Verif.Props.ParallelOrder
import Verif.Props.GetMetric
import Verif.Props.Field

/-!
# C266: the parallel gradient from the maps and `g_22`
-/

set_option linter.unusedSectionVars false

namespace Zoidberg

open Weights

/-- The component of the gradient of a function along the magnetic field, `B·∇F / |B|`, from the derivatives of `F` in `R`, `y` and `Z`.  In cylindrical
coordinates the derivative in `y`, an angle, is divided by the major radius. -/
noncomputable def gradAlong (f : FieldFns ℝ) (R Z y FR Fy FZ : ℝ) : ℝ :=
  (f.Bx R Z y * FR + f.By R Z y * (Fy / f.Rmaj R Z y) + f.Bz R Z y * FZ) / bmagReal f.Bx f.By f.Bz R Z y

/-- What `get_metric` uses of the field. -/
noncomputable def FieldFns.forMetric (f : FieldFns ℝ) (p : ℝ → ℝ → ℝ → ℝ) : MagField ℝ := ⟨f.R, bmagReal f.Bx f.By f.Bz, p, f.By, []⟩

theorem bmagReal_pos (f : FieldFns ℝ) (R Z y : ℝ) (h : f.By R Z y ≠ 0) : 0 < bmagReal f.Bx f.By f.Bz R Z y := by
  unfold bmagReal
  exact Real.sqrt_pos.2 (by positivity)

/-- **C266.** The derivative along a field line, in `y`, is the component of the gradient along the field times `R B / By`. -/
theorem C266_chain (f : FieldFns ℝ) (φ : ℝ → ℝ → ℝ → ℝ → ℝ × ℝ) (F : ℝ → ℝ → ℝ → ℝ) (R Z y : ℝ) (h0 : φ R Z y y = (R, Z))
    (hl : FieldLineOn f {y} (fun s => (φ R Z y s).1) fun s => (φ R Z y s).2) (hR : f.Rmaj R Z y ≠ 0) (D : ℝ × ℝ × ℝ →L[ℝ] ℝ)
    (hD : HasFDerivAt (fun q : ℝ × ℝ × ℝ => F q.1 q.2.1 q.2.2) D (R, y, Z)) :
    deriv (onLine φ F R Z y) y =
      f.Rmaj R Z y * bmagReal f.Bx f.By f.Bz R Z y / f.By R Z y * gradAlong f R Z y (D (1, 0, 0)) (D (0, 1, 0)) (D (0, 0, 1)) := by
  obtain ⟨dx, dz, h1, h2, h3⟩ := hl y rfl
  simp only [h0] at h1
  obtain ⟨hB, e1, e2⟩ := (direction_one f R Z y dx dz).1 h1
  have hBy : f.By R Z y ≠ 0 := by
    intro h
    rw [h] at hB
    norm_num at hB
  have hBm := (bmagReal_pos f R Z y hBy).ne'
  have hpath : HasDerivAt (fun s => (((φ R Z y s).1, s, (φ R Z y s).2) : ℝ × ℝ × ℝ)) (dx, 1, dz) y := h2.prodMk ((hasDerivAt_id y).prodMk h3)
  have hD' : HasFDerivAt (fun q : ℝ × ℝ × ℝ => F q.1 q.2.1 q.2.2) D ((fun s => (((φ R Z y s).1, s, (φ R Z y s).2) : ℝ × ℝ × ℝ)) y) := by
    simp only [h0]
    exact hD
  have hc := hD'.comp_hasDerivAt y hpath
  have e3 : ((fun q : ℝ × ℝ × ℝ => F q.1 q.2.1 q.2.2) ∘ fun s => (((φ R Z y s).1, s, (φ R Z y s).2) : ℝ × ℝ × ℝ)) = onLine φ F R Z y := rfl
  rw [e3] at hc
  rw [hc.deriv]
  have e4 : ((dx, 1, dz) : ℝ × ℝ × ℝ) = dx • (1, 0, 0) + (1 : ℝ) • (0, 1, 0) + dz • (0, 0, 1) := by
    ext <;> simp
  rw [e4, map_add, map_add, map_smul, map_smul, map_smul, smul_eq_mul, smul_eq_mul, smul_eq_mul, e1, e2]
  unfold gradAlong
  generalize D (1, 0, 0) = a
  generalize D (0, 1, 0) = b
  generalize D (0, 0, 1) = c
  generalize bmagReal f.Bx f.By f.Bz R Z y = m at hBm
  field_simp

/-- **C266.** The root of `g_22` as `get_metric` has it is `R B / |By|`. -/
theorem C266_g22 (f : FieldFns ℝ) (p : ℝ → ℝ → ℝ → ℝ) (gm : Grid (PolGrid ℝ) ℝ) (l : List (PolGrid ℝ)) (ys : List ℝ) (hg : MetricGrid gm l ys)
    (x j z : ℕ) (q : PolGrid ℝ) (hq : l[j]? = some q) (hR : 0 < f.Rmaj (q.R x z) (q.Z x z) (ys.getD j 0)) :
    ∃ m b lo, getMetric Real.sqrt gm (f.forMetric p) none = .ok (m, b) ∧ m.get? "g_yy" = some lo ∧
      √(lo (x, j, z)) = f.Rmaj (q.R x z) (q.Z x z) (ys.getD j 0) * bmagReal f.Bx f.By f.Bz (q.R x z) (q.Z x z) (ys.getD j 0) /
        |f.By (q.R x z) (q.Z x z) (ys.getD j 0)| := by
  obtain ⟨e1, e2, e3, M, xx, zz, xz, hM, c1, c2, c3, c4, c5⟩ := hg.facts
  subst e1 e2
  obtain ⟨r, r0, r1, -⟩ := getMetric_eq Real.sqrt gm e3 (f.forMetric p) none M hM _ _ xx zz xz c1 c2 c3 c4 c5
  refine ⟨r, _, _, r0, r1, ?_⟩
  have hj : j < gm.ycoords.length := by
    rw [← e3]
    exact (List.getElem?_eq_some_iff.1 hq).1
  have e : scaled gm.ycoords.length (fun c => (evalAt gm.polGrids gm.ycoords (f.forMetric p).Bmag c / evalAt gm.polGrids gm.ycoords (f.forMetric p).Byfunc c) ^ 2)
      (baseLow gm (f.forMetric p) fun _ => 1) (x, j, z) =
      (f.Rmaj (q.R x z) (q.Z x z) (gm.ycoords.getD j 0) * bmagReal f.Bx f.By f.Bz (q.R x z) (q.Z x z) (gm.ycoords.getD j 0) /
        f.By (q.R x z) (q.Z x z) (gm.ycoords.getD j 0)) ^ 2 := by
    cases hf : f.R with
    | none =>
      simp only [scaled, if_pos hj, baseLow, FieldFns.forMetric, hf, evalAt, hq, FieldFns.Rmaj]
      ring
    | some r =>
      simp only [scaled, if_pos hj, baseLow, FieldFns.forMetric, hf, evalAt, hq, FieldFns.Rmaj]
      ring
  rw [e, Real.sqrt_sq_eq_abs, abs_div, abs_mul, abs_of_pos hR]
  congr 2
  exact abs_of_nonneg (Real.sqrt_nonneg _)

/-- If a difference is close to `κ G` and is divided by `s` instead of `κ`. -/
theorem quotient_near {Q κ G s E : ℝ} (hs : 0 < s) (h : |Q - κ * G| ≤ E) : |Q / s - G| ≤ (E + |κ - s| * |G|) / s := by
  have e : Q / s - G = ((Q - κ * G) + (κ - s) * G) / s := by
    field_simp
    ring
  rw [e, abs_div, abs_of_pos hs]
  gcongr
  refine (abs_add_le _ _).trans ?_
  rw [abs_mul]
  gcongr

section

variable {e : MmEnv ℝ} {g : RectPol ℝ} {φ : ℝ → ℝ → ℝ → ℝ → ℝ × ℝ} (le : LineEnv e g φ)
  {mxg r nc : ℕ} {empty : JState ℝ} {m : ODict (MapVal ℝ)} (h : makeMaps e 1 mxg 1 r nc empty = .ok m)
  {i : Input ℝ} (hi : ReadFrom e mxg 1 m g.mapPol i) (jc : ℕ → ℤ) (jw : ℕ → ℝ) (hm : 2 * mxg ≤ g.nx) (o : Ops ℝ)
  (ho : calculateOps jc jw (asMapDict g.nx e.grid.ny g.nz 1 m) = .ok o)
  {x j z : ℕ} (hx1 : mxg ≤ x) (hx2 : x + mxg < g.nx) (hj : j < e.grid.ny) (hz : z < g.nz)
  {F : ℝ → ℝ → ℝ → ℝ} {Mx Mz : ℝ} (hF : SmoothOn e g F Mx Mz) {v : ℤ → ℝ} {M0 : ℝ} (hv0 : ∀ k, |v k| ≤ M0) (hv : OnCells e g mxg o F v)
  {pol : MapPol ℝ} {y : ℝ} (hy : e.grid.getPoloidalGrid (j : ℝ) = .ok (some pol, y))
  {pf pb : MapPol ℝ} {d : ℝ} (hd : 0 < d)
  (hyf : e.grid.getPoloidalGrid ((j : ℝ) + (stepOf true : ℝ)) = .ok (some pf, y + d))
  (hyb : e.grid.getPoloidalGrid ((j : ℝ) + (stepOf false : ℝ)) = .ok (some pb, y - d))
  (R Z : ℝ) (hR : R = g.Rmin + x * g.dR) (hZ : Z = g.Zmin + z * g.dZ)
  (inf : e.outside (φ R Z y (y + d)).1 (y + d) (φ R Z y (y + d)).2 = false) (stf : StencilInside g mxg (φ R Z y (y + d)).1)
  (inb : e.outside (φ R Z y (y - d)).1 (y - d) (φ R Z y (y - d)).2 = false) (stb : StencilInside g mxg (φ R Z y (y - d)).1)
  {M : ℝ} (hf : ContDiff ℝ 3 (onLine φ F R Z y)) (hM : ∀ s ∈ Set.Icc (y - d) (y + d), |iteratedDeriv 3 (onLine φ F R Z y) s| ≤ M)
  (f : FieldFns ℝ) (h0 : φ R Z y y = (R, Z)) (hl : FieldLineOn f {y} (fun s => (φ R Z y s).1) fun s => (φ R Z y s).2) (hRm : 0 < f.Rmaj R Z y)
  (D : ℝ × ℝ × ℝ →L[ℝ] ℝ) (hD : HasFDerivAt (fun q : ℝ × ℝ × ℝ => F q.1 q.2.1 q.2.2) D (R, y, Z))

include le h hi hm ho hx1 hx2 hj hz hF hv0 hv hy hd hyf hyb hR hZ inf stf inb stb hf hM h0 hl hRm hD in
/-- **C266.** Whatever is used as the root of `g_22`: the parallel gradient is that along the field, with the sign of `By`, up to the errors of C257 and
that of the root. -/
theorem C266_any (s : ℝ) (hs : 0 < s) :
    |(applyRow ((o.legs true).op.row ((o.legs true).legInterior (x, j, z)).toNat) v -
        applyRow ((o.legs false).op.row ((o.legs false).legInterior (x, j, z)).toNat) v) / 2 / d / s -
        SignType.sign (f.By R Z y) * gradAlong f R Z y (D (1, 0, 0)) (D (0, 1, 0)) (D (0, 0, 1))| ≤
      (M * d ^ 2 / 6 + (36 / 10 ^ 10 * M0 + (7 / 20 * (Mx * g.dR ^ 3) + 35 / 12 * (Mz * g.dZ ^ 3))) / d +
        |f.Rmaj R Z y * bmagReal f.Bx f.By f.Bz R Z y / |f.By R Z y| - s| * |gradAlong f R Z y (D (1, 0, 0)) (D (0, 1, 0)) (D (0, 0, 1))|) / s := by
  have key := C257_partial le h hi jc jw hm o ho hx1 hx2 hj hz hF hv0 hv hy hd hyf hyb R Z hR hZ inf stf inb stb hf hM
  rw [C266_chain f φ F R Z y h0 hl hRm.ne' D hD] at key
  generalize gradAlong f R Z y (D (1, 0, 0)) (D (0, 1, 0)) (D (0, 0, 1)) = G at key ⊢
  have hB : f.By R Z y ≠ 0 := by
    obtain ⟨dx, dz, h1, -, -⟩ := hl y rfl
    simp only [h0] at h1
    intro h
    have := ((direction_one f R Z y dx dz).1 h1).1
    rw [h] at this
    norm_num at this
  have e1 : f.Rmaj R Z y * bmagReal f.Bx f.By f.Bz R Z y / f.By R Z y * G =
      f.Rmaj R Z y * bmagReal f.Bx f.By f.Bz R Z y / |f.By R Z y| * (SignType.sign (f.By R Z y) * G) := by
    rcases lt_or_gt_of_ne hB with hn | hp
    · rw [abs_of_neg hn, sign_neg hn]
      simp only [SignType.coe_neg, SignType.coe_one]
      field_simp
    · rw [abs_of_pos hp, sign_pos hp]
      simp only [SignType.coe_one]
      field_simp
  rw [e1] at key
  have e2 : |(SignType.sign (f.By R Z y) : ℝ) * G| = |G| := by
    rcases lt_or_gt_of_ne hB with hn | hp
    · rw [sign_neg hn]; simp
    · rw [sign_pos hp]; simp
  have := quotient_near hs key
  rw [e2] at this
  exact this

include le h hi hm ho hx1 hx2 hj hz hF hv0 hv hy hd hyf hyb hR hZ inf stf inb stb hf hM h0 hl hRm hD in
/-- **C266 (partial).** Where `By` is positive, the difference of the forward and the backward row, divided by the distance and by the root of `g_22` of
`get_metric`, is the component of the gradient along the magnetic field, up to the errors of C257.  Missing: where `By` is negative it is minus this
component (`C266_reversed`, `C266_fails`). -/
theorem C266_partial (hB : 0 < f.By R Z y) (p : ℝ → ℝ → ℝ → ℝ) (gm : Grid (PolGrid ℝ) ℝ) (l : List (PolGrid ℝ)) (ys : List ℝ) (hg : MetricGrid gm l ys)
    (hq : l[j]? = some g.pol) (hys : ys.getD j 0 = y) :
    ∃ gmet b lo, getMetric Real.sqrt gm (f.forMetric p) none = .ok (gmet, b) ∧ gmet.get? "g_yy" = some lo ∧ 0 < √(lo (x, j, z)) ∧
      |(applyRow ((o.legs true).op.row ((o.legs true).legInterior (x, j, z)).toNat) v -
        applyRow ((o.legs false).op.row ((o.legs false).legInterior (x, j, z)).toNat) v) / 2 / d / √(lo (x, j, z)) -
        gradAlong f R Z y (D (1, 0, 0)) (D (0, 1, 0)) (D (0, 0, 1))| ≤
      (M * d ^ 2 / 6 + (36 / 10 ^ 10 * M0 + (7 / 20 * (Mx * g.dR ^ 3) + 35 / 12 * (Mz * g.dZ ^ 3))) / d) / √(lo (x, j, z)) := by
  have e1 : g.pol.R x z = R := by rw [hR]; rfl
  have e2 : g.pol.Z x z = Z := by rw [hZ]; rfl
  obtain ⟨gmet, b, lo, h1, h2, h3⟩ := C266_g22 f p gm l ys hg x j z g.pol hq (by rw [e1, e2, hys]; exact hRm)
  rw [e1, e2, hys] at h3
  have hpos : 0 < √(lo (x, j, z)) := by
    rw [h3]
    exact div_pos (mul_pos hRm (bmagReal_pos f R Z y hB.ne')) (abs_pos.2 hB.ne')
  refine ⟨gmet, b, lo, h1, h2, hpos, ?_⟩
  have key := C266_any le h hi jc jw hm o ho hx1 hx2 hj hz hF hv0 hv hy hd hyf hyb R Z hR hZ inf stf inb stb hf hM f h0 hl hRm D hD _ hpos
  rw [← h3, sub_self, abs_zero, zero_mul, add_zero, sign_pos hB] at key
  simpa using key

include le h hi hm ho hx1 hx2 hj hz hF hv0 hv hy hd hyf hyb hR hZ inf stf inb stb hf hM h0 hl hRm hD in
/-- **C266 (refutation, all cases).** Where `By` is negative, the result is minus the component of the gradient along the field. -/
theorem C266_reversed (hB : f.By R Z y < 0) (p : ℝ → ℝ → ℝ → ℝ) (gm : Grid (PolGrid ℝ) ℝ) (l : List (PolGrid ℝ)) (ys : List ℝ) (hg : MetricGrid gm l ys)
    (hq : l[j]? = some g.pol) (hys : ys.getD j 0 = y) :
    ∃ gmet b lo, getMetric Real.sqrt gm (f.forMetric p) none = .ok (gmet, b) ∧ gmet.get? "g_yy" = some lo ∧ 0 < √(lo (x, j, z)) ∧
      |(applyRow ((o.legs true).op.row ((o.legs true).legInterior (x, j, z)).toNat) v -
        applyRow ((o.legs false).op.row ((o.legs false).legInterior (x, j, z)).toNat) v) / 2 / d / √(lo (x, j, z)) +
        gradAlong f R Z y (D (1, 0, 0)) (D (0, 1, 0)) (D (0, 0, 1))| ≤
      (M * d ^ 2 / 6 + (36 / 10 ^ 10 * M0 + (7 / 20 * (Mx * g.dR ^ 3) + 35 / 12 * (Mz * g.dZ ^ 3))) / d) / √(lo (x, j, z)) := by
  have e1 : g.pol.R x z = R := by rw [hR]; rfl
  have e2 : g.pol.Z x z = Z := by rw [hZ]; rfl
  obtain ⟨gmet, b, lo, h1, h2, h3⟩ := C266_g22 f p gm l ys hg x j z g.pol hq (by rw [e1, e2, hys]; exact hRm)
  rw [e1, e2, hys] at h3
  have hpos : 0 < √(lo (x, j, z)) := by
    rw [h3]
    exact div_pos (mul_pos hRm (bmagReal_pos f R Z y hB.ne)) (abs_pos.2 hB.ne)
  refine ⟨gmet, b, lo, h1, h2, hpos, ?_⟩
  have key := C266_any le h hi jc jw hm o ho hx1 hx2 hj hz hF hv0 hv hy hd hyf hyb R Z hR hZ inf stf inb stb hf hM f h0 hl hRm D hD _ hpos
  rw [← h3, sub_self, abs_zero, zero_mul, add_zero, sign_neg hB] at key
  simpa using key

end

/-- The full claim, away from the edge of the grid (see `C257_fails` for the edge): whatever the sign of `By`. -/
def GradRight : Prop := ∃ C : ℝ, ∀ (e : MmEnv ℝ) (g : RectPol ℝ) (φ : ℝ → ℝ → ℝ → ℝ → ℝ × ℝ) (mxg r nc : ℕ) (empty : JState ℝ) (m : ODict (MapVal ℝ)) (i : Input ℝ)
    (o : Ops ℝ) (x j z : ℕ) (F : ℝ → ℝ → ℝ → ℝ) (Mx Mz : ℝ) (v : ℤ → ℝ) (M0 : ℝ) (pol pf pb : MapPol ℝ) (y d R Z M : ℝ) (f : FieldFns ℝ)
    (p : ℝ → ℝ → ℝ → ℝ) (D : ℝ × ℝ × ℝ →L[ℝ] ℝ) (gm : Grid (PolGrid ℝ) ℝ) (l : List (PolGrid ℝ)) (ys : List ℝ),
    LineEnv e g φ → makeMaps e 1 mxg 1 r nc empty = .ok m → ReadFrom e mxg 1 m g.mapPol i → 2 * mxg ≤ g.nx →
    calculateOps (fun _ => 0) (fun _ => 0) (asMapDict g.nx e.grid.ny g.nz 1 m) = .ok o → mxg ≤ x → x + mxg < g.nx → j < e.grid.ny → z < g.nz →
    SmoothOn e g F Mx Mz → (∀ k, |v k| ≤ M0) → OnCells e g mxg o F v → e.grid.getPoloidalGrid (j : ℝ) = .ok (some pol, y) → 0 < d →
    e.grid.getPoloidalGrid ((j : ℝ) + (stepOf true : ℝ)) = .ok (some pf, y + d) → e.grid.getPoloidalGrid ((j : ℝ) + (stepOf false : ℝ)) = .ok (some pb, y - d) →
    R = g.Rmin + x * g.dR → Z = g.Zmin + z * g.dZ →
    e.outside (φ R Z y (y + d)).1 (y + d) (φ R Z y (y + d)).2 = false → StencilInside g mxg (φ R Z y (y + d)).1 →
    e.outside (φ R Z y (y - d)).1 (y - d) (φ R Z y (y - d)).2 = false → StencilInside g mxg (φ R Z y (y - d)).1 →
    ContDiff ℝ 3 (onLine φ F R Z y) → (∀ s ∈ Set.Icc (y - d) (y + d), |iteratedDeriv 3 (onLine φ F R Z y) s| ≤ M) →
    φ R Z y y = (R, Z) → FieldLineOn f {y} (fun s => (φ R Z y s).1) (fun s => (φ R Z y s).2) → 0 < f.Rmaj R Z y →
    HasFDerivAt (fun q : ℝ × ℝ × ℝ => F q.1 q.2.1 q.2.2) D (R, y, Z) → MetricGrid gm l ys → l[j]? = some g.pol → ys.getD j 0 = y →
    ∃ gmet b lo, getMetric Real.sqrt gm (f.forMetric p) none = .ok (gmet, b) ∧ gmet.get? "g_yy" = some lo ∧
      |(applyRow ((o.legs true).op.row ((o.legs true).legInterior (x, j, z)).toNat) v -
        applyRow ((o.legs false).op.row ((o.legs false).legInterior (x, j, z)).toNat) v) / 2 / d / √(lo (x, j, z)) -
        gradAlong f R Z y (D (1, 0, 0)) (D (0, 1, 0)) (D (0, 0, 1))| ≤
      (C * (M * d ^ 2) + (36 / 10 ^ 10 * M0 + C * (Mx * g.dR ^ 3 + Mz * g.dZ ^ 3)) / d) / √(lo (x, j, z))

/-- The grid of the metric for `driftMm`. -/
noncomputable def driftGrid : Grid (PolGrid ℝ) ℝ := ⟨[driftPol.pol], [0], 1, true, 7, 1⟩

theorem driftGrid_ok : MetricGrid driftGrid [driftPol.pol] [0] := by
  refine ⟨⟨fun p => (p.nx, p.nz), 1, true, rfl⟩, ?_, Or.inr ?_⟩
  · intro p hp
    rw [List.mem_singleton.1 hp]
    intro n hn
    simp only [List.mem_cons, List.not_mem_nil, or_false] at hn
    rcases hn with rfl | rfl | rfl | rfl | rfl | rfl | rfl | rfl <;> simp [RectPol.pol, RectPol.metric, ODict.get?]
  · intro p hp
    rw [List.mem_singleton.1 hp]
    simp [PolGrid.ProvidesJ, RectPol.pol, RectPol.metric, ODict.get?]

/-- A uniform field with the lines of `driftMm`, in either direction. -/
noncomputable def driftField (s : ℝ) : FieldFns ℝ := ⟨fun _ _ _ => s / 2, fun _ _ _ => s, fun _ _ _ => 0, none⟩

theorem driftField_line (s : ℝ) (hs : |s| = 1) : FieldLineOn (driftField s) {0} (fun t => (driftLine 3 0 0 t).1) fun t => (driftLine 3 0 0 t).2 := by
  have hs0 : s ≠ 0 := by
    rintro rfl
    simp at hs
  intro y hy
  refine ⟨1 / 2, 0, (direction_one _ _ _ _ _ _).2 ⟨?_, ?_, ?_⟩, ?_, hasDerivAt_const _ _⟩
  · simp only [driftField, hs]; norm_num
  · simp only [driftField, FieldFns.Rmaj]; field_simp
  · simp [driftField]
  · simp only [driftLine]
    have := (((hasDerivAt_id y).sub_const 0).const_mul (1 / 2 : ℝ)).const_add 3
    simpa using this

theorem driftField_bmag (s : ℝ) (hs : |s| = 1) (R Z y : ℝ) : bmagReal (driftField s).Bx (driftField s).By (driftField s).Bz R Z y = √(5 / 4) := by
  have : s ^ 2 = 1 := by rw [← sq_abs, hs]; norm_num
  simp only [bmagReal, driftField]
  congr 1
  nlinarith

theorem drift_deriv : HasFDerivAt (fun q : ℝ × ℝ × ℝ => q.1) (ContinuousLinearMap.fst ℝ ℝ (ℝ × ℝ)) (3, 0, 0) := hasFDerivAt_fst

theorem drift_bound (k : ℤ) : |ramp k + 1| ≤ 5 := by
  have := abs_le.1 (ramp_le k)
  rw [abs_le]
  constructor <;> linarith [this.1, this.2]

theorem drift_inside (t : ℝ) (n : ℤ) (hn : ⌊3 + 1 / 2 * t⌋ = n) (h1 : 2 ≤ n) (h2 : n ≤ 3) : StencilInside driftPol 1 (driftLine 3 0 0 (0 + t)).1 := by
  have e : ((driftLine 3 0 0 (0 + t)).1 - driftPol.Rmin) / driftPol.dR = 3 + 1 / 2 * t := by
    simp [driftLine, driftPol]
  unfold StencilInside
  rw [e, hn]
  simp only [driftPol]
  constructor <;> push_cast <;> omega

theorem drift_in_fwd : StencilInside driftPol 1 (driftLine 3 0 0 (0 + 1)).1 :=
  drift_inside 1 3 (by norm_num [Int.floor_eq_iff]) (by norm_num) (by norm_num)

theorem drift_in_bwd : StencilInside driftPol 1 (driftLine 3 0 0 (0 - 1)).1 := by
  rw [sub_eq_add_neg]
  exact drift_inside (-1) 2 (by norm_num [Int.floor_eq_iff]) (by norm_num) (by norm_num)

/-- **C266 is false where `By` is negative.** -/
theorem C266_fails : ¬ GradRight := by
  rintro ⟨C, hall⟩
  obtain ⟨m, i, o, h, hi, ho⟩ := driftMm_all
  obtain ⟨h0, h1, h2⟩ := driftMm_here
  have hs : |(-1 : ℝ)| = 1 := by norm_num
  have hcells := drift_cells m i o hi ho
  obtain ⟨gm1, b1, lo1, k1, k2, k3⟩ := hall driftMm driftPol driftLine 1 1 1 _ m i o 3 0 0 (fun R _ _ => R) 0 0 (fun k => ramp k + 1) 5 _ _ _ 0 1 3 0 0 (driftField (-1))
    (fun _ _ _ => 0) (ContinuousLinearMap.fst ℝ ℝ (ℝ × ℝ)) driftGrid _ _ driftMm_env h hi
    (by simp [driftPol]) ho (by norm_num) (by simp [driftPol]) Nat.one_pos (by simp [driftPol]) drift_smooth drift_bound hcells h0 one_pos h1 h2
    (by norm_num [driftPol]) (by norm_num [driftPol]) rfl drift_in_fwd rfl drift_in_bwd
    (by rw [drift_along]; fun_prop) (by intro s _; rw [drift_along, line_third]; simp) (by simp [driftLine]) (driftField_line (-1) hs) one_pos drift_deriv
    driftGrid_ok rfl rfl
  obtain ⟨gm2, b2, lo2, q1, q2, q3, q4⟩ := C266_reversed driftMm_env h hi _ _ (by simp [driftPol]) o ho (x := 3) (j := 0) (z := 0) (by norm_num) (by simp [driftPol]) Nat.one_pos
    (by simp [driftPol]) drift_smooth drift_bound hcells h0 one_pos h1 h2 3 0 (by norm_num [driftPol]) (by norm_num [driftPol]) rfl drift_in_fwd rfl drift_in_bwd
    (M := 0) (by rw [drift_along]; fun_prop) (by intro s _; rw [drift_along, line_third]; simp) (driftField (-1)) (by simp [driftLine]) (driftField_line (-1) hs)
    one_pos _ drift_deriv (by norm_num [driftField]) (fun _ _ _ => 0) driftGrid _ _ driftGrid_ok rfl rfl
  rw [q1] at k1
  injection k1 with k1
  injection k1 with k1 _
  subst k1
  rw [q2] at k2
  injection k2 with k2
  subst k2
  obtain ⟨gm3, b3, lo3, w1, w2, w3⟩ := C266_g22 (driftField (-1)) (fun _ _ _ => 0) driftGrid _ _ driftGrid_ok 3 0 0 driftPol.pol rfl one_pos
  rw [q1] at w1
  injection w1 with w1
  injection w1 with w1 _
  subst w1
  rw [q2] at w2
  injection w2 with w2
  subst w2
  rw [driftField_bmag (-1) hs] at w3
  have hr : (1 : ℝ) ≤ √(5 / 4) := by
    rw [show (1 : ℝ) = √1 by simp]
    exact Real.sqrt_le_sqrt (by norm_num)
  have hr2 : √(5 / 4 : ℝ) ^ 2 = 5 / 4 := Real.sq_sqrt (by norm_num)
  have e : gradAlong (driftField (-1)) 3 0 0 (ContinuousLinearMap.fst ℝ ℝ (ℝ × ℝ) (1, 0, 0)) (ContinuousLinearMap.fst ℝ ℝ (ℝ × ℝ) (0, 1, 0))
      (ContinuousLinearMap.fst ℝ ℝ (ℝ × ℝ) (0, 0, 1)) = -(1 / 2) / √(5 / 4) := by
    unfold gradAlong
    rw [driftField_bmag (-1) hs]
    simp [driftField]
    ring
  have hlo : √(lo2 (3, 0, 0)) = √(5 / 4) := by
    rw [w3]
    simp [driftField, FieldFns.Rmaj]
  rw [e, hlo] at k3 q4
  generalize (applyRow ((o.legs true).op.row ((o.legs true).legInterior (3, 0, 0)).toNat) (fun k => ramp k + 1) -
        applyRow ((o.legs false).op.row ((o.legs false).legInterior (3, 0, 0)).toNat) (fun k => ramp k + 1)) / 2 / 1 = Q at k3 q4
  generalize √(5 / 4 : ℝ) = r at hr hr2 k3 q4
  have hr0 : 0 < r := by linarith
  rw [← sub_div, abs_div, abs_of_pos hr0, div_le_div_iff_of_pos_right hr0] at k3
  rw [← add_div, abs_div, abs_of_pos hr0, div_le_div_iff_of_pos_right hr0] at q4
  rw [abs_le] at k3 q4
  norm_num at k3 q4
  linarith [k3.1, k3.2, q4.1, q4.2]

/-- A case for C266: with the field in the direction of `y` the gradient of `R` along it comes out right. -/
example : ∃ m i o gmet b lo, makeMaps driftMm 1 1 1 1 1 ⟨fun _ => 0, fun _ _ => 0, fun _ _ => 0⟩ = .ok m ∧ ReadFrom driftMm 1 1 m driftPol.mapPol i ∧
    calculateOps (fun _ => 0) (fun _ => 0) (asMapDict driftPol.nx driftMm.grid.ny driftPol.nz 1 m) = .ok o ∧
    getMetric Real.sqrt driftGrid ((driftField 1).forMetric fun _ _ _ => 0) none = .ok (gmet, b) ∧ gmet.get? "g_yy" = some lo ∧
    |(applyRow ((o.legs true).op.row ((o.legs true).legInterior (3, 0, 0)).toNat) (fun k => ramp k + 1) -
        applyRow ((o.legs false).op.row ((o.legs false).legInterior (3, 0, 0)).toNat) (fun k => ramp k + 1)) / 2 / 1 / √(lo (3, 0, 0)) - 1 / 2 / √(5 / 4)| ≤
      36 / 10 ^ 10 * 5 / √(lo (3, 0, 0)) := by
  have hs : |(1 : ℝ)| = 1 := by norm_num
  obtain ⟨m, i, o, h, hi, ho⟩ := driftMm_all
  obtain ⟨h0, h1, h2⟩ := driftMm_here
  obtain ⟨gm2, b2, lo2, q1, q2, q3, q4⟩ := C266_partial driftMm_env h hi _ _ (by simp [driftPol]) o ho (x := 3) (j := 0) (z := 0) (by norm_num) (by simp [driftPol]) Nat.one_pos
    (by simp [driftPol]) drift_smooth drift_bound (drift_cells m i o hi ho) h0 one_pos h1 h2 3 0 (by norm_num [driftPol]) (by norm_num [driftPol]) rfl drift_in_fwd rfl
    drift_in_bwd (M := 0) (by rw [drift_along]; fun_prop) (by intro s _; rw [drift_along, line_third]; simp) (driftField 1) (by simp [driftLine])
    (driftField_line 1 hs) one_pos _ drift_deriv (by norm_num [driftField]) (fun _ _ _ => 0) driftGrid _ _ driftGrid_ok rfl rfl
  refine ⟨m, i, o, gm2, b2, lo2, h, hi, ho, q1, q2, ?_⟩
  have e : gradAlong (driftField 1) 3 0 0 (ContinuousLinearMap.fst ℝ ℝ (ℝ × ℝ) (1, 0, 0)) (ContinuousLinearMap.fst ℝ ℝ (ℝ × ℝ) (0, 1, 0))
      (ContinuousLinearMap.fst ℝ ℝ (ℝ × ℝ) (0, 0, 1)) = 1 / 2 / √(5 / 4) := by
    unfold gradAlong
    rw [driftField_bmag 1 hs]
    simp [driftField]
  rw [e] at q4
  simpa using q4

end Zoidberg
