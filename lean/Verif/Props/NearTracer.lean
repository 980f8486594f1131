import Verif.Props.ParallelOrder
import Verif.Props.ReversibleOrder

/-!
# C259: the operators with a tracer that is only accurate
-/

set_option linter.unusedSectionVars false

namespace Zoidberg

open Weights

/-- With one slice and one sample per cell, the positions that `weights.py` reads are found from what the tracer gives for the grid points of the plane
and the `y` of that plane, of the half plane and of the adjacent plane. -/
theorem positions_traced {K : Type} [Field K] [LinearOrder K] [IsStrictOrderedRing K] [FloorRing K] (e : MmEnv K) (hf : FollowOk e) (mxg r nc : ℕ)
    (empty : JState K) (m : ODict (MapVal K)) (h : makeMaps e 1 mxg 1 r nc empty = .ok m) (first : MapPol K) (i : Input K)
    (hi : ReadFrom e mxg 1 m first i) (fwd : Bool) (j : ℕ) (hj : j < e.grid.ny) :
    ∃ pol y th yh target yt coord, e.grid.getPoloidalGrid (j : K) = .ok (some pol, y) ∧
      e.grid.getPoloidalGrid ((j : K) + (stepOf fwd : K) * (1 / 2)) = .ok (th, yh) ∧
      e.grid.getPoloidalGrid ((j : K) + (stepOf fwd : K)) = .ok (target, yt) ∧
      (e.follow first.nx first.nz pol.R pol.Z [y, yh, yt])[2]? = some coord ∧
      ∀ x z, (i.xs fwd (x, j, z) 0, i.zs fwd (x, j, z) 0) = match target with
        | none => (-1, -1)
        | some p => if e.outside (coord x z).1 yt (coord x z).2 then (-1, -1)
          else p.findIndex (fun x z => (coord x z).1) (fun x z => (coord x z).2) x z := by
  have hd0 : stepOf fwd ≠ 0 := by cases fwd <;> simp [stepOf]
  have hd1 : (stepOf fwd).natAbs = 1 := by cases fwd <;> simp [stepOf]
  have hsg : (stepOf fwd).sign = stepOf fwd := by cases fwd <;> rfl
  obtain ⟨first', y0, smp, ps, h1, h2, h3, h4, h5, h6, h7⟩ := sub_arrays h hf hd0 hd1.le
  obtain ⟨ho, _⟩ := offsetsOf_int (K := K) 1 (stepOf fwd) hd0 hd1.le
  have hxs : i.xs fwd = ps.xts := by
    have := (hi.xs fwd).symm.trans h5
    injection this with this
    injection this
  have hzs : i.zs fwd = ps.zts := by
    have := (hi.zs fwd).symm.trans h6
    injection this with this
    injection this
  have hsingle : ∀ x z, ps.xts (x, j, z) 0 = ps.xt (x, j, z) ∧ ps.zts (x, j, z) 0 = ps.zt (x, j, z) := by
    intro x z
    obtain ⟨pol, y, targets, coord, t, g1, g2, g3, g4, g5, _, g7⟩ := h7 j hj
    have hs := (g7 (by rw [length_offsetsOf, hd1])).single (by norm_num) x z
    obtain ⟨_, _, a3, a4⟩ := g5 x z
    rw [hs.1, hs.2, a3, a4]
    exact ⟨rfl, rfl⟩
  obtain ⟨coord, t, yt, yl, k1, k2, k3, k4⟩ := filled_traced h1 ho (h7 j hj)
  have hyl : yl = yt := k3 hd1
  have hk : e.grid.getPoloidalGrid ((j : K) + (stepOf fwd : K)) = .ok (t, yt) := k2
  obtain ⟨f2, y2, pol, y, ys, p1, p2, p3, p4, p5⟩ := k1
  have hf2 : first = f2 := hi.first_eq p1
  subst hf2
  have ov : (offsetValues 1 (stepOf fwd).sign : List K) = [(stepOf fwd : K) * (1 / 2), (stepOf fwd : K)] := by
    rw [hsg]; simp [offsetValues]
  rw [ov] at p3 p4
  obtain ⟨th, yh, q1, q2⟩ := p4 0 _ rfl
  obtain ⟨t', yt', q3, q4⟩ := p4 1 _ rfl
  have htt : t' = t ∧ yt' = yt := by
    rw [hk] at q3
    injection q3 with q3
    injection q3 with a b
    exact ⟨a.symm, b.symm⟩
  obtain ⟨rfl, rfl⟩ := htt
  have hys : ys = [yh, yt'] := by
    match ys, p3, q2, q4 with
    | [a, b], _, q2, q4 => simp at q2 q4; rw [q2, q4]
  subst hys hyl
  rw [hd1] at p5
  refine ⟨pol, y, th, yh, t', yl, coord, p2, q1, hk, p5, ?_⟩
  intro x z
  obtain ⟨_, _, a3, a4⟩ := k4 x z
  rw [hxs, hzs, (hsingle x z).1, (hsingle x z).2, a3, a4]
  cases t' with
  | none => rfl
  | some p => simp only [indexOf, indicesOf]

/-- A row whose position is that of `q`, applied to the values of a smooth function: the value at `q`. -/
theorem row_at {e : MmEnv ℝ} {g : RectPol ℝ} (hdR : 0 < g.dR) (hdZ : 0 < g.dZ)
    {mxg : ℕ} {m : ODict (MapVal ℝ)} {i : Input ℝ} (hi : ReadFrom e mxg 1 m g.mapPol i) (jc : ℕ → ℤ) (jw : ℕ → ℝ) (hm : 2 * mxg ≤ g.nx) (o : Ops ℝ)
    (ho : calculateOps jc jw (asMapDict g.nx e.grid.ny g.nz 1 m) = .ok o)
    {x j z : ℕ} (hx1 : mxg ≤ x) (hx2 : x + mxg < g.nx) (hj : j < e.grid.ny) (hz : z < g.nz)
    {F : ℝ → ℝ → ℝ → ℝ} {Mx Mz : ℝ} (hF : SmoothOn e g F Mx Mz) {v : ℤ → ℝ} {M0 : ℝ} (hv0 : ∀ k, |v k| ≤ M0) (hv : OnCells e g mxg o F v)
    (fwd : Bool) {yt : ℝ} (hyt : e.grid.getPoloidalGrid ((j : ℝ) + (stepOf fwd : ℝ)) = .ok (some g.mapPol, yt)) (q : ℝ × ℝ)
    (h1 : i.xs fwd (x, j, z) 0 = (q.1 - g.Rmin) / g.dR) (h2 : i.zs fwd (x, j, z) 0 = (q.2 - g.Zmin) / g.dZ) (hst : StencilInside g mxg q.1) :
    |applyRow ((o.legs fwd).op.row ((o.legs fwd).legInterior (x, j, z)).toNat) v - F q.1 yt q.2| ≤
      36 / 10 ^ 10 * M0 + (7 / 20 * (Mx * g.dR ^ 3) + 35 / 12 * (Mz * g.dZ ^ 3)) := by
  have hnx : i.nx = g.nx := hi.enx
  have hnz : i.nz = g.nz := hi.enz
  have hny : i.ny = e.grid.ny := hi.eny
  have hn : i.n = 1 := by rw [hi.en]; norm_num
  have hc : i.Interior (x, j, z) := by
    refine ⟨by rw [hi.emxg]; exact hx1, by rw [hi.emxg, hnx]; exact hx2, by rw [hi.eny]; exact hj, by rw [hnz]; exact hz⟩
  have hne : ¬ i.Escapes (i.xs fwd (x, j, z) 0) := by
    rw [h1]
    obtain ⟨a, b⟩ := hst
    have a' : ((mxg : ℤ) + 1 : ℝ) ≤ (⌊(q.1 - g.Rmin) / g.dR⌋ : ℝ) := by exact_mod_cast a
    have b' : ((⌊(q.1 - g.Rmin) / g.dR⌋ : ℝ) + 3 + (mxg : ℤ)) ≤ ((g.nx : ℤ) : ℝ) := by exact_mod_cast b
    have c1 := Int.floor_le ((q.1 - g.Rmin) / g.dR)
    have c2 := Int.lt_floor_add_one ((q.1 - g.Rmin) / g.dR)
    unfold Input.Escapes
    rw [hi.emxg, hnx, not_or, not_lt, not_lt]
    push_cast at a' b' ⊢
    constructor <;> linarith
  have hs : i.SomeStay fwd (x, j, z) := ⟨0, by omega, hne⟩
  have hsg : i.staying fwd (x, j, z) = {0} := by
    unfold Input.staying
    rw [hn]
    ext t
    simp only [Finset.mem_filter, Finset.mem_range, Finset.mem_singleton]
    constructor
    · rintro ⟨h, -⟩; omega
    · rintro rfl; exact ⟨by omega, hne⟩
  have hw0 : 0 < i.w.getD 0 0 := by
    have hl : 0 < i.w.length := by rw [hi.good.len, hn]; norm_num
    rw [List.getD_eq_getElem _ _ hl]
    exact hi.good.pos _ (List.getElem_mem hl)
  obtain ⟨y0, n, k1, k2⟩ := plane_period e ((j : ℤ) + stepOf fwd) (by omega) _ yt (by push_cast; exact hyt)
  have hpl : i.plane fwd j = (((j : ℤ) + stepOf fwd) % (e.grid.ny : ℤ)).toNat := by
    unfold Input.plane stepOf
    rw [hny]
  have hpl' : i.plane fwd j < e.grid.ny := by
    rw [hpl]
    have hm0 := Int.emod_nonneg ((j : ℤ) + stepOf fwd) (by omega : (e.grid.ny : ℤ) ≠ 0)
    have hm1 := Int.emod_lt_of_pos ((j : ℤ) + stepOf fwd) (by omega : (0 : ℤ) < e.grid.ny)
    omega
  rw [← hpl] at k1
  have key := C232_any_z_partial jc jw _ i hi.repr (by rw [hi.emxg, hnx]; exact hm) hi.good o ho fwd (x, j, z) hc hs
    (by
      rw [hsg]
      simp only [Finset.mem_singleton, forall_eq]
      rw [h1, hi.emxg, hnx]
      exact hst)
    (fun R Z => F R yt Z) g.Rmin g.Zmin g.dR g.dZ Mx Mz hdR.le hdZ.le (fun z => hF.gx yt z) (fun x => hF.gz x yt) (fun x z => hF.bx x yt z)
    (fun x z => hF.bz x yt z) (fun x z => by rw [hnz]; exact hF.perz x yt z) v M0 hv0
    (by
      intro ix iz a b c
      rw [hi.emxg] at a b
      rw [hnx] at b
      rw [hnz] at c
      show v (o.cellNumber (ix, i.plane fwd j, iz)) = _
      rw [hv (i.plane fwd j) _ y0 hpl' k1 ix iz a b c, k2]
      exact (per_all (F := fun y => F (g.Rmin + ix * g.dR) y (g.Zmin + iz * g.dZ)) (fun y => hF.pery _ y _) y0 n).symm)
  rw [hsg, Finset.sum_singleton, Finset.sum_singleton, h1, h2, mul_comm (i.w.getD 0 0), mul_div_assoc, div_self hw0.ne', mul_one,
    div_mul_cancel₀ _ hdR.ne', div_mul_cancel₀ _ hdZ.ne', add_sub_cancel, add_sub_cancel] at key
  exact key

/-- The tracer gives the field lines `φ` up to `ε`, over two steps of at most `D`. -/
def TracesNear (e : MmEnv ℝ) (φ : ℝ → ℝ → ℝ → ℝ → ℝ × ℝ) (D ε : ℝ) : Prop :=
  ∀ (n m : ℕ) (R Z : ℕ → ℕ → ℝ) (a b c : ℝ), |b - a| ≤ D → |c - b| ≤ D → ∀ coord, (e.follow n m R Z [a, b, c])[2]? = some coord →
    ∀ x < n, ∀ z < m, Near ε (coord x z) (φ (R x z) (Z x z) a c)

/-- `F` is Lipschitz in x and z. -/
def LipOn (F : ℝ → ℝ → ℝ → ℝ) (L : ℝ) : Prop := ∀ x y z x' z', |F x y z - F x' y z'| ≤ L * (|x - x'| + |z - z'|)

/-- Rectangular grids, the same on all planes, and a tracer of finite accuracy. -/
structure NearEnv (e : MmEnv ℝ) (g : RectPol ℝ) (φ : ℝ → ℝ → ℝ → ℝ → ℝ × ℝ) (D ε : ℝ) : Prop where
  follow : FollowOk e
  near : TracesNear e φ D ε
  pols : ∀ (k : ℤ) (p : MapPol ℝ) (y : ℝ), e.grid.getPoloidalGrid (k : ℝ) = .ok (some p, y) → p = g.mapPol
  half : ∀ (k d : ℤ) (p q : Option (MapPol ℝ)) (y y' : ℝ), |d| = 1 → e.grid.getPoloidalGrid (k : ℝ) = .ok (p, y) →
    e.grid.getPoloidalGrid ((k : ℝ) + d * (1 / 2)) = .ok (q, y') → |y' - y| ≤ D
  dR : 0 < g.dR
  dZ : 0 < g.dZ

section

variable {e : MmEnv ℝ} {g : RectPol ℝ} {φ : ℝ → ℝ → ℝ → ℝ → ℝ × ℝ} {D ε : ℝ} (le : NearEnv e g φ D ε)
  {mxg r nc : ℕ} {empty : JState ℝ} {m : ODict (MapVal ℝ)} (h : makeMaps e 1 mxg 1 r nc empty = .ok m)
  {i : Input ℝ} (hi : ReadFrom e mxg 1 m g.mapPol i) (jc : ℕ → ℤ) (jw : ℕ → ℝ) (hm : 2 * mxg ≤ g.nx) (o : Ops ℝ)
  (ho : calculateOps jc jw (asMapDict g.nx e.grid.ny g.nz 1 m) = .ok o)
  {x j z : ℕ} (hx1 : mxg ≤ x) (hx2 : x + mxg < g.nx) (hj : j < e.grid.ny) (hz : z < g.nz)
  {F : ℝ → ℝ → ℝ → ℝ} {Mx Mz L : ℝ} (hF : SmoothOn e g F Mx Mz) (hL : LipOn F L) (hL0 : 0 ≤ L) {v : ℤ → ℝ} {M0 : ℝ} (hv0 : ∀ k, |v k| ≤ M0) (hv : OnCells e g mxg o F v)
  {pol : MapPol ℝ} {y : ℝ} (hy : e.grid.getPoloidalGrid (j : ℝ) = .ok (some pol, y))

include le h hi hm ho hx1 hx2 hj hz hF hL hL0 hv0 hv hy in
/-- **C259.** One row of the operators from maps with a tracer of accuracy `ε`, applied to the values of a smooth function: the value at the end of the
exact field line, up to the error of the interpolation and `2 L ε`. -/
theorem C259_row (fwd : Bool) {p : MapPol ℝ} {yt : ℝ}
    (hyt : e.grid.getPoloidalGrid ((j : ℝ) + (stepOf fwd : ℝ)) = .ok (some p, yt)) (R Z : ℝ) (hR : R = g.Rmin + x * g.dR) (hZ : Z = g.Zmin + z * g.dZ)
    (hin : ∀ q, Near ε q (φ R Z y yt) → e.outside q.1 yt q.2 = false ∧ StencilInside g mxg q.1) :
    |applyRow ((o.legs fwd).op.row ((o.legs fwd).legInterior (x, j, z)).toNat) v - onLine φ F R Z y yt| ≤
      36 / 10 ^ 10 * M0 + (7 / 20 * (Mx * g.dR ^ 3) + 35 / 12 * (Mz * g.dZ ^ 3)) + 2 * L * ε := by
  have hp : pol = g.mapPol := le.pols (j : ℤ) pol y (by push_cast; exact hy)
  have hp' : p = g.mapPol := le.pols ((j : ℤ) + stepOf fwd) p yt (by push_cast; exact hyt)
  subst hp hp'
  obtain ⟨pol, y', th, yh, t, yt', coord, g1, gh, g2, gc, g3⟩ := positions_traced e le.follow mxg r nc empty m h _ i hi fwd j hj
  rw [hy] at g1
  injection g1 with g1
  injection g1 with ga gb
  injection ga with ga
  subst ga gb
  rw [hyt] at g2
  injection g2 with g2
  injection g2 with ga gb
  subst ga gb
  have hd : |stepOf fwd| = 1 := by cases fwd <;> simp [stepOf]
  have d1 := le.half (j : ℤ) (stepOf fwd) _ _ y yh hd (by push_cast; exact hy) (by push_cast; exact gh)
  have d2 := le.half ((j : ℤ) + stepOf fwd) (-stepOf fwd) _ _ yt yh (by rw [abs_neg]; exact hd) (by push_cast; exact hyt) (by
    rw [← gh]
    congr 1
    push_cast
    ring)
  rw [abs_sub_comm] at d2
  have eR : g.mapPol.R x z = R := by rw [hR]; rfl
  have eZ : g.mapPol.Z x z = Z := by rw [hZ]; rfl
  have hn := le.near g.nx g.nz g.mapPol.R g.mapPol.Z y yh yt d1 d2 coord gc x (by omega) z hz
  rw [eR, eZ] at hn
  obtain ⟨ho1, hst⟩ := hin _ hn
  have hq := g3 x z
  simp only [ho1, Bool.false_eq_true, if_false] at hq
  have h1 : i.xs fwd (x, j, z) 0 = ((coord x z).1 - g.Rmin) / g.dR := by
    have := congrArg Prod.fst hq
    simp only [RectPol.mapPol, RectPol.findIndex] at this
    rw [this]
  have h2 : i.zs fwd (x, j, z) 0 = ((coord x z).2 - g.Zmin) / g.dZ := by
    have := congrArg Prod.snd hq
    simp only [RectPol.mapPol, RectPol.findIndex] at this
    rw [this]
  have key := row_at le.dR le.dZ hi jc jw hm o ho hx1 hx2 hj hz hF hv0 hv fwd hyt (coord x z) h1 h2 hst
  have hl := hL (coord x z).1 yt (coord x z).2 (φ R Z y yt).1 (φ R Z y yt).2
  have hle : L * (|(coord x z).1 - (φ R Z y yt).1| + |(coord x z).2 - (φ R Z y yt).2|) ≤ 2 * L * ε := by
    have := mul_le_mul_of_nonneg_left (add_le_add hn.1 hn.2) hL0
    linarith
  have e1 : onLine φ F R Z y yt = F (φ R Z y yt).1 yt (φ R Z y yt).2 := rfl
  rw [e1]
  rw [abs_le] at key hl ⊢
  constructor <;> linarith [key.1, key.2, hl.1, hl.2]

include le h hi hm ho hx1 hx2 hj hz hF hL hL0 hv0 hv hy in
/-- **C259.** The parallel derivative with a tracer of accuracy `ε`. -/
theorem C259_derivative {pf pb : MapPol ℝ} {d : ℝ} (hd : 0 < d)
    (hyf : e.grid.getPoloidalGrid ((j : ℝ) + (stepOf true : ℝ)) = .ok (some pf, y + d))
    (hyb : e.grid.getPoloidalGrid ((j : ℝ) + (stepOf false : ℝ)) = .ok (some pb, y - d))
    (R Z : ℝ) (hR : R = g.Rmin + x * g.dR) (hZ : Z = g.Zmin + z * g.dZ)
    (inf : ∀ q, Near ε q (φ R Z y (y + d)) → e.outside q.1 (y + d) q.2 = false ∧ StencilInside g mxg q.1)
    (inb : ∀ q, Near ε q (φ R Z y (y - d)) → e.outside q.1 (y - d) q.2 = false ∧ StencilInside g mxg q.1)
    {M : ℝ} (hf : ContDiff ℝ 3 (onLine φ F R Z y)) (hM : ∀ s ∈ Set.Icc (y - d) (y + d), |iteratedDeriv 3 (onLine φ F R Z y) s| ≤ M) :
    |(applyRow ((o.legs true).op.row ((o.legs true).legInterior (x, j, z)).toNat) v -
        applyRow ((o.legs false).op.row ((o.legs false).legInterior (x, j, z)).toNat) v) / 2 / d - deriv (onLine φ F R Z y) y| ≤
      M * d ^ 2 / 6 + (36 / 10 ^ 10 * M0 + (7 / 20 * (Mx * g.dR ^ 3) + 35 / 12 * (Mz * g.dZ ^ 3)) + 2 * L * ε) / d := by
  have a1 := C259_row le h hi jc jw hm o ho hx1 hx2 hj hz hF hL hL0 hv0 hv hy true hyf R Z hR hZ inf
  have a2 := C259_row le h hi jc jw hm o ho hx1 hx2 hj hz hF hL hL0 hv0 hv hy false hyb R Z hR hZ inb
  have a3 := stencil2_mid hf Set.ordConnected_Icc hM hd ⟨le_rfl, by linarith⟩ ⟨by linarith, le_rfl⟩
  set E := 36 / 10 ^ 10 * M0 + (7 / 20 * (Mx * g.dR ^ 3) + 35 / 12 * (Mz * g.dZ ^ 3)) + 2 * L * ε
  set A := applyRow ((o.legs true).op.row ((o.legs true).legInterior (x, j, z)).toNat) v
  set B := applyRow ((o.legs false).op.row ((o.legs false).legInterior (x, j, z)).toNat) v
  set P := onLine φ F R Z y (y + d)
  set Q := onLine φ F R Z y (y - d)
  have a4 : |(A - B) / 2 / d - (P - Q) / 2 / d| ≤ E / d := by
    have : (A - B) / 2 / d - (P - Q) / 2 / d = ((A - P) - (B - Q)) / 2 / d := by ring
    rw [this, abs_div, abs_of_pos hd]
    gcongr
    rw [abs_le] at a1 a2 ⊢
    constructor <;> linarith [a1.1, a1.2, a2.1, a2.2]
  rw [abs_le] at a3 a4 ⊢
  constructor <;> linarith [a3.1, a3.2, a4.1, a4.2]

end

theorem driftMm_half (k d : ℤ) (hd : |d| = 1) (q : Option (MapPol ℝ)) (y : ℝ) (h : driftMm.grid.getPoloidalGrid ((k : ℝ) + d * (1 / 2)) = .ok (q, y)) :
    |y - k| ≤ 1 / 2 := by
  have hy : ∀ n : ℤ, driftMm.grid.HasY n n := fun n => ⟨_, driftMm_int n⟩
  rcases (abs_eq (by norm_num : (0 : ℤ) ≤ 1)).1 hd with rfl | rfl
  · have := fractional_lookup driftMm.grid k (1 / 2) k (k + 1) (by norm_num) (by norm_num) (hy k) (by have := hy (k + 1); push_cast at this; exact this)
    rw [show ((k : ℝ) + ((1 : ℤ) : ℝ) * (1 / 2)) = k + 1 / 2 by push_cast; ring, this] at h
    injection h with h
    injection h with _ h
    rw [← h, abs_le]
    constructor <;> linarith
  · have := fractional_lookup driftMm.grid (k - 1) (1 / 2) (k - 1) k (by norm_num) (by norm_num) (by have := hy (k - 1); push_cast at this; exact this)
      (by rw [sub_add_cancel]; exact hy k)
    rw [show ((k : ℝ) + ((-1 : ℤ) : ℝ) * (1 / 2)) = ((k - 1 : ℤ) : ℝ) + 1 / 2 by push_cast; ring, this] at h
    injection h with h
    injection h with _ h
    rw [← h, abs_le]
    constructor <;> linarith

theorem driftMm_near : NearEnv driftMm driftPol driftLine (1 / 2) (1 / 100) where
  follow := driftMm_env.follow
  near := by
    intro n m R Z a b c _ _ coord h x _ z _
    rw [driftMm_env.lines] at h
    simp only [List.map_cons, List.map_nil, List.getElem?_cons_succ, List.getElem?_cons_zero, Option.some.injEq] at h
    rw [← h]
    constructor <;> norm_num
  pols := driftMm_env.pols
  half := by
    intro k d p q y y' hd h h'
    rw [driftMm_int] at h
    injection h with h
    injection h with _ h
    rw [← h]
    exact driftMm_half k d hd q y' h'
  dR := driftMm_env.dR
  dZ := driftMm_env.dZ

theorem drift_in (q : ℝ × ℝ) (s : ℝ) (hs : s = 7 / 2 ∨ s = 5 / 2) (h : Near (1 / 100) q (s, 0)) : StencilInside driftPol 1 q.1 := by
  have h1 := abs_le.1 h.1
  simp only at h1
  have e : (q.1 - driftPol.Rmin) / driftPol.dR = q.1 := by simp [driftPol]
  unfold StencilInside
  rw [e]
  rcases hs with rfl | rfl
  · have : ⌊q.1⌋ = 3 := by rw [Int.floor_eq_iff]; push_cast; constructor <;> linarith
    rw [this]; simp [driftPol]
  · have : ⌊q.1⌋ = 2 := by rw [Int.floor_eq_iff]; push_cast; constructor <;> linarith
    rw [this]; simp [driftPol]

example : ∃ m i o, makeMaps driftMm 1 1 1 1 1 ⟨fun _ => 0, fun _ _ => 0, fun _ _ => 0⟩ = .ok m ∧ ReadFrom driftMm 1 1 m driftPol.mapPol i ∧
    calculateOps (fun _ => 0) (fun _ => 0) (asMapDict driftPol.nx driftMm.grid.ny driftPol.nz 1 m) = .ok o ∧
    |(applyRow ((o.legs true).op.row ((o.legs true).legInterior (3, 0, 0)).toNat) (fun k => ramp k + 1) -
        applyRow ((o.legs false).op.row ((o.legs false).legInterior (3, 0, 0)).toNat) (fun k => ramp k + 1)) / 2 / 1 - 1 / 2| ≤
      36 / 10 ^ 10 * 5 + 2 * (1 / 100) := by
  obtain ⟨m, i, o, h, hi, ho⟩ := driftMm_all
  refine ⟨m, i, o, h, hi, ho, ?_⟩
  obtain ⟨h0, h1, h2⟩ := driftMm_here
  have hM0 : ∀ k, |ramp k + 1| ≤ 5 := by
    intro k
    have := abs_le.1 (ramp_le k)
    rw [abs_le]
    constructor <;> linarith [this.1, this.2]
  have hL : LipOn (fun R _ _ => R) 1 := by
    intro x y z x' z'
    have := abs_nonneg (z - z')
    simp only [one_mul]
    linarith
  have key := C259_derivative driftMm_near h hi _ _ (by simp [driftPol]) o ho (x := 3) (j := 0) (z := 0) (by norm_num) (by simp [driftPol]) Nat.one_pos (by simp [driftPol])
    drift_smooth hL zero_le_one hM0 (drift_cells m i o hi ho) h0 one_pos h1 h2 3 0 (by norm_num [driftPol]) (by norm_num [driftPol])
    (by
      intro q hq
      refine ⟨rfl, drift_in q _ (Or.inl rfl) ?_⟩
      have e : driftLine 3 0 0 (0 + 1) = (7 / 2, 0) := by norm_num [driftLine]
      rwa [e] at hq)
    (by
      intro q hq
      refine ⟨rfl, drift_in q _ (Or.inr rfl) ?_⟩
      have e : driftLine 3 0 0 (0 - 1) = (5 / 2, 0) := by norm_num [driftLine]
      rwa [e] at hq)
    (M := 0) (by rw [drift_along]; fun_prop) (by intro s _; rw [drift_along, line_third]; simp)
  rw [drift_along] at key
  have hd : deriv (fun s : ℝ => 1 / 2 * s + 3) 0 = 1 / 2 := by
    simp
  rw [hd] at key
  simpa using key

end Zoidberg
