import Verif.Props.ParallelOrder

/-!
# C269: second derivatives along the field
-/

set_option linter.unusedSectionVars false

namespace Zoidberg

open Weights Set

/-- Taylor's formula of degree three. -/
theorem taylor_three {f : ℝ → ℝ} (hf : ContDiff ℝ 4 f) {S : Set ℝ} (hS : S.OrdConnected) {M : ℝ} (hM : ∀ s ∈ S, |iteratedDeriv 4 f s| ≤ M) {x t : ℝ} (hx : x ∈ S)
    (hxt : x + t ∈ S) :
    |f (x + t) - (f x + deriv f x * t + iteratedDeriv 2 f x * t ^ 2 / 2 + iteratedDeriv 3 f x * t ^ 3 / 6)| ≤ M * t ^ 4 / 24 := by
  rcases eq_or_ne t 0 with rfl | ht
  · simp
  have hne : x ≠ x + t := by
    intro h
    exact ht (by linarith)
  have hu : UniqueDiffOn ℝ (uIcc x (x + t)) := uniqueDiffOn_uIcc hne
  obtain ⟨y, hy, e⟩ := taylor_mean_remainder_lagrange_iteratedDeriv (n := 3) hne (by exact_mod_cast hf.contDiffOn)
  have hw : ∀ k ≤ 3, iteratedDerivWithin k f (uIcc x (x + t)) x = iteratedDeriv k f x := fun k hk =>
    iteratedDerivWithin_eq_iteratedDeriv hu (hf.contDiffAt.of_le (by exact_mod_cast (by omega : k ≤ 4))) left_mem_uIcc
  rw [taylor_within_apply] at e
  simp only [Finset.sum_range_succ, Finset.sum_range_zero, smul_eq_mul, hw 0 (by omega), hw 1 (by omega), hw 2 (by omega), hw 3 (by omega),
    iteratedDeriv_zero, iteratedDeriv_one, add_sub_cancel_left] at e
  have e' : f (x + t) - (f x + deriv f x * t + iteratedDeriv 2 f x * t ^ 2 / 2 + iteratedDeriv 3 f x * t ^ 3 / 6) = iteratedDeriv 4 f y * t ^ 4 / 24 := by
    norm_num [Nat.factorial] at e
    linarith
  rw [e', abs_div, abs_mul, abs_of_pos (by norm_num : (0 : ℝ) < 24), abs_of_nonneg (by positivity : 0 ≤ t ^ 4)]
  have hyS : y ∈ S := hS.uIcc_subset hx hxt ⟨hy.1.le, hy.2.le⟩
  gcongr
  exact hM y hyS

/-- The second difference quotient. -/
theorem second_mid {f : ℝ → ℝ} (hf : ContDiff ℝ 4 f) {S : Set ℝ} (hS : S.OrdConnected) {M : ℝ} (hM : ∀ s ∈ S, |iteratedDeriv 4 f s| ≤ M) {x h : ℝ} (hh : 0 < h)
    (m1 : x - h ∈ S) (p1 : x + h ∈ S) : |(f (x + h) + f (x - h) - 2 * f x) / h ^ 2 - iteratedDeriv 2 f x| ≤ M * h ^ 2 / 12 := by
  have hx : x ∈ S := hS.out m1 p1 ⟨by linarith, by linarith⟩
  have t1 := taylor_three hf hS hM hx p1
  have t2 := taylor_three hf hS hM hx (t := -h) (by rw [← sub_eq_add_neg]; exact m1)
  rw [← sub_eq_add_neg] at t2
  have h2 : 0 < h ^ 2 := by positivity
  rw [div_sub' h2.ne', abs_div, abs_of_pos h2, div_le_iff₀ h2]
  rw [abs_le] at t1 t2 ⊢
  obtain ⟨a1, b1⟩ := t1
  obtain ⟨a2, b2⟩ := t2
  constructor <;> ring_nf at * <;> linarith

section

variable {e : MmEnv ℝ} {g : RectPol ℝ} {φ : ℝ → ℝ → ℝ → ℝ → ℝ × ℝ} (le : LineEnv e g φ)
  {mxg r nc : ℕ} {empty : JState ℝ} {m : ODict (MapVal ℝ)} (h : makeMaps e 1 mxg 1 r nc empty = .ok m)
  {i : Input ℝ} (hi : ReadFrom e mxg 1 m g.mapPol i) (jc : ℕ → ℤ) (jw : ℕ → ℝ) (hm : 2 * mxg ≤ g.nx) (o : Ops ℝ)
  (ho : calculateOps jc jw (asMapDict g.nx e.grid.ny g.nz 1 m) = .ok o)
  {x j z : ℕ} (hx1 : mxg ≤ x) (hx2 : x + mxg < g.nx) (hj : j < e.grid.ny) (hz : z < g.nz)
  {F : ℝ → ℝ → ℝ → ℝ} {Mx Mz : ℝ} (hF : SmoothOn e g F Mx Mz) {v : ℤ → ℝ} {M0 : ℝ} (hv0 : ∀ k, |v k| ≤ M0) (hv : OnCells e g mxg o F v)
  {pol : MapPol ℝ} {y : ℝ} (hy : e.grid.getPoloidalGrid (j : ℝ) = .ok (some pol, y))

include le h hi hm ho hx1 hx2 hj hz hF hv0 hv hy in
/-- **C269 (partial).** Where both ends are inside, the second difference of the rows is the second derivative along the field line, up to the square of the
distance of the planes and the error of the interpolation divided by that square.  Missing: next to the edge of the grid (`C269_fails`). -/
theorem C269_partial {pf pb : MapPol ℝ} {d : ℝ} (hd : 0 < d)
    (hyf : e.grid.getPoloidalGrid ((j : ℝ) + (stepOf true : ℝ)) = .ok (some pf, y + d))
    (hyb : e.grid.getPoloidalGrid ((j : ℝ) + (stepOf false : ℝ)) = .ok (some pb, y - d))
    (R Z : ℝ) (hR : R = g.Rmin + x * g.dR) (hZ : Z = g.Zmin + z * g.dZ) (h0 : φ R Z y y = (R, Z))
    (inf : e.outside (φ R Z y (y + d)).1 (y + d) (φ R Z y (y + d)).2 = false) (stf : StencilInside g mxg (φ R Z y (y + d)).1)
    (inb : e.outside (φ R Z y (y - d)).1 (y - d) (φ R Z y (y - d)).2 = false) (stb : StencilInside g mxg (φ R Z y (y - d)).1)
    {M : ℝ} (hf : ContDiff ℝ 4 (onLine φ F R Z y)) (hM : ∀ s ∈ Set.Icc (y - d) (y + d), |iteratedDeriv 4 (onLine φ F R Z y) s| ≤ M) :
    |(applyRow ((o.legs true).op.row ((o.legs true).legInterior (x, j, z)).toNat) v +
        applyRow ((o.legs false).op.row ((o.legs false).legInterior (x, j, z)).toNat) v - 2 * v (o.cellNumber (x, j, z))) / d ^ 2 -
        iteratedDeriv 2 (onLine φ F R Z y) y| ≤
      M * d ^ 2 / 12 + (72 / 10 ^ 10 * M0 + (7 / 10 * (Mx * g.dR ^ 3) + 35 / 6 * (Mz * g.dZ ^ 3))) / d ^ 2 := by
  have a1 := C257_row le h hi jc jw hm o ho hx1 hx2 hj hz hF hv0 hv hy true hyf R Z hR hZ inf stf
  have a2 := C257_row le h hi jc jw hm o ho hx1 hx2 hj hz hF hv0 hv hy false hyb R Z hR hZ inb stb
  have a3 := second_mid hf Set.ordConnected_Icc hM hd ⟨le_rfl, by linarith⟩ ⟨by linarith, le_rfl⟩
  have hc : v (o.cellNumber (x, j, z)) = onLine φ F R Z y y := by
    rw [hv j pol y hj hy x z hx1 hx2 hz, ← hR, ← hZ]
    unfold onLine
    rw [h0]
  rw [hc]
  set A := applyRow ((o.legs true).op.row ((o.legs true).legInterior (x, j, z)).toNat) v
  set B := applyRow ((o.legs false).op.row ((o.legs false).legInterior (x, j, z)).toNat) v
  set P := onLine φ F R Z y (y + d)
  set Q := onLine φ F R Z y (y - d)
  set C := onLine φ F R Z y y
  have hd2 : 0 < d ^ 2 := by positivity
  have a4 : |(A + B - 2 * C) / d ^ 2 - (P + Q - 2 * C) / d ^ 2| ≤ (72 / 10 ^ 10 * M0 + (7 / 10 * (Mx * g.dR ^ 3) + 35 / 6 * (Mz * g.dZ ^ 3))) / d ^ 2 := by
    rw [← sub_div, abs_div, abs_of_pos hd2]
    gcongr
    rw [abs_le] at a1 a2 ⊢
    constructor <;> linarith [a1.1, a1.2, a2.1, a2.2]
  rw [abs_le] at a3 a4 ⊢
  constructor <;> linarith [a3.1, a3.2, a4.1, a4.2]

end

/-- The full claim: also next to the edge of the grid, wherever both ends stay in the evolving region. -/
def SecondRight : Prop := ∃ C : ℝ, ∀ (e : MmEnv ℝ) (g : RectPol ℝ) (φ : ℝ → ℝ → ℝ → ℝ → ℝ × ℝ) (mxg r nc : ℕ) (empty : JState ℝ) (m : ODict (MapVal ℝ)) (i : Input ℝ)
    (o : Ops ℝ) (x j z : ℕ) (F : ℝ → ℝ → ℝ → ℝ) (Mx Mz : ℝ) (v : ℤ → ℝ) (M0 : ℝ) (pol pf pb : MapPol ℝ) (y d R Z M : ℝ),
    LineEnv e g φ → makeMaps e 1 mxg 1 r nc empty = .ok m → ReadFrom e mxg 1 m g.mapPol i → 2 * mxg ≤ g.nx →
    calculateOps (fun _ => 0) (fun _ => 0) (asMapDict g.nx e.grid.ny g.nz 1 m) = .ok o → mxg ≤ x → x + mxg < g.nx → j < e.grid.ny → z < g.nz →
    SmoothOn e g F Mx Mz → (∀ k, |v k| ≤ M0) → OnCells e g mxg o F v → e.grid.getPoloidalGrid (j : ℝ) = .ok (some pol, y) → 0 < d →
    e.grid.getPoloidalGrid ((j : ℝ) + (stepOf true : ℝ)) = .ok (some pf, y + d) → e.grid.getPoloidalGrid ((j : ℝ) + (stepOf false : ℝ)) = .ok (some pb, y - d) →
    R = g.Rmin + x * g.dR → Z = g.Zmin + z * g.dZ →
    e.outside (φ R Z y (y + d)).1 (y + d) (φ R Z y (y + d)).2 = false → ¬ i.Escapes (((φ R Z y (y + d)).1 - g.Rmin) / g.dR) →
    e.outside (φ R Z y (y - d)).1 (y - d) (φ R Z y (y - d)).2 = false → ¬ i.Escapes (((φ R Z y (y - d)).1 - g.Rmin) / g.dR) →
    ContDiff ℝ 4 (onLine φ F R Z y) → (∀ s ∈ Set.Icc (y - d) (y + d), |iteratedDeriv 4 (onLine φ F R Z y) s| ≤ M) →
    |(applyRow ((o.legs true).op.row ((o.legs true).legInterior (x, j, z)).toNat) v +
        applyRow ((o.legs false).op.row ((o.legs false).legInterior (x, j, z)).toNat) v - 2 * v (o.cellNumber (x, j, z))) / d ^ 2 -
        iteratedDeriv 2 (onLine φ F R Z y) y| ≤
      C * (M * d ^ 2) + (72 / 10 ^ 10 * M0 + C * (Mx * g.dR ^ 3 + Mz * g.dZ ^ 3)) / d ^ 2

/-- Derivatives of a straight line. -/
theorem line_higher (n : ℕ) (hn : 2 ≤ n) (a b x : ℝ) : iteratedDeriv n (fun x : ℝ => a * x + b) x = 0 := by
  obtain ⟨k, rfl⟩ := Nat.exists_eq_add_of_le' hn
  have h1 : deriv (fun x : ℝ => a * x + b) = fun _ => a := by
    funext y
    simp
  rw [show k + 2 = (k + 1) + 1 by rfl, iteratedDeriv_succ', h1]
  simp [iteratedDeriv_const]

/-- **C269 is false next to the edge of the grid**: the second derivative of a straight line is not zero there. -/
theorem C269_fails : ¬ SecondRight := by
  rintro ⟨C, hall⟩
  obtain ⟨m, i, o, h, hi, ho⟩ := driftMm_all
  obtain ⟨h0, h1, h2⟩ := driftMm_here
  have hnx : i.nx = 7 := hi.enx
  have hny : i.ny = 1 := hi.eny
  have hnz : i.nz = 1 := hi.enz
  have hmx : i.mxg = 1 := hi.emxg
  have hn : i.n = 1 := by rw [hi.en]; norm_num
  have hcells := drift_cells m i o hi ho
  have hM0 : ∀ k, |ramp k + 1| ≤ 5 := by
    intro k
    have := abs_le.1 (ramp_le k)
    rw [abs_le]
    constructor <;> linarith [this.1, this.2]
  have esc : ∀ t : ℝ, 1 ≤ t → t ≤ 5 → ¬ i.Escapes t := by
    intro t a b
    unfold Input.Escapes
    rw [hnx, hmx, not_or, not_lt, not_lt]
    push_cast
    constructor <;> linarith
  have key := hall driftMm driftPol driftLine 1 1 1 _ m i o 2 0 0 (fun R _ _ => R) 0 0 (fun k => ramp k + 1) 5 _ _ _ 0 1 2 0 0 driftMm_env h hi
    (by simp [driftPol]) ho (by norm_num) (by simp [driftPol]) Nat.one_pos (by simp [driftPol]) drift_smooth hM0 hcells h0 one_pos h1 h2
    (by norm_num [driftPol]) (by norm_num [driftPol]) rfl (esc _ (by norm_num [driftPol, driftLine]) (by norm_num [driftPol, driftLine])) rfl
    (esc _ (by norm_num [driftPol, driftLine]) (by norm_num [driftPol, driftLine]))
    (by rw [drift_along]; fun_prop) (by intro s _; rw [drift_along, line_higher 4 (by norm_num)]; simp)
  have fw := C257_row driftMm_env h hi _ _ (by simp [driftPol]) o ho (x := 2) (j := 0) (z := 0) (by norm_num) (by simp [driftPol]) Nat.one_pos (by simp [driftPol])
    drift_smooth hM0 hcells h0 true h1 2 0 (by norm_num [driftPol]) (by norm_num [driftPol]) rfl (by
      have : ⌊(5 / 2 : ℝ)⌋ = 2 := by norm_num [Int.floor_eq_iff]
      have e : ((driftLine 2 0 0 (0 + 1)).1 - driftPol.Rmin) / driftPol.dR = 5 / 2 := by norm_num [driftLine, driftPol]
      unfold StencilInside
      rw [e, this]
      simp [driftPol])
  rw [drift_along] at key fw
  have hpos : i.xs false (2, 0, 0) 0 = 3 / 2 ∧ i.zs false (2, 0, 0) 0 = 0 := by
    obtain ⟨pol, y', t, yt', g1, g2, g3⟩ := C207_positions driftMm driftMm_env.follow _ driftMm_env.lines 1 1 1 _ m h _ i hi false 0 Nat.one_pos
    rw [h0] at g1
    injection g1 with g1
    injection g1 with ga gb
    injection ga with ga
    subst ga gb
    rw [h2] at g2
    injection g2 with g2
    injection g2 with ga gb
    subst ga gb
    have q := g3 2 0
    have a := congrArg Prod.fst q
    have b := congrArg Prod.snd q
    simp only [driftMm, Bool.false_eq_true, if_false, RectPol.mapPol, RectPol.pol, RectPol.findIndex, driftLine, driftPol] at a b
    rw [a, b]
    norm_num
  have hs : i.SomeStay false (2, 0, 0) := ⟨0, by omega, by rw [hpos.1]; exact esc _ (by norm_num) (by norm_num)⟩
  have hsg : i.staying false (2, 0, 0) = {0} := by
    unfold Input.staying
    rw [hn]
    ext t
    simp only [Finset.mem_filter, Finset.mem_range, Finset.mem_singleton]
    constructor
    · rintro ⟨h, -⟩; omega
    · rintro rfl; exact ⟨by omega, by rw [hpos.1]; exact esc _ (by norm_num) (by norm_num)⟩
  have hw0 : 0 < i.w.getD 0 0 := by
    have hl : 0 < i.w.length := by rw [hi.good.len, hn]; norm_num
    rw [List.getD_eq_getElem _ _ hl]
    exact hi.good.pos _ (List.getElem_mem hl)
  have hc : i.Interior (2, 0, 0) := ⟨by rw [hmx]; norm_num, by rw [hmx, hnx]; norm_num, by rw [hny]; norm_num, by rw [hnz]; norm_num⟩
  have bw := row_any_skip _ _ _ i hi.repr (by rw [hmx, hnx]; norm_num) hi.good o ho false (2, 0, 0) hc hs (fun k => ramp k + 1) 5 hM0
  rw [hsg, Finset.sum_singleton, Finset.sum_singleton, mul_comm (i.w.getD 0 0), mul_div_assoc, div_self hw0.ne', mul_one, hpos.1, hpos.2] at bw
  have hpl : i.plane false 0 = 0 := by unfold Input.plane; rw [hny]; simp
  have val : ∀ ix : ℕ, 1 ≤ ix → ix + 1 < 7 → ramp (o.cellNumber (ix, 0, 0)) + 1 = ix := by
    intro ix a b
    have := hcells 0 _ 0 Nat.one_pos h0 ix 0 a b Nat.one_pos
    simp only [driftPol] at this
    rw [this]
    ring
  have itp : i.interpFrom (fun d => ramp (o.cellNumber d) + 1) (i.plane false 0) (3 / 2) (pyInt (0 : ℝ)) (0 - ((pyInt (0 : ℝ) : ℤ) : ℝ)) = 23 / 16 := by
    have f1 : ⌊(3 / 2 : ℝ)⌋ = 1 := by norm_num [Int.floor_eq_iff]
    have f2 : pyInt (0 : ℝ) = 0 := by simp [pyInt]
    have c0 : i.clampX (1 + -1) = 1 := by unfold Input.clampX; rw [hmx, hnx]; rfl
    have c1 : i.clampX (1 + 0) = 1 := by unfold Input.clampX; rw [hmx, hnx]; rfl
    have c2 : i.clampX (1 + 1) = 2 := by unfold Input.clampX; rw [hmx, hnx]; rfl
    have c3 : i.clampX (1 + 2) = 3 := by unfold Input.clampX; rw [hmx, hnx]; rfl
    have hz : ∀ k : ℤ, (k % ((i.nz : ℕ) : ℤ)).toNat = 0 := fun k => by rw [hnz]; simp
    unfold Input.interpFrom
    simp only [f1, f2, hz, hpl]
    unfold catmullRomSpline
    simp only [c0, c1, c2, c3, val 1 (by norm_num) (by norm_num), val 2 (by norm_num) (by norm_num), val 3 (by norm_num) (by norm_num)]
    norm_num
  rw [itp] at bw
  have hd : iteratedDeriv 2 (fun s : ℝ => 1 / 2 * s + 2) 0 = 0 := line_higher 2 (by norm_num) _ _ _
  have hv2 := val 2 (by norm_num) (by norm_num)
  rw [hd, hv2] at key
  rw [abs_le] at key fw bw
  norm_num at key fw bw
  linarith [key.1, key.2, fw.1, fw.2, bw.1, bw.2]

/-- A case for C269: one cell further in, the second derivative of the straight line vanishes. -/
example : ∃ m i o, makeMaps driftMm 1 1 1 1 1 ⟨fun _ => 0, fun _ _ => 0, fun _ _ => 0⟩ = .ok m ∧ ReadFrom driftMm 1 1 m driftPol.mapPol i ∧
    calculateOps (fun _ => 0) (fun _ => 0) (asMapDict driftPol.nx driftMm.grid.ny driftPol.nz 1 m) = .ok o ∧
    |applyRow ((o.legs true).op.row ((o.legs true).legInterior (3, 0, 0)).toNat) (fun k => ramp k + 1) +
        applyRow ((o.legs false).op.row ((o.legs false).legInterior (3, 0, 0)).toNat) (fun k => ramp k + 1) - 2 * (ramp (o.cellNumber (3, 0, 0)) + 1)| ≤
      72 / 10 ^ 10 * 5 := by
  obtain ⟨m, i, o, h, hi, ho⟩ := driftMm_all
  refine ⟨m, i, o, h, hi, ho, ?_⟩
  obtain ⟨h0, h1, h2⟩ := driftMm_here
  have hM0 : ∀ k, |ramp k + 1| ≤ 5 := by
    intro k
    have := abs_le.1 (ramp_le k)
    rw [abs_le]
    constructor <;> linarith [this.1, this.2]
  have key := C269_partial driftMm_env h hi _ _ (by simp [driftPol]) o ho (x := 3) (j := 0) (z := 0) (by norm_num) (by simp [driftPol]) Nat.one_pos (by simp [driftPol])
    drift_smooth hM0 (drift_cells m i o hi ho) h0 one_pos h1 h2 3 0 (by norm_num [driftPol]) (by norm_num [driftPol]) (by simp [driftLine]) rfl (by
      have : ⌊(7 / 2 : ℝ)⌋ = 3 := by norm_num [Int.floor_eq_iff]
      have e : ((driftLine 3 0 0 (0 + 1)).1 - driftPol.Rmin) / driftPol.dR = 7 / 2 := by norm_num [driftLine, driftPol]
      unfold StencilInside
      rw [e, this]
      simp [driftPol]) rfl (by
      have : ⌊(5 / 2 : ℝ)⌋ = 2 := by norm_num [Int.floor_eq_iff]
      have e : ((driftLine 3 0 0 (0 - 1)).1 - driftPol.Rmin) / driftPol.dR = 5 / 2 := by norm_num [driftLine, driftPol]
      unfold StencilInside
      rw [e, this]
      simp [driftPol]) (M := 0) (by rw [drift_along]; fun_prop) (by intro s _; rw [drift_along, line_higher 4 (by norm_num)]; simp)
  rw [drift_along, line_higher 2 (by norm_num)] at key
  simpa using key

end Zoidberg
