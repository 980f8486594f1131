import Verif.Props.WeightsAnyZ
import Verif.Props.WeightsCells
import Verif.Props.DiffOrder

/-!
# C232: order of the interpolation of the parallel operators
-/

set_option linter.unusedSectionVars false

namespace Zoidberg.Weights

/-- The weights of the spline are bounded by 5/4 in sum. -/
theorem spline_le {p : ℤ → ℝ} {B u : ℝ} (h0 : 0 ≤ u) (h1 : u ≤ 1) (hp : ∀ k, -1 ≤ k → k ≤ 2 → |p k| ≤ B) : |catmullRomSpline p u| ≤ 5 / 4 * B := by
  have e : catmullRomSpline p u = -(u * (1 - u) ^ 2 / 2) * p (-1) + (1 - 5 / 2 * u ^ 2 + 3 / 2 * u ^ 3) * p 0 + (u / 2 + 2 * u ^ 2 - 3 / 2 * u ^ 3) * p 1 -
      (u ^ 2 * (1 - u) / 2) * p 2 := by
    unfold catmullRomSpline
    ring
  have a0 := abs_le.1 (hp (-1) (by norm_num) (by norm_num))
  have a1 := abs_le.1 (hp 0 (by norm_num) (by norm_num))
  have a2 := abs_le.1 (hp 1 (by norm_num) (by norm_num))
  have a3 := abs_le.1 (hp 2 (by norm_num) (by norm_num))
  have hB : 0 ≤ B := le_trans (abs_nonneg _) (hp 0 (by norm_num) (by norm_num))
  have w0 : 0 ≤ u * (1 - u) ^ 2 / 2 := by positivity
  have w1 : 0 ≤ 1 - 5 / 2 * u ^ 2 + 3 / 2 * u ^ 3 := by nlinarith [mul_nonneg h0 (sub_nonneg.2 h1), sq_nonneg (1 - u), mul_nonneg h0 (sq_nonneg (1 - u))]
  have w2 : 0 ≤ u / 2 + 2 * u ^ 2 - 3 / 2 * u ^ 3 := by nlinarith [mul_nonneg h0 (sub_nonneg.2 h1), mul_nonneg (sq_nonneg u) (sub_nonneg.2 h1)]
  have w3 : 0 ≤ u ^ 2 * (1 - u) / 2 := by
    have := sub_nonneg.2 h1
    positivity
  have ws : u * (1 - u) ^ 2 / 2 + (1 - 5 / 2 * u ^ 2 + 3 / 2 * u ^ 3) + (u / 2 + 2 * u ^ 2 - 3 / 2 * u ^ 3) + u ^ 2 * (1 - u) / 2 ≤ 5 / 4 := by
    nlinarith [sq_nonneg (u - 1 / 2)]
  rw [e, abs_le]
  constructor
  · nlinarith [mul_le_mul_of_nonneg_left a0.2 w0, mul_le_mul_of_nonneg_left a1.1 w1, mul_le_mul_of_nonneg_left a2.1 w2, mul_le_mul_of_nonneg_left a3.2 w3,
      mul_le_mul_of_nonneg_right ws hB]
  · nlinarith [mul_le_mul_of_nonneg_left a0.1 w0, mul_le_mul_of_nonneg_left a1.2 w1, mul_le_mul_of_nonneg_left a2.2 w2, mul_le_mul_of_nonneg_left a3.1 w3,
      mul_le_mul_of_nonneg_right ws hB]

theorem spline_sub (p q : ℤ → ℝ) (u : ℝ) : catmullRomSpline p u - catmullRomSpline q u = catmullRomSpline (fun k => p k - q k) u := by
  unfold catmullRomSpline
  ring

/-- The spline through samples of a smooth function is right up to the third power of the distance. -/
theorem spline_order {f : ℝ → ℝ} (hf : ContDiff ℝ 3 f) {M : ℝ} (hM : ∀ s, |iteratedDeriv 3 f s| ≤ M) (a : ℝ) {h u : ℝ} (hh : 0 ≤ h) (h0 : 0 ≤ u) (h1 : u ≤ 1) :
    |catmullRomSpline (fun k => f (a + k * h)) u - f (a + u * h)| ≤ 7 / 20 * (M * h ^ 3) := by
  have hS : (Set.univ : Set ℝ).OrdConnected := Set.ordConnected_univ
  have t0 := taylor_two hf hS (M := M) (fun s _ => hM s) (Set.mem_univ a) (t := -h) (Set.mem_univ _)
  have t1 := taylor_two hf hS (M := M) (fun s _ => hM s) (Set.mem_univ a) (t := h) (Set.mem_univ _)
  have t2 := taylor_two hf hS (M := M) (fun s _ => hM s) (Set.mem_univ a) (t := 2 * h) (Set.mem_univ _)
  have t3 := taylor_two hf hS (M := M) (fun s _ => hM s) (Set.mem_univ a) (t := u * h) (Set.mem_univ _)
  rw [abs_neg, abs_of_nonneg hh] at t0
  rw [abs_of_nonneg hh] at t1
  rw [abs_of_nonneg (by positivity : 0 ≤ 2 * h)] at t2
  rw [abs_of_nonneg (by positivity : 0 ≤ u * h)] at t3
  have hM0 : 0 ≤ M := le_trans (abs_nonneg _) (hM 0)
  set r0 := f (a + -h) - (f a + deriv f a * (-h) + iteratedDeriv 2 f a * (-h) ^ 2 / 2) with e0
  set r1 := f (a + h) - (f a + deriv f a * h + iteratedDeriv 2 f a * h ^ 2 / 2) with e1
  set r2 := f (a + 2 * h) - (f a + deriv f a * (2 * h) + iteratedDeriv 2 f a * (2 * h) ^ 2 / 2) with e2
  set r3 := f (a + u * h) - (f a + deriv f a * (u * h) + iteratedDeriv 2 f a * (u * h) ^ 2 / 2) with e3
  have e : catmullRomSpline (fun k => f (a + k * h)) u - f (a + u * h) =
      -(u * (1 - u) ^ 2 / 2) * r0 + (u / 2 + 2 * u ^ 2 - 3 / 2 * u ^ 3) * r1 - (u ^ 2 * (1 - u) / 2) * r2 - r3 := by
    rw [e0, e1, e2, e3]
    unfold catmullRomSpline
    have s0 : a + ((-1 : ℤ) : ℝ) * h = a + -h := by push_cast; ring
    have s1 : a + ((0 : ℤ) : ℝ) * h = a := by push_cast; ring
    have s2 : a + ((1 : ℤ) : ℝ) * h = a + h := by push_cast; ring
    have s3 : a + ((2 : ℤ) : ℝ) * h = a + 2 * h := by push_cast; ring
    simp only [s0, s1, s2, s3]
    ring
  have w0 : 0 ≤ u * (1 - u) ^ 2 / 2 := by positivity
  have w2 : 0 ≤ u / 2 + 2 * u ^ 2 - 3 / 2 * u ^ 3 := by nlinarith [mul_nonneg h0 (sub_nonneg.2 h1), mul_nonneg (sq_nonneg u) (sub_nonneg.2 h1)]
  have w3 : 0 ≤ u ^ 2 * (1 - u) / 2 := by
    have := sub_nonneg.2 h1
    positivity
  have hw : u + 5 * u ^ 2 - 4 * u ^ 3 ≤ 21 / 10 := by
    nlinarith [mul_nonneg h0 (sq_nonneg (u - 9 / 10)), sq_nonneg (u - 9 / 10), sq_nonneg (u - 1)]
  have hP : 0 ≤ M * h ^ 3 := by positivity
  have q := mul_le_mul_of_nonneg_right hw hP
  have m0 : |u * (1 - u) ^ 2 / 2 * r0| ≤ u * (1 - u) ^ 2 / 2 * (M * h ^ 3 / 6) := by
    rw [abs_mul, abs_of_nonneg w0]
    exact mul_le_mul_of_nonneg_left t0 w0
  have m1 : |(u / 2 + 2 * u ^ 2 - 3 / 2 * u ^ 3) * r1| ≤ (u / 2 + 2 * u ^ 2 - 3 / 2 * u ^ 3) * (M * h ^ 3 / 6) := by
    rw [abs_mul, abs_of_nonneg w2]
    exact mul_le_mul_of_nonneg_left t1 w2
  have m2 : |u ^ 2 * (1 - u) / 2 * r2| ≤ u ^ 2 * (1 - u) / 2 * (M * (2 * h) ^ 3 / 6) := by
    rw [abs_mul, abs_of_nonneg w3]
    exact mul_le_mul_of_nonneg_left t2 w3
  have tot : u * (1 - u) ^ 2 / 2 * (M * h ^ 3 / 6) + (u / 2 + 2 * u ^ 2 - 3 / 2 * u ^ 3) * (M * h ^ 3 / 6) + u ^ 2 * (1 - u) / 2 * (M * (2 * h) ^ 3 / 6) +
      M * (u * h) ^ 3 / 6 = (u + 5 * u ^ 2 - 4 * u ^ 3) * (M * h ^ 3) / 6 := by ring
  clear_value r0 r1 r2 r3
  rw [abs_le] at m0 m1 m2 t3
  rw [e, abs_le]
  constructor <;> linarith [m0.1, m0.2, m1.1, m1.2, m2.1, m2.2, t3.1, t3.2]

/-- The interpolation in both directions. -/
theorem interp_order (i : Input ℝ) (v : Cell → ℝ) (y : ℕ) (G : ℝ → ℝ → ℝ) (x0 z0 hx hz Mx Mz : ℝ) (hhx : 0 ≤ hx) (hhz : 0 ≤ hz)
    (gx : ∀ z, ContDiff ℝ 3 fun x => G x z) (gz : ∀ x, ContDiff ℝ 3 (G x)) (bx : ∀ x z, |iteratedDeriv 3 (fun x => G x z) x| ≤ Mx)
    (bz : ∀ x z, |iteratedDeriv 3 (G x) z| ≤ Mz) (hper : ∀ x z, G x (z + i.nz * hz) = G x z) (hnz : 0 < i.nz)
    (hv : ∀ ix iz, i.mxg ≤ ix → ix + i.mxg < i.nx → iz < i.nz → v (ix, y, iz) = G (x0 + ix * hx) (z0 + iz * hz))
    (x z : ℝ) (hl : (i.mxg : ℤ) + 1 ≤ ⌊x⌋) (hr : ⌊x⌋ + 3 + i.mxg ≤ (i.nx : ℤ)) :
    |i.interp v y x z - G (x0 + x * hx) (z0 + z * hz)| ≤ 7 / 20 * (Mx * hx ^ 3) + 7 / 16 * (Mz * hz ^ 3) := by
  have hperZ : ∀ (x z : ℝ) (m : ℤ), G x (z + m * (i.nz * hz)) = G x z := by
    intro x z m
    induction m using Int.induction_on generalizing z with
    | zero => simp
    | succ m ih => rw [← ih z, show z + ((m : ℤ) + 1 : ℤ) * (i.nz * hz) = z + ((m : ℤ) : ℝ) * (i.nz * hz) + i.nz * hz by push_cast; ring, hper]
    | pred m ih => rw [← ih z, ← hper x (z + _), show z + (-(m : ℤ) - 1 : ℤ) * (i.nz * hz) + i.nz * hz = z + ((-(m : ℤ) : ℤ) : ℝ) * (i.nz * hz) by push_cast; ring]
  have ux0 : 0 ≤ x - (⌊x⌋ : ℝ) := by have := Int.floor_le x; linarith
  have ux1 : x - (⌊x⌋ : ℝ) ≤ 1 := by have := Int.lt_floor_add_one x; linarith
  have uz0 : 0 ≤ z - (⌊z⌋ : ℝ) := by have := Int.floor_le z; linarith
  have uz1 : z - (⌊z⌋ : ℝ) ≤ 1 := by have := Int.lt_floor_add_one z; linarith
  have hval : ∀ ox oz : ℤ, -1 ≤ ox → ox ≤ 2 → v (i.clampX (⌊x⌋ + ox), y, ((⌊z⌋ + oz) % (i.nz : ℤ)).toNat) =
      G (x0 + ⌊x⌋ * hx + ox * hx) (z0 + ⌊z⌋ * hz + oz * hz) := by
    intro ox oz h1 h2
    have hc : ((i.clampX (⌊x⌋ + ox) : ℕ) : ℤ) = ⌊x⌋ + ox := by
      unfold Input.clampX
      omega
    have hm0 := Int.emod_nonneg (⌊z⌋ + oz) (by omega : (i.nz : ℤ) ≠ 0)
    have hm1 := Int.emod_lt_of_pos (⌊z⌋ + oz) (by omega : (0 : ℤ) < i.nz)
    have hdm := Int.emod_add_mul_ediv (⌊z⌋ + oz) i.nz
    rw [hv _ _ (by omega) (by omega) (by omega)]
    have c1 : ((i.clampX (⌊x⌋ + ox) : ℕ) : ℝ) = (⌊x⌋ : ℝ) + ox := by exact_mod_cast hc
    have c2 : ((((⌊z⌋ + oz) % (i.nz : ℤ)).toNat : ℕ) : ℝ) = (((⌊z⌋ + oz) % (i.nz : ℤ) : ℤ) : ℝ) := by
      exact_mod_cast Int.toNat_of_nonneg hm0
    have c3 : (((⌊z⌋ + oz) % (i.nz : ℤ) : ℤ) : ℝ) = (⌊z⌋ : ℝ) + oz - i.nz * (((⌊z⌋ + oz) / (i.nz : ℤ) : ℤ) : ℝ) := by
      have : (⌊z⌋ + oz) % (i.nz : ℤ) = ⌊z⌋ + oz - i.nz * ((⌊z⌋ + oz) / (i.nz : ℤ)) := by linarith
      exact_mod_cast this
    rw [c1, c2, c3, ← hperZ _ (z0 + _) ((⌊z⌋ + oz) / (i.nz : ℤ))]
    congr 1 <;> ring
  unfold Input.interp
  dsimp only
  have hx' : x0 + x * hx = x0 + ⌊x⌋ * hx + (x - ⌊x⌋) * hx := by ring
  have hz' : z0 + z * hz = z0 + ⌊z⌋ * hz + (z - ⌊z⌋) * hz := by ring
  rw [hx', hz']
  have s1 := spline_order (gx (z0 + ⌊z⌋ * hz + (z - ⌊z⌋) * hz)) (fun s => bx s _) (x0 + ⌊x⌋ * hx) hhx ux0 ux1
  have s2 : |catmullRomSpline (fun ox => catmullRomSpline (fun oz => v (i.clampX (⌊x⌋ + ox), y, ((⌊z⌋ + oz) % (i.nz : ℤ)).toNat)) (z - ⌊z⌋)) (x - ⌊x⌋) -
      catmullRomSpline (fun k : ℤ => G (x0 + ⌊x⌋ * hx + k * hx) (z0 + ⌊z⌋ * hz + (z - ⌊z⌋) * hz)) (x - ⌊x⌋)| ≤ 5 / 4 * (7 / 20 * (Mz * hz ^ 3)) := by
    rw [spline_sub]
    apply spline_le ux0 ux1
    intro k hk1 hk2
    simp only [hval k _ hk1 hk2]
    exact spline_order (gz _) (fun s => bz _ s) (z0 + ⌊z⌋ * hz) hhz uz0 uz1
  rw [abs_le] at s1 s2 ⊢
  constructor <;> linarith [s1.1, s1.2, s2.1, s2.2]

/-- **C232.** Where the stencils are inside the evolving region and the z indices are not negative, a row of the operator gives the average of a smooth function
over the ends of the field lines, up to the third power of the grid spacings (and the weights that are skipped). -/
theorem C232_partial (jc : ℕ → ℤ) (jw : ℕ → ℝ) (maps : MapDict ℝ) (i : Input ℝ) (h : Represents maps i) (hm : 2 * i.mxg ≤ i.nx)
    (hw : i.GoodWeights) (o : Ops ℝ) (ho : calculateOps jc jw maps = .ok o) (fwd : Bool) (c : Cell) (hc : i.Interior c) (hs : i.SomeStay fwd c)
    (hz : ∀ s ∈ i.staying fwd c, 0 ≤ i.zs fwd c s)
    (hstencil : ∀ s ∈ i.staying fwd c, (i.mxg : ℤ) + 1 ≤ ⌊i.xs fwd c s⌋ ∧ ⌊i.xs fwd c s⌋ + 3 + i.mxg ≤ (i.nx : ℤ))
    (G : ℝ → ℝ → ℝ) (x0 z0 hx hz' Mx Mz : ℝ) (hhx : 0 ≤ hx) (hhz : 0 ≤ hz')
    (gx : ∀ z, ContDiff ℝ 3 fun x => G x z) (gz : ∀ x, ContDiff ℝ 3 (G x)) (bx : ∀ x z, |iteratedDeriv 3 (fun x => G x z) x| ≤ Mx)
    (bz : ∀ x z, |iteratedDeriv 3 (G x) z| ≤ Mz) (hper : ∀ x z, G x (z + i.nz * hz') = G x z)
    (v : ℤ → ℝ) (M0 : ℝ) (hv0 : ∀ k, |v k| ≤ M0)
    (hv : ∀ ix iz, i.mxg ≤ ix → ix + i.mxg < i.nx → iz < i.nz → v (o.cellNumber (ix, i.plane fwd c.2.1, iz)) = G (x0 + ix * hx) (z0 + iz * hz')) :
    |applyRow ((o.legs fwd).op.row ((o.legs fwd).legInterior c).toNat) v -
      (∑ s ∈ i.staying fwd c, i.w.getD s 0 * G (x0 + i.xs fwd c s * hx) (z0 + i.zs fwd c s * hz')) / ∑ s ∈ i.staying fwd c, i.w.getD s 0| ≤
        5 / 10 ^ 10 * M0 + (7 / 20 * (Mx * hx ^ 3) + 7 / 16 * (Mz * hz' ^ 3)) := by
  have h1 := (C13_row_is_interpolation_partial jc jw maps i h hm hw o ho fwd c hc hs hz v).1 M0 hv0
  have hnz : 0 < i.nz := by have := hc.2.2.2; omega
  have hW := staying_pos i hw fwd c hs
  have hwpos : ∀ s ∈ i.staying fwd c, 0 ≤ i.w.getD s 0 := by
    intro s hs
    have hlt : s < i.w.length := by
      rw [hw.len]
      unfold Input.staying at hs
      simpa using (Finset.mem_filter.1 hs).1
    rw [List.getD_eq_getElem _ _ hlt]
    exact (hw.pos _ (List.getElem_mem _)).le
  have h2 : |i.legAverage fwd c (fun d => v (o.cellNumber d)) -
      (∑ s ∈ i.staying fwd c, i.w.getD s 0 * G (x0 + i.xs fwd c s * hx) (z0 + i.zs fwd c s * hz')) / ∑ s ∈ i.staying fwd c, i.w.getD s 0| ≤
        7 / 20 * (Mx * hx ^ 3) + 7 / 16 * (Mz * hz' ^ 3) := by
    unfold Input.legAverage
    rw [← sub_div, ← Finset.sum_sub_distrib, abs_div, abs_of_pos hW, div_le_iff₀ hW, Finset.mul_sum]
    refine (Finset.abs_sum_le_sum_abs _ _).trans (Finset.sum_le_sum fun s hs' => ?_)
    rw [← mul_sub, abs_mul, abs_of_nonneg (hwpos s hs'), mul_comm (_ + _)]
    refine mul_le_mul_of_nonneg_left ?_ (hwpos s hs')
    exact interp_order i (fun d => v (o.cellNumber d)) (i.plane fwd c.2.1) G x0 z0 hx hz' Mx Mz hhx hhz gx gz bx bz hper hnz hv _ _ (hstencil s hs').1 (hstencil s hs').2
  rw [abs_le] at h1 h2 ⊢
  constructor <;> linarith [h1.1, h1.2, h2.1, h2.2]

/-- A grid of seven rows in X with one boundary row on each side, in which the field lines end half a cell further out. -/
noncomputable def edgeIn : Input ℝ := ⟨7, 1, 1, 1, 1, fun c _ => (c.1 : ℝ) + 1 / 2, fun _ _ => 0, fun c _ => (c.1 : ℝ) + 1 / 2, fun _ _ => 0, [1]⟩

/-- A dictionary holding `edgeIn`. -/
noncomputable def edgeMaps : MapDict ℝ := fun k =>
  if k = "R" then some (.arr3 7 1 1 fun _ => 0)
  else if k = "MXG" then some (.nat 1)
  else if k = "forward_xt_prime" then some (.arr3 7 1 1 fun c => (c.1 : ℝ) + 1 / 2)
  else if k = "forward_zt_prime" then some (.arr3 7 1 1 fun _ => 0)
  else if k = "backward_xt_prime" then some (.arr3 7 1 1 fun c => (c.1 : ℝ) + 1 / 2)
  else if k = "backward_zt_prime" then some (.arr3 7 1 1 fun _ => 0)
  else none

theorem edgeMaps_represents : Represents edgeMaps edgeIn where
  shape := ⟨fun _ => 0, by simp [edgeMaps, edgeIn]⟩
  mxg := by simp [edgeMaps, edgeIn]
  fx := Or.inr ⟨by simp [edgeMaps], rfl, _, by simp [edgeMaps, edgeIn]; rfl, rfl⟩
  fz := Or.inr ⟨by simp [edgeMaps], rfl, _, by simp [edgeMaps, edgeIn]; rfl, rfl⟩
  bx := Or.inr ⟨by simp [edgeMaps], rfl, _, by simp [edgeMaps, edgeIn]; rfl, rfl⟩
  bz := Or.inr ⟨by simp [edgeMaps], rfl, _, by simp [edgeMaps, edgeIn]; rfl, rfl⟩
  w := Or.inr ⟨by simp [edgeMaps], rfl, rfl⟩

theorem edgeIn_good : edgeIn.GoodWeights where
  len := rfl
  sum := by norm_num [edgeIn]
  pos := by intro v hv; simp [edgeIn] at hv; simp [hv]

/-- The full claim: every row of the operators interpolates smooth functions to third order. -/
def ThirdOrder : Prop := ∃ C : ℝ, ∀ (jc : ℕ → ℤ) (jw : ℕ → ℝ) (maps : MapDict ℝ) (i : Input ℝ), Represents maps i → 2 * i.mxg ≤ i.nx →
    i.GoodWeights → ∀ o : Ops ℝ, calculateOps jc jw maps = .ok o → ∀ (fwd : Bool) (c : Cell), i.Interior c → i.SomeStay fwd c →
    (∀ s ∈ i.staying fwd c, 0 ≤ i.zs fwd c s) →
    ∀ (G : ℝ → ℝ → ℝ) (x0 z0 hx hz Mx Mz : ℝ), 0 ≤ hx → 0 ≤ hz → (∀ z, ContDiff ℝ 3 fun x => G x z) → (∀ x, ContDiff ℝ 3 (G x)) →
    (∀ x z, |iteratedDeriv 3 (fun x => G x z) x| ≤ Mx) → (∀ x z, |iteratedDeriv 3 (G x) z| ≤ Mz) → (∀ x z, G x (z + i.nz * hz) = G x z) →
    ∀ (v : ℤ → ℝ) (M0 : ℝ), (∀ k, |v k| ≤ M0) →
    (∀ ix iz, i.mxg ≤ ix → ix + i.mxg < i.nx → iz < i.nz → v (o.cellNumber (ix, i.plane fwd c.2.1, iz)) = G (x0 + ix * hx) (z0 + iz * hz)) →
    |applyRow ((o.legs fwd).op.row ((o.legs fwd).legInterior c).toNat) v -
      (∑ s ∈ i.staying fwd c, i.w.getD s 0 * G (x0 + i.xs fwd c s * hx) (z0 + i.zs fwd c s * hz)) / ∑ s ∈ i.staying fwd c, i.w.getD s 0| ≤
        5 / 10 ^ 10 * M0 + C * (Mx * hx ^ 3 + Mz * hz ^ 3)

theorem edge_stay (fwd : Bool) (c : Cell) (h0 : 1 ≤ c.1) (h1 : c.1 < 5) : edgeIn.staying fwd c = {0} := by
  ext s
  have a : (1 : ℝ) ≤ c.1 := by exact_mod_cast h0
  have b : (c.1 : ℝ) ≤ 4 := by exact_mod_cast (by omega : c.1 ≤ 4)
  have e : edgeIn.xs fwd c s = (c.1 : ℝ) + 1 / 2 := by cases fwd <;> rfl
  simp only [Input.staying, Finset.mem_filter, Finset.mem_range, Finset.mem_singleton, Input.Escapes, e, not_or, not_lt]
  constructor
  · rintro ⟨h, _⟩
    simp [edgeIn] at h
    exact h
  · rintro rfl
    refine ⟨by simp [edgeIn], ?_, ?_⟩ <;> norm_num [edgeIn] <;> linarith

theorem line_third (a b : ℝ) (x : ℝ) : iteratedDeriv 3 (fun x : ℝ => a * x + b) x = 0 := by
  have h1 : deriv (fun x : ℝ => a * x + b) = fun _ => a := by
    funext y
    simp
  rw [iteratedDeriv_succ', h1]
  simp [iteratedDeriv_const]

/-- The values of a straight line on the rows of the grid. -/
noncomputable def ramp (k : ℤ) : ℝ := if 0 ≤ k ∧ k ≤ 4 then (k : ℝ) else 0

theorem ramp_le (k : ℤ) : |ramp k| ≤ 4 := by
  unfold ramp
  split_ifs with h
  · have a : (0 : ℝ) ≤ k := by exact_mod_cast h.1
    have b : (k : ℝ) ≤ 4 := by exact_mod_cast h.2
    rw [abs_of_nonneg a]
    exact b
  · norm_num

/-- Every hypothesis of C232 about the function is met by a straight line on `edgeIn`. -/
theorem edge_values (o : Ops ℝ) (ho : calculateOps (fun _ => 0) (fun _ => 0) edgeMaps = .ok o) (fwd : Bool) (c : Cell) (ix iz : ℕ)
    (h1 : edgeIn.mxg ≤ ix) (h2 : ix + edgeIn.mxg < edgeIn.nx) (h3 : iz < edgeIn.nz) :
    ramp (o.cellNumber (ix, edgeIn.plane fwd c.2.1, iz)) = -1 + (ix : ℝ) * 1 := by
  have hp : edgeIn.plane fwd c.2.1 = 0 := by cases fwd <;> simp [Input.plane, edgeIn]
  simp only [edgeIn] at h1 h2 h3
  obtain rfl : iz = 0 := by omega
  have := (C02_numbering_order _ _ _ _ edgeMaps_represents (by simp [edgeIn]) o ho).1 ix 0 0 (by simpa [edgeIn] using h1) (by simpa [edgeIn] using h2)
    (by simp [edgeIn]) (by simp [edgeIn])
  rw [hp, this]
  obtain ⟨k, rfl⟩ := Nat.exists_eq_add_of_le h1
  have : (((1 + k - edgeIn.mxg) * edgeIn.ny + 0) * edgeIn.nz + 0 : ℕ) = k := by simp [edgeIn]
  rw [this, ramp, if_pos (by omega)]
  push_cast
  ring

/-- The row of the first evolving cell gives 7/16 at a point where the function is 1/2. -/
theorem edge_interp (v : Cell → ℝ) (hv : ∀ ix iz, 1 ≤ ix → ix < 6 → iz < 1 → v (ix, 0, iz) = -1 + (ix : ℝ) * 1) : edgeIn.interp v 0 (3 / 2) 0 = 7 / 16 := by
  have f1 : ⌊(3 / 2 : ℝ)⌋ = 1 := by norm_num [Int.floor_eq_iff]
  have f2 : ⌊(0 : ℝ)⌋ = 0 := by simp
  have c0 : edgeIn.clampX (1 + -1) = 1 := by simp [Input.clampX, edgeIn]
  have c1 : edgeIn.clampX (1 + 0) = 1 := by simp [Input.clampX, edgeIn]
  have c2 : edgeIn.clampX (1 + 1) = 2 := by simp [Input.clampX, edgeIn]
  have c3 : edgeIn.clampX (1 + 2) = 3 := by simp [Input.clampX, edgeIn]
  have hz : ∀ k : ℤ, (k % ((edgeIn.nz : ℕ) : ℤ)).toNat = 0 := fun k => by simp [edgeIn]
  unfold Input.interp
  simp only [f1, f2, hz]
  unfold catmullRomSpline
  simp only [c0, c1, c2, c3, hv 1 0 (by norm_num) (by norm_num) (by norm_num), hv 2 0 (by norm_num) (by norm_num) (by norm_num),
    hv 3 0 (by norm_num) (by norm_num) (by norm_num)]
  norm_num

/-- **C232 is false next to the edge of the grid**: where the stencil reaches over the edge, the operators do not even reproduce straight lines. -/
theorem C232_fails : ¬ ThirdOrder := by
  rintro ⟨C, h⟩
  obtain ⟨o, ho⟩ := C10_assembly_succeeds (fun _ => 0) (fun _ => 0) edgeMaps edgeIn edgeMaps_represents (by simp [edgeIn]) edgeIn_good
  have hst := edge_stay true (1, 0, 0) (by norm_num) (by norm_num)
  have hin : edgeIn.Interior (1, 0, 0) := by simp [Input.Interior, edgeIn]
  have hs : edgeIn.SomeStay true (1, 0, 0) := ⟨0, by simp [edgeIn], by norm_num [Input.Escapes, Input.xs, edgeIn]⟩
  have hz : ∀ s ∈ edgeIn.staying true (1, 0, 0), 0 ≤ edgeIn.zs true (1, 0, 0) s := fun s _ => by simp [Input.zs, edgeIn]
  have hx : edgeIn.xs true (1, 0, 0) 0 = 3 / 2 := by norm_num [Input.xs, edgeIn]
  have hz0 : edgeIn.zs true (1, 0, 0) 0 = 0 := rfl
  have hw : edgeIn.w.getD 0 0 = 1 := rfl
  have hpl : edgeIn.plane true 0 = 0 := by simp [Input.plane, edgeIn]
  have h1 := h (fun _ => 0) (fun _ => 0) edgeMaps edgeIn edgeMaps_represents (by simp [edgeIn]) edgeIn_good o ho true (1, 0, 0) hin hs hz
    (fun x _ => x) (-1) 0 1 1 0 0 (by norm_num) (by norm_num) (fun _ => contDiff_id) (fun _ => contDiff_const)
    (fun x _ => by have := line_third 1 0 x; simp only [one_mul, add_zero] at this; simp [this])
    (fun x z => by simp [iteratedDeriv_const]) (fun _ _ => rfl) ramp 4 ramp_le (fun ix iz a b c => edge_values o ho true (1, 0, 0) ix iz a b c)
  have h2 := (C13_row_is_interpolation_partial _ _ edgeMaps edgeIn edgeMaps_represents (by simp [edgeIn]) edgeIn_good o ho true (1, 0, 0) hin hs hz ramp).1 4 ramp_le
  have h3 := edge_interp (fun d => ramp (o.cellNumber d)) (fun ix iz a b c => by
    have := edge_values o ho true (1, 0, 0) ix iz a (by simp only [edgeIn]; omega) c
    rw [hpl] at this
    exact this)
  unfold Input.legAverage at h2
  rw [hst, Finset.sum_singleton, Finset.sum_singleton, hx, hw, hz0, hpl, h3] at h2
  rw [hst, Finset.sum_singleton, Finset.sum_singleton, hx, hw] at h1
  rw [abs_le] at h1 h2
  norm_num at h1 h2
  linarith [h1.1, h2.2]

/-- A case for C232: one cell further in, the row of `edgeIn` gives the value of the straight line, up to the weights that are skipped. -/
example : ∃ o : Ops ℝ, calculateOps (fun _ => 0) (fun _ => 0) edgeMaps = .ok o ∧
    |applyRow ((o.legs true).op.row ((o.legs true).legInterior (2, 0, 0)).toNat) ramp - 3 / 2| ≤ 2 / 10 ^ 9 := by
  obtain ⟨o, ho⟩ := C10_assembly_succeeds (fun _ => 0) (fun _ => 0) edgeMaps edgeIn edgeMaps_represents (by simp [edgeIn]) edgeIn_good
  refine ⟨o, ho, ?_⟩
  have hst := edge_stay true (2, 0, 0) (by norm_num) (by norm_num)
  have hx : edgeIn.xs true (2, 0, 0) 0 = 5 / 2 := by norm_num [Input.xs, edgeIn]
  have hf : ⌊(5 / 2 : ℝ)⌋ = 2 := by norm_num [Int.floor_eq_iff]
  have hw : edgeIn.w.getD 0 0 = 1 := rfl
  have h1 := C232_partial (fun _ => 0) (fun _ => 0) edgeMaps edgeIn edgeMaps_represents (by simp [edgeIn]) edgeIn_good o ho true (2, 0, 0)
    (by simp [Input.Interior, edgeIn]) ⟨0, by simp [edgeIn], by norm_num [Input.Escapes, Input.xs, edgeIn]⟩ (fun s _ => by simp [Input.zs, edgeIn])
    (fun s hs => by
      rw [hst, Finset.mem_singleton] at hs
      rw [hs, hx, hf]
      simp [edgeIn])
    (fun x _ => x) (-1) 0 1 1 0 0 (by norm_num) (by norm_num) (fun _ => contDiff_id) (fun _ => contDiff_const)
    (fun x _ => by have := line_third 1 0 x; simp only [one_mul, add_zero] at this; simp [this])
    (fun x z => by simp [iteratedDeriv_const]) (fun _ _ => rfl) ramp 4 ramp_le (fun ix iz a b c => edge_values o ho true (2, 0, 0) ix iz a b c)
  rw [hst, Finset.sum_singleton, Finset.sum_singleton, hx, hw] at h1
  norm_num at h1 ⊢
  exact h1

end Zoidberg.Weights
