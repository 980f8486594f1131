import Verif.Props.WeightsOrder

/-!
# C232 for all z indices, with negative ones
-/

set_option linter.unusedSectionVars false

namespace Zoidberg.Weights

/-- The weights of the spline are bounded by 9 in sum also on the cell before. -/
theorem spline_le_wide {p : ℤ → ℝ} {B u : ℝ} (h0 : -1 ≤ u) (h1 : u ≤ 1) (hp : ∀ k, -1 ≤ k → k ≤ 2 → |p k| ≤ B) : |catmullRomSpline p u| ≤ 9 * B := by
  have hB : 0 ≤ B := le_trans (abs_nonneg _) (hp 0 (by norm_num) (by norm_num))
  rcases le_total 0 u with hu | hu
  · exact (spline_le hu h1 hp).trans (by linarith)
  have e : catmullRomSpline p u = (-(u * (1 - u) ^ 2 / 2)) * p (-1) + (1 - 5 / 2 * u ^ 2 + 3 / 2 * u ^ 3) * p 0 + (u / 2 + 2 * u ^ 2 - 3 / 2 * u ^ 3) * p 1 +
      (-(u ^ 2 * (1 - u) / 2)) * p 2 := by
    unfold catmullRomSpline
    ring
  obtain ⟨t, rfl⟩ : ∃ t, u = -t := ⟨-u, by ring⟩
  have t0 : 0 ≤ t := by linarith
  have t1 : t ≤ 1 := by linarith
  have q2 : t ^ 2 ≤ 1 := by nlinarith
  have q3 : t ^ 3 ≤ 1 := by nlinarith [mul_nonneg t0 (sub_nonneg.2 q2)]
  have p2 : 0 ≤ t ^ 2 := by positivity
  have p3 : 0 ≤ t ^ 3 := by positivity
  have w0 : |(-(-t * (1 - -t) ^ 2 / 2))| ≤ 2 := by
    rw [abs_le]
    constructor <;> nlinarith
  have w1 : |1 - 5 / 2 * (-t) ^ 2 + 3 / 2 * (-t) ^ 3| ≤ 3 := by
    rw [abs_le]
    constructor <;> nlinarith
  have w2 : |-t / 2 + 2 * (-t) ^ 2 - 3 / 2 * (-t) ^ 3| ≤ 3 := by
    rw [abs_le]
    constructor <;> nlinarith
  have w3 : |(-((-t) ^ 2 * (1 - -t) / 2))| ≤ 1 := by
    rw [abs_le]
    constructor <;> nlinarith
  have m : ∀ (w c : ℝ) (k : ℤ), |w| ≤ c → -1 ≤ k → k ≤ 2 → |w * p k| ≤ c * B := by
    intro w c k hw h1 h2
    rw [abs_mul]
    exact mul_le_mul hw (hp k h1 h2) (abs_nonneg _) ((abs_nonneg _).trans hw)
  have m0 := abs_le.1 (m _ _ (-1) w0 (by norm_num) (by norm_num))
  have m1 := abs_le.1 (m _ _ 0 w1 (by norm_num) (by norm_num))
  have m2 := abs_le.1 (m _ _ 1 w2 (by norm_num) (by norm_num))
  have m3 := abs_le.1 (m _ _ 2 w3 (by norm_num) (by norm_num))
  rw [e, abs_le]
  constructor <;> linarith [m0.1, m0.2, m1.1, m1.2, m2.1, m2.2, m3.1, m3.2]

/-- The weights on the cell before. -/
theorem wide_weights {t : ℝ} (u0 : 0 ≤ t) (u1 : t ≤ 1) :
    |t * (1 + t) ^ 2 / 2| ≤ 2 ∧ |-t / 2 + 2 * t ^ 2 + 3 / 2 * t ^ 3| ≤ 3 ∧ |t ^ 2 * (1 + t) / 2| ≤ 1 ∧ t ^ 3 ≤ 1 := by
  have q2 : t ^ 2 ≤ 1 := by nlinarith
  have q3 : t ^ 3 ≤ 1 := by nlinarith [mul_nonneg u0 (sub_nonneg.2 q2)]
  have p2 : 0 ≤ t ^ 2 := by positivity
  have p3 : 0 ≤ t ^ 3 := by positivity
  refine ⟨?_, ?_, ?_, q3⟩
  · rw [abs_le]
    constructor <;> nlinarith
  · rw [abs_le]
    constructor <;> nlinarith
  · rw [abs_le]
    constructor <;> nlinarith

/-- The spline continued to the cell before is of third order too, with a larger constant. -/
theorem spline_order_wide {f : ℝ → ℝ} (hf : ContDiff ℝ 3 f) {M : ℝ} (hM : ∀ s, |iteratedDeriv 3 f s| ≤ M) (a : ℝ) {h u : ℝ} (hh : 0 ≤ h) (h0 : -1 ≤ u) (h1 : u ≤ 1) :
    |catmullRomSpline (fun k => f (a + k * h)) u - f (a + u * h)| ≤ 7 / 3 * (M * h ^ 3) := by
  have hM0 : 0 ≤ M := le_trans (abs_nonneg _) (hM 0)
  have hP : 0 ≤ M * h ^ 3 := by positivity
  rcases le_total 0 u with hu | hu
  · exact (spline_order hf hM a hh hu h1).trans (by linarith)
  obtain ⟨t, rfl⟩ : ∃ t, u = -t := ⟨-u, by ring⟩
  have u0 : 0 ≤ t := by linarith
  have u1 : t ≤ 1 := by linarith
  have hS : (Set.univ : Set ℝ).OrdConnected := Set.ordConnected_univ
  have t0 := taylor_two hf hS (M := M) (fun s _ => hM s) (Set.mem_univ a) (t := -h) (Set.mem_univ _)
  have t1 := taylor_two hf hS (M := M) (fun s _ => hM s) (Set.mem_univ a) (t := h) (Set.mem_univ _)
  have t2 := taylor_two hf hS (M := M) (fun s _ => hM s) (Set.mem_univ a) (t := 2 * h) (Set.mem_univ _)
  have t3 := taylor_two hf hS (M := M) (fun s _ => hM s) (Set.mem_univ a) (t := -t * h) (Set.mem_univ _)
  rw [abs_neg, abs_of_nonneg hh] at t0
  rw [abs_of_nonneg hh] at t1
  rw [abs_of_nonneg (by positivity : 0 ≤ 2 * h)] at t2
  rw [neg_mul, abs_neg, abs_of_nonneg (by positivity : 0 ≤ t * h)] at t3
  rw [← neg_mul] at t3
  set r0 := f (a + -h) - (f a + deriv f a * (-h) + iteratedDeriv 2 f a * (-h) ^ 2 / 2) with e0
  set r1 := f (a + h) - (f a + deriv f a * h + iteratedDeriv 2 f a * h ^ 2 / 2) with e1
  set r2 := f (a + 2 * h) - (f a + deriv f a * (2 * h) + iteratedDeriv 2 f a * (2 * h) ^ 2 / 2) with e2
  set r3 := f (a + -t * h) - (f a + deriv f a * (-t * h) + iteratedDeriv 2 f a * (-t * h) ^ 2 / 2) with e3
  have e : catmullRomSpline (fun k => f (a + k * h)) (-t) - f (a + -t * h) =
      t * (1 + t) ^ 2 / 2 * r0 + (-t / 2 + 2 * t ^ 2 + 3 / 2 * t ^ 3) * r1 - (t ^ 2 * (1 + t) / 2) * r2 - r3 := by
    rw [e0, e1, e2, e3]
    unfold catmullRomSpline
    have s0 : a + ((-1 : ℤ) : ℝ) * h = a + -h := by push_cast; ring
    have s1 : a + ((0 : ℤ) : ℝ) * h = a := by push_cast; ring
    have s2 : a + ((1 : ℤ) : ℝ) * h = a + h := by push_cast; ring
    have s3 : a + ((2 : ℤ) : ℝ) * h = a + 2 * h := by push_cast; ring
    simp only [s0, s1, s2, s3]
    ring
  obtain ⟨w0, w2, w3, q3⟩ := wide_weights u0 u1
  have m : ∀ (w c r b : ℝ), |w| ≤ c → |r| ≤ b → |w * r| ≤ c * b := by
    intro w c r b hw hr
    rw [abs_mul]
    exact mul_le_mul hw hr (abs_nonneg _) ((abs_nonneg _).trans hw)
  have m0 := abs_le.1 (m _ _ _ _ w0 t0)
  have m1 := abs_le.1 (m _ _ _ _ w2 t1)
  have m2 := abs_le.1 (m _ _ _ _ w3 t2)
  have m3 : |r3| ≤ M * h ^ 3 / 6 := by
    refine t3.trans ?_
    have := mul_le_mul_of_nonneg_right q3 hP
    have e : M * (t * h) ^ 3 / 6 = t ^ 3 * (M * h ^ 3) / 6 := by ring
    rw [e]
    linarith
  have m3' := abs_le.1 m3
  have s2 : M * (2 * h) ^ 3 / 6 = 8 * (M * h ^ 3 / 6) := by ring
  rw [s2] at m2
  clear_value r0 r1 r2 r3
  rw [e, abs_le]
  constructor <;> linarith [m0.1, m0.2, m1.1, m1.2, m2.1, m2.2, m3'.1, m3'.2]

/-- The distance from `int(z)`. -/
theorem pyInt_near (z : ℝ) : -1 ≤ z - (pyInt z : ℝ) ∧ z - (pyInt z : ℝ) ≤ 1 := by
  unfold pyInt
  split
  · have := Int.floor_le z
    have := Int.lt_floor_add_one z
    constructor <;> linarith
  · have := Int.ceil_lt_add_one z
    have := Int.le_ceil z
    constructor <;> linarith

/-- The interpolation with any base in z that is at most one away. -/
theorem interpFrom_order (i : Input ℝ) (v : Cell → ℝ) (y : ℕ) (G : ℝ → ℝ → ℝ) (x0 z0 hx hz Mx Mz : ℝ) (hhx : 0 ≤ hx) (hhz : 0 ≤ hz)
    (gx : ∀ z, ContDiff ℝ 3 fun x => G x z) (gz : ∀ x, ContDiff ℝ 3 (G x)) (bx : ∀ x z, |iteratedDeriv 3 (fun x => G x z) x| ≤ Mx)
    (bz : ∀ x z, |iteratedDeriv 3 (G x) z| ≤ Mz) (hper : ∀ x z, G x (z + i.nz * hz) = G x z) (hnz : 0 < i.nz)
    (hv : ∀ ix iz, i.mxg ≤ ix → ix + i.mxg < i.nx → iz < i.nz → v (ix, y, iz) = G (x0 + ix * hx) (z0 + iz * hz))
    (x : ℝ) (zb : ℤ) (u : ℝ) (uz0 : -1 ≤ u) (uz1 : u ≤ 1) (hl : (i.mxg : ℤ) + 1 ≤ ⌊x⌋) (hr : ⌊x⌋ + 3 + i.mxg ≤ (i.nx : ℤ)) :
    |i.interpFrom v y x zb u - G (x0 + x * hx) (z0 + (zb + u) * hz)| ≤ 7 / 20 * (Mx * hx ^ 3) + 35 / 12 * (Mz * hz ^ 3) := by
  have hperZ : ∀ (x z : ℝ) (m : ℤ), G x (z + m * (i.nz * hz)) = G x z := by
    intro x z m
    induction m using Int.induction_on generalizing z with
    | zero => simp
    | succ m ih => rw [← ih z, show z + ((m : ℤ) + 1 : ℤ) * (i.nz * hz) = z + ((m : ℤ) : ℝ) * (i.nz * hz) + i.nz * hz by push_cast; ring, hper]
    | pred m ih => rw [← ih z, ← hper x (z + _), show z + (-(m : ℤ) - 1 : ℤ) * (i.nz * hz) + i.nz * hz = z + ((-(m : ℤ) : ℤ) : ℝ) * (i.nz * hz) by push_cast; ring]
  have ux0 : 0 ≤ x - (⌊x⌋ : ℝ) := by have := Int.floor_le x; linarith
  have ux1 : x - (⌊x⌋ : ℝ) ≤ 1 := by have := Int.lt_floor_add_one x; linarith
  have hval : ∀ ox oz : ℤ, -1 ≤ ox → ox ≤ 2 → v (i.clampX (⌊x⌋ + ox), y, ((zb + oz) % (i.nz : ℤ)).toNat) =
      G (x0 + ⌊x⌋ * hx + ox * hx) (z0 + zb * hz + oz * hz) := by
    intro ox oz h1 h2
    have hc : ((i.clampX (⌊x⌋ + ox) : ℕ) : ℤ) = ⌊x⌋ + ox := by
      unfold Input.clampX
      omega
    have hm0 := Int.emod_nonneg (zb + oz) (by omega : (i.nz : ℤ) ≠ 0)
    have hm1 := Int.emod_lt_of_pos (zb + oz) (by omega : (0 : ℤ) < i.nz)
    have hdm := Int.emod_add_mul_ediv (zb + oz) i.nz
    rw [hv _ _ (by omega) (by omega) (by omega)]
    have c1 : ((i.clampX (⌊x⌋ + ox) : ℕ) : ℝ) = (⌊x⌋ : ℝ) + ox := by exact_mod_cast hc
    have c2 : ((((zb + oz) % (i.nz : ℤ)).toNat : ℕ) : ℝ) = (((zb + oz) % (i.nz : ℤ) : ℤ) : ℝ) := by
      exact_mod_cast Int.toNat_of_nonneg hm0
    have c3 : (((zb + oz) % (i.nz : ℤ) : ℤ) : ℝ) = (zb : ℝ) + oz - i.nz * (((zb + oz) / (i.nz : ℤ) : ℤ) : ℝ) := by
      have : (zb + oz) % (i.nz : ℤ) = zb + oz - i.nz * ((zb + oz) / (i.nz : ℤ)) := by linarith
      exact_mod_cast this
    rw [c1, c2, c3, ← hperZ _ (z0 + _) ((zb + oz) / (i.nz : ℤ))]
    congr 1 <;> ring
  unfold Input.interpFrom
  dsimp only
  have hx' : x0 + x * hx = x0 + ⌊x⌋ * hx + (x - ⌊x⌋) * hx := by ring
  have hz' : z0 + (zb + u) * hz = z0 + zb * hz + u * hz := by ring
  rw [hx', hz']
  have s1 := spline_order (gx (z0 + zb * hz + u * hz)) (fun s => bx s _) (x0 + ⌊x⌋ * hx) hhx ux0 ux1
  have s2 : |catmullRomSpline (fun ox => catmullRomSpline (fun oz => v (i.clampX (⌊x⌋ + ox), y, ((zb + oz) % (i.nz : ℤ)).toNat)) u) (x - ⌊x⌋) -
      catmullRomSpline (fun k : ℤ => G (x0 + ⌊x⌋ * hx + k * hx) (z0 + zb * hz + u * hz)) (x - ⌊x⌋)| ≤ 5 / 4 * (7 / 3 * (Mz * hz ^ 3)) := by
    rw [spline_sub]
    apply spline_le ux0 ux1
    intro k hk1 hk2
    simp only [hval k _ hk1 hk2]
    exact spline_order_wide (gz _) (fun s => bz _ s) (z0 + zb * hz) hhz uz0 uz1
  rw [abs_le] at s1 s2 ⊢
  constructor <;> linarith [s1.1, s1.2, s2.1, s2.2]

/-- A row with any z indices, and with weights that are skipped. -/
theorem row_any_skip (jc : ℕ → ℤ) (jw : ℕ → ℝ) (maps : MapDict ℝ) (i : Input ℝ) (h : Represents maps i) (hm : 2 * i.mxg ≤ i.nx)
    (hw : i.GoodWeights) (o : Ops ℝ) (ho : calculateOps jc jw maps = .ok o) (fwd : Bool) (c : Cell)
    (hc : i.Interior c) (hs : i.SomeStay fwd c) (v : ℤ → ℝ) (M : ℝ) (hM : ∀ k, |v k| ≤ M) :
    |applyRow ((o.legs fwd).op.row ((o.legs fwd).legInterior c).toNat) v -
      (∑ s ∈ i.staying fwd c, i.w.getD s 0 * i.interpFrom (fun d => v (o.cellNumber d)) (i.plane fwd c.2.1) (i.xs fwd c s)
        (pyInt (i.zs fwd c s)) (i.zs fwd c s - (pyInt (i.zs fwd c s) : ℝ))) / ∑ s ∈ i.staying fwd c, i.w.getD s 0| ≤ 36 / 10 ^ 10 * M := by
  obtain ⟨_, h2⟩ := rowOf_eq jc jw maps i h hm hw o ho fwd c
  obtain ⟨_, _, hcn, _⟩ := calculateOps_inv jc jw maps i h o ho
  have hr : (o.legs fwd).op.row ((o.legs fwd).legInterior c).toNat = addAll [] (i.contribs fwd c) :=
    h2 hc hs
  have hnx : 0 < i.nx := by have := hc.2.1; omega
  have hwpos : ∀ s ∈ i.staying fwd c, 0 < i.w.getD s 0 := by
    intro s hs
    have hlt : s < i.w.length := by
      rw [hw.len]
      unfold Input.staying at hs
      simpa using (Finset.mem_filter.1 hs).1
    rw [List.getD_eq_getElem _ _ hlt]
    exact hw.pos _ (List.getElem_mem hlt)
  have hne : (i.staying fwd c).Nonempty := by
    obtain ⟨s, q1, q2⟩ := hs
    exact ⟨s, by simp [Input.staying, q1, q2]⟩
  have e0 : applyRow ([] : List (ℤ × ℝ)) v = 0 := by simp [applyRow]
  rw [hr, applyRow_addAll, e0, zero_add, applyRow_contribs i hw.len, hcn]
  have hzb : ∀ s ∈ i.staying fwd c, ∀ xo, |zApply (i.nx, i.ny, i.nz) i.cs.cellNumber
      (pyInt (i.xs fwd c s)) (pyInt (i.zs fwd c s)) c.2.1 (if fwd then 1 else -1)
      (catmullRom (i.zs fwd c s - (pyInt (i.zs fwd c s) : ℝ))) v xo| ≤ 9 * M := by
    intro s hs' xo
    have e := catmullRom_apply (i.zs fwd c s - (pyInt (i.zs fwd c s) : ℝ)) (fun oz =>
      v (i.cs.cellNumber
      ( (npClip (pyInt (i.xs fwd c s) + xo) 0 ((i.nx : ℤ) - 1)).toNat
      , (pyMod ((c.2.1 : ℤ) + (if fwd then 1 else -1) + i.ny) i.ny).toNat
      , (pyMod (pyInt (i.zs fwd c s) + oz + i.nz) i.nz).toNat )))
    unfold zApply
    simp only at e ⊢
    rw [e]
    exact spline_le_wide (pyInt_near _).1 (pyInt_near _).2 fun oz _ _ => hM _
  have := average_bound (i.staying fwd c) (fun s => i.w.getD s 0) hwpos hne
    (fun s => ((xOffsets.zip (shiftedCR (i.xs fwd c s - (pyInt (i.xs fwd c s) : ℝ))
          (pyInt (i.xs fwd c s)) i.nx i.mxg)).map
        fun p => thr p.2 * zApply (i.nx, i.ny, i.nz) i.cs.cellNumber (pyInt (i.xs fwd c s))
          (pyInt (i.zs fwd c s)) c.2.1 (if fwd then 1 else -1)
          (catmullRom (i.zs fwd c s - (pyInt (i.zs fwd c s) : ℝ))) v p.1).sum)
    (fun s => i.interpFrom (fun d => v (i.cs.cellNumber d)) (i.plane fwd c.2.1) (i.xs fwd c s)
        (pyInt (i.zs fwd c s)) (i.zs fwd c s - (pyInt (i.zs fwd c s) : ℝ))) (4 / 10 ^ 10 * (9 * M)) (by
      intro s hs'
      rw [← sample_any i hnx (i.xs fwd c s) (i.zs fwd c s) (Finset.mem_filter.1 hs').2 c.2.1 fwd v]
      exact thr_error (xOffsets.zip (shiftedCR (i.xs fwd c s - (pyInt (i.xs fwd c s) : ℝ))
          (pyInt (i.xs fwd c s)) i.nx i.mxg)) (length_zip_shiftedCR ..)
        (fun xo => zApply (i.nx, i.ny, i.nz) i.cs.cellNumber (pyInt (i.xs fwd c s))
          (pyInt (i.zs fwd c s)) c.2.1 (if fwd then 1 else -1)
          (catmullRom (i.zs fwd c s - (pyInt (i.zs fwd c s) : ℝ))) v xo) _ (hzb s hs'))
  calc _ ≤ _ := this
    _ = _ := by ring

/-- **C232** with negative z indices too: `int(z)` rounds toward zero and the spline is continued over the cell before, which costs a larger constant
but no order. -/
theorem C232_any_z_partial (jc : ℕ → ℤ) (jw : ℕ → ℝ) (maps : MapDict ℝ) (i : Input ℝ) (h : Represents maps i) (hm : 2 * i.mxg ≤ i.nx)
    (hw : i.GoodWeights) (o : Ops ℝ) (ho : calculateOps jc jw maps = .ok o) (fwd : Bool) (c : Cell) (hc : i.Interior c) (hs : i.SomeStay fwd c)
    (hstencil : ∀ s ∈ i.staying fwd c, (i.mxg : ℤ) + 1 ≤ ⌊i.xs fwd c s⌋ ∧ ⌊i.xs fwd c s⌋ + 3 + i.mxg ≤ (i.nx : ℤ))
    (G : ℝ → ℝ → ℝ) (x0 z0 hx hz' Mx Mz : ℝ) (hhx : 0 ≤ hx) (hhz : 0 ≤ hz')
    (gx : ∀ z, ContDiff ℝ 3 fun x => G x z) (gz : ∀ x, ContDiff ℝ 3 (G x)) (bx : ∀ x z, |iteratedDeriv 3 (fun x => G x z) x| ≤ Mx)
    (bz : ∀ x z, |iteratedDeriv 3 (G x) z| ≤ Mz) (hper : ∀ x z, G x (z + i.nz * hz') = G x z)
    (v : ℤ → ℝ) (M0 : ℝ) (hv0 : ∀ k, |v k| ≤ M0)
    (hv : ∀ ix iz, i.mxg ≤ ix → ix + i.mxg < i.nx → iz < i.nz → v (o.cellNumber (ix, i.plane fwd c.2.1, iz)) = G (x0 + ix * hx) (z0 + iz * hz')) :
    |applyRow ((o.legs fwd).op.row ((o.legs fwd).legInterior c).toNat) v -
      (∑ s ∈ i.staying fwd c, i.w.getD s 0 * G (x0 + i.xs fwd c s * hx) (z0 + i.zs fwd c s * hz')) / ∑ s ∈ i.staying fwd c, i.w.getD s 0| ≤
        36 / 10 ^ 10 * M0 + (7 / 20 * (Mx * hx ^ 3) + 35 / 12 * (Mz * hz' ^ 3)) := by
  have h1 := row_any_skip jc jw maps i h hm hw o ho fwd c hc hs v M0 hv0
  have hnz : 0 < i.nz := by have := hc.2.2.2; omega
  have hW := staying_pos i hw fwd c hs
  have hwpos : ∀ s ∈ i.staying fwd c, 0 ≤ i.w.getD s 0 := by
    intro s hs
    have hlt : s < i.w.length := by
      rw [hw.len]
      unfold Input.staying at hs
      simpa using (Finset.mem_filter.1 hs).1
    rw [List.getD_eq_getElem _ _ hlt]
    exact (hw.pos _ (List.getElem_mem _)).le
  have h2 : |(∑ s ∈ i.staying fwd c, i.w.getD s 0 * i.interpFrom (fun d => v (o.cellNumber d)) (i.plane fwd c.2.1) (i.xs fwd c s)
        (pyInt (i.zs fwd c s)) (i.zs fwd c s - (pyInt (i.zs fwd c s) : ℝ))) / ∑ s ∈ i.staying fwd c, i.w.getD s 0 -
      (∑ s ∈ i.staying fwd c, i.w.getD s 0 * G (x0 + i.xs fwd c s * hx) (z0 + i.zs fwd c s * hz')) / ∑ s ∈ i.staying fwd c, i.w.getD s 0| ≤
        7 / 20 * (Mx * hx ^ 3) + 35 / 12 * (Mz * hz' ^ 3) := by
    rw [← sub_div, ← Finset.sum_sub_distrib, abs_div, abs_of_pos hW, div_le_iff₀ hW, Finset.mul_sum]
    refine (Finset.abs_sum_le_sum_abs _ _).trans (Finset.sum_le_sum fun s hs' => ?_)
    rw [← mul_sub, abs_mul, abs_of_nonneg (hwpos s hs'), mul_comm (_ + _)]
    refine mul_le_mul_of_nonneg_left ?_ (hwpos s hs')
    have := interpFrom_order i (fun d => v (o.cellNumber d)) (i.plane fwd c.2.1) G x0 z0 hx hz' Mx Mz hhx hhz gx gz bx bz hper hnz hv (i.xs fwd c s)
      (pyInt (i.zs fwd c s)) (i.zs fwd c s - (pyInt (i.zs fwd c s) : ℝ)) (pyInt_near _).1 (pyInt_near _).2 (hstencil s hs').1 (hstencil s hs').2
    rw [add_sub_cancel] at this
    exact this
  rw [abs_le] at h1 h2 ⊢
  constructor <;> linarith [h1.1, h1.2, h2.1, h2.2]

/-- The interpolation at any position that does not escape, also where the stencil reaches over the edge. -/
theorem interpFrom_edge (i : Input ℝ) (v : Cell → ℝ) (y : ℕ) (G : ℝ → ℝ → ℝ) (x0 z0 hx hz Lx Mz : ℝ) (hhx : 0 ≤ hx) (hhz : 0 ≤ hz)
    (lx : ∀ x x' z, |G x z - G x' z| ≤ Lx * |x - x'|) (gz : ∀ x, ContDiff ℝ 3 (G x))
    (bz : ∀ x z, |iteratedDeriv 3 (G x) z| ≤ Mz) (hper : ∀ x z, G x (z + i.nz * hz) = G x z) (hnz : 0 < i.nz)
    (hv : ∀ ix iz, i.mxg ≤ ix → ix + i.mxg < i.nx → iz < i.nz → v (ix, y, iz) = G (x0 + ix * hx) (z0 + iz * hz))
    (x : ℝ) (zb : ℤ) (u : ℝ) (uz0 : -1 ≤ u) (uz1 : u ≤ 1) (hE : ¬ i.Escapes x) :
    |i.interpFrom v y x zb u - G (x0 + x * hx) (z0 + (zb + u) * hz)| ≤ 5 / 2 * (Lx * hx) + 35 / 12 * (Mz * hz ^ 3) := by
  have hperZ : ∀ (x z : ℝ) (m : ℤ), G x (z + m * (i.nz * hz)) = G x z := by
    intro x z m
    have hp : Function.Periodic (G x) (i.nz * hz) := hper x
    exact hp.int_mul m z
  have ux0 : 0 ≤ x - (⌊x⌋ : ℝ) := by have := Int.floor_le x; linarith
  have ux1 : x - (⌊x⌋ : ℝ) ≤ 1 := by have := Int.lt_floor_add_one x; linarith
  have hL : 0 ≤ Lx := by
    have := (abs_nonneg _).trans (lx 1 0 0)
    simpa using this
  unfold Input.Escapes at hE
  rw [not_or, not_lt, not_lt] at hE
  have k1 : (i.mxg : ℤ) ≤ ⌊x⌋ := by
    rw [Int.le_floor]
    exact_mod_cast hE.1
  have k2 : ⌊x⌋ ≤ (i.nx : ℤ) - i.mxg - 1 := by
    have : (⌊x⌋ : ℝ) ≤ ((i.nx : ℤ) - i.mxg - 1 : ℤ) := by
      push_cast
      linarith [hE.2, Int.floor_le x]
    exact_mod_cast this
  have hval : ∀ ox oz : ℤ, v (i.clampX (⌊x⌋ + ox), y, ((zb + oz) % (i.nz : ℤ)).toNat) =
      G (x0 + (i.clampX (⌊x⌋ + ox) : ℕ) * hx) (z0 + zb * hz + oz * hz) := by
    intro ox oz
    have hm0 := Int.emod_nonneg (zb + oz) (by omega : (i.nz : ℤ) ≠ 0)
    have hm1 := Int.emod_lt_of_pos (zb + oz) (by omega : (0 : ℤ) < i.nz)
    have hdm := Int.emod_add_mul_ediv (zb + oz) i.nz
    rw [hv _ _ (by unfold Input.clampX; omega) (by unfold Input.clampX; omega) (by omega)]
    have c2 : ((((zb + oz) % (i.nz : ℤ)).toNat : ℕ) : ℝ) = (((zb + oz) % (i.nz : ℤ) : ℤ) : ℝ) := by
      exact_mod_cast Int.toNat_of_nonneg hm0
    have c3 : (((zb + oz) % (i.nz : ℤ) : ℤ) : ℝ) = (zb : ℝ) + oz - i.nz * (((zb + oz) / (i.nz : ℤ) : ℤ) : ℝ) := by
      have : (zb + oz) % (i.nz : ℤ) = zb + oz - i.nz * ((zb + oz) / (i.nz : ℤ)) := by linarith
      exact_mod_cast this
    rw [c2, c3, ← hperZ _ (z0 + _) ((zb + oz) / (i.nz : ℤ))]
    congr 1
    ring
  have near : ∀ ox : ℤ, -1 ≤ ox → ox ≤ 2 → |((i.clampX (⌊x⌋ + ox) : ℕ) : ℝ) - x| ≤ 2 := by
    intro ox h1 h2
    have hc : ((i.clampX (⌊x⌋ + ox) : ℕ) : ℤ) = max (i.mxg : ℤ) (min (⌊x⌋ + ox) ((i.nx : ℤ) - i.mxg - 1)) := by
      unfold Input.clampX
      omega
    rw [abs_le]
    have a : ((i.clampX (⌊x⌋ + ox) : ℕ) : ℤ) ≤ ⌊x⌋ + 2 := by omega
    have b : ⌊x⌋ - 1 ≤ ((i.clampX (⌊x⌋ + ox) : ℕ) : ℤ) := by omega
    have a' : ((i.clampX (⌊x⌋ + ox) : ℕ) : ℝ) ≤ (⌊x⌋ : ℝ) + 2 := by exact_mod_cast a
    have b' : (⌊x⌋ : ℝ) - 1 ≤ ((i.clampX (⌊x⌋ + ox) : ℕ) : ℝ) := by exact_mod_cast b
    constructor <;> linarith
  unfold Input.interpFrom
  dsimp only
  have hz' : z0 + (zb + u) * hz = z0 + zb * hz + u * hz := by ring
  rw [hz']
  have e0 : G (x0 + x * hx) (z0 + zb * hz + u * hz) = catmullRomSpline (fun _ => G (x0 + x * hx) (z0 + zb * hz + u * hz)) (x - ⌊x⌋) := (spline_const _ _).symm
  rw [e0, spline_sub]
  have : 5 / 2 * (Lx * hx) + 35 / 12 * (Mz * hz ^ 3) = 5 / 4 * (2 * (Lx * hx) + 7 / 3 * (Mz * hz ^ 3)) := by ring
  rw [this]
  apply spline_le ux0 ux1
  intro k hk1 hk2
  simp only [hval k _]
  have s2 := spline_order_wide (gz (x0 + (i.clampX (⌊x⌋ + k) : ℕ) * hx)) (fun s => bz _ s) (z0 + zb * hz) hhz uz0 uz1
  have s1 : |G (x0 + (i.clampX (⌊x⌋ + k) : ℕ) * hx) (z0 + zb * hz + u * hz) - G (x0 + x * hx) (z0 + zb * hz + u * hz)| ≤ 2 * (Lx * hx) := by
    refine (lx _ _ _).trans ?_
    have : x0 + (i.clampX (⌊x⌋ + k) : ℕ) * hx - (x0 + x * hx) = (((i.clampX (⌊x⌋ + k) : ℕ) : ℝ) - x) * hx := by ring
    rw [this, abs_mul, abs_of_nonneg hhx]
    have := mul_le_mul_of_nonneg_left (mul_le_mul_of_nonneg_right (near k hk1 hk2) hhx) hL
    linarith
  rw [abs_le] at s1 s2 ⊢
  constructor <;> linarith [s1.1, s1.2, s2.1, s2.2]

/-- **C232** next to the edge: every row is of first order in the spacing in x, with no condition on where the stencils are. -/
theorem C232_edge (jc : ℕ → ℤ) (jw : ℕ → ℝ) (maps : MapDict ℝ) (i : Input ℝ) (h : Represents maps i) (hm : 2 * i.mxg ≤ i.nx)
    (hw : i.GoodWeights) (o : Ops ℝ) (ho : calculateOps jc jw maps = .ok o) (fwd : Bool) (c : Cell) (hc : i.Interior c) (hs : i.SomeStay fwd c)
    (G : ℝ → ℝ → ℝ) (x0 z0 hx hz' Lx Mz : ℝ) (hhx : 0 ≤ hx) (hhz : 0 ≤ hz')
    (lx : ∀ x x' z, |G x z - G x' z| ≤ Lx * |x - x'|) (gz : ∀ x, ContDiff ℝ 3 (G x))
    (bz : ∀ x z, |iteratedDeriv 3 (G x) z| ≤ Mz) (hper : ∀ x z, G x (z + i.nz * hz') = G x z)
    (v : ℤ → ℝ) (M0 : ℝ) (hv0 : ∀ k, |v k| ≤ M0)
    (hv : ∀ ix iz, i.mxg ≤ ix → ix + i.mxg < i.nx → iz < i.nz → v (o.cellNumber (ix, i.plane fwd c.2.1, iz)) = G (x0 + ix * hx) (z0 + iz * hz')) :
    |applyRow ((o.legs fwd).op.row ((o.legs fwd).legInterior c).toNat) v -
      (∑ s ∈ i.staying fwd c, i.w.getD s 0 * G (x0 + i.xs fwd c s * hx) (z0 + i.zs fwd c s * hz')) / ∑ s ∈ i.staying fwd c, i.w.getD s 0| ≤
        36 / 10 ^ 10 * M0 + (5 / 2 * (Lx * hx) + 35 / 12 * (Mz * hz' ^ 3)) := by
  have h1 := row_any_skip jc jw maps i h hm hw o ho fwd c hc hs v M0 hv0
  have hnz : 0 < i.nz := by have := hc.2.2.2; omega
  have hW := staying_pos i hw fwd c hs
  have hwpos : ∀ s ∈ i.staying fwd c, 0 ≤ i.w.getD s 0 := by
    intro s hs
    have hlt : s < i.w.length := by
      rw [hw.len]
      unfold Input.staying at hs
      simpa using (Finset.mem_filter.1 hs).1
    rw [List.getD_eq_getElem _ _ hlt]
    exact (hw.pos _ (List.getElem_mem _)).le
  have h2 : |(∑ s ∈ i.staying fwd c, i.w.getD s 0 * i.interpFrom (fun d => v (o.cellNumber d)) (i.plane fwd c.2.1) (i.xs fwd c s)
        (pyInt (i.zs fwd c s)) (i.zs fwd c s - (pyInt (i.zs fwd c s) : ℝ))) / ∑ s ∈ i.staying fwd c, i.w.getD s 0 -
      (∑ s ∈ i.staying fwd c, i.w.getD s 0 * G (x0 + i.xs fwd c s * hx) (z0 + i.zs fwd c s * hz')) / ∑ s ∈ i.staying fwd c, i.w.getD s 0| ≤
        5 / 2 * (Lx * hx) + 35 / 12 * (Mz * hz' ^ 3) := by
    rw [← sub_div, ← Finset.sum_sub_distrib, abs_div, abs_of_pos hW, div_le_iff₀ hW, Finset.mul_sum]
    refine (Finset.abs_sum_le_sum_abs _ _).trans (Finset.sum_le_sum fun s hs' => ?_)
    rw [← mul_sub, abs_mul, abs_of_nonneg (hwpos s hs'), mul_comm (_ + _)]
    refine mul_le_mul_of_nonneg_left ?_ (hwpos s hs')
    have := interpFrom_edge i (fun d => v (o.cellNumber d)) (i.plane fwd c.2.1) G x0 z0 hx hz' Lx Mz hhx hhz lx gz bz hper hnz hv (i.xs fwd c s)
      (pyInt (i.zs fwd c s)) (i.zs fwd c s - (pyInt (i.zs fwd c s) : ℝ)) (pyInt_near _).1 (pyInt_near _).2 (Finset.mem_filter.1 hs').2
    rw [add_sub_cancel] at this
    exact this
  rw [abs_le] at h1 h2 ⊢
  constructor <;> linarith [h1.1, h1.2, h2.1, h2.2]

/-- A case for `C232_edge`: the first evolving cell of `edgeIn`, for which `C232_fails`. -/
example : ∃ o : Ops ℝ, calculateOps (fun _ => 0) (fun _ => 0) edgeMaps = .ok o ∧
    |applyRow ((o.legs true).op.row ((o.legs true).legInterior (1, 0, 0)).toNat) ramp - 1 / 2| ≤ 2 / 10 ^ 8 + 5 / 2 := by
  obtain ⟨o, ho⟩ := C10_assembly_succeeds (fun _ => 0) (fun _ => 0) edgeMaps edgeIn edgeMaps_represents (by simp [edgeIn]) edgeIn_good
  refine ⟨o, ho, ?_⟩
  have hst := edge_stay true (1, 0, 0) (by norm_num) (by norm_num)
  have hx : edgeIn.xs true (1, 0, 0) 0 = 3 / 2 := by norm_num [Input.xs, edgeIn]
  have hw : edgeIn.w.getD 0 0 = 1 := rfl
  have h1 := C232_edge (fun _ => 0) (fun _ => 0) edgeMaps edgeIn edgeMaps_represents (by simp [edgeIn]) edgeIn_good o ho true (1, 0, 0)
    (by simp [Input.Interior, edgeIn]) ⟨0, by simp [edgeIn], by norm_num [Input.Escapes, Input.xs, edgeIn]⟩
    (fun x _ => x) (-1) 0 1 1 1 0 (by norm_num) (by norm_num) (fun x x' _ => by simp) (fun _ => contDiff_const)
    (fun x z => by simp [iteratedDeriv_const]) (fun _ _ => rfl) ramp 4 ramp_le (fun ix iz a b c => edge_values o ho true (1, 0, 0) ix iz a b c)
  rw [hst, Finset.sum_singleton, Finset.sum_singleton, hx, hw] at h1
  norm_num at h1 ⊢
  linarith

/-- `edgeIn` with field lines that end half a cell before the first z point. -/
noncomputable def negZIn : Input ℝ := ⟨7, 1, 1, 1, 1, fun c _ => (c.1 : ℝ) + 1 / 2, fun _ _ => -1 / 2, fun c _ => (c.1 : ℝ) + 1 / 2, fun _ _ => -1 / 2, [1]⟩

/-- A dictionary holding `negZIn`. -/
noncomputable def negZMaps : MapDict ℝ := fun k =>
  if k = "R" then some (.arr3 7 1 1 fun _ => 0)
  else if k = "MXG" then some (.nat 1)
  else if k = "forward_xt_prime" then some (.arr3 7 1 1 fun c => (c.1 : ℝ) + 1 / 2)
  else if k = "forward_zt_prime" then some (.arr3 7 1 1 fun _ => -1 / 2)
  else if k = "backward_xt_prime" then some (.arr3 7 1 1 fun c => (c.1 : ℝ) + 1 / 2)
  else if k = "backward_zt_prime" then some (.arr3 7 1 1 fun _ => -1 / 2)
  else none

theorem negZMaps_represents : Represents negZMaps negZIn where
  shape := ⟨fun _ => 0, by simp [negZMaps, negZIn]⟩
  mxg := by simp [negZMaps, negZIn]
  fx := Or.inr ⟨by simp [negZMaps], rfl, _, by simp [negZMaps, negZIn]; rfl, rfl⟩
  fz := Or.inr ⟨by simp [negZMaps], rfl, _, by simp [negZMaps, negZIn]; rfl, rfl⟩
  bx := Or.inr ⟨by simp [negZMaps], rfl, _, by simp [negZMaps, negZIn]; rfl, rfl⟩
  bz := Or.inr ⟨by simp [negZMaps], rfl, _, by simp [negZMaps, negZIn]; rfl, rfl⟩
  w := Or.inr ⟨by simp [negZMaps], rfl, rfl⟩

theorem negZIn_good : negZIn.GoodWeights where
  len := rfl
  sum := by norm_num [negZIn]
  pos := by intro v hv; simp [negZIn] at hv; simp [hv]

/-- A case for `C232_any_z_partial`, with a negative z index. -/
example : ∃ o : Ops ℝ, calculateOps (fun _ => 0) (fun _ => 0) negZMaps = .ok o ∧ negZIn.zs true (2, 0, 0) 0 < 0 ∧
    |applyRow ((o.legs true).op.row ((o.legs true).legInterior (2, 0, 0)).toNat) ramp - 3 / 2| ≤ 2 / 10 ^ 8 := by
  obtain ⟨o, ho⟩ := C10_assembly_succeeds (fun _ => 0) (fun _ => 0) negZMaps negZIn negZMaps_represents (by simp [negZIn]) negZIn_good
  refine ⟨o, ho, by norm_num [Input.zs, negZIn], ?_⟩
  have hx : ∀ s, negZIn.xs true (2, 0, 0) s = 5 / 2 := by intro s; norm_num [Input.xs, negZIn]
  have hst : negZIn.staying true (2, 0, 0) = {0} := by
    ext s
    simp only [Input.staying, Finset.mem_filter, Finset.mem_range, Finset.mem_singleton, Input.Escapes, hx, not_or, not_lt]
    norm_num [negZIn]
  have hf : ⌊(5 / 2 : ℝ)⌋ = 2 := by norm_num [Int.floor_eq_iff]
  have hw : negZIn.w.getD 0 0 = 1 := rfl
  have h1 := C232_any_z_partial (fun _ => 0) (fun _ => 0) negZMaps negZIn negZMaps_represents (by simp [negZIn]) negZIn_good o ho true (2, 0, 0)
    (by simp [Input.Interior, negZIn]) ⟨0, by simp [negZIn], by norm_num [Input.Escapes, Input.xs, negZIn]⟩
    (fun s _ => by
      rw [hx, hf]
      simp [negZIn])
    (fun x _ => x) (-1) 0 1 1 0 0 (by norm_num) (by norm_num) (fun _ => contDiff_id) (fun _ => contDiff_const)
    (fun x _ => by have := line_third 1 0 x; simp only [one_mul, add_zero] at this; simp [this])
    (fun x z => by simp [iteratedDeriv_const]) (fun _ _ => rfl) ramp 4 ramp_le (by
      intro ix iz a b c
      simp only [negZIn] at a b c
      obtain rfl : iz = 0 := by omega
      have hp : negZIn.plane true 0 = 0 := by simp [Input.plane, negZIn]
      have := (C02_numbering_order _ _ _ _ negZMaps_represents (by simp [negZIn]) o ho).1 ix 0 0 (by simpa [negZIn] using a) (by simpa [negZIn] using b)
        (by simp [negZIn]) (by simp [negZIn])
      rw [hp, this]
      obtain ⟨k, rfl⟩ := Nat.exists_eq_add_of_le a
      have : (((1 + k - negZIn.mxg) * negZIn.ny + 0) * negZIn.nz + 0 : ℕ) = k := by simp [negZIn]
      rw [this, ramp, if_pos (by omega)]
      push_cast
      ring)
  rw [hst, Finset.sum_singleton, Finset.sum_singleton, hx, hw] at h1
  norm_num at h1 ⊢
  linarith

end Zoidberg.Weights
