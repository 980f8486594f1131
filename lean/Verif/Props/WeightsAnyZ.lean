import Verif.Props.WeightsPeriodic
import Mathlib.Tactic.IntervalCases

/-! # C13 and C14 for all mapped z indices, with negative ones -/

set_option linter.unusedSectionVars false

namespace Zoidberg.Weights

variable {K : Type} [Field K] [LinearOrder K] [IsStrictOrderedRing K] [FloorRing K]

/-- The interpolation of `Input.interp` with a given z base `zb`, at the distance `u` from it. -/
def Input.interpFrom (i : Input K) (v : Cell → K) (y : ℕ) (x : K) (zb : ℤ) (u : K) : K :=
  let xb := ⌊x⌋
  catmullRomSpline (fun ox =>
    catmullRomSpline (fun oz =>
      v (i.clampX (xb + ox), y, ((zb + oz) % (i.nz : ℤ)).toNat)) u) (x - (xb : K))

/-- One sub-sample with any z: the interpolation is that with the base `int(z)`. -/
theorem sample_any (i : Input K) (hx : 0 < i.nx) (x z : K) (hE : ¬ i.Escapes x) (y : ℕ) (fwd : Bool) (v : ℤ → K) :
    ((xOffsets.zip (shiftedCR (x - (pyInt x : K)) (pyInt x) i.nx i.mxg)).map
      fun p => p.2 * zApply (i.nx, i.ny, i.nz) i.cs.cellNumber (pyInt x) (pyInt z) y
        (if fwd then 1 else -1) (catmullRom (z - (pyInt z : K))) v p.1).sum =
      i.interpFrom (fun d => v (i.cs.cellNumber d)) (i.plane fwd y) x (pyInt z) (z - (pyInt z : K)) := by
  have hh : hits x i.nx i.mxg = false := by
    rw [← Bool.not_eq_true, hits_iff]; exact hE
  obtain ⟨hfl, hlo, hhi⟩ := pyInt_interior x _ _ hh
  have e := shiftedCR_apply (x - (pyInt x : K)) (pyInt x) i.nx i.mxg hlo hhi
    (fun X => catmullRomSpline (fun oz => v (i.cs.cellNumber
        (i.clampX X, i.plane fwd y, ((pyInt z + oz) % (i.nz : ℤ)).toNat))) (z - (pyInt z : K)))
  have e2 : ((xOffsets.zip (shiftedCR (x - (pyInt x : K)) (pyInt x) i.nx i.mxg)).map
      fun p => p.2 * zApply (i.nx, i.ny, i.nz) i.cs.cellNumber (pyInt x) (pyInt z) y
        (if fwd then 1 else -1) (catmullRom (z - (pyInt z : K))) v p.1) =
      ((xOffsets.zip (shiftedCR (x - (pyInt x : K)) (pyInt x) i.nx i.mxg)).map
        fun p => p.2 * catmullRomSpline (fun oz => v (i.cs.cellNumber
        (i.clampX (pyInt x + p.1), i.plane fwd y, ((pyInt z + oz) % (i.nz : ℤ)).toNat)))
          (z - (pyInt z : K))) := by
    apply List.map_congr_left
    intro p hp
    by_cases h0 : p.2 = 0
    · rw [h0]; simp
    · obtain ⟨s1, s2⟩ := shifted_support _ _ _ _ _ _ _ hlo hhi p hp h0
      rw [zApply_eq i hx _ _ _ _ _ _ _ s1 s2]
  rw [e2, e]
  have hcl : ∀ X : ℤ, i.clampX (max (i.mxg : ℤ) (min X ((i.nx : ℤ) - i.mxg - 1))) = i.clampX X := by
    intro X; unfold Input.clampX
    congr 1
    omega
  simp only [hcl]
  rw [hfl]
  rfl

/-- **C13**, what holds for all z: an exported interior row is the average of the interpolations with the base `int(z)`, rounded toward zero, instead of
the cell that contains z. -/
theorem C13_row_any_z (jc : ℕ → ℤ) (jw : ℕ → K) (maps : MapDict K) (i : Input K) (h : Represents maps i) (hm : 2 * i.mxg ≤ i.nx)
    (hw : i.GoodWeights) (o : Ops K) (ho : calculateOps jc jw maps = .ok o) (fwd : Bool) (c : Cell)
    (hc : i.Interior c) (hs : i.SomeStay fwd c) (hclear : ∀ s ∈ i.staying fwd c, i.NoneSkipped (i.xs fwd c s)) (v : ℤ → K) :
    applyRow ((o.legs fwd).op.row ((o.legs fwd).legInterior c).toNat) v =
      (∑ s ∈ i.staying fwd c, i.w.getD s 0 * i.interpFrom (fun d => v (o.cellNumber d)) (i.plane fwd c.2.1) (i.xs fwd c s)
        (pyInt (i.zs fwd c s)) (i.zs fwd c s - (pyInt (i.zs fwd c s) : K))) / ∑ s ∈ i.staying fwd c, i.w.getD s 0 := by
  obtain ⟨_, h2⟩ := rowOf_eq jc jw maps i h hm hw o ho fwd c
  obtain ⟨_, _, hcn, _⟩ := calculateOps_inv jc jw maps i h o ho
  have hr : (o.legs fwd).op.row ((o.legs fwd).legInterior c).toNat = addAll [] (i.contribs fwd c) :=
    h2 hc hs
  have hnx : 0 < i.nx := by have := hc.2.1; omega
  have e0 : applyRow ([] : List (ℤ × K)) v = 0 := by simp [applyRow]
  rw [hr, applyRow_addAll, e0, zero_add, applyRow_contribs i hw.len, hcn, Finset.sum_div]
  apply Finset.sum_congr rfl
  intro s hs'
  rw [thr_sum_exact i _ (Finset.mem_filter.1 hs').2 (hclear s hs')
    (fun xo => zApply (i.nx, i.ny, i.nz) i.cs.cellNumber
      (pyInt (i.xs fwd c s)) (pyInt (i.zs fwd c s)) c.2.1 (if fwd then 1 else -1)
      (catmullRom (i.zs fwd c s - (pyInt (i.zs fwd c s) : K))) v xo),
    sample_any i hnx (i.xs fwd c s) (i.zs fwd c s) (Finset.mem_filter.1 hs').2 c.2.1 fwd v]
  ring

theorem spline_const (a u : K) : catmullRomSpline (fun _ => a) u = a := by
  unfold catmullRomSpline
  ring

theorem interpFrom_z (i : Input K) (v : Cell → K) (f : ℤ → K) (y : ℕ) (x : K) (zb : ℤ) (u : K)
    (h : ∀ X k, v (i.clampX X, y, (k % (i.nz : ℤ)).toNat) = f k) : i.interpFrom v y x zb u = catmullRomSpline (fun oz => f (zb + oz)) u := by
  unfold Input.interpFrom
  simp only [h]
  exact spline_const _ _

/-- For a single sample, exactly which positions are interpolated as documented: those with a z index that is not negative, or is whole. -/
theorem C13_single_iff (jc : ℕ → ℤ) (jw : ℕ → K) (maps : MapDict K) (i : Input K) (h : Represents maps i) (hm : 2 * i.mxg ≤ i.nx)
    (hw : i.GoodWeights) (hn : i.n = 1) (hnz : 4 ≤ i.nz) (o : Ops K) (ho : calculateOps jc jw maps = .ok o) (fwd : Bool) (c : Cell)
    (hc : i.Interior c) (hs : i.SomeStay fwd c) (hclear : ∀ s ∈ i.staying fwd c, i.NoneSkipped (i.xs fwd c s)) :
    (∀ v : ℤ → K, applyRow ((o.legs fwd).op.row ((o.legs fwd).legInterior c).toNat) v = i.legAverage fwd c (fun d => v (o.cellNumber d))) ↔
      (0 ≤ i.zs fwd c 0 ∨ ((⌊i.zs fwd c 0⌋ : ℤ) : K) = i.zs fwd c 0) := by
  have hst : i.staying fwd c = {0} := by
    obtain ⟨s, h1, h2⟩ := hs
    have : s = 0 := by omega
    subst this
    unfold Input.staying
    rw [hn]
    ext t
    simp only [Finset.mem_filter, Finset.mem_range, Finset.mem_singleton]
    constructor
    · rintro ⟨h, -⟩; omega
    · rintro rfl; exact ⟨by omega, h2⟩
  have hw0 : 0 < i.w.getD 0 0 := by
    have hl : 0 < i.w.length := by rw [hw.len, hn]; norm_num
    rw [List.getD_eq_getElem _ _ hl]
    exact hw.pos _ (List.getElem_mem hl)
  have row := fun v => C13_row_any_z jc jw maps i h hm hw o ho fwd c hc hs hclear v
  unfold Input.legAverage
  simp only [row, hst, Finset.sum_singleton]
  have red : ∀ a : K, i.w.getD 0 0 * a / i.w.getD 0 0 = a := by
    intro a; field_simp
  simp only [red]
  generalize hx : i.xs fwd c 0 = x
  generalize hz : i.zs fwd c 0 = z
  constructor
  · intro hall
    by_contra hcon
    push Not at hcon
    obtain ⟨hneg, hfl⟩ := hcon
    have hpy : pyInt z = ⌊z⌋ + 1 := by
      unfold pyInt
      rw [if_neg (not_le.2 hneg)]
      rw [Int.ceil_eq_iff]
      push_cast
      have h1 := Int.lt_floor_add_one z
      have h2 := Int.floor_le z
      have h3 : (⌊z⌋ : K) < z := lt_of_le_of_ne h2 hfl
      constructor <;> linarith
    have hcell := (C02_numbering_order jc jw maps i h hm o ho).1
    have hpl : i.plane fwd c.2.1 < i.ny := by
      have : 0 < i.ny := by have := hc.2.2.1; omega
      unfold Input.plane
      have h1 := Int.emod_lt_of_pos ((c.2.1 : ℤ) + (if fwd then 1 else -1)) (by exact_mod_cast this : (0 : ℤ) < i.ny)
      omega
    have hmod : ∀ X k, o.cellNumber (i.clampX X, i.plane fwd c.2.1, (k % (i.nz : ℤ)).toNat) % (i.nz : ℤ) = k % i.nz := by
      intro X k
      have hk0 := Int.emod_nonneg k (by omega : (i.nz : ℤ) ≠ 0)
      have hk1 := Int.emod_lt_of_pos k (by omega : (0 : ℤ) < i.nz)
      have hx1 := hc.1
      have hx2 := hc.2.1
      rw [hcell _ _ _ (by unfold Input.clampX; omega) (by unfold Input.clampX; omega) hpl (by omega)]
      push_cast
      rw [Int.add_emod, Int.mul_emod_left, zero_add, Int.emod_emod_of_dvd _ (dvd_refl _), Int.toNat_of_nonneg hk0,
        Int.emod_emod_of_dvd _ (dvd_refl _)]
    let q : ℤ := (⌊z⌋ - 1) % i.nz
    have hv := hall (fun k => if k % (i.nz : ℤ) = q then 1 else 0)
    have hf : ∀ X k, (if o.cellNumber (i.clampX X, i.plane fwd c.2.1, (k % (i.nz : ℤ)).toNat) % (i.nz : ℤ) = q then (1 : K) else 0) =
        if k % (i.nz : ℤ) = q then 1 else 0 := by
      intro X k
      rw [hmod]
    rw [interpFrom_z i _ (fun k => if k % (i.nz : ℤ) = q then 1 else 0) _ _ _ _ hf] at hv
    have hi : i.interp (fun d => if o.cellNumber d % (i.nz : ℤ) = q then (1 : K) else 0) (i.plane fwd c.2.1) x z =
        i.interpFrom (fun d => if o.cellNumber d % (i.nz : ℤ) = q then (1 : K) else 0) (i.plane fwd c.2.1) x ⌊z⌋ (z - (⌊z⌋ : K)) := rfl
    rw [hi, interpFrom_z i _ (fun k => if k % (i.nz : ℤ) = q then 1 else 0) _ _ _ _ hf, hpy] at hv
    have hN : (4 : ℤ) ≤ i.nz := by exact_mod_cast hnz
    have ne : ∀ d : ℤ, 0 < d → d < i.nz → (⌊z⌋ - 1 + d) % (i.nz : ℤ) ≠ q := by
      intro d h1 h2 he
      have := Int.emod_emod_of_dvd (⌊z⌋ - 1 + d) (dvd_refl (i.nz : ℤ))
      have hd : (i.nz : ℤ) ∣ (⌊z⌋ - 1 + d) - (⌊z⌋ - 1) := by
        apply Int.dvd_of_emod_eq_zero
        exact Int.emod_eq_emod_iff_emod_sub_eq_zero.1 he
      have hd' : (i.nz : ℤ) ∣ d := by simpa using hd
      exact absurd (Int.le_of_dvd h1 hd') (not_le.2 h2)
    have u0 : 0 < z - (⌊z⌋ : K) := by
      have := lt_of_le_of_ne (Int.floor_le z) hfl
      linarith
    have u1 : z - (⌊z⌋ : K) < 1 := by
      have := Int.lt_floor_add_one z
      linarith
    rw [show z - ((⌊z⌋ + 1 : ℤ) : K) = z - (⌊z⌋ : K) - 1 by push_cast; ring] at hv
    generalize z - (⌊z⌋ : K) = u at u0 u1 hv
    have e0 : (⌊z⌋ + -1) % (i.nz : ℤ) = q := rfl
    have n1 := ne 1 (by norm_num) (by omega)
    have n2 := ne 2 (by norm_num) (by omega)
    have n3 := ne 3 (by norm_num) (by omega)
    unfold catmullRomSpline at hv
    rw [show ⌊z⌋ - 1 + 1 = ⌊z⌋ by ring] at n1
    rw [show ⌊z⌋ - 1 + 2 = ⌊z⌋ + 1 by ring] at n2
    rw [show ⌊z⌋ - 1 + 3 = ⌊z⌋ + 2 by ring] at n3
    simp only [show ⌊z⌋ + 1 + -1 = ⌊z⌋ by ring, show ⌊z⌋ + 1 + 0 = ⌊z⌋ + 1 by ring, show ⌊z⌋ + 0 = ⌊z⌋ by ring,
      show ⌊z⌋ + 1 + 1 = ⌊z⌋ + 2 by ring, show ⌊z⌋ + 1 + 2 = ⌊z⌋ + 3 by ring, e0, n1, n2, n3, if_true, if_false] at hv
    have hsq : 0 < (1 - u) ^ 2 := by
      have : 0 < 1 - u := by linarith
      positivity
    have hp : 0 < u * (1 - u) ^ 2 := mul_pos u0 hsq
    split_ifs at hv
    · have hp2 : 0 < (1 - u) * (1 - u) ^ 2 := mul_pos (by linarith) hsq
      nlinarith
    · nlinarith
  · rintro (hz0 | hz0) v
    · have hzf : pyInt z = ⌊z⌋ := by simp [pyInt, hz0]
      rw [hzf]; rfl
    · have hzf : pyInt z = ⌊z⌋ := by
        unfold pyInt
        split
        · rfl
        · rw [← hz0]; simp
      rw [hzf]; rfl

theorem interp_period (i : Input K) (v : Cell → K) (y : ℕ) (x z : K) (k : ℤ) : i.interp v y x (z + k * i.nz) = i.interp v y x z := by
  have e0 : z + (k : K) * (i.nz : K) = z + ((k * i.nz : ℤ) : K) := by push_cast; ring
  unfold Input.interp
  simp only [e0, Int.floor_add_intCast]
  have e1 : z + ((k * i.nz : ℤ) : K) - ((⌊z⌋ + k * i.nz : ℤ) : K) = z - (⌊z⌋ : K) := by push_cast; ring
  have e2 : ∀ oz : ℤ, (⌊z⌋ + k * (i.nz : ℤ) + oz) % (i.nz : ℤ) = (⌊z⌋ + oz) % (i.nz : ℤ) := by
    intro oz
    rw [show ⌊z⌋ + k * (i.nz : ℤ) + oz = (⌊z⌋ + oz) + i.nz * k by ring, Int.add_mul_emod_self_left]
  simp only [e1, e2]

/-- **C14**, for a single sample exactly which shifts by whole periods leave a row as it is: those to the same side of zero, and those of whole z. -/
theorem C14_single_iff (jc : ℕ → ℤ) (jw : ℕ → K) (maps maps' : MapDict K) (i : Input K) (fz' bz' : Cell → ℕ → K) (h : Represents maps i)
    (h' : Represents maps' (i.withZ fz' bz')) (hm : 2 * i.mxg ≤ i.nx)
    (hw : i.GoodWeights) (hn : i.n = 1) (hnz : 4 ≤ i.nz) (o o' : Ops K) (ho : calculateOps jc jw maps = .ok o)
    (ho' : calculateOps jc jw maps' = .ok o') (fwd : Bool) (c : Cell)
    (hc : i.Interior c) (hs : i.SomeStay fwd c) (hclear : ∀ s ∈ i.staying fwd c, i.NoneSkipped (i.xs fwd c s))
    (k : ℤ) (hk : (i.withZ fz' bz').zs fwd c 0 = i.zs fwd c 0 + k * i.nz) :
    (∀ v : ℤ → K, applyRow ((o.legs fwd).op.row ((o.legs fwd).legInterior c).toNat) v =
      applyRow ((o'.legs fwd).op.row ((o'.legs fwd).legInterior c).toNat) v) ↔
      SameSide (i.zs fwd c 0) ((i.withZ fz' bz').zs fwd c 0) := by
  have hw' : (i.withZ fz' bz').GoodWeights := ⟨hw.len, hw.sum, hw.pos⟩
  have hcn : o.cellNumber = o'.cellNumber := by
    obtain ⟨_, _, a, _⟩ := calculateOps_inv jc jw maps i h o ho
    obtain ⟨_, _, b, _⟩ := calculateOps_inv jc jw maps' _ h' o' ho'
    rw [a, b]
    rfl
  have hxs : (i.withZ fz' bz').xs = i.xs := rfl
  have hst : i.staying fwd c = {0} := by
    obtain ⟨s, h1, h2⟩ := hs
    have : s = 0 := by omega
    subst this
    unfold Input.staying
    rw [hn]
    ext t
    simp only [Finset.mem_filter, Finset.mem_range, Finset.mem_singleton]
    constructor
    · rintro ⟨h, -⟩; omega
    · rintro rfl; exact ⟨by omega, h2⟩
  have hst' : (i.withZ fz' bz').staying fwd c = {0} := hst
  have hav : ∀ v : Cell → K, (i.withZ fz' bz').legAverage fwd c v = i.legAverage fwd c v := by
    intro v
    unfold Input.legAverage
    rw [hst, hst']
    simp only [Finset.sum_singleton]
    rw [hk, hxs]
    have := interp_period i v (i.plane fwd c.2.1) (i.xs fwd c 0) (i.zs fwd c 0) k
    congr 2
  have r1 := C13_single_iff jc jw maps i h hm hw hn hnz o ho fwd c hc hs hclear
  have r2 := C13_single_iff jc jw maps' (i.withZ fz' bz') h' hm hw' hn hnz o' ho' fwd c hc hs hclear
  have whole : ∀ z : K, (⌊z⌋ : K) = z ↔ (⌊z + k * i.nz⌋ : K) = z + k * i.nz := by
    intro z
    have e0 : z + (k : K) * (i.nz : K) = z + ((k * i.nz : ℤ) : K) := by push_cast; ring
    rw [e0, Int.floor_add_intCast]
    push_cast
    constructor
    · intro q; rw [q]
    · intro q; linarith
  simp only [hav, ← hcn] at r2
  rw [hk] at r2 ⊢
  constructor
  · intro hall
    have key : (∀ v : ℤ → K, applyRow ((o.legs fwd).op.row ((o.legs fwd).legInterior c).toNat) v = i.legAverage fwd c (fun d => v (o.cellNumber d))) ↔
        (∀ v : ℤ → K, applyRow ((o'.legs fwd).op.row ((o'.legs fwd).legInterior c).toNat) v = i.legAverage fwd c (fun d => v (o.cellNumber d))) :=
      forall_congr' fun v => by rw [hall v]
    rw [r1, r2, ← whole] at key
    by_cases hwh : (⌊i.zs fwd c 0⌋ : K) = i.zs fwd c 0
    · exact Or.inr hwh
    · left
      simpa [hwh] using key
  · intro hss v
    rw [C13_row_any_z jc jw maps i h hm hw o ho fwd c hc hs hclear v,
      C13_row_any_z jc jw maps' (i.withZ fz' bz') h' hm hw' o' ho' fwd c hc hs hclear v, hst, hst', ← hcn]
    simp only [Finset.sum_singleton]
    rw [hk, hxs]
    have e0 : i.zs fwd c 0 + (k : K) * (i.nz : K) = i.zs fwd c 0 + ((k * i.nz : ℤ) : K) := by push_cast; ring
    rw [e0] at hss ⊢
    rw [pyInt_period _ _ hss]
    have e1 : i.zs fwd c 0 + ((k * i.nz : ℤ) : K) - ((pyInt (i.zs fwd c 0) + k * i.nz : ℤ) : K) = i.zs fwd c 0 - (pyInt (i.zs fwd c 0) : K) := by
      push_cast; ring
    rw [e1]
    have e2 : ∀ oz : ℤ, (pyInt (i.zs fwd c 0) + k * (i.nz : ℤ) + oz) % (i.nz : ℤ) = (pyInt (i.zs fwd c 0) + oz) % (i.nz : ℤ) := by
      intro oz
      rw [show pyInt (i.zs fwd c 0) + k * (i.nz : ℤ) + oz = (pyInt (i.zs fwd c 0) + oz) + i.nz * k by ring, Int.add_mul_emod_self_left]
    have e3 : ∀ f, (i.withZ fz' bz').interpFrom f (i.plane fwd c.2.1) (i.xs fwd c 0) (pyInt (i.zs fwd c 0) + k * i.nz) (i.zs fwd c 0 - (pyInt (i.zs fwd c 0) : K)) =
        i.interpFrom f (i.plane fwd c.2.1) (i.xs fwd c 0) (pyInt (i.zs fwd c 0)) (i.zs fwd c 0 - (pyInt (i.zs fwd c 0) : K)) := by
      intro f
      have : ∀ zb u, (i.withZ fz' bz').interpFrom f (i.plane fwd c.2.1) (i.xs fwd c 0) zb u = i.interpFrom f (i.plane fwd c.2.1) (i.xs fwd c 0) zb u := fun _ _ => rfl
      rw [this]
      unfold Input.interpFrom
      simp only [e2]
    rw [← e3]
    rfl

/-- A case: z = -3/2 shifted by one period of four crosses zero and changes the row; shifted by minus one it does not. -/
example : ∃ (o o' o'' : Ops ℚ), calculateOps (fun _ => 0) (fun _ => 0) (negMaps (-3 / 2)) = .ok o ∧
    calculateOps (fun _ => 0) (fun _ => 0) (negMaps (5 / 2)) = .ok o' ∧ calculateOps (fun _ => 0) (fun _ => 0) (negMaps (-11 / 2)) = .ok o'' ∧
    (¬ ∀ v : ℤ → ℚ, applyRow ((o.legs true).op.row ((o.legs true).legInterior (0, 0, 0)).toNat) v =
      applyRow ((o'.legs true).op.row ((o'.legs true).legInterior (0, 0, 0)).toNat) v) ∧
    ∀ v : ℤ → ℚ, applyRow ((o.legs true).op.row ((o.legs true).legInterior (0, 0, 0)).toNat) v =
      applyRow ((o''.legs true).op.row ((o''.legs true).legInterior (0, 0, 0)).toNat) v := by
  have hok := fun z => C10_assembly_succeeds (fun _ => 0) (fun _ => 0) (negMaps z) (negIn z) (negMaps_represents _) (by simp [negIn]) (negIn_good _)
  obtain ⟨o, ho⟩ := hok (-3 / 2)
  obtain ⟨o', ho'⟩ := hok (5 / 2)
  obtain ⟨o'', ho''⟩ := hok (-11 / 2)
  have hc : ∀ z, (negIn z).Interior (0, 0, 0) := fun z => by simp [Input.Interior, negIn]
  have hs : ∀ z, (negIn z).SomeStay true (0, 0, 0) := fun z => ⟨0, by simp [negIn], by norm_num [Input.Escapes, Input.xs, negIn]⟩
  have hcl : ∀ z, ∀ s ∈ (negIn z).staying true (0, 0, 0), (negIn z).NoneSkipped ((negIn z).xs true (0, 0, 0) s) :=
    fun z s _ => noneSkipped_of_clear _ _ (Or.inl (by simp [Input.xs, negIn]))
  refine ⟨o, o', o'', ho, ho', ho'', ?_, ?_⟩
  · rw [C14_single_iff _ _ _ _ (negIn (-3 / 2)) (fun _ _ => 5 / 2) (fun _ _ => 5 / 2) (negMaps_represents _) (negMaps_represents (5 / 2)) (by simp [negIn]) (negIn_good _) rfl
      (by simp [negIn]) o o' ho ho' true (0, 0, 0) (hc _) (hs _) (hcl _) 1 (by norm_num [Input.withZ, Input.zs, negIn])]
    have : ⌊(-3 / 2 : ℚ)⌋ = -2 := by norm_num [Int.floor_eq_iff]
    norm_num [SameSide, Input.withZ, Input.zs, negIn, this]
  · rw [C14_single_iff _ _ _ _ (negIn (-3 / 2)) (fun _ _ => -11 / 2) (fun _ _ => -11 / 2) (negMaps_represents _) (negMaps_represents (-11 / 2)) (by simp [negIn]) (negIn_good _) rfl
      (by simp [negIn]) o o'' ho ho'' true (0, 0, 0) (hc _) (hs _) (hcl _) (-1) (by norm_num [Input.withZ, Input.zs, negIn])]
    norm_num [SameSide, Input.withZ, Input.zs, negIn]

/-- A case for both: z = -1/2 is not interpolated as documented, -1 is. -/
example : ∃ (o o' : Ops ℚ), calculateOps (fun _ => 0) (fun _ => 0) (negMaps (-1 / 2)) = .ok o ∧
    calculateOps (fun _ => 0) (fun _ => 0) (negMaps (-1)) = .ok o' ∧
    (¬ ∀ v : ℤ → ℚ, applyRow ((o.legs true).op.row ((o.legs true).legInterior (0, 0, 0)).toNat) v =
      (negIn (-1 / 2)).legAverage true (0, 0, 0) (fun d => v (o.cellNumber d))) ∧
    ∀ v : ℤ → ℚ, applyRow ((o'.legs true).op.row ((o'.legs true).legInterior (0, 0, 0)).toNat) v =
      (negIn (-1)).legAverage true (0, 0, 0) (fun d => v (o'.cellNumber d)) := by
  obtain ⟨o, ho⟩ := C10_assembly_succeeds (fun _ => 0) (fun _ => 0) (negMaps (-1 / 2)) (negIn (-1 / 2)) (negMaps_represents _) (by simp [negIn]) (negIn_good _)
  obtain ⟨o', ho'⟩ := C10_assembly_succeeds (fun _ => 0) (fun _ => 0) (negMaps (-1)) (negIn (-1)) (negMaps_represents _) (by simp [negIn]) (negIn_good _)
  have hc : ∀ z, (negIn z).Interior (0, 0, 0) := fun z => by simp [Input.Interior, negIn]
  have hs : ∀ z, (negIn z).SomeStay true (0, 0, 0) := fun z => ⟨0, by simp [negIn], by norm_num [Input.Escapes, Input.xs, negIn]⟩
  have hcl : ∀ z, ∀ s ∈ (negIn z).staying true (0, 0, 0), (negIn z).NoneSkipped ((negIn z).xs true (0, 0, 0) s) :=
    fun z s _ => noneSkipped_of_clear _ _ (Or.inl (by simp [Input.xs, negIn]))
  refine ⟨o, o', ho, ho', ?_, ?_⟩
  · rw [C13_single_iff _ _ _ _ (negMaps_represents _) (by simp [negIn]) (negIn_good _) rfl (by simp [negIn]) o ho true (0, 0, 0) (hc _) (hs _) (hcl _)]
    norm_num [Input.zs, negIn]
  · rw [C13_single_iff _ _ _ _ (negMaps_represents _) (by simp [negIn]) (negIn_good _) rfl (by simp [negIn]) o' ho' true (0, 0, 0) (hc _) (hs _) (hcl _)]
    right
    have : (negIn (-1)).zs true (0, 0, 0) 0 = ((-1 : ℤ) : ℚ) := by norm_num [Input.zs, negIn]
    rw [this, Int.floor_intCast]

end Zoidberg.Weights
