import Verif.Props.WeightsOrderAny

/-!
# C258: how much the parallel operators amplify
-/

set_option linter.unusedSectionVars false

namespace Zoidberg.Weights

/-- An average of values bounded by `B`. -/
theorem average_abs_le {S : Finset ℕ} {w f : ℕ → ℝ} {B : ℝ} (hw : ∀ s ∈ S, 0 ≤ w s) (hW : 0 < ∑ s ∈ S, w s) (hf : ∀ s ∈ S, |f s| ≤ B) :
    |(∑ s ∈ S, w s * f s) / ∑ s ∈ S, w s| ≤ B := by
  rw [abs_div, abs_of_pos hW, div_le_iff₀ hW, Finset.mul_sum]
  refine (Finset.abs_sum_le_sum_abs _ _).trans (Finset.sum_le_sum fun s hs => ?_)
  rw [abs_mul, abs_of_nonneg (hw s hs), mul_comm B]
  exact mul_le_mul_of_nonneg_left (hf s hs) (hw s hs)

theorem weight_nonneg (i : Input ℝ) (hw : i.GoodWeights) (fwd : Bool) (c : Cell) : ∀ s ∈ i.staying fwd c, 0 ≤ i.w.getD s 0 := by
  intro s hs
  have hlt : s < i.w.length := by
    rw [hw.len]
    unfold Input.staying at hs
    simpa using (Finset.mem_filter.1 hs).1
  rw [List.getD_eq_getElem _ _ hlt]
  exact (hw.pos _ (List.getElem_mem _)).le

/-- **C258 (partial).** A row gives at most 25/16 times the largest value where the z indices are not negative, and at most 45/4 times it in general
(and the weights that are skipped). -/
theorem C258_partial (jc : ℕ → ℤ) (jw : ℕ → ℝ) (maps : MapDict ℝ) (i : Input ℝ) (h : Represents maps i) (hm : 2 * i.mxg ≤ i.nx)
    (hw : i.GoodWeights) (o : Ops ℝ) (ho : calculateOps jc jw maps = .ok o) (fwd : Bool) (c : Cell) (hc : i.Interior c) (hs : i.SomeStay fwd c)
    (v : ℤ → ℝ) (M : ℝ) (hv : ∀ k, |v k| ≤ M) :
    |applyRow ((o.legs fwd).op.row ((o.legs fwd).legInterior c).toNat) v| ≤ (45 / 4 + 36 / 10 ^ 10) * M ∧
    ((∀ s ∈ i.staying fwd c, 0 ≤ i.zs fwd c s) →
      |applyRow ((o.legs fwd).op.row ((o.legs fwd).legInterior c).toNat) v| ≤ (25 / 16 + 5 / 10 ^ 10) * M) := by
  have hW := staying_pos i hw fwd c hs
  have hwn := weight_nonneg i hw fwd c
  constructor
  · have h1 := row_any_skip jc jw maps i h hm hw o ho fwd c hc hs v M hv
    have h2 := average_abs_le hwn hW (B := 45 / 4 * M) (f := fun s => i.interpFrom (fun d => v (o.cellNumber d)) (i.plane fwd c.2.1) (i.xs fwd c s)
        (pyInt (i.zs fwd c s)) (i.zs fwd c s - (pyInt (i.zs fwd c s) : ℝ))) (by
      intro s _
      unfold Input.interpFrom
      rw [show 45 / 4 * M = 5 / 4 * (9 * M) by ring]
      apply spline_le
      · have := Int.floor_le (i.xs fwd c s); linarith
      · have := Int.lt_floor_add_one (i.xs fwd c s); linarith
      · intro k _ _
        exact spline_le_wide (pyInt_near _).1 (pyInt_near _).2 fun oz _ _ => hv _)
    rw [abs_le] at h1 h2 ⊢
    constructor <;> linarith [h1.1, h1.2, h2.1, h2.2]
  · intro hz
    have h1 := (C13_row_is_interpolation_partial jc jw maps i h hm hw o ho fwd c hc hs hz v).1 M hv
    have h2 : |i.legAverage fwd c (fun d => v (o.cellNumber d))| ≤ 25 / 16 * M := by
      unfold Input.legAverage
      apply average_abs_le hwn hW
      intro s _
      unfold Input.interp
      rw [show 25 / 16 * M = 5 / 4 * (5 / 4 * M) by ring]
      apply spline_le
      · have := Int.floor_le (i.xs fwd c s); linarith
      · have := Int.lt_floor_add_one (i.xs fwd c s); linarith
      · intro k _ _
        apply spline_le
        · have := Int.floor_le (i.zs fwd c s); linarith
        · have := Int.lt_floor_add_one (i.zs fwd c s); linarith
        · exact fun oz _ _ => hv _
    rw [abs_le] at h1 h2 ⊢
    constructor <;> linarith [h1.1, h1.2, h2.1, h2.2]

/-- **C258.** Where all ends are at grid points nothing is amplified, and a row stays between the smallest and the largest value. -/
theorem C258_whole (jc : ℕ → ℤ) (jw : ℕ → ℝ) (maps : MapDict ℝ) (i : Input ℝ) (h : Represents maps i) (hm : 2 * i.mxg ≤ i.nx)
    (hw : i.GoodWeights) (o : Ops ℝ) (ho : calculateOps jc jw maps = .ok o) (fwd : Bool) (c : Cell) (hc : i.Interior c) (hs : i.SomeStay fwd c)
    (hx : ∀ s ∈ i.staying fwd c, ((⌊i.xs fwd c s⌋ : ℤ) : ℝ) = i.xs fwd c s) (hz : ∀ s ∈ i.staying fwd c, ((⌊i.zs fwd c s⌋ : ℤ) : ℝ) = i.zs fwd c s)
    (v : ℤ → ℝ) (a b : ℝ) (hv : ∀ k, a ≤ v k ∧ v k ≤ b) :
    a ≤ applyRow ((o.legs fwd).op.row ((o.legs fwd).legInterior c).toNat) v ∧
      applyRow ((o.legs fwd).op.row ((o.legs fwd).legInterior c).toNat) v ≤ b := by
  have hns : ∀ s ∈ i.staying fwd c, i.NoneSkipped (i.xs fwd c s) := fun s hs' => noneSkipped_of_clear i _ (Or.inl (hx s hs').symm)
  have hW := staying_pos i hw fwd c hs
  have hwn := weight_nonneg i hw fwd c
  have hp : ∀ s ∈ i.staying fwd c, a ≤ i.interpFrom (fun d => v (o.cellNumber d)) (i.plane fwd c.2.1) (i.xs fwd c s)
        (pyInt (i.zs fwd c s)) (i.zs fwd c s - (pyInt (i.zs fwd c s) : ℝ)) ∧ i.interpFrom (fun d => v (o.cellNumber d)) (i.plane fwd c.2.1) (i.xs fwd c s)
        (pyInt (i.zs fwd c s)) (i.zs fwd c s - (pyInt (i.zs fwd c s) : ℝ)) ≤ b := by
    intro s hs'
    have e1 : i.xs fwd c s - ((⌊i.xs fwd c s⌋ : ℤ) : ℝ) = 0 := by rw [hx s hs', sub_self]
    have e2 : i.zs fwd c s - ((pyInt (i.zs fwd c s) : ℤ) : ℝ) = 0 := by
      have hp : pyInt (i.zs fwd c s) = ⌊i.zs fwd c s⌋ := by
        have : ∀ k : ℤ, pyInt ((k : ℤ) : ℝ) = k := fun k => by simp [pyInt]
        conv_lhs => rw [← hz s hs']
        exact this _
      rw [hp, hz s hs', sub_self]
    have z0 : ∀ p : ℤ → ℝ, catmullRomSpline p 0 = p 0 := fun p => by simp [catmullRomSpline]
    unfold Input.interpFrom
    simp only [e1, e2, z0]
    exact hv _
  rw [C13_row_any_z jc jw maps i h hm hw o ho fwd c hc hs hns v, le_div_iff₀ hW, div_le_iff₀ hW, Finset.mul_sum, Finset.mul_sum]
  constructor
  · refine Finset.sum_le_sum fun s hs' => ?_
    rw [mul_comm a]
    exact mul_le_mul_of_nonneg_left (hp s hs').1 (hwn s hs')
  · refine Finset.sum_le_sum fun s hs' => ?_
    rw [mul_comm b]
    exact mul_le_mul_of_nonneg_left (hp s hs').2 (hwn s hs')

/-- The full claim: no value larger than those on the cells, up to the weights that are skipped. -/
def NoAmplification : Prop := ∀ (jc : ℕ → ℤ) (jw : ℕ → ℝ) (maps : MapDict ℝ) (i : Input ℝ), Represents maps i → 2 * i.mxg ≤ i.nx →
    i.GoodWeights → ∀ o : Ops ℝ, calculateOps jc jw maps = .ok o → ∀ (fwd : Bool) (c : Cell), i.Interior c → i.SomeStay fwd c →
    ∀ (v : ℤ → ℝ) (M : ℝ), (∀ k, |v k| ≤ M) → |applyRow ((o.legs fwd).op.row ((o.legs fwd).legInterior c).toNat) v| ≤ (1 + 36 / 10 ^ 10) * M

/-- The values -1, 1, 1, -1. -/
noncomputable def hump (k : ℤ) : ℝ := if k = 1 ∨ k = 2 then 1 else -1

theorem hump_le (k : ℤ) : |hump k| ≤ 1 := by
  unfold hump
  split_ifs <;> norm_num

theorem hump_at (o : Ops ℝ) (ho : calculateOps (fun _ => 0) (fun _ => 0) edgeMaps = .ok o) (x : ℕ) (h1 : 1 ≤ x) (h2 : x < 6) :
    hump (o.cellNumber (x, 0, 0)) = if x = 2 ∨ x = 3 then 1 else -1 := by
  have := (C02_numbering_order _ _ _ _ edgeMaps_represents (by simp [edgeIn]) o ho).1 x 0 0 (by simpa [edgeIn] using h1)
    (by simp only [edgeIn]; omega) (by simp [edgeIn]) (by simp [edgeIn])
  rw [this]
  have : (((x - edgeIn.mxg) * edgeIn.ny + 0) * edgeIn.nz + 0 : ℕ) = x - 1 := by simp [edgeIn]
  rw [this, hump]
  congr 1
  apply propext
  omega

theorem hump_interp (o : Ops ℝ) (ho : calculateOps (fun _ => 0) (fun _ => 0) edgeMaps = .ok o) :
    edgeIn.interp (fun d => hump (o.cellNumber d)) 0 (5 / 2) 0 = 5 / 4 := by
  have f1 : ⌊(5 / 2 : ℝ)⌋ = 2 := by norm_num [Int.floor_eq_iff]
  have f2 : ⌊(0 : ℝ)⌋ = 0 := by simp
  have c0 : edgeIn.clampX (2 + -1) = 1 := by simp [Input.clampX, edgeIn]
  have c1 : edgeIn.clampX (2 + 0) = 2 := by simp [Input.clampX, edgeIn]
  have c2 : edgeIn.clampX (2 + 1) = 3 := by simp [Input.clampX, edgeIn]
  have c3 : edgeIn.clampX (2 + 2) = 4 := by simp [Input.clampX, edgeIn]
  have hz : ∀ k : ℤ, (k % ((edgeIn.nz : ℕ) : ℤ)).toNat = 0 := fun k => by simp [edgeIn]
  unfold Input.interp
  simp only [f1, f2, hz]
  unfold catmullRomSpline
  simp only [c0, c1, c2, c3, hump_at o ho 1 (by norm_num) (by norm_num), hump_at o ho 2 (by norm_num) (by norm_num),
    hump_at o ho 3 (by norm_num) (by norm_num), hump_at o ho 4 (by norm_num) (by norm_num)]
  norm_num

theorem hump_row (o : Ops ℝ) (ho : calculateOps (fun _ => 0) (fun _ => 0) edgeMaps = .ok o) :
    |applyRow ((o.legs true).op.row ((o.legs true).legInterior (2, 0, 0)).toNat) hump - 5 / 4| ≤ 5 / 10 ^ 10 := by
  have hst := edge_stay true (2, 0, 0) (by norm_num) (by norm_num)
  have hin : edgeIn.Interior (2, 0, 0) := by simp [Input.Interior, edgeIn]
  have hs : edgeIn.SomeStay true (2, 0, 0) := ⟨0, by simp [edgeIn], by norm_num [Input.Escapes, Input.xs, edgeIn]⟩
  have hz : ∀ s ∈ edgeIn.staying true (2, 0, 0), 0 ≤ edgeIn.zs true (2, 0, 0) s := fun s _ => by simp [Input.zs, edgeIn]
  have hx : edgeIn.xs true (2, 0, 0) 0 = 5 / 2 := by norm_num [Input.xs, edgeIn]
  have hz0 : edgeIn.zs true (2, 0, 0) 0 = 0 := rfl
  have hw : edgeIn.w.getD 0 0 = 1 := rfl
  have hpl : edgeIn.plane true 0 = 0 := by simp [Input.plane, edgeIn]
  have h2 := (C13_row_is_interpolation_partial _ _ edgeMaps edgeIn edgeMaps_represents (by simp [edgeIn]) edgeIn_good o ho true (2, 0, 0) hin hs hz hump).1 1 hump_le
  unfold Input.legAverage at h2
  rw [hst, Finset.sum_singleton, Finset.sum_singleton, hx, hw, hz0, hpl, hump_interp o ho] at h2
  norm_num at h2 ⊢
  exact h2

/-- **C258 is false between grid points**: half way, values between -1 and 1 give 5/4. -/
theorem C258_fails : ¬ NoAmplification := by
  intro hall
  obtain ⟨o, ho⟩ := C10_assembly_succeeds (fun _ => 0) (fun _ => 0) edgeMaps edgeIn edgeMaps_represents (by simp [edgeIn]) edgeIn_good
  have h1 := hall _ _ edgeMaps edgeIn edgeMaps_represents (by simp [edgeIn]) edgeIn_good o ho true (2, 0, 0) (by simp [Input.Interior, edgeIn])
    ⟨0, by simp [edgeIn], by norm_num [Input.Escapes, Input.xs, edgeIn]⟩ hump 1 hump_le
  have h2 := hump_row o ho
  rw [abs_le] at h1 h2
  norm_num at h1 h2
  linarith [h1.2, h2.1]

/-- Nor do the operators keep values positive: the values 0, 0, 0, 1 give -1/16. -/
theorem C258_fails_positive : ∃ o : Ops ℝ, calculateOps (fun _ => 0) (fun _ => 0) edgeMaps = .ok o ∧ ∃ v : ℤ → ℝ, (∀ k, 0 ≤ v k ∧ v k ≤ 1) ∧
    applyRow ((o.legs true).op.row ((o.legs true).legInterior (2, 0, 0)).toNat) v < 0 := by
  obtain ⟨o, ho⟩ := C10_assembly_succeeds (fun _ => 0) (fun _ => 0) edgeMaps edgeIn edgeMaps_represents (by simp [edgeIn]) edgeIn_good
  refine ⟨o, ho, fun k => (1 - hump k) / 2, ?_, ?_⟩
  · intro k
    have := abs_le.1 (hump_le k)
    constructor <;> linarith [this.1, this.2]
  · have h2 := hump_row o ho
    have hin : edgeIn.Interior (2, 0, 0) := by simp [Input.Interior, edgeIn]
    have hs : edgeIn.SomeStay true (2, 0, 0) := ⟨0, by simp [edgeIn], by norm_num [Input.Escapes, Input.xs, edgeIn]⟩
    have hst := edge_stay true (2, 0, 0) (by norm_num) (by norm_num)
    have hz : ∀ s ∈ edgeIn.staying true (2, 0, 0), 0 ≤ edgeIn.zs true (2, 0, 0) s := fun s _ => by simp [Input.zs, edgeIn]
    have h1 := (C13_row_is_interpolation_partial _ _ edgeMaps edgeIn edgeMaps_represents (by simp [edgeIn]) edgeIn_good o ho true (2, 0, 0) hin hs hz
      (fun k => (1 - hump k) / 2)).1 1 (by
        intro k
        have := abs_le.1 (hump_le k)
        rw [abs_le]
        constructor <;> linarith [this.1, this.2])
    have hx : edgeIn.xs true (2, 0, 0) 0 = 5 / 2 := by norm_num [Input.xs, edgeIn]
    have hz0 : edgeIn.zs true (2, 0, 0) 0 = 0 := rfl
    have hw : edgeIn.w.getD 0 0 = 1 := rfl
    have hpl : edgeIn.plane true 0 = 0 := by simp [Input.plane, edgeIn]
    have e : edgeIn.interp (fun d => (1 - hump (o.cellNumber d)) / 2) 0 (5 / 2) 0 = (1 - 5 / 4) / 2 := by
      rw [← hump_interp o ho]
      unfold Input.interp catmullRomSpline
      ring
    unfold Input.legAverage at h1
    rw [hst, Finset.sum_singleton, Finset.sum_singleton, hx, hw, hz0, hpl, e] at h1
    rw [abs_le] at h1
    norm_num at h1 ⊢
    linarith [h1.2]

/-- A grid in which all field lines end at the grid point they start from. -/
noncomputable def wholeIn : Input ℝ := ⟨7, 1, 1, 1, 1, fun c _ => (c.1 : ℝ), fun _ _ => 0, fun c _ => (c.1 : ℝ), fun _ _ => 0, [1]⟩

/-- A dictionary holding `wholeIn`. -/
noncomputable def wholeMaps : MapDict ℝ := fun k =>
  if k = "R" then some (.arr3 7 1 1 fun _ => 0)
  else if k = "MXG" then some (.nat 1)
  else if k = "forward_xt_prime" then some (.arr3 7 1 1 fun c => (c.1 : ℝ))
  else if k = "forward_zt_prime" then some (.arr3 7 1 1 fun _ => 0)
  else if k = "backward_xt_prime" then some (.arr3 7 1 1 fun c => (c.1 : ℝ))
  else if k = "backward_zt_prime" then some (.arr3 7 1 1 fun _ => 0)
  else none

theorem wholeMaps_represents : Represents wholeMaps wholeIn where
  shape := ⟨fun _ => 0, by simp [wholeMaps, wholeIn]⟩
  mxg := by simp [wholeMaps, wholeIn]
  fx := Or.inr ⟨by simp [wholeMaps], rfl, _, by simp [wholeMaps, wholeIn]; rfl, rfl⟩
  fz := Or.inr ⟨by simp [wholeMaps], rfl, _, by simp [wholeMaps, wholeIn]; rfl, rfl⟩
  bx := Or.inr ⟨by simp [wholeMaps], rfl, _, by simp [wholeMaps, wholeIn]; rfl, rfl⟩
  bz := Or.inr ⟨by simp [wholeMaps], rfl, _, by simp [wholeMaps, wholeIn]; rfl, rfl⟩
  w := Or.inr ⟨by simp [wholeMaps], rfl, rfl⟩

theorem wholeIn_good : wholeIn.GoodWeights where
  len := rfl
  sum := by norm_num [wholeIn]
  pos := by intro v hv; simp [wholeIn] at hv; simp [hv]

/-- A case for C258: here nothing is amplified, and positive values stay positive. -/
example : ∃ o : Ops ℝ, calculateOps (fun _ => 0) (fun _ => 0) wholeMaps = .ok o ∧ ∀ (v : ℤ → ℝ) (a b : ℝ), (∀ k, a ≤ v k ∧ v k ≤ b) →
    a ≤ applyRow ((o.legs true).op.row ((o.legs true).legInterior (2, 0, 0)).toNat) v ∧
      applyRow ((o.legs true).op.row ((o.legs true).legInterior (2, 0, 0)).toNat) v ≤ b := by
  obtain ⟨o, ho⟩ := C10_assembly_succeeds (fun _ => 0) (fun _ => 0) wholeMaps wholeIn wholeMaps_represents (by simp [wholeIn]) wholeIn_good
  refine ⟨o, ho, fun v a b hv => C258_whole _ _ wholeMaps wholeIn wholeMaps_represents (by simp [wholeIn]) wholeIn_good o ho true (2, 0, 0)
    (by simp [Input.Interior, wholeIn]) ⟨0, by simp [wholeIn], by norm_num [Input.Escapes, Input.xs, wholeIn]⟩ ?_ ?_ v a b hv⟩
  · intro s _
    simp [Input.xs, wholeIn]
  · intro s _
    simp [Input.zs, wholeIn]

end Zoidberg.Weights
