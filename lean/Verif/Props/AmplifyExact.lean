import Verif.Props.Amplify
import Verif.Props.Exact8

/-!
# C258: where the parallel operators do not amplify
-/

set_option linter.unusedSectionVars false

namespace Zoidberg.Weights

/-- 1 at two neighbouring values of both indices, -1 or 1 elsewhere: the product of two signs. -/
noncomputable def signs (i : Input ℝ) (xb zb : ℤ) (k : ℤ) : ℝ :=
  (if k / i.nz / i.ny + i.mxg = xb ∨ k / i.nz / i.ny + i.mxg = xb + 1 then 1 else -1) *
    if k % i.nz = zb % i.nz ∨ k % i.nz = (zb + 1) % i.nz then 1 else -1

theorem signs_le (i : Input ℝ) (xb zb k : ℤ) : |signs i xb zb k| ≤ 1 := by
  unfold signs
  split_ifs <;> norm_num

theorem signs_at (jc : ℕ → ℤ) (jw : ℕ → ℝ) (maps : MapDict ℝ) (i : Input ℝ) (h : Represents maps i) (hm : 2 * i.mxg ≤ i.nx) (o : Ops ℝ)
    (ho : calculateOps jc jw maps = .ok o) (xb zb : ℤ) (y : ℕ) (hy : y < i.ny) (hnz : 4 ≤ i.nz) (hlo : (i.mxg : ℤ) + 1 ≤ xb) (hhi : xb + 2 + i.mxg < i.nx) (a b : ℤ)
    (ha : -1 ≤ a) (ha2 : a ≤ 2) (hb : -1 ≤ b) (hb2 : b ≤ 2) :
    signs i xb zb (o.cellNumber (i.clampX (xb + a), y, ((zb + b) % (i.nz : ℤ)).toNat)) =
      (if a = 0 ∨ a = 1 then 1 else -1) * if b = 0 ∨ b = 1 then 1 else -1 := by
  have hc : (i.clampX (xb + a) : ℤ) = xb + a := by
    unfold Input.clampX
    omega
  have hn0 : (0 : ℤ) < i.nz := by omega
  have m1 := Int.emod_nonneg (zb + b) hn0.ne'
  have m2 := Int.emod_lt_of_pos (zb + b) hn0
  have hz : (((zb + b) % (i.nz : ℤ)).toNat : ℤ) = (zb + b) % i.nz := by omega
  rw [(C02_numbering_order _ _ _ _ h hm o ho).1 _ y _ (by omega) (by omega) hy (by omega)]
  have e : (((((i.clampX (xb + a) - i.mxg) * i.ny + y) * i.nz + ((zb + b) % (i.nz : ℤ)).toNat : ℕ)) : ℤ) =
      (y + (xb + a - i.mxg) * i.ny) * i.nz + (zb + b) % i.nz := by
    push_cast [hz]
    rw [Nat.cast_sub (by omega), hc]
    ring
  rw [e]
  have hyz : (0 : ℤ) < i.ny := by omega
  have d1 : ((y + (xb + a - i.mxg) * i.ny) * i.nz + (zb + b) % i.nz : ℤ) / i.nz / i.ny = xb + a - i.mxg := by
    rw [add_comm, Int.add_mul_ediv_right _ _ hn0.ne', Int.ediv_eq_zero_of_lt m1 m2, zero_add, Int.add_mul_ediv_right _ _ hyz.ne',
      Int.ediv_eq_zero_of_lt (by omega) (by omega), zero_add]
  have d2 : ((y + (xb + a - i.mxg) * i.ny) * i.nz + (zb + b) % i.nz : ℤ) % i.nz = (zb + b) % i.nz := by
    rw [add_comm, Int.add_mul_emod_self_right, Int.emod_emod]
  unfold signs
  rw [d1, d2]
  have key : ∀ c : ℤ, 0 ≤ c → c ≤ 1 → ((zb + b) % i.nz = (zb + c) % i.nz ↔ b = c) := by
    intro c h0 h1
    constructor
    · intro hh
      have h2 : (i.nz : ℤ) ∣ (zb + b) - (zb + c) := Int.dvd_of_emod_eq_zero (Int.emod_eq_emod_iff_emod_sub_eq_zero.1 hh)
      have h3 := Int.eq_zero_of_abs_lt_dvd h2 (by rw [abs_lt]; omega)
      omega
    · rintro rfl
      rfl
  congr 1
  · congr 1
    apply propext
    omega
  · congr 1
    have k0 := key 0 le_rfl (by norm_num)
    have k1 := key 1 (by norm_num) le_rfl
    rw [add_zero] at k0
    rw [k0, k1]

/-- The weights of both directions add up in size to the product of `1 + u (1 - u)`. -/
theorem signs_interp (f : ℤ → ℤ → ℝ) (u w : ℝ) (hf : ∀ a b, -1 ≤ a → a ≤ 2 → -1 ≤ b → b ≤ 2 → f a b = (if a = 0 ∨ a = 1 then 1 else -1) * if b = 0 ∨ b = 1 then 1 else -1) :
    catmullRomSpline (fun a => catmullRomSpline (fun b => f a b) w) u = (1 + u * (1 - u)) * (1 + w * (1 - w)) := by
  unfold catmullRomSpline
  dsimp only
  rw [hf (-1) (-1), hf (-1) 0, hf (-1) 1, hf (-1) 2, hf 0 (-1), hf 0 0, hf 0 1, hf 0 2, hf 1 (-1), hf 1 0, hf 1 1, hf 1 2, hf 2 (-1), hf 2 0, hf 2 1, hf 2 2]
  · norm_num
    ring
  all_goals norm_num

/-- **C258, the amplification**: a row with one sample that stays, `u` and `w` from the grid points in x and z, amplifies some values by `(1 + u (1 - u)) (1 + w (1 - w))`. -/
theorem C258_amplification (jc : ℕ → ℤ) (jw : ℕ → ℝ) (maps : MapDict ℝ) (i : Input ℝ) (h : Represents maps i) (hm : 2 * i.mxg ≤ i.nx)
    (hw : i.GoodWeights) (o : Ops ℝ) (ho : calculateOps jc jw maps = .ok o) (fwd : Bool) (c : Cell) (hc : i.Interior c) (s : ℕ) (hst : i.staying fwd c = {s})
    (hz : 0 ≤ i.zs fwd c s) (hns : i.NoneSkipped (i.xs fwd c s)) (hnz : 4 ≤ i.nz) (hlo : (i.mxg : ℤ) + 1 ≤ ⌊i.xs fwd c s⌋) (hhi : ⌊i.xs fwd c s⌋ + 2 + i.mxg < i.nx) :
    ∃ v : ℤ → ℝ, (∀ k, |v k| ≤ 1) ∧ applyRow ((o.legs fwd).op.row ((o.legs fwd).legInterior c).toNat) v =
      (1 + Int.fract (i.xs fwd c s) * (1 - Int.fract (i.xs fwd c s))) * (1 + Int.fract (i.zs fwd c s) * (1 - Int.fract (i.zs fwd c s))) := by
  have hmem : s ∈ i.staying fwd c := by rw [hst]; exact Finset.mem_singleton_self s
  have hs : i.SomeStay fwd c := by
    simp only [Input.staying, Finset.mem_filter, Finset.mem_range] at hmem
    exact ⟨s, hmem.1, hmem.2⟩
  refine ⟨signs i ⌊i.xs fwd c s⌋ ⌊i.zs fwd c s⌋, signs_le i _ _, ?_⟩
  rw [(C13_row_is_interpolation_partial jc jw maps i h hm hw o ho fwd c hc hs (by rw [hst]; simpa using hz) _).2 (by rw [hst]; simpa using hns)]
  have hW := staying_pos i hw fwd c hs
  unfold Input.legAverage
  rw [hst, Finset.sum_singleton, Finset.sum_singleton] at *
  rw [mul_div_cancel_left₀ _ hW.ne']
  unfold Input.interp
  dsimp only
  exact signs_interp _ _ _ fun a b h1 h2 h3 h4 =>
    signs_at jc jw maps i h hm o ho _ _ _ (plane_lt i (by have := hc.2.2.1; omega) fwd _) hnz hlo hhi a b h1 h2 h3 h4

/-- **C258, the exact condition**: a row with one sample that stays, away from the edge of the grid, does not amplify exactly if the sample is a grid point. -/
theorem C258_iff (jc : ℕ → ℤ) (jw : ℕ → ℝ) (maps : MapDict ℝ) (i : Input ℝ) (h : Represents maps i) (hm : 2 * i.mxg ≤ i.nx)
    (hw : i.GoodWeights) (o : Ops ℝ) (ho : calculateOps jc jw maps = .ok o) (fwd : Bool) (c : Cell) (hc : i.Interior c) (s : ℕ) (hst : i.staying fwd c = {s})
    (hz : 0 ≤ i.zs fwd c s) (hns : i.NoneSkipped (i.xs fwd c s)) (hnz : 4 ≤ i.nz) (hlo : (i.mxg : ℤ) + 1 ≤ ⌊i.xs fwd c s⌋) (hhi : ⌊i.xs fwd c s⌋ + 2 + i.mxg < i.nx) :
    (∀ (v : ℤ → ℝ) (M : ℝ), (∀ k, |v k| ≤ M) → |applyRow ((o.legs fwd).op.row ((o.legs fwd).legInterior c).toNat) v| ≤ M) ↔
      (⌊i.xs fwd c s⌋ : ℝ) = i.xs fwd c s ∧ (⌊i.zs fwd c s⌋ : ℝ) = i.zs fwd c s := by
  have hmem : s ∈ i.staying fwd c := by rw [hst]; exact Finset.mem_singleton_self s
  have hs : i.SomeStay fwd c := by
    simp only [Input.staying, Finset.mem_filter, Finset.mem_range] at hmem
    exact ⟨s, hmem.1, hmem.2⟩
  constructor
  · intro hall
    obtain ⟨v, hv, he⟩ := C258_amplification jc jw maps i h hm hw o ho fwd c hc s hst hz hns hnz hlo hhi
    have hle := hall v 1 hv
    rw [he] at hle
    have a1 := Int.fract_nonneg (i.xs fwd c s)
    have a2 := Int.fract_lt_one (i.xs fwd c s)
    have b1 := Int.fract_nonneg (i.zs fwd c s)
    have b2 := Int.fract_lt_one (i.zs fwd c s)
    have a3 := Int.floor_add_fract (i.xs fwd c s)
    have b3 := Int.floor_add_fract (i.zs fwd c s)
    generalize Int.fract (i.xs fwd c s) = u at *
    generalize Int.fract (i.zs fwd c s) = w at *
    have p1 : 0 ≤ u * (1 - u) := mul_nonneg a1 (by linarith)
    have p2 : 0 ≤ w * (1 - w) := mul_nonneg b1 (by linarith)
    have hle2 := (le_abs_self _).trans hle
    have e1 : u * (1 - u) = 0 := by nlinarith [mul_nonneg p1 p2]
    have e2 : w * (1 - w) = 0 := by nlinarith [mul_nonneg p1 p2]
    have u0 : u = 0 := (mul_eq_zero.1 e1).resolve_right (by linarith)
    have w0 : w = 0 := (mul_eq_zero.1 e2).resolve_right (by linarith)
    constructor <;> linarith
  · rintro ⟨hx, hz2⟩ v M hv
    have := C258_whole jc jw maps i h hm hw o ho fwd c hc hs (by rw [hst]; simpa using hx) (by rw [hst]; simpa using hz2) v (-M) M (fun k => abs_le.1 (hv k))
    exact abs_le.2 this

/-- A case: half way between the points in both directions the rows amplify by 25/16. -/
example : ∃ o : Ops ℝ, calculateOps (fun _ => 0) (fun _ => 0) saddleMaps = .ok o ∧
    (∃ v : ℤ → ℝ, (∀ k, |v k| ≤ 1) ∧ applyRow ((o.legs true).op.row ((o.legs true).legInterior (2, 0, 0)).toNat) v = 25 / 16) ∧
    ¬ ∀ (v : ℤ → ℝ) (M : ℝ), (∀ k, |v k| ≤ M) → |applyRow ((o.legs true).op.row ((o.legs true).legInterior (2, 0, 0)).toNat) v| ≤ M := by
  obtain ⟨o, ho⟩ := C10_assembly_succeeds (fun _ => 0) (fun _ => 0) saddleMaps saddleIn saddleMaps_represents (by simp [saddleIn]) saddleIn_good
  have hst : saddleIn.staying true (2, 0, 0) = {0} := by
    ext s
    simp only [Input.staying, Finset.mem_filter, Finset.mem_range, Finset.mem_singleton]
    constructor
    · rintro ⟨h, -⟩
      simpa [saddleIn] using h
    · rintro rfl
      exact ⟨by simp [saddleIn], by norm_num [Input.Escapes, Input.xs, saddleIn]⟩
  have hx : saddleIn.xs true (2, 0, 0) 0 = 5 / 2 := by norm_num [Input.xs, saddleIn]
  have hz0 : saddleIn.zs true (2, 0, 0) 0 = 3 / 2 := rfl
  have f1 : ⌊(5 / 2 : ℝ)⌋ = 2 := by norm_num [Int.floor_eq_iff]
  have f2 : ⌊(3 / 2 : ℝ)⌋ = 1 := by norm_num [Int.floor_eq_iff]
  have hin : saddleIn.Interior (2, 0, 0) := by simp [Input.Interior, saddleIn]
  have hns : saddleIn.NoneSkipped (saddleIn.xs true (2, 0, 0) 0) := by
    apply noneSkipped_of_clear
    rw [hx]
    norm_num [ClearOfNodes, f1]
  have h1 : (saddleIn.mxg : ℤ) + 1 ≤ ⌊saddleIn.xs true (2, 0, 0) 0⌋ := by rw [hx, f1]; simp [saddleIn]
  have h2 : ⌊saddleIn.xs true (2, 0, 0) 0⌋ + 2 + (saddleIn.mxg : ℤ) < saddleIn.nx := by rw [hx, f1]; simp [saddleIn]
  have hz : 0 ≤ saddleIn.zs true (2, 0, 0) 0 := by rw [hz0]; norm_num
  refine ⟨o, ho, ?_, ?_⟩
  · obtain ⟨v, hv, he⟩ := C258_amplification _ _ saddleMaps saddleIn saddleMaps_represents (by simp [saddleIn]) saddleIn_good o ho true (2, 0, 0) hin 0 hst hz hns
      (by simp [saddleIn]) h1 h2
    refine ⟨v, hv, he.trans ?_⟩
    rw [hx, hz0, Int.fract, Int.fract, f1, f2]
    norm_num
  · rw [C258_iff _ _ saddleMaps saddleIn saddleMaps_represents (by simp [saddleIn]) saddleIn_good o ho true (2, 0, 0) hin 0 hst hz hns (by simp [saddleIn]) h1 h2, hx, f1]
    norm_num

end Zoidberg.Weights
