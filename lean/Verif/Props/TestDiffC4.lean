import Verif.Props.TestDiffPer

/-!
# `c4` passes the first half of its test (C279)
-/

set_option linter.unusedSectionVars false

namespace Zoidberg

open Finset

/-- `c4(x, 0, False)` for arrays that are long enough. -/
noncomputable def c4Op (f : List ℝ) : List ℝ := ((c4 f false).toOption).getD []

/-- The error at the first point. -/
noncomputable def c4First (n : ℕ) : ℝ := n * (4 * Real.sin (1 / n) - 3 * Real.sin (2 * (1 / n)) + 4 / 3 * Real.sin (3 * (1 / n)) - 1 / 4 * Real.sin (4 * (1 / n))) - 1

/-- The error at the second point. -/
noncomputable def c4Second (n : ℕ) : ℝ :=
  n * (-(5 / 6) * Real.sin (1 / n) + 3 / 2 * Real.sin (2 * (1 / n)) - 1 / 2 * Real.sin (3 * (1 / n)) + 1 / 12 * Real.sin (4 * (1 / n))) - Real.cos (1 / n)

/-- The factor of the error inside. -/
noncomputable def c4Inner (n : ℕ) : ℝ := n * (8 * Real.sin (1 / n) - Real.sin (2 * (1 / n))) / 6 - 1

theorem range_ends {α : Type} (g : ℕ → α) (m : ℕ) :
    (List.range (m + 4)).map g = g 0 :: g 1 :: (List.range m).map (fun j => g (j + 2)) ++ [g (m + 2), g (m + 3)] := by
  rw [show m + 4 = m + 1 + 1 + 1 + 1 by ring, List.range_succ, List.range_succ, List.range_succ_eq_map, List.range_succ_eq_map]
  simp [List.map_map, Function.comp_def]

theorem ends_congr {a a' : List ℝ} {y z : ℝ} (h : a = a') : ∃ y' z', a ++ [y, z] = a' ++ [y', z'] := ⟨y, z, by rw [h]⟩

theorem c4_errs (m : ℕ) (hm : 1 ≤ m) : ∃ y z, testErr c4Op Real.sin Real.cos 1 (m + 4) =
    c4First (m + 4) :: c4Second (m + 4) :: (List.range m).map (fun j : ℕ => Real.cos (((j : ℝ) + 2) * (1 / ((m + 4 : ℕ) : ℝ))) * c4Inner (m + 4)) ++ [y, z] := by
  have hs : (testPoints 1 (m + 4)).map Real.sin = gridSamples Real.sin 0 (1 / ((m + 4 : ℕ) : ℝ)) (m + 4) := by
    unfold testPoints gridSamples
    rw [List.map_map]
    refine List.map_congr_left fun j _ => ?_
    simp
  have at0 : ∀ i : ℕ, i < m + 4 → at' (gridSamples Real.sin 0 (1 / ((m + 4 : ℕ) : ℝ)) (m + 4)) (i : ℤ) = Real.sin ((i : ℝ) * (1 / ((m + 4 : ℕ) : ℝ))) := by
    intro i hi
    rw [gridAt_nat Real.sin 0 _ hi, zero_add]
  unfold testErr c4Op
  rw [hs]
  unfold c4
  rw [if_neg (by simp), gridSamples_length, if_neg (by omega)]
  simp only [Except.toOption, Option.getD_some]
  unfold testPoints
  rw [List.map_map, List.zipWith_map, List.zipWith_self, range_ends]
  refine ends_congr ?_
  have a0 := at0 0 (by omega)
  have a1 := at0 1 (by omega)
  have a2 := at0 2 (by omega)
  have a3 := at0 3 (by omega)
  have a4 := at0 4 (by omega)
  push_cast at a0 a1 a2 a3 a4
  congr 1
  · rw [if_neg (by omega), if_neg (by omega), if_neg (by omega), if_pos rfl]
    push_cast
    rw [a0, a1, a2, a3, a4]
    unfold c4First
    push_cast
    simp
    ring
  congr 1
  · rw [if_neg (by omega), if_neg (by omega), if_pos rfl]
    push_cast
    rw [a0, a1, a2, a3, a4]
    unfold c4Second
    push_cast
    simp
    ring
  · refine List.map_congr_left fun j hj => ?_
    rw [List.mem_range] at hj
    rw [if_neg (by omega), if_neg (by omega), if_neg (by omega), if_neg (by omega)]
    rw [show ((j + 2 : ℕ) : ℤ) + 2 = ((j + 4 : ℕ) : ℤ) by push_cast; ring, show ((j + 2 : ℕ) : ℤ) + 1 = ((j + 3 : ℕ) : ℤ) by push_cast; ring,
      show ((j + 2 : ℕ) : ℤ) - 1 = ((j + 1 : ℕ) : ℤ) by push_cast; ring, show ((j + 2 : ℕ) : ℤ) - 2 = ((j : ℕ) : ℤ) by push_cast; ring,
      at0 (j + 4) (by omega), at0 (j + 3) (by omega), at0 (j + 1) (by omega), at0 j (by omega)]
    unfold c4Inner
    dsimp only [Function.comp]
    generalize (1 / ((m + 4 : ℕ) : ℝ)) = h
    have e4 : ((j + 4 : ℕ) : ℝ) * h = ((j : ℝ) + 2) * h + 2 * h := by push_cast; ring
    have e3 : ((j + 3 : ℕ) : ℝ) * h = ((j : ℝ) + 2) * h + h := by push_cast; ring
    have e1 : ((j + 1 : ℕ) : ℝ) * h = ((j : ℝ) + 2) * h - h := by push_cast; ring
    have e0 : (j : ℝ) * h = ((j : ℝ) + 2) * h - 2 * h := by ring
    have e2 : ((j + 2 : ℕ) : ℝ) * h = ((j : ℝ) + 2) * h := by push_cast; ring
    rw [e4, e3, e1, e0, e2, Real.sin_add, Real.sin_add, Real.sin_sub, Real.sin_sub]
    ring

/-- The size of the errors. -/
theorem c4_near (n : ℕ) (hn : 1 ≤ n) :
    |c4First n + (1 / (n : ℝ)) ^ 4 / 5| ≤ 2 * (1 / (n : ℝ)) ^ 6 ∧ |c4Second n - (1 / (n : ℝ)) ^ 4 / 20| ≤ (1 / (n : ℝ)) ^ 6 ∧
      |c4Inner n + (1 / (n : ℝ)) ^ 4 / 30| ≤ (1 / (n : ℝ)) ^ 6 / 200 := by
  have hn0 : (0 : ℝ) < n := by exact_mod_cast hn
  have hn1 : (n : ℝ) = 1 / (1 / n) := by rw [one_div_one_div]
  have h0 : (0 : ℝ) < 1 / n := by positivity
  unfold c4First c4Second c4Inner
  set h : ℝ := 1 / n with hh
  clear_value h
  rw [hn1]
  have a1 := sin_five h h0.le
  have b1 := sin_seven h h0.le
  have a2 := sin_five (2 * h) (by linarith)
  have b2 := sin_seven (2 * h) (by linarith)
  have a3 := sin_five (3 * h) (by linarith)
  have b3 := sin_seven (3 * h) (by linarith)
  have a4 := sin_five (4 * h) (by linarith)
  have b4 := sin_seven (4 * h) (by linarith)
  have c1 := cos_four h h0.le
  have d1 := cos_six h h0.le
  have h7 : 0 < h ^ 7 := by positivity
  have h6 : 0 < h ^ 6 := by positivity
  have i := c4_factor_bounds h h0
  generalize Real.sin h = s1 at *
  generalize Real.sin (2 * h) = s2 at *
  generalize Real.sin (3 * h) = s3 at *
  generalize Real.sin (4 * h) = s4 at *
  generalize Real.cos h = k at *
  ring_nf at a1 b1 a2 b2 a3 b3 a4 b4 c1 d1
  refine ⟨?_, ?_, ?_⟩
  · have e : 1 / h * (4 * s1 - 3 * s2 + 4 / 3 * s3 - 1 / 4 * s4) - 1 + h ^ 4 / 5 = ((4 * s1 - 3 * s2 + 4 / 3 * s3 - 1 / 4 * s4) - h + h ^ 5 / 5) / h := by field_simp
    rw [e, abs_div, abs_of_pos h0, div_le_iff₀ h0, abs_le]
    constructor <;> nlinarith
  · have e : 1 / h * (-(5 / 6) * s1 + 3 / 2 * s2 - 1 / 2 * s3 + 1 / 12 * s4) - k - h ^ 4 / 20 =
        ((-(5 / 6) * s1 + 3 / 2 * s2 - 1 / 2 * s3 + 1 / 12 * s4) - h + h ^ 3 / 2 - h ^ 5 / 24 - h ^ 5 / 20) / h - (k - (1 - h ^ 2 / 2 + h ^ 4 / 24)) := by field_simp; ring
    have g : |((-(5 / 6) * s1 + 3 / 2 * s2 - 1 / 2 * s3 + 1 / 12 * s4) - h + h ^ 3 / 2 - h ^ 5 / 24 - h ^ 5 / 20) / h| ≤ 3 / 4 * h ^ 6 := by
      rw [abs_div, abs_of_pos h0, div_le_iff₀ h0, abs_le]
      constructor <;> nlinarith
    have g' : |k - (1 - h ^ 2 / 2 + h ^ 4 / 24)| ≤ 1 / 4 * h ^ 6 := by
      rw [abs_le]
      constructor <;> nlinarith
    rw [e]
    exact (abs_sub _ _).trans (by linarith)
  · have e : 1 / h * (8 * s1 - s2) / 6 - 1 + h ^ 4 / 30 = h ^ 4 / 30 - (1 - (8 * s1 - s2) / (6 * h)) := by field_simp; ring
    rw [e, abs_le]
    constructor <;> linarith [i.1, i.2]

/-- The sum of the squares of the cosines at the inner points. -/
noncomputable def cosIn (m : ℕ) : ℝ := ∑ j ∈ range m, Real.cos (((j : ℝ) + 2) * (1 / ((m + 4 : ℕ) : ℝ))) ^ 2

theorem cosIn_near (m : ℕ) : cosSum (m + 2) - 2 ≤ cosIn m ∧ cosIn m ≤ cosSum (m + 2) := by
  have e : cosSum (m + 2) = cosIn m + Real.cos (1 / ((m + 4 : ℕ) : ℝ)) ^ 2 + Real.cos (((m : ℝ) + 2) / ((m + 4 : ℕ) : ℝ)) ^ 2 := by
    unfold cosSum cosIn
    rw [sum_range_succ, sum_range_succ']
    push_cast
    congr 1
    · congr 1
      · refine sum_congr rfl fun j _ => ?_
        congr 2
        ring
      · congr 2
        ring
    · congr 2
      ring
  have h1 := Real.cos_sq_le_one (1 / ((m + 4 : ℕ) : ℝ))
  have h2 := Real.cos_sq_le_one (((m : ℝ) + 2) / ((m + 4 : ℕ) : ℝ))
  have h3 := sq_nonneg (Real.cos (1 / ((m + 4 : ℕ) : ℝ)))
  have h4 := sq_nonneg (Real.cos (((m : ℝ) + 2) / ((m + 4 : ℕ) : ℝ)))
  constructor <;> linarith

theorem cosSum_lower : 42 ≤ cosSum 62 := by
  unfold cosSum
  have h : ∀ j ∈ range 62, 1 - (((j : ℝ) + 1) / 64) ^ 2 ≤ Real.cos (((j : ℝ) + 1) / ((62 + 2 : ℕ) : ℝ)) ^ 2 := by
    intro j _
    have e : ((62 + 2 : ℕ) : ℝ) = 64 := by norm_num
    rw [e, Real.cos_sq']
    have hx : 0 ≤ ((j : ℝ) + 1) / 64 := by positivity
    have := Real.sin_sq_le_sq (x := ((j : ℝ) + 1) / 64)
    linarith
  refine le_trans ?_ (sum_le_sum h)
  simp only [sum_range_succ, sum_range_zero]
  norm_num

/-- Values near `16 e` and `e`. -/
theorem sq_ratio (x y e : ℝ) (he : 0 < e) (hx : |x - 16 * e| ≤ 16 * e / 400) (hy : |y - e| ≤ e / 400) : 253 * y ^ 2 ≤ x ^ 2 ∧ x ^ 2 ≤ 259 * y ^ 2 ∧ 0 < y := by
  rw [abs_le] at hx hy
  have hy0 : 0 < y := by linarith
  have hy1 : y ^ 2 ≤ (401 / 400 * e) ^ 2 := pow_le_pow_left₀ hy0.le (by linarith) 2
  have hy2 : (399 / 400 * e) ^ 2 ≤ y ^ 2 := pow_le_pow_left₀ (by positivity) (by linarith) 2
  have hx1 : x ^ 2 ≤ (401 / 25 * e) ^ 2 := pow_le_pow_left₀ (by linarith) (by linarith) 2
  have hx2 : (399 / 25 * e) ^ 2 ≤ x ^ 2 := pow_le_pow_left₀ (by positivity) (by linarith) 2
  have := sq_nonneg e
  refine ⟨by nlinarith, by nlinarith, hy0⟩

/-- Values near `16 e` and `e`, with a larger tolerance. -/
theorem sq_ratio' (x y e : ℝ) (he : 0 < e) (hx : |x - 16 * e| ≤ 16 * e / 150) (hy : |y - e| ≤ e / 150) : 249 * y ^ 2 ≤ x ^ 2 ∧ x ^ 2 ≤ 263 * y ^ 2 ∧ 0 < y := by
  rw [abs_le] at hx hy
  have hy0 : 0 < y := by linarith
  have hy1 : y ^ 2 ≤ (151 / 150 * e) ^ 2 := pow_le_pow_left₀ hy0.le (by linarith) 2
  have hy2 : (149 / 150 * e) ^ 2 ≤ y ^ 2 := pow_le_pow_left₀ (by positivity) (by linarith) 2
  have hx1 : x ^ 2 ≤ (2416 / 150 * e) ^ 2 := pow_le_pow_left₀ (by linarith) (by linarith) 2
  have hx2 : (2384 / 150 * e) ^ 2 ≤ x ^ 2 := pow_le_pow_left₀ (by positivity) (by linarith) 2
  have := sq_nonneg e
  refine ⟨by nlinarith, by nlinarith, hy0⟩

theorem order_four (a b : ℝ) (ha : 0 ≤ a) (hb : 0 < b) (h1 : 182 * b ^ 2 ≤ a ^ 2) (h2 : a ^ 2 ≤ 362 * b ^ 2) : |Real.log (a / b) / Real.log 2 - 4| ≤ 0.25 + 1e-5 * |(4 : ℝ)| := by
  have hb2 : 0 < b ^ 2 := by positivity
  have hq : 182 ≤ (a / b) ^ 2 := by rw [div_pow, le_div_iff₀ hb2]; exact h1
  have hq2 : (a / b) ^ 2 ≤ 362 := by rw [div_pow, div_le_iff₀ hb2]; exact h2
  have hp : 0 < a / b := lt_of_le_of_ne (div_nonneg ha hb.le) fun h0 => by rw [← h0] at hq; norm_num at hq
  have := order_ratio 2 (a / b) (by norm_num; nlinarith) (by norm_num; nlinarith) (by norm_num) hp
  have e : (2 * ((2 : ℕ) : ℝ)) = 4 := by norm_num
  rwa [e] at this

/-- The three slices of the errors of `c4`. -/
theorem c4_slices (m : ℕ) (hm : 1 ≤ m) :
    rms (testSlice (some 0, some 2) (testErr c4Op Real.sin Real.cos 1 (m + 4))) ^ 2 = (c4First (m + 4) ^ 2 + c4Second (m + 4) ^ 2) / 2 ∧
      rms (testSlice (some 2, some (-2)) (testErr c4Op Real.sin Real.cos 1 (m + 4))) ^ 2 = c4Inner (m + 4) ^ 2 * cosIn m / m ∧
      rms (testSlice (none, some (-2)) (testErr c4Op Real.sin Real.cos 1 (m + 4))) ^ 2 = (c4First (m + 4) ^ 2 + c4Second (m + 4) ^ 2 + c4Inner (m + 4) ^ 2 * cosIn m) / (m + 2) := by
  obtain ⟨y, z, e⟩ := c4_errs m hm
  rw [e]
  have hsum : (((List.range m).map (fun j : ℕ => Real.cos (((j : ℝ) + 2) * (1 / ((m + 4 : ℕ) : ℝ))) * c4Inner (m + 4))).map fun a => a ^ 2).sum = c4Inner (m + 4) ^ 2 * cosIn m := by
    unfold cosIn
    rw [List.map_map, mul_sum, list_sum_range]
    refine sum_congr rfl fun j _ => ?_
    dsimp only [Function.comp]
    ring
  generalize hL : (List.range m).map (fun j : ℕ => Real.cos (((j : ℝ) + 2) * (1 / ((m + 4 : ℕ) : ℝ))) * c4Inner (m + 4)) = L at *
  have hlen : L.length = m := by rw [← hL]; simp
  rw [(rms_sq _).2, (rms_sq _).2, (rms_sq _).2]
  have s1 : testSlice (some 0, some 2) (c4First (m + 4) :: c4Second (m + 4) :: L ++ [y, z]) = [c4First (m + 4), c4Second (m + 4)] := by
    unfold testSlice; simp
  have t : ((c4First (m + 4) :: c4Second (m + 4) :: L ++ [y, z]).length : ℤ) + -2 = ((m + 2 : ℕ) : ℤ) := by simp [hlen]; ring
  have s3 : testSlice (none, some (-2)) (c4First (m + 4) :: c4Second (m + 4) :: L ++ [y, z]) = c4First (m + 4) :: c4Second (m + 4) :: L := by
    unfold testSlice
    simp only [Option.map_some, Option.map_none, Option.getD_some, Option.getD_none, List.drop_zero]
    rw [if_pos (by norm_num), t, Int.toNat_natCast, List.take_left' (by simp [hlen])]
  have s2 : testSlice (some 2, some (-2)) (c4First (m + 4) :: c4Second (m + 4) :: L ++ [y, z]) = L := by
    unfold testSlice
    simp only [Option.map_some, Option.getD_some]
    rw [if_pos (show (-2 : ℤ) < 0 by norm_num), if_neg (show ¬ (2 : ℤ) < 0 by norm_num), t, Int.toNat_natCast, List.take_left' (by simp [hlen])]
    simp
  rw [s1, s2, s3]
  refine ⟨by simp, by rw [hsum, hlen], ?_⟩
  rw [List.map_cons, List.map_cons, List.sum_cons, List.sum_cons, hsum, List.length_cons, List.length_cons, hlen]
  push_cast
  ring

/-- **C279.** `c4` passes the first half of its test. -/
theorem C279_c4_passes : c4TestPasses c4Op := by
  obtain ⟨-, hlo, hhi⟩ := cosSum_bounds
  have hA := cosSum_lower
  obtain ⟨S1, S2⟩ := cosIn_near 60
  obtain ⟨T1, T2⟩ := cosIn_near 124
  obtain ⟨a1, a2, a3⟩ := c4_slices 60 (by norm_num)
  obtain ⟨b1, b2, b3⟩ := c4_slices 124 (by norm_num)
  obtain ⟨f1, g1, i1⟩ := c4_near 64 (by norm_num)
  obtain ⟨f2, g2, i2⟩ := c4_near 128 (by norm_num)
  norm_num at a1 a2 a3 b1 b2 b3 f1 f2 g1 g2 i1 i2 S1 S2 T1 T2
  generalize c4First 64 = p at *
  generalize c4First 128 = q at *
  generalize c4Second 64 = p' at *
  generalize c4Second 128 = q' at *
  generalize c4Inner 64 = u at *
  generalize c4Inner 128 = v at *
  generalize cosIn 60 = S at *
  generalize cosIn 124 = T at *
  have hpq := sq_ratio (-p) (-q) (1 / 128 ^ 4 / 5) (by norm_num)
    (by have := abs_le.1 f1; rw [abs_le]; norm_num; constructor <;> linarith) (by have := abs_le.1 f2; rw [abs_le]; norm_num; constructor <;> linarith)
  have hpq' := sq_ratio' p' q' (1 / 128 ^ 4 / 20) (by norm_num)
    (by have := abs_le.1 g1; rw [abs_le]; norm_num; constructor <;> linarith) (by have := abs_le.1 g2; rw [abs_le]; norm_num; constructor <;> linarith)
  have huv := sq_ratio (-u) (-v) (1 / 128 ^ 4 / 30) (by norm_num)
    (by have := abs_le.1 i1; rw [abs_le]; norm_num; constructor <;> linarith) (by have := abs_le.1 i2; rw [abs_le]; norm_num; constructor <;> linarith)
  rw [neg_sq, neg_sq] at hpq huv
  have hq : 0 < q ^ 2 := by have := hpq.2.2; nlinarith
  have hv : 0 < v ^ 2 := by have := huv.2.2; nlinarith
  have hqv : q ^ 2 + q' ^ 2 ≤ 39 * v ^ 2 := by
    have w1 := abs_le.1 f2
    have w2 := abs_le.1 g2
    have w3 := abs_le.1 i2
    have k1 : (-q) ^ 2 ≤ (1 / 128 ^ 4 / 5 * (401 / 400)) ^ 2 := pow_le_pow_left₀ hpq.2.2.le (by norm_num; linarith) 2
    have k2 : q' ^ 2 ≤ (1 / 128 ^ 4 / 20 * (401 / 400)) ^ 2 := pow_le_pow_left₀ hpq'.2.2.le (by norm_num; linarith) 2
    have k3 : (1 / 128 ^ 4 / 30 * (1999 / 2000)) ^ 2 ≤ (-v) ^ 2 := pow_le_pow_left₀ (by norm_num) (by norm_num; linarith) 2
    rw [neg_sq] at k1 k3
    norm_num at k1 k2 k3
    linarith
  have hq'0 := sq_nonneg q'
  have hSl : 40 ≤ S := by linarith
  have hTl : 2 * S - 2 ≤ T := by linarith
  have hTh : T ≤ 2 * S + 6 := by linarith
  have pos : ∀ l : List ℝ, 0 < rms l ^ 2 → 0 < rms l := fun l h => lt_of_le_of_ne (rms_sq l).1 fun h0 => by rw [← h0] at h; norm_num at h
  unfold c4TestPasses checkL2s testMms c4Slices
  intro r hr
  simp only [List.map_cons, List.map_nil, List.zip_cons_cons, List.zip_nil_left, List.mem_cons, List.not_mem_nil, or_false] at hr
  have w1 : v ^ 2 * (2 * S - 2) ≤ v ^ 2 * T := mul_le_mul_of_nonneg_left hTl hv.le
  have w2 : v ^ 2 * T ≤ v ^ 2 * (2 * S + 6) := mul_le_mul_of_nonneg_left hTh hv.le
  have w3 : 253 * v ^ 2 * S ≤ u ^ 2 * S := mul_le_mul_of_nonneg_right huv.1 (by linarith)
  have w4 : u ^ 2 * S ≤ 259 * v ^ 2 * S := mul_le_mul_of_nonneg_right huv.2.1 (by linarith)
  have w5 : v ^ 2 * 40 ≤ v ^ 2 * S := mul_le_mul_of_nonneg_left hSl hv.le
  obtain ⟨x1, x2, -⟩ := hpq
  obtain ⟨y1, y2, -⟩ := hpq'
  rcases hr with rfl | rfl | rfl
  · refine order_four _ _ (rms_sq _).1 (pos _ ?_) ?_ ?_
    · rw [b1]; linarith
    · rw [a1, b1]; linarith
    · rw [a1, b1]; linarith
  · refine order_four _ _ (rms_sq _).1 (pos _ ?_) ?_ ?_
    · rw [b2]; linarith
    · rw [a2, b2]; linarith
    · rw [a2, b2]; linarith
  · refine order_four _ _ (rms_sq _).1 (pos _ ?_) ?_ ?_
    · rw [b3]; linarith
    · rw [a3, b3]; linarith
    · rw [a3, b3]; linarith

end Zoidberg
