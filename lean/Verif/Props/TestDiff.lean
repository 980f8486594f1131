import Verif.Model.TestDiff
import Verif.Props.DiffOrder
import Mathlib.Analysis.Complex.Trigonometric
import Mathlib.Analysis.Real.Pi.Bounds
import Mathlib.Analysis.SpecialFunctions.Trigonometric.Bounds
import Mathlib.Tactic.Linarith
import Mathlib.Tactic.NormNum
import Mathlib.Tactic.FieldSimp
import Mathlib.Tactic.LinearCombination

/-!
# C279: what the tests of the finite differences notice at the ends
-/

set_option linter.unusedSectionVars false

namespace Zoidberg

open Finset

/-- Two lists that agree in all but the last `m` elements. -/
def SameBut (m : ℕ) (a b : List ℝ) : Prop := a.length = b.length ∧ a.take (a.length - m) = b.take (a.length - m)

theorem testErr_length (op : List ℝ → List ℝ) (inp ana : ℝ → ℝ) (xmax : ℝ) (nx : ℕ) (hnx : 5 ≤ nx) (h : ∀ f : List ℝ, 5 ≤ f.length → (op f).length = f.length) : (testErr op inp ana xmax nx).length = nx := by
  have hl : ((testPoints xmax nx).map inp).length = nx := by simp [testPoints]
  unfold testErr
  rw [List.length_zipWith, h _ (by omega), hl]
  simp [testPoints]

theorem testErr_take (op op' : List ℝ → List ℝ) (inp ana : ℝ → ℝ) (xmax : ℝ) (nx m : ℕ) (hnx : 5 ≤ nx) (h : ∀ f : List ℝ, 5 ≤ f.length → (op f).length = f.length) (hs : ∀ f : List ℝ, 5 ≤ f.length → SameBut m (op f) (op' f)) (j : ℕ) (hj : j + m ≤ nx) :
    (testErr op inp ana xmax nx).take j = (testErr op' inp ana xmax nx).take j := by
  unfold testErr
  rw [List.take_zipWith, List.take_zipWith]
  congr 1
  have hl : ((testPoints xmax nx).map inp).length = nx := by simp [testPoints]
  have h1 := (hs ((testPoints xmax nx).map inp) (by omega)).2
  rw [h _ (by omega), hl] at h1
  have h2 := congrArg (fun l => l.take j) h1
  simp only [List.take_take] at h2
  rwa [min_eq_left (by omega)] at h2

/-- **C279.** Whatever is returned for the last point, the test of `c2` gives the same verdict: `slice(-1)` is everything but the last point. -/
theorem C279_last (op op' : List ℝ → List ℝ) (h : ∀ f : List ℝ, 5 ≤ f.length → (op f).length = f.length) (hs : ∀ f : List ℝ, 5 ≤ f.length → SameBut 1 (op f) (op' f)) : c2TestPasses op ↔ c2TestPasses op' := by
  have h' : ∀ f : List ℝ, 5 ≤ f.length → (op' f).length = f.length := fun f hf => by rw [← (hs f hf).1, h f hf]
  have e : testMms op Real.sin Real.cos 1 c2Slices = testMms op' Real.sin Real.cos 1 c2Slices := by
    unfold testMms
    refine List.map_congr_left fun s hsl => ?_
    have key : ∀ nx, 64 ≤ nx → testSlice s (testErr op Real.sin Real.cos 1 nx) = testSlice s (testErr op' Real.sin Real.cos 1 nx) := by
      intro nx hnx
      unfold testSlice
      dsimp only
      rw [testErr_length op _ _ _ _ (by omega) h, testErr_length op' _ _ _ _ (by omega) h']
      congr 1
      refine testErr_take op op' _ _ _ nx 1 (by omega) h hs _ ?_
      unfold c2Slices at hsl
      simp only [List.mem_cons, List.not_mem_nil, or_false] at hsl
      rcases hsl with rfl | rfl | rfl
      · simp; omega
      · simp; omega
      · simp; omega
    rw [key 64 (by norm_num), key 128 (by norm_num)]
  unfold c2TestPasses
  rw [e]

/-- **C279.** The same for the last two points and the first half of the test of `c4`. -/
theorem C279_last_two (op op' : List ℝ → List ℝ) (h : ∀ f : List ℝ, 5 ≤ f.length → (op f).length = f.length) (hs : ∀ f : List ℝ, 5 ≤ f.length → SameBut 2 (op f) (op' f)) : c4TestPasses op ↔ c4TestPasses op' := by
  have h' : ∀ f : List ℝ, 5 ≤ f.length → (op' f).length = f.length := fun f hf => by rw [← (hs f hf).1, h f hf]
  have e : testMms op Real.sin Real.cos 1 c4Slices = testMms op' Real.sin Real.cos 1 c4Slices := by
    unfold testMms
    refine List.map_congr_left fun s hsl => ?_
    have key : ∀ nx, 64 ≤ nx → testSlice s (testErr op Real.sin Real.cos 1 nx) = testSlice s (testErr op' Real.sin Real.cos 1 nx) := by
      intro nx hnx
      unfold testSlice
      dsimp only
      rw [testErr_length op _ _ _ _ (by omega) h, testErr_length op' _ _ _ _ (by omega) h']
      congr 1
      refine testErr_take op op' _ _ _ nx 2 (by omega) h hs _ ?_
      unfold c4Slices at hsl
      simp only [List.mem_cons, List.not_mem_nil, or_false] at hsl
      rcases hsl with rfl | rfl | rfl
      · simp; omega
      · simp; omega
      · simp; omega
    rw [key 64 (by norm_num), key 128 (by norm_num)]
  unfold c4TestPasses
  rw [e]

/-! ### `c2` passes -/

/-- `c2(x, 0, False)` for arrays that are long enough. -/
noncomputable def c2Op (f : List ℝ) : List ℝ := ((c2 f false).toOption).getD []

/-- The error at the first point. -/
noncomputable def firstErr (n : ℕ) : ℝ := n * Real.sin (2 / n) / 2 - 1

/-- The factor of the error inside. -/
noncomputable def innerErr (n : ℕ) : ℝ := n * Real.sin (1 / n) - 1

theorem c2_errs (m : ℕ) (hm : 1 ≤ m) : ∃ last, testErr c2Op Real.sin Real.cos 1 (m + 2) =
    firstErr (m + 2) :: (List.range m).map (fun j : ℕ => Real.cos (((j : ℝ) + 1) / ((m + 2 : ℕ) : ℝ)) * innerErr (m + 2)) ++ [last] := by
  have hn0 : ((m + 2 : ℕ) : ℝ) ≠ 0 := by positivity
  have hs : (testPoints 1 (m + 2)).map Real.sin = gridSamples Real.sin 0 (1 / ((m + 2 : ℕ) : ℝ)) (m + 2) := by
    unfold testPoints gridSamples
    rw [List.map_map]
    refine List.map_congr_left fun j _ => ?_
    simp
  unfold testErr c2Op
  rw [hs]
  unfold c2
  rw [if_neg (by simp), gridSamples_length, if_neg (by omega)]
  simp only [Except.toOption, Option.getD_some]
  unfold testPoints
  rw [List.map_map, List.zipWith_map]
  rw [List.zipWith_self]
  refine ⟨((Real.sin (0 + ((m + 1 : ℕ) : ℝ) * (1 / ((m + 2 : ℕ) : ℝ))) - Real.sin (0 + ((m - 1 : ℕ) : ℝ) * (1 / ((m + 2 : ℕ) : ℝ)))) / 2) * ((m + 2 : ℕ) : ℝ) / 1 - Real.cos (((m + 1 : ℕ) : ℝ) * (1 / ((m + 2 : ℕ) : ℝ))), ?_⟩
  rw [List.range_succ, List.map_append, List.range_succ_eq_map, List.map_cons, List.map_map]
  congr 1
  · congr 1
    · rw [if_neg (by omega), if_pos rfl]
      have e2 := gridAt_nat Real.sin 0 (1 / ((m + 2 : ℕ) : ℝ)) (n := m + 2) (i := 2) (by omega)
      have e0 := gridAt_nat Real.sin 0 (1 / ((m + 2 : ℕ) : ℝ)) (n := m + 2) (i := 0) (by omega)
      rw [show (((2 : ℕ) : ℤ)) = 2 by norm_num] at e2
      rw [show (((0 : ℕ) : ℤ)) = 0 by norm_num] at e0
      rw [e2, e0]
      unfold firstErr
      simp
      ring_nf
    · refine List.map_congr_left fun j hj => ?_
      rw [List.mem_range] at hj
      dsimp only [Function.comp]
      rw [if_neg (by omega), if_neg (by omega)]
      have e2 := gridAt_nat Real.sin 0 (1 / ((m + 2 : ℕ) : ℝ)) (n := m + 2) (i := j + 2) (by omega)
      have e0 := gridAt_nat Real.sin 0 (1 / ((m + 2 : ℕ) : ℝ)) (n := m + 2) (i := j) (by omega)
      rw [show ((j.succ : ℕ) : ℤ) + 1 = ((j + 2 : ℕ) : ℤ) by push_cast; ring, show ((j.succ : ℕ) : ℤ) - 1 = (j : ℤ) by push_cast; ring, e2, e0]
      unfold innerErr
      have a1 : (0 : ℝ) + ((j + 2 : ℕ) : ℝ) * (1 / ((m + 2 : ℕ) : ℝ)) = ((j : ℝ) + 1) / ((m + 2 : ℕ) : ℝ) + 1 / ((m + 2 : ℕ) : ℝ) := by push_cast; ring
      have a2 : (0 : ℝ) + (j : ℝ) * (1 / ((m + 2 : ℕ) : ℝ)) = ((j : ℝ) + 1) / ((m + 2 : ℕ) : ℝ) - 1 / ((m + 2 : ℕ) : ℝ) := by ring
      have a3 : ((j.succ : ℕ) : ℝ) * (1 / ((m + 2 : ℕ) : ℝ)) = ((j : ℝ) + 1) / ((m + 2 : ℕ) : ℝ) := by push_cast; ring
      rw [a1, a2, a3, Real.sin_add, Real.sin_sub]
      ring
  · simp only [List.map_cons, List.map_nil]
    congr 1
    rw [if_pos (by omega)]
    have e1 := gridAt_neg Real.sin 0 (1 / ((m + 2 : ℕ) : ℝ)) (n := m + 2) (m := m + 1) (k := 1) (by omega) (by omega)
    have e3 := gridAt_neg Real.sin 0 (1 / ((m + 2 : ℕ) : ℝ)) (n := m + 2) (m := m - 1) (k := 3) (by omega) (by omega)
    rw [show (-((1 : ℕ) : ℤ)) = -1 by norm_num] at e1
    rw [show (-((3 : ℕ) : ℤ)) = -3 by norm_num] at e3
    rw [e1, e3]
    rfl

theorem sin_near (x : ℝ) (h0 : 0 < x) (h1 : x ≤ 1 / 32) : |Real.sin x / x - 1 + x ^ 2 / 6| ≤ x ^ 2 / 600 := by
  have h := Real.sin_bound (x := x) (by rw [abs_of_pos h0]; linarith)
  rw [abs_of_pos h0] at h
  have e : Real.sin x / x - 1 + x ^ 2 / 6 = (Real.sin x - (x - x ^ 3 / 6)) / x := by field_simp; ring
  rw [e, abs_div, abs_of_pos h0, div_le_iff₀ h0]
  refine h.trans ?_
  have h3 : 0 < x ^ 3 := by positivity
  have h2 : x ^ 2 ≤ 1 / 6 := by nlinarith
  have := mul_le_mul_of_nonneg_left h2 h3.le
  have e5 : x ^ 5 = x ^ 3 * x ^ 2 := by ring
  nlinarith

theorem firstErr_near (n : ℕ) (hn : 64 ≤ n) : |firstErr n + 2 / (3 * (n : ℝ) ^ 2)| ≤ 1 / (150 * (n : ℝ) ^ 2) := by
  have hn' : (64 : ℝ) ≤ n := by exact_mod_cast hn
  have hp : (0 : ℝ) < n := by linarith
  have h := sin_near (2 / n) (by positivity) (by rw [div_le_div_iff₀ hp (by norm_num)]; linarith)
  have e1 : Real.sin (2 / n) / (2 / n) - 1 + (2 / (n : ℝ)) ^ 2 / 6 = firstErr n + 2 / (3 * (n : ℝ) ^ 2) := by unfold firstErr; field_simp; ring
  have e2 : (2 / (n : ℝ)) ^ 2 / 600 = 1 / (150 * (n : ℝ) ^ 2) := by field_simp; norm_num
  rwa [e1, e2] at h

theorem innerErr_near (n : ℕ) (hn : 64 ≤ n) : |innerErr n + 1 / (6 * (n : ℝ) ^ 2)| ≤ 1 / (600 * (n : ℝ) ^ 2) := by
  have hn' : (64 : ℝ) ≤ n := by exact_mod_cast hn
  have hp : (0 : ℝ) < n := by linarith
  have h := sin_near (1 / n) (by positivity) (by rw [div_le_div_iff₀ hp (by norm_num)]; linarith)
  have e1 : Real.sin (1 / n) / (1 / n) - 1 + (1 / (n : ℝ)) ^ 2 / 6 = innerErr n + 1 / (6 * (n : ℝ) ^ 2) := by unfold innerErr; field_simp
  have e2 : (1 / (n : ℝ)) ^ 2 / 600 = 1 / (600 * (n : ℝ) ^ 2) := by field_simp
  rwa [e1, e2] at h

/-- The sum of the squares of the cosines at the inner points. -/
noncomputable def cosSum (m : ℕ) : ℝ := ∑ j ∈ range m, Real.cos (((j : ℝ) + 1) / ((m + 2 : ℕ) : ℝ)) ^ 2

/-- An order near two. -/
theorem order_two (a b : ℝ) (hb : 0 < b) (h1 : 12 * b ^ 2 ≤ a ^ 2) (h2 : a ^ 2 ≤ 22 * b ^ 2) : |Real.log (a / b) / Real.log 2 - 2| ≤ 0.25 + 1e-5 * |(2 : ℝ)| := by
  have hl : 0 < Real.log 2 := Real.log_pos (by norm_num)
  have hb2 : 0 < b ^ 2 := by positivity
  have hq : 12 ≤ (a / b) ^ 2 := by rw [div_pow, le_div_iff₀ hb2]; exact h1
  have hq2 : (a / b) ^ 2 ≤ 22 := by rw [div_pow, div_le_iff₀ hb2]; exact h2
  have e1 : Real.log ((2 : ℝ) ^ 7) ≤ Real.log (((a / b) ^ 2) ^ 2) := Real.log_le_log (by norm_num) (by nlinarith)
  have e2 : Real.log (((a / b) ^ 2) ^ 2) ≤ Real.log ((2 : ℝ) ^ 9) := Real.log_le_log (by positivity) (by nlinarith)
  rw [Real.log_pow, Real.log_pow, Real.log_pow] at e1 e2
  push_cast at e1 e2
  have k1 : 1.75 ≤ Real.log (a / b) / Real.log 2 := by rw [le_div_iff₀ hl]; linarith
  have k2 : Real.log (a / b) / Real.log 2 ≤ 2.25 := by rw [div_le_iff₀ hl]; linarith
  rw [abs_le]
  constructor
  · have : (0 : ℝ) ≤ 1e-5 * |(2 : ℝ)| := by positivity
    linarith
  · have : (0 : ℝ) ≤ 1e-5 * |(2 : ℝ)| := by positivity
    linarith

theorem rms_sq (l : List ℝ) : 0 ≤ rms l ∧ rms l ^ 2 = (l.map fun a => a ^ 2).sum / l.length := by
  refine ⟨Real.sqrt_nonneg _, Real.sq_sqrt (div_nonneg (List.sum_nonneg fun a ha => ?_) (Nat.cast_nonneg _))⟩
  obtain ⟨b, -, rfl⟩ := List.mem_map.mp ha
  positivity

/-- The three slices of the errors of `c2`. -/
theorem c2_slices (m : ℕ) (hm : 1 ≤ m) :
    rms (testSlice (some 0, some 1) (testErr c2Op Real.sin Real.cos 1 (m + 2))) ^ 2 = firstErr (m + 2) ^ 2 ∧
      rms (testSlice (some 1, some (-1)) (testErr c2Op Real.sin Real.cos 1 (m + 2))) ^ 2 = innerErr (m + 2) ^ 2 * cosSum m / m ∧
      rms (testSlice (none, some (-1)) (testErr c2Op Real.sin Real.cos 1 (m + 2))) ^ 2 = (firstErr (m + 2) ^ 2 + innerErr (m + 2) ^ 2 * cosSum m) / (m + 1) := by
  obtain ⟨last, e⟩ := c2_errs m hm
  rw [e]
  have hsum : ((((List.range m).map (fun j : ℕ => Real.cos (((j : ℝ) + 1) / ((m + 2 : ℕ) : ℝ)) * innerErr (m + 2))).map fun a => a ^ 2)).sum = innerErr (m + 2) ^ 2 * cosSum m := by
    unfold cosSum
    rw [List.map_map, mul_sum]
    have hr : ∀ (N : ℕ) (f : ℕ → ℝ), ((List.range N).map f).sum = ∑ j ∈ range N, f j := by
      intro N f
      induction N with
      | zero => simp
      | succ N ih => rw [List.range_succ, List.map_append, List.sum_append, ih, sum_range_succ]; simp
    rw [hr]
    refine sum_congr rfl fun j _ => ?_
    dsimp only [Function.comp]
    ring
  generalize hL : (List.range m).map (fun j : ℕ => Real.cos (((j : ℝ) + 1) / ((m + 2 : ℕ) : ℝ)) * innerErr (m + 2)) = L at *
  have hlen : L.length = m := by rw [← hL]; simp
  rw [(rms_sq _).2, (rms_sq _).2, (rms_sq _).2]
  have s1 : testSlice (some 0, some 1) (firstErr (m + 2) :: L ++ [last]) = [firstErr (m + 2)] := by
    unfold testSlice; simp
  have t : ((firstErr (m + 2) :: L ++ [last]).length : ℤ) + -1 = ((m + 1 : ℕ) : ℤ) := by simp [hlen]
  have s3 : testSlice (none, some (-1)) (firstErr (m + 2) :: L ++ [last]) = firstErr (m + 2) :: L := by
    unfold testSlice
    simp only [Option.map_some, Option.map_none, Option.getD_some, Option.getD_none, List.drop_zero]
    rw [if_pos (by norm_num), t, Int.toNat_natCast, List.take_left' (by simp [hlen])]
  have s2 : testSlice (some 1, some (-1)) (firstErr (m + 2) :: L ++ [last]) = L := by
    unfold testSlice
    simp only [Option.map_some, Option.getD_some]
    rw [if_pos (show (-1 : ℤ) < 0 by norm_num), if_neg (show ¬ (1 : ℤ) < 0 by norm_num), t, Int.toNat_natCast, List.take_left' (by simp [hlen])]
    simp
  rw [s1, s2, s3]
  refine ⟨by simp, by rw [hsum, hlen], ?_⟩
  rw [List.map_cons, List.sum_cons, hsum, List.length_cons, hlen]
  push_cast
  rfl

/-- Bounds of the sums of cosines. -/
theorem cosSum_bounds : 24 ≤ cosSum 62 ∧ 2 * cosSum 62 ≤ cosSum 126 ∧ cosSum 126 ≤ 2 * cosSum 62 + 2 := by
  have hanti : ∀ x y : ℝ, 0 ≤ x → x ≤ y → y ≤ 1 → Real.cos y ^ 2 ≤ Real.cos x ^ 2 := by
    intro x y hx hxy hy
    have h1 := Real.cos_le_cos_of_nonneg_of_le_pi hx (by linarith [Real.pi_gt_three]) hxy
    have h2 : 0 ≤ Real.cos y := Real.cos_nonneg_of_mem_Icc ⟨by linarith [Real.pi_gt_three], by linarith [Real.pi_gt_three]⟩
    exact pow_le_pow_left₀ h2 h1 2
  have hle : ∀ x : ℝ, Real.cos x ^ 2 ≤ 1 := fun x => Real.cos_sq_le_one x
  refine ⟨?_, ?_, ?_⟩
  · have h1 : ∑ j ∈ range 32, (3 / 4 : ℝ) ≤ ∑ j ∈ range 32, Real.cos (((j : ℝ) + 1) / ((62 + 2 : ℕ) : ℝ)) ^ 2 := by
      refine sum_le_sum fun j hj => ?_
      rw [mem_range] at hj
      have hj' : (j : ℝ) ≤ 31 := by exact_mod_cast (by omega : j ≤ 31)
      have hb := Real.one_sub_sq_div_two_le_cos (x := ((j : ℝ) + 1) / ((62 + 2 : ℕ) : ℝ))
      have hx : ((j : ℝ) + 1) / ((62 + 2 : ℕ) : ℝ) ≤ 1 / 2 := by
        rw [div_le_div_iff₀ (by norm_num) (by norm_num)]; push_cast; linarith
      have hx0 : 0 ≤ ((j : ℝ) + 1) / ((62 + 2 : ℕ) : ℝ) := by positivity
      have hx2 : (((j : ℝ) + 1) / ((62 + 2 : ℕ) : ℝ)) ^ 2 ≤ 1 / 4 := by nlinarith
      have hc : 7 / 8 ≤ Real.cos (((j : ℝ) + 1) / ((62 + 2 : ℕ) : ℝ)) := by linarith
      nlinarith
    have h2 : ∑ j ∈ range 32, Real.cos (((j : ℝ) + 1) / ((62 + 2 : ℕ) : ℝ)) ^ 2 ≤ cosSum 62 :=
      sum_le_sum_of_subset_of_nonneg (range_subset_range.mpr (by norm_num)) fun _ _ _ => by positivity
    rw [sum_const, card_range, nsmul_eq_mul] at h1
    norm_num at h1 h2
    linarith
  all_goals
    have hpair : cosSum 126 = ∑ i ∈ range 63, (Real.cos ((2 * (i : ℝ) + 1) / 128) ^ 2 + Real.cos ((2 * (i : ℝ) + 2) / 128) ^ 2) := by
      have : ∀ (N : ℕ) (f : ℕ → ℝ), ∑ j ∈ range (2 * N), f j = ∑ i ∈ range N, (f (2 * i) + f (2 * i + 1)) := by
        intro N f
        induction N with
        | zero => simp
        | succ N ih => rw [show 2 * (N + 1) = 2 * N + 1 + 1 by ring, sum_range_succ, sum_range_succ, ih, sum_range_succ]; ring
      unfold cosSum
      rw [show range 126 = range (2 * 63) by norm_num, this]
      refine sum_congr rfl fun i _ => ?_
      push_cast
      rw [show (2 * (i : ℝ) + 1 + 1) = 2 * i + 2 by ring]
  · rw [hpair]
    have h3 : 2 * cosSum 62 ≤ ∑ i ∈ range 63, (2 * Real.cos (((i : ℝ) + 1) / 64) ^ 2) := by
      unfold cosSum
      rw [mul_sum, sum_range_succ (fun i : ℕ => 2 * Real.cos (((i : ℝ) + 1) / 64) ^ 2) 62]
      have : ∑ i ∈ range 62, 2 * Real.cos (((i : ℝ) + 1) / ((62 + 2 : ℕ) : ℝ)) ^ 2 = ∑ i ∈ range 62, 2 * Real.cos (((i : ℝ) + 1) / 64) ^ 2 :=
        sum_congr rfl fun i _ => by norm_num
      rw [this]
      have : 0 ≤ 2 * Real.cos ((((62 : ℕ) : ℝ) + 1) / 64) ^ 2 := by positivity
      linarith
    refine h3.trans (sum_le_sum fun i hi => ?_)
    rw [mem_range] at hi
    have hi' : (i : ℝ) ≤ 62 := by exact_mod_cast (by omega : i ≤ 62)
    have hi0 : (0 : ℝ) ≤ i := Nat.cast_nonneg _
    have e2 : (2 * (i : ℝ) + 2) / 128 = ((i : ℝ) + 1) / 64 := by ring
    have := hanti ((2 * (i : ℝ) + 1) / 128) (((i : ℝ) + 1) / 64) (by positivity) (by linarith) (by linarith)
    rw [e2]
    linarith
  · rw [hpair]
    have h3 : ∑ i ∈ range 63, (Real.cos ((2 * (i : ℝ) + 1) / 128) ^ 2 + Real.cos ((2 * (i : ℝ) + 2) / 128) ^ 2) ≤ ∑ i ∈ range 63, (2 * Real.cos ((i : ℝ) / 64) ^ 2) := by
      refine sum_le_sum fun i hi => ?_
      rw [mem_range] at hi
      have hi' : (i : ℝ) ≤ 62 := by exact_mod_cast (by omega : i ≤ 62)
      have hi0 : (0 : ℝ) ≤ i := Nat.cast_nonneg _
      have a := hanti ((i : ℝ) / 64) ((2 * (i : ℝ) + 1) / 128) (by positivity) (by linarith) (by linarith)
      have b := hanti ((i : ℝ) / 64) ((2 * (i : ℝ) + 2) / 128) (by positivity) (by linarith) (by linarith)
      linarith
    refine h3.trans ?_
    rw [sum_range_succ']
    unfold cosSum
    rw [mul_sum]
    have : ∑ i ∈ range 62, 2 * Real.cos (((i : ℝ) + 1) / ((62 + 2 : ℕ) : ℝ)) ^ 2 = ∑ i ∈ range 62, 2 * Real.cos (((i + 1 : ℕ) : ℝ) / 64) ^ 2 :=
      sum_congr rfl fun i _ => by norm_num
    rw [this]
    have := hle (((0 : ℕ) : ℝ) / 64)
    linarith

/-- **C279.** `c2` passes the test, though it is of first order only at the last point, and at the first point for other functions (`C226_fails`, `C65_fails`). -/
theorem C279_passes : c2TestPasses c2Op := by
  obtain ⟨hS, hlo, hhi⟩ := cosSum_bounds
  obtain ⟨a1, a2, a3⟩ := c2_slices 62 (by norm_num)
  obtain ⟨b1, b2, b3⟩ := c2_slices 126 (by norm_num)
  have f1 := abs_le.mp (firstErr_near 64 (by norm_num))
  have f2 := abs_le.mp (firstErr_near 128 (by norm_num))
  have i1 := abs_le.mp (innerErr_near 64 (by norm_num))
  have i2 := abs_le.mp (innerErr_near 128 (by norm_num))
  norm_num at a1 a2 a3 b1 b2 b3 f1 f2 i1 i2
  generalize firstErr 64 = p at *
  generalize firstErr 128 = q at *
  generalize innerErr 64 = u at *
  generalize innerErr 128 = v at *
  generalize cosSum 62 = S at *
  generalize cosSum 126 = T at *
  have hq : 0 < q ^ 2 := by nlinarith
  have hv : 0 < v ^ 2 := by nlinarith
  have hpq : 15 * q ^ 2 ≤ p ^ 2 ∧ p ^ 2 ≤ 17 * q ^ 2 := by constructor <;> nlinarith
  have huv : 15 * v ^ 2 ≤ u ^ 2 ∧ u ^ 2 ≤ 17 * v ^ 2 := by constructor <;> nlinarith
  have hqv : q ^ 2 ≤ 17 * v ^ 2 := by nlinarith
  have pos : ∀ l : List ℝ, 0 < rms l ^ 2 → 0 < rms l := fun l h => lt_of_le_of_ne (rms_sq l).1 fun h0 => by rw [← h0] at h; norm_num at h
  unfold c2TestPasses checkL2s testMms c2Slices
  intro r hr
  simp only [List.map_cons, List.map_nil, List.zip_cons_cons, List.zip_nil_left, List.mem_cons, List.not_mem_nil, or_false] at hr
  have hvT : 0 < v ^ 2 * T := mul_pos hv (by linarith)
  have w1 : v ^ 2 * (2 * S) ≤ v ^ 2 * T := mul_le_mul_of_nonneg_left hlo hv.le
  have w2 : v ^ 2 * T ≤ v ^ 2 * (2 * S + 2) := mul_le_mul_of_nonneg_left hhi hv.le
  have w3 : 15 * v ^ 2 * S ≤ u ^ 2 * S := mul_le_mul_of_nonneg_right huv.1 (by linarith)
  have w4 : u ^ 2 * S ≤ 17 * v ^ 2 * S := mul_le_mul_of_nonneg_right huv.2 (by linarith)
  have w5 : v ^ 2 * 24 ≤ v ^ 2 * S := mul_le_mul_of_nonneg_left hS hv.le
  rcases hr with rfl | rfl | rfl
  · refine order_two _ _ (pos _ ?_) ?_ ?_
    · rw [b1]; exact hq
    · rw [a1, b1]; linarith
    · rw [a1, b1]; linarith
  · refine order_two _ _ (pos _ ?_) ?_ ?_
    · rw [b2]; linarith
    · rw [a2, b2]; linarith
    · rw [a2, b2]; linarith
  · refine order_two _ _ (pos _ ?_) ?_ ?_
    · rw [b3]; linarith
    · rw [a3, b3]; linarith
    · rw [a3, b3]; linarith

/-- What the statement says: an operator that passes the test has a small error at the last point, of the size that second order would have. -/
def C2TestNotices : Prop := ∀ op : List ℝ → List ℝ, c2TestPasses op → |(testErr op Real.sin Real.cos 1 128).getLast?.getD 0| ≤ 1

/-- **C279.** It does not: with any number at the last point the test passes. -/
theorem C279_any (v : List ℝ → ℝ) : c2TestPasses fun f => (c2Op f).dropLast ++ [v f] := by
  have hl : ∀ f : List ℝ, 5 ≤ f.length → (c2Op f).length = f.length := by
    intro f hf
    unfold c2Op c2
    rw [if_neg (by simp), if_neg (by omega)]
    simp [Except.toOption]
  refine (C279_last c2Op _ hl fun f hf => ?_).mp C279_passes
  have h1 := hl f hf
  refine ⟨?_, ?_⟩
  · rw [List.length_append, List.length_dropLast, List.length_singleton]; omega
  · rw [List.take_append_of_le_length (by rw [List.length_dropLast]), List.dropLast_eq_take, List.take_take, min_self]

theorem C279_fails : ¬ C2TestNotices := by
  intro h
  have h1 := h _ (C279_any fun _ => 1)
  have hl : ((testPoints 1 128).map Real.sin).length = 128 := by simp [testPoints]
  have hl2 : ((testPoints 1 128).map Real.cos).length = 128 := by simp [testPoints]
  have hc : (c2Op ((testPoints 1 128).map Real.sin)).length = 128 := by
    unfold c2Op c2
    rw [if_neg (by simp), if_neg (by omega)]
    simp [Except.toOption, hl]
  have hcos : ∃ c, ((testPoints 1 128).map Real.cos) = ((testPoints 1 128).map Real.cos).dropLast ++ [Real.cos c] := by
    refine ⟨((127 : ℕ) : ℝ) * (1 / ((128 : ℕ) : ℝ)), ?_⟩
    unfold testPoints
    rw [List.range_succ, List.map_append, List.map_append, List.map_singleton, List.map_singleton, List.dropLast_concat]
  obtain ⟨c, hcos⟩ := hcos
  unfold testErr at h1
  rw [hcos, List.zipWith_append (by rw [List.length_dropLast, List.length_dropLast, hc, hl2])] at h1
  simp only [List.zipWith_cons_cons, List.zipWith_nil_left, List.getLast?_append, List.getLast?_singleton, Option.some_or, Option.getD_some] at h1
  have := Real.cos_le_one c
  rw [abs_le] at h1
  norm_num at h1
  linarith [h1.2]

/-- **C279 (partial).** An error at the first point that is only halved by the refinement is noticed.  Missing: the last point (`C279_any`), and functions other than the sine, for which the
error of `c2` at the first point is of this kind. -/
theorem C279_first_partial (op : List ℝ → List ℝ) (e : ℝ) (he : e ≠ 0) (a b : List ℝ) (h1 : testErr op Real.sin Real.cos 1 64 = (2 * e) :: a)
    (h2 : testErr op Real.sin Real.cos 1 128 = e :: b) : ¬ c2TestPasses op := by
  intro h
  unfold c2TestPasses checkL2s testMms c2Slices at h
  have h3 := h ((rms (testSlice (some 0, some 1) (testErr op Real.sin Real.cos 1 64)), rms (testSlice (some 0, some 1) (testErr op Real.sin Real.cos 1 128))), 2) (by simp)
  have hs : ∀ (x : ℝ) (l : List ℝ), rms (testSlice (some 0, some 1) (x :: l)) = |x| := by
    intro x l
    unfold testSlice rms
    simp [Real.sqrt_sq_eq_abs]
  rw [h1, h2, hs, hs] at h3
  dsimp only at h3
  have hl : 0 < Real.log 2 := Real.log_pos (by norm_num)
  have hq : |2 * e| / |e| = 2 := by
    rw [abs_mul, mul_div_assoc, div_self (abs_ne_zero.mpr he)]; norm_num
  rw [hq, div_self hl.ne'] at h3
  norm_num at h3

-- the hypotheses of C279_last are met by `c2` with another last value, and those of C279_first_partial by an operator with an error of first order
example : c2TestPasses fun f => (c2Op f).dropLast ++ [17] := C279_any fun _ => 17

example : ∃ op : List ℝ → List ℝ, ∃ e a b, e ≠ 0 ∧ testErr op Real.sin Real.cos 1 64 = (2 * e) :: a ∧ testErr op Real.sin Real.cos 1 128 = e :: b := by
  have hp : ∀ n : ℕ, testPoints 1 (n + 1) = 0 :: (testPoints 1 (n + 1)).tail := by
    intro n
    unfold testPoints
    rw [List.range_succ_eq_map, List.map_cons, List.tail_cons]
    simp
  refine ⟨fun f => ((1 + 1 / (f.length : ℝ)) / f.length) :: f.tail, 1 / 128, ?_, ?_, by norm_num, ?_, ?_⟩
  · exact List.zipWith (fun a b => a * ((64 : ℕ) : ℝ) / 1 - b) ((testPoints 1 64).map Real.sin).tail ((testPoints 1 64).tail.map Real.cos)
  · exact List.zipWith (fun a b => a * ((128 : ℕ) : ℝ) / 1 - b) ((testPoints 1 128).map Real.sin).tail ((testPoints 1 128).tail.map Real.cos)
  · have hl : ((testPoints 1 64).map Real.sin).length = 64 := by simp [testPoints]
    unfold testErr
    dsimp only
    rw [hl, show (testPoints 1 64).map Real.cos = Real.cos 0 :: (testPoints 1 64).tail.map Real.cos by rw [← List.map_cons, ← hp 63], List.zipWith_cons_cons, Real.cos_zero]
    exact congrArg₂ List.cons (by norm_num) rfl
  · have hl : ((testPoints 1 128).map Real.sin).length = 128 := by simp [testPoints]
    unfold testErr
    dsimp only
    rw [hl, show (testPoints 1 128).map Real.cos = Real.cos 0 :: (testPoints 1 128).tail.map Real.cos by rw [← List.map_cons, ← hp 127], List.zipWith_cons_cons, Real.cos_zero]
    exact congrArg₂ List.cons (by norm_num) rfl

end Zoidberg
