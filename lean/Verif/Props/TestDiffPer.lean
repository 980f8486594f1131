import Verif.Props.TestDiff
import Verif.Props.Spectral
import Mathlib.Analysis.Calculus.Deriv.MeanValue
import Mathlib.Tactic.Linarith
import Mathlib.Tactic.FieldSimp
import Mathlib.Tactic.Positivity

/-!
# The periodic tests of the finite differences (C298)
-/

set_option linter.unusedSectionVars false

namespace Zoidberg

open Finset

/-- `c2(x, 0, True)`. -/
noncomputable def c2PerOp (f : List ℝ) : List ℝ := ((c2 f true).toOption).getD []

/-- `c4(x, 0, True)`. -/
noncomputable def c4PerOp (f : List ℝ) : List ℝ := ((c4 f true).toOption).getD []

/-- The distance of the points. -/
noncomputable def perH (n : ℕ) : ℝ := 2 * Real.pi / n

/-- The derivative of the sine found by `op` with `n` points is `σ n` times the cosine, at every point. -/
def PerFactor (op : List ℝ → List ℝ) (σ : ℕ → ℝ) : Prop :=
  ∀ n, 5 ≤ n → op ((testPoints (2 * Real.pi) n).map Real.sin) = (List.range n).map fun j : ℕ => σ n * perH n * Real.cos (j * perH n)

theorem perPoints (n : ℕ) (f : ℝ → ℝ) : (testPoints (2 * Real.pi) n).map f = (List.range n).map fun j : ℕ => f (j * perH n) := by
  unfold testPoints perH
  rw [List.map_map]
  rfl

theorem rolled_sin (n : ℕ) (hn : 0 < n) (i : ℤ) (j : ℕ) :
    rolled ((testPoints (2 * Real.pi) n).map Real.sin) i j = Real.sin (((j : ℝ) + i) * perH n) := by
  have hn' : (n : ℝ) ≠ 0 := by exact_mod_cast hn.ne'
  have hz : (n : ℤ) ≠ 0 := by exact_mod_cast hn.ne'
  rw [perPoints]
  unfold rolled
  rw [List.length_map, List.length_range]
  have h0 := Int.emod_nonneg ((j : ℤ) + i) hz
  have h1 := Int.emod_lt_of_pos ((j : ℤ) + i) (by exact_mod_cast hn : (0 : ℤ) < n)
  obtain ⟨r, hr⟩ := Int.eq_ofNat_of_zero_le h0
  have hrn : r < n := by omega
  rw [hr, Int.toNat_natCast, List.getD_eq_getElem _ _ (by simpa using hrn)]
  simp only [List.getElem_map, List.getElem_range]
  have hd := Int.emod_add_mul_ediv ((j : ℤ) + i) n
  rw [hr] at hd
  have hd' : (r : ℝ) + n * ((((j : ℤ) + i) / (n : ℤ) : ℤ) : ℝ) = (j : ℝ) + i := by exact_mod_cast congrArg (Int.cast (R := ℝ)) hd
  rw [← hd', add_mul]
  have e : (n : ℝ) * ((((j : ℤ) + i) / (n : ℤ) : ℤ) : ℝ) * perH n = ((((j : ℤ) + i) / (n : ℤ) : ℤ) : ℝ) * (2 * Real.pi) := by
    unfold perH; field_simp
  rw [e, Real.sin_add_int_mul_two_pi]

theorem perH_pos (n : ℕ) (hn : 5 ≤ n) : 0 < perH n := by
  have : (0 : ℝ) < n := by exact_mod_cast (by omega : 0 < n)
  unfold perH
  positivity

/-- C298: `c2` multiplies the derivative of the sine by `sin h / h`. -/
theorem C298_c2_factor : PerFactor c2PerOp fun n => Real.sin (perH n) / perH n := by
  intro n hn
  have hp := perH_pos n hn
  unfold c2PerOp c2
  rw [if_pos rfl]
  simp only [Except.toOption, Option.getD_some]
  rw [List.length_map, show (testPoints (2 * Real.pi) n).length = n by simp [testPoints]]
  refine List.map_congr_left fun j _ => ?_
  rw [rolled_sin n (by omega), rolled_sin n (by omega)]
  push_cast
  rw [add_mul, add_mul, Real.sin_add, Real.sin_add, neg_one_mul, one_mul, Real.sin_neg, Real.cos_neg]
  field_simp
  ring

/-- C298: `c4` multiplies it by `(8 sin h - sin 2h) / 6h`. -/
theorem C298_c4_factor : PerFactor c4PerOp fun n => (8 * Real.sin (perH n) - Real.sin (2 * perH n)) / (6 * perH n) := by
  intro n hn
  have hp := perH_pos n hn
  unfold c4PerOp c4
  rw [if_pos rfl]
  simp only [Except.toOption, Option.getD_some]
  rw [List.length_map, show (testPoints (2 * Real.pi) n).length = n by simp [testPoints]]
  refine List.map_congr_left fun j _ => ?_
  rw [rolled_sin n (by omega), rolled_sin n (by omega), rolled_sin n (by omega), rolled_sin n (by omega)]
  push_cast
  rw [add_mul, add_mul, add_mul, add_mul, Real.sin_add, Real.sin_add, Real.sin_add, Real.sin_add, neg_one_mul, one_mul, Real.sin_neg, Real.cos_neg, neg_mul, Real.sin_neg, Real.cos_neg]
  field_simp
  ring

theorem sum_cos_sq (n : ℕ) (hn : 5 ≤ n) : ∑ j ∈ range n, Real.cos (j * perH n) ^ 2 = (n : ℝ) / 2 := by
  have h := sum_cos_cos (n := n) (i := 1) (j := 1) le_rfl le_rfl (by omega)
  rw [if_pos rfl] at h
  rw [← h]
  refine sum_congr rfl fun j _ => ?_
  have : errAngle n j = j * perH n - Real.pi := by unfold errAngle perH; ring
  rw [this, Nat.cast_one, one_mul, Real.cos_sub_pi]
  ring

/-- C298: the error of such an operator is the same multiple of the cosine, and its size is that of the factor. -/
theorem C298_rms (op : List ℝ → List ℝ) (σ : ℕ → ℝ) (h : PerFactor op σ) (n : ℕ) (hn : 5 ≤ n) :
    testErr op Real.sin Real.cos (2 * Real.pi) n = ((List.range n).map fun j : ℕ => (σ n - 1) * Real.cos (j * perH n)) ∧
      rms (testErr op Real.sin Real.cos (2 * Real.pi) n) = |σ n - 1| / Real.sqrt 2 := by
  have hn' : (n : ℝ) ≠ 0 := by exact_mod_cast (by omega : n ≠ 0)
  have hp := perH_pos n hn
  have e : testErr op Real.sin Real.cos (2 * Real.pi) n = (List.range n).map fun j : ℕ => (σ n - 1) * Real.cos (j * perH n) := by
    unfold testErr
    rw [h n hn, perPoints, List.zipWith_map, List.zipWith_self]
    refine List.map_congr_left fun j _ => ?_
    have : (n : ℝ) / (2 * Real.pi) = 1 / perH n := by unfold perH; rw [one_div_div]
    rw [mul_div_assoc, this]
    field_simp
  refine ⟨e, ?_⟩
  rw [e]
  unfold rms
  rw [List.map_map, List.length_map, List.length_range]
  have hs : (((List.range n).map ((fun a : ℝ => a ^ 2) ∘ fun j : ℕ => (σ n - 1) * Real.cos (j * perH n)))).sum = (σ n - 1) ^ 2 * ((n : ℝ) / 2) := by
    rw [← sum_cos_sq n hn, mul_sum, list_sum_range]
    refine sum_congr rfl fun j _ => ?_
    simp only [Function.comp]
    ring
  rw [hs, show (σ n - 1) ^ 2 * ((n : ℝ) / 2) / n = (σ n - 1) ^ 2 / 2 by field_simp, Real.sqrt_div' _ (by norm_num), Real.sqrt_sq_eq_abs]

/-- C298: exactly when such an operator passes a test with the order `p`. -/
theorem C298_iff (op : List ℝ → List ℝ) (σ : ℕ → ℝ) (h : PerFactor op σ) (p : ℝ) :
    checkL2s (testMms op Real.sin Real.cos (2 * Real.pi) [(none, none)]) [p] ↔
      |Real.log (|σ 64 - 1| / |σ 128 - 1|) / Real.log 2 - p| ≤ 0.25 + 1e-5 * |p| := by
  have hs : (0 : ℝ) < Real.sqrt 2 := Real.sqrt_pos.2 (by norm_num)
  have t : ∀ l : List ℝ, testSlice (none, none) l = l := by intro l; simp [testSlice]
  unfold checkL2s testMms
  simp only [List.map_cons, List.map_nil, List.zip_cons_cons, List.zip_nil_left, List.mem_singleton, forall_eq, t]
  rw [(C298_rms op σ h 64 (by norm_num)).2, (C298_rms op σ h 128 (by norm_num)).2, div_div_div_cancel_right₀ hs.ne']

/-! ### Bounds of the sine -/

theorem nonneg_of_hasDeriv {f f' : ℝ → ℝ} (h : ∀ x, HasDerivAt f (f' x) x) (h0 : f 0 = 0) (hp : ∀ x, 0 ≤ x → 0 ≤ f' x) (x : ℝ) (hx : 0 ≤ x) : 0 ≤ f x := by
  have hm : MonotoneOn f (Set.Ici 0) := by
    refine monotoneOn_of_deriv_nonneg (convex_Ici 0) (fun y _ => (h y).continuousAt.continuousWithinAt) (fun y _ => (h y).differentiableAt.differentiableWithinAt) fun y hy => ?_
    rw [(h y).deriv]
    rw [interior_Ici] at hy
    exact hp y (le_of_lt hy)
  have := hm (Set.mem_Ici.2 le_rfl) (Set.mem_Ici.2 hx) hx
  rwa [h0] at this

theorem sin_three (x : ℝ) (hx : 0 ≤ x) : 0 ≤ Real.sin x - (x - x ^ 3 / 6) := by
  refine nonneg_of_hasDeriv (f := fun x => Real.sin x - (x - x ^ 3 / 6)) (f' := fun x => Real.cos x - (1 - x ^ 2 / 2)) (fun y => ?_) (by simp) (fun y _ => ?_) x hx
  · have := (Real.hasDerivAt_sin y).sub ((hasDerivAt_id y).sub ((hasDerivAt_pow 3 y).div_const 6))
    exact this.congr_deriv (by push_cast; ring)
  · linarith [Real.one_sub_sq_div_two_le_cos (x := y)]

theorem cos_four (x : ℝ) (hx : 0 ≤ x) : 0 ≤ 1 - x ^ 2 / 2 + x ^ 4 / 24 - Real.cos x := by
  refine nonneg_of_hasDeriv (f := fun x => 1 - x ^ 2 / 2 + x ^ 4 / 24 - Real.cos x) (f' := fun x => Real.sin x - (x - x ^ 3 / 6)) (fun y => ?_) (by simp) sin_three x hx
  have := ((((hasDerivAt_const y (1 : ℝ)).sub ((hasDerivAt_pow 2 y).div_const 2))).add ((hasDerivAt_pow 4 y).div_const 24)).sub (Real.hasDerivAt_cos y)
  exact this.congr_deriv (by push_cast; ring)

theorem sin_five (x : ℝ) (hx : 0 ≤ x) : 0 ≤ x - x ^ 3 / 6 + x ^ 5 / 120 - Real.sin x := by
  refine nonneg_of_hasDeriv (f := fun x => x - x ^ 3 / 6 + x ^ 5 / 120 - Real.sin x) (f' := fun x => 1 - x ^ 2 / 2 + x ^ 4 / 24 - Real.cos x) (fun y => ?_) (by simp) cos_four x hx
  have := ((((hasDerivAt_id y).sub ((hasDerivAt_pow 3 y).div_const 6))).add ((hasDerivAt_pow 5 y).div_const 120)).sub (Real.hasDerivAt_sin y)
  exact this.congr_deriv (by push_cast; ring)

theorem cos_six (x : ℝ) (hx : 0 ≤ x) : 0 ≤ Real.cos x - (1 - x ^ 2 / 2 + x ^ 4 / 24 - x ^ 6 / 720) := by
  refine nonneg_of_hasDeriv (f := fun x => Real.cos x - (1 - x ^ 2 / 2 + x ^ 4 / 24 - x ^ 6 / 720)) (f' := fun x => x - x ^ 3 / 6 + x ^ 5 / 120 - Real.sin x) (fun y => ?_) (by simp) sin_five x hx
  have := (Real.hasDerivAt_cos y).sub ((((hasDerivAt_const y (1 : ℝ)).sub ((hasDerivAt_pow 2 y).div_const 2)).add ((hasDerivAt_pow 4 y).div_const 24)).sub ((hasDerivAt_pow 6 y).div_const 720))
  exact this.congr_deriv (by push_cast; ring)

theorem sin_seven (x : ℝ) (hx : 0 ≤ x) : 0 ≤ Real.sin x - (x - x ^ 3 / 6 + x ^ 5 / 120 - x ^ 7 / 5040) := by
  refine nonneg_of_hasDeriv (f := fun x => Real.sin x - (x - x ^ 3 / 6 + x ^ 5 / 120 - x ^ 7 / 5040)) (f' := fun x => Real.cos x - (1 - x ^ 2 / 2 + x ^ 4 / 24 - x ^ 6 / 720)) (fun y => ?_) (by simp) cos_six x hx
  have := (Real.hasDerivAt_sin y).sub ((((hasDerivAt_id y).sub ((hasDerivAt_pow 3 y).div_const 6)).add ((hasDerivAt_pow 5 y).div_const 120)).sub ((hasDerivAt_pow 7 y).div_const 5040))
  exact this.congr_deriv (by push_cast; ring)

/-- The factor of `c2`, between its second and fourth orders. -/
theorem c2_factor_bounds (h : ℝ) (h0 : 0 < h) : h ^ 2 / 6 - h ^ 4 / 120 ≤ 1 - Real.sin h / h ∧ 1 - Real.sin h / h ≤ h ^ 2 / 6 := by
  have e : 1 - Real.sin h / h = (h - Real.sin h) / h := by field_simp
  rw [e]
  constructor
  · rw [le_div_iff₀ h0]; nlinarith [sin_five h h0.le]
  · rw [div_le_iff₀ h0]; nlinarith [sin_three h h0.le]

/-- The factor of `c4`. -/
theorem c4_factor_bounds (h : ℝ) (h0 : 0 < h) : h ^ 4 / 30 - h ^ 6 / 200 ≤ 1 - (8 * Real.sin h - Real.sin (2 * h)) / (6 * h) ∧
    1 - (8 * Real.sin h - Real.sin (2 * h)) / (6 * h) ≤ h ^ 4 / 30 + h ^ 6 / 200 := by
  have e : 1 - (8 * Real.sin h - Real.sin (2 * h)) / (6 * h) = (6 * h - 8 * Real.sin h + Real.sin (2 * h)) / (6 * h) := by field_simp; ring
  have a := sin_five h h0.le
  have b := sin_seven h h0.le
  have c := sin_five (2 * h) (by linarith)
  have d := sin_seven (2 * h) (by linarith)
  have h7 : 0 < h ^ 7 := by positivity
  rw [e]
  constructor
  · rw [le_div_iff₀ (by linarith)]; nlinarith
  · rw [div_le_iff₀ (by linarith)]; nlinarith

theorem perH_bounds : 0 < perH 128 ∧ perH 64 = 2 * perH 128 ∧ perH 128 ≤ 1 / 20 := by
  have := Real.pi_pos
  have := Real.pi_lt_d2
  unfold perH
  push_cast
  refine ⟨by linarith, by ring, by linarith⟩

/-- A ratio between 2^(7/4) and 2^(9/4) times 4^m. -/
theorem order_ratio (m : ℕ) (q : ℝ) (h1 : (2 : ℝ) ^ (8 * m - 1) ≤ q ^ 4) (h2 : q ^ 4 ≤ (2 : ℝ) ^ (8 * m + 1)) (hm : 1 ≤ m) (hq : 0 < q) :
    |Real.log q / Real.log 2 - 2 * m| ≤ 0.25 + 1e-5 * |2 * (m : ℝ)| := by
  have hl : 0 < Real.log 2 := Real.log_pos (by norm_num)
  have e1 := Real.log_le_log (by positivity) h1
  have e2 := Real.log_le_log (by positivity) h2
  rw [Real.log_pow, Real.log_pow] at e1 e2
  rw [Nat.cast_sub (by omega)] at e1
  push_cast at e1 e2
  have k1 : 2 * m - 0.25 ≤ Real.log q / Real.log 2 := by rw [le_div_iff₀ hl]; linarith
  have k2 : Real.log q / Real.log 2 ≤ 2 * m + 0.25 := by rw [div_le_iff₀ hl]; linarith
  have : (0 : ℝ) ≤ 1e-5 * |2 * (m : ℝ)| := by positivity
  rw [abs_le]
  constructor <;> linarith

/-- C298: `c2` passes the periodic test. -/
theorem C298_c2 : c2PerTestPasses c2PerOp := by
  unfold c2PerTestPasses
  rw [C298_iff _ _ C298_c2_factor]
  obtain ⟨hp, hd, hb⟩ := perH_bounds
  obtain ⟨a, b⟩ := c2_factor_bounds (perH 128) hp
  obtain ⟨c, d⟩ := c2_factor_bounds (perH 64) (by rw [hd]; linarith)
  generalize Real.sin (perH 128) / perH 128 = s at *
  generalize Real.sin (perH 64) / perH 64 = t at *
  rw [hd] at c d
  generalize perH 128 = h at *
  have h2 : 0 < h ^ 2 := by positivity
  have hh : h ^ 2 ≤ 1 / 400 := by nlinarith
  have h4 : h ^ 4 ≤ h ^ 2 / 400 := by nlinarith
  have hs : 0 < 1 - s := by nlinarith
  have ht : 0 < 1 - t := by nlinarith
  rw [abs_sub_comm t, abs_sub_comm s, abs_of_pos hs, abs_of_pos ht]
  have l1 : 39 / 10 ≤ (1 - t) / (1 - s) := by rw [le_div_iff₀ hs]; nlinarith
  have l2 : (1 - t) / (1 - s) ≤ 41 / 10 := by rw [div_le_iff₀ hs]; nlinarith
  have := order_ratio 1 ((1 - t) / (1 - s)) (le_trans (by norm_num) (pow_le_pow_left₀ (by norm_num) l1 4)) (le_trans (pow_le_pow_left₀ (by linarith) l2 4) (by norm_num)) le_rfl (by linarith)
  simpa using this

/-- C298: `c4` passes the periodic test. -/
theorem C298_c4 : c4PerTestPasses c4PerOp := by
  unfold c4PerTestPasses
  rw [C298_iff _ _ C298_c4_factor]
  obtain ⟨hp, hd, hb⟩ := perH_bounds
  obtain ⟨a, b⟩ := c4_factor_bounds (perH 128) hp
  obtain ⟨c, d⟩ := c4_factor_bounds (perH 64) (by rw [hd]; linarith)
  generalize (8 * Real.sin (perH 128) - Real.sin (2 * perH 128)) / (6 * perH 128) = s at *
  generalize (8 * Real.sin (perH 64) - Real.sin (2 * perH 64)) / (6 * perH 64) = t at *
  rw [hd] at c d
  generalize perH 128 = h at *
  have h4 : 0 < h ^ 4 := by positivity
  have hh : h ^ 2 ≤ 1 / 400 := by nlinarith
  have h6 : h ^ 6 ≤ h ^ 4 / 400 := by nlinarith
  have hs : 0 < 1 - s := by nlinarith
  have ht : 0 < 1 - t := by nlinarith
  rw [abs_sub_comm t, abs_sub_comm s, abs_of_pos hs, abs_of_pos ht]
  have l1 : 15 ≤ (1 - t) / (1 - s) := by rw [le_div_iff₀ hs]; nlinarith
  have l2 : (1 - t) / (1 - s) ≤ 17 := by rw [div_le_iff₀ hs]; nlinarith
  have := order_ratio 2 ((1 - t) / (1 - s)) (le_trans (by norm_num) (pow_le_pow_left₀ (by norm_num) l1 4)) (le_trans (pow_le_pow_left₀ (by linarith) l2 4) (by norm_num)) (by norm_num) (by linarith)
  have e : (2 * ((2 : ℕ) : ℝ)) = 4 := by norm_num
  rwa [e] at this

/-- C298: a wrong factor is noticed: if `c2` multiplied by `s` passes the test, `s` is one within 0.25 per cent. -/
theorem C298_factor (op : List ℝ → List ℝ) (s : ℝ) (h : ∀ f, op f = (c2PerOp f).map (s * ·)) (hp : c2PerTestPasses op) : |s - 1| ≤ 1 / 400 * |s| := by
  have hf : PerFactor op fun n => s * (Real.sin (perH n) / perH n) := by
    intro n hn
    rw [h, C298_c2_factor n hn, List.map_map]
    refine List.map_congr_left fun j _ => ?_
    simp only [Function.comp]
    ring
  unfold c2PerTestPasses at hp
  rw [C298_iff _ _ hf] at hp
  obtain ⟨hp0, hd, hb⟩ := perH_bounds
  obtain ⟨a, b⟩ := c2_factor_bounds (perH 128) hp0
  obtain ⟨c, d⟩ := c2_factor_bounds (perH 64) (by rw [hd]; linarith)
  generalize Real.sin (perH 128) / perH 128 = u at *
  generalize Real.sin (perH 64) / perH 64 = t at *
  rw [hd] at c d
  generalize perH 128 = k at *
  have h2 : 0 < k ^ 2 := by positivity
  have hh : k ^ 2 ≤ 1 / 400 := by nlinarith
  have h4 : k ^ 4 ≤ k ^ 2 / 400 := by nlinarith
  have hl : 0 < Real.log 2 := Real.log_pos (by norm_num)
  have lo := (abs_le.1 hp).1
  have hlog : 3 / 2 * Real.log 2 ≤ Real.log (|s * t - 1| / |s * u - 1|) := by
    rw [← le_div_iff₀ hl]
    have : |(2 : ℝ)| = 2 := by norm_num
    rw [this] at lo
    linarith
  have hq : 2 * |s * u - 1| ≤ |s * t - 1| := by
    by_contra hc
    rw [not_le] at hc
    have hu : 0 < |s * u - 1| := by nlinarith [abs_nonneg (s * t - 1)]
    have : Real.log (|s * t - 1| / |s * u - 1|) ≤ Real.log 2 := by
      rcases (abs_nonneg (s * t - 1)).eq_or_lt with h0 | h0
      · rw [← h0, zero_div, Real.log_zero]; exact hl.le
      · exact Real.log_le_log (by positivity) (by rw [div_le_iff₀ hu]; exact hc.le)
    linarith
  have e1 : |s - 1| ≤ |s * u - 1| + |s| * (1 - u) := by
    have : s - 1 = (s * u - 1) + s * (1 - u) := by ring
    rw [this]
    refine (abs_add_le _ _).trans ?_
    rw [abs_mul, abs_of_nonneg (by nlinarith : 0 ≤ 1 - u)]
  have e2 : |s * t - 1| ≤ |s - 1| + |s| * (1 - t) := by
    have : s * t - 1 = (s - 1) + -(s * (1 - t)) := by ring
    rw [this]
    refine (abs_add_le _ _).trans ?_
    rw [abs_neg, abs_mul, abs_of_nonneg (by nlinarith : 0 ≤ 1 - t)]
  have hs := abs_nonneg s
  have w1 : |s| * (1 - u) ≤ |s| * (k ^ 2 / 6) := mul_le_mul_of_nonneg_left b hs
  have w2 : |s| * (1 - t) ≤ |s| * ((2 * k) ^ 2 / 6) := mul_le_mul_of_nonneg_left d hs
  have w3 : |s| * k ^ 2 ≤ |s| * (1 / 400) := mul_le_mul_of_nonneg_left hh hs
  nlinarith

/-- `c2` without the division would not pass. -/
example (op : List ℝ → List ℝ) (h : ∀ f, op f = (c2PerOp f).map (2 * ·)) : ¬ c2PerTestPasses op := by
  intro hp
  have := C298_factor op 2 h hp
  norm_num at this

end Zoidberg
