import Verif.Props.Diff
import Mathlib.Analysis.Calculus.Taylor
import Mathlib.Analysis.Calculus.ContDiff.Basic
import Mathlib.Analysis.SpecialFunctions.Trigonometric.Deriv
import Mathlib.Tactic.Linarith
import Mathlib.Tactic.Positivity
import Mathlib.Tactic.FieldSimp

/-!
# C225, C226: order of the finite differences
-/

set_option linter.unusedSectionVars false

namespace Zoidberg

open Set

/-- The values of a function at `n` points with the distance `h`, from `a` on. -/
def gridSamples (f : ℝ → ℝ) (a h : ℝ) (n : ℕ) : List ℝ := (List.range n).map fun i : ℕ => f (a + i * h)

theorem gridSamples_length (f : ℝ → ℝ) (a h : ℝ) (n : ℕ) : (gridSamples f a h n).length = n := by simp [gridSamples]

theorem gridSamples_getD (f : ℝ → ℝ) (a h : ℝ) {n i : ℕ} (hi : i < n) : (gridSamples f a h n).getD i 0 = f (a + i * h) := by
  rw [List.getD_eq_getElem _ _ (by rw [gridSamples_length]; exact hi)]
  simp [gridSamples]

theorem gridAt_nat (f : ℝ → ℝ) (a h : ℝ) {n i : ℕ} (hi : i < n) : at' (gridSamples f a h n) (i : ℤ) = f (a + i * h) := by
  unfold at'
  rw [if_neg (by omega), Int.toNat_natCast, gridSamples_getD f a h hi]

theorem gridAt_neg (f : ℝ → ℝ) (a h : ℝ) {n m k : ℕ} (hk : 0 < k) (hn : n = m + k) : at' (gridSamples f a h n) (-(k : ℤ)) = f (a + m * h) := by
  unfold at'
  rw [if_pos (by omega), gridSamples_length]
  have : ((n : ℤ) + -(k : ℤ)).toNat = m := by omega
  rw [this, gridSamples_getD f a h (by omega)]

/-- Taylor's formula of degree four at a point, with the fifth derivative bounded between the points. -/
theorem taylor_four {f : ℝ → ℝ} (hf : ContDiff ℝ 5 f) {S : Set ℝ} (hS : S.OrdConnected) {M : ℝ} (hM : ∀ s ∈ S, |iteratedDeriv 5 f s| ≤ M) {x t : ℝ} (hx : x ∈ S)
    (hxt : x + t ∈ S) :
    |f (x + t) - (f x + deriv f x * t + iteratedDeriv 2 f x * t ^ 2 / 2 + iteratedDeriv 3 f x * t ^ 3 / 6 + iteratedDeriv 4 f x * t ^ 4 / 24)| ≤
      M * |t| ^ 5 / 120 := by
  rcases eq_or_ne t 0 with rfl | ht
  · simp
  have hne : x ≠ x + t := by
    intro h
    exact ht (by linarith)
  have hu : UniqueDiffOn ℝ (uIcc x (x + t)) := uniqueDiffOn_uIcc hne
  obtain ⟨y, hy, e⟩ := taylor_mean_remainder_lagrange_iteratedDeriv (n := 4) hne (by exact_mod_cast hf.contDiffOn)
  have hw : ∀ k ≤ 4, iteratedDerivWithin k f (uIcc x (x + t)) x = iteratedDeriv k f x := fun k hk =>
    iteratedDerivWithin_eq_iteratedDeriv hu (hf.contDiffAt.of_le (by exact_mod_cast (by omega : k ≤ 5))) left_mem_uIcc
  rw [taylor_within_apply] at e
  simp only [Finset.sum_range_succ, Finset.sum_range_zero, smul_eq_mul, hw 0 (by omega), hw 1 (by omega), hw 2 (by omega), hw 3 (by omega), hw 4 (by omega),
    iteratedDeriv_zero, iteratedDeriv_one, add_sub_cancel_left] at e
  have e' : f (x + t) - (f x + deriv f x * t + iteratedDeriv 2 f x * t ^ 2 / 2 + iteratedDeriv 3 f x * t ^ 3 / 6 + iteratedDeriv 4 f x * t ^ 4 / 24) =
      iteratedDeriv 5 f y * t ^ 5 / 120 := by
    norm_num [Nat.factorial] at e
    linarith
  rw [e', abs_div, abs_mul, abs_pow, abs_of_pos (by norm_num : (0 : ℝ) < 120)]
  have hyS : y ∈ S := hS.uIcc_subset hx hxt ⟨hy.1.le, hy.2.le⟩
  gcongr
  exact hM y hyS

/-- Taylor's formula of degree two. -/
theorem taylor_two {f : ℝ → ℝ} (hf : ContDiff ℝ 3 f) {S : Set ℝ} (hS : S.OrdConnected) {M : ℝ} (hM : ∀ s ∈ S, |iteratedDeriv 3 f s| ≤ M) {x t : ℝ} (hx : x ∈ S)
    (hxt : x + t ∈ S) : |f (x + t) - (f x + deriv f x * t + iteratedDeriv 2 f x * t ^ 2 / 2)| ≤ M * |t| ^ 3 / 6 := by
  rcases eq_or_ne t 0 with rfl | ht
  · simp
  have hne : x ≠ x + t := by
    intro h
    exact ht (by linarith)
  have hu : UniqueDiffOn ℝ (uIcc x (x + t)) := uniqueDiffOn_uIcc hne
  obtain ⟨y, hy, e⟩ := taylor_mean_remainder_lagrange_iteratedDeriv (n := 2) hne (by exact_mod_cast hf.contDiffOn)
  have hw : ∀ k ≤ 2, iteratedDerivWithin k f (uIcc x (x + t)) x = iteratedDeriv k f x := fun k hk =>
    iteratedDerivWithin_eq_iteratedDeriv hu (hf.contDiffAt.of_le (by exact_mod_cast (by omega : k ≤ 3))) left_mem_uIcc
  rw [taylor_within_apply] at e
  simp only [Finset.sum_range_succ, Finset.sum_range_zero, smul_eq_mul, hw 0 (by omega), hw 1 (by omega), hw 2 (by omega),
    iteratedDeriv_zero, iteratedDeriv_one, add_sub_cancel_left] at e
  have e' : f (x + t) - (f x + deriv f x * t + iteratedDeriv 2 f x * t ^ 2 / 2) = iteratedDeriv 3 f y * t ^ 3 / 6 := by
    norm_num [Nat.factorial] at e
    linarith
  rw [e', abs_div, abs_mul, abs_pow, abs_of_pos (by norm_num : (0 : ℝ) < 6)]
  have hyS : y ∈ S := hS.uIcc_subset hx hxt ⟨hy.1.le, hy.2.le⟩
  gcongr
  exact hM y hyS

/-! ## C225 -/

/-- The centred stencil of five points. -/
theorem stencil_mid {f : ℝ → ℝ} (hf : ContDiff ℝ 5 f) {S : Set ℝ} (hS : S.OrdConnected) {M : ℝ} (hM : ∀ s ∈ S, |iteratedDeriv 5 f s| ≤ M) {x h : ℝ} (hh : 0 < h)
    (m2 : x - 2 * h ∈ S) (p2 : x + 2 * h ∈ S) :
    |(-f (x + 2 * h) + 8 * f (x + h) - 8 * f (x - h) + f (x - 2 * h)) / 12 / h - deriv f x| ≤ M * h ^ 4 / 18 := by
  have hm : ∀ s, x - 2 * h ≤ s → s ≤ x + 2 * h → s ∈ S := fun s h1 h2 => hS.out m2 p2 ⟨h1, h2⟩
  have hx := hm x (by linarith) (by linarith)
  have t1 := taylor_four hf hS hM hx p2
  have t2 := taylor_four hf hS hM hx (hm (x + h) (by linarith) (by linarith))
  have t3 := taylor_four hf hS hM hx (t := -h) (hm (x + -h) (by linarith) (by linarith))
  have t4 := taylor_four hf hS hM hx (t := -(2 * h)) (by rw [← sub_eq_add_neg]; exact m2)
  rw [← sub_eq_add_neg] at t3 t4
  rw [abs_neg] at t3 t4
  rw [abs_of_pos hh] at t2 t3
  rw [abs_of_pos (by linarith : 0 < 2 * h)] at t1 t4
  rw [div_sub' hh.ne', abs_div, abs_of_pos hh, div_le_iff₀ hh]
  rw [abs_le] at t1 t2 t3 t4 ⊢
  obtain ⟨a1, b1⟩ := t1
  obtain ⟨a2, b2⟩ := t2
  obtain ⟨a3, b3⟩ := t3
  obtain ⟨a4, b4⟩ := t4
  constructor <;> ring_nf at * <;> linarith

/-- The one-sided stencils: all five points on the side of `h` (which may be negative). -/
theorem stencil_end {f : ℝ → ℝ} (hf : ContDiff ℝ 5 f) {S : Set ℝ} (hS : S.OrdConnected) {M : ℝ} (hM : ∀ s ∈ S, |iteratedDeriv 5 f s| ≤ M) {x h : ℝ} (hh : h ≠ 0)
    (m : ∀ k : ℕ, k ≤ 4 → x + k * h ∈ S) :
    |(-(25 / 12) * f x + 4 * f (x + h) - 3 * f (x + 2 * h) + 4 / 3 * f (x + 3 * h) - 1 / 4 * f (x + 4 * h)) / h - deriv f x| ≤ 17 / 3 * (M * h ^ 4) := by
  have hx := m 0 (by omega)
  rw [Nat.cast_zero, zero_mul, add_zero] at hx
  have m1 := m 1 (by omega)
  have m2 := m 2 (by omega)
  have m3 := m 3 (by omega)
  have m4 := m 4 (by omega)
  push_cast at m1 m2 m3 m4
  rw [one_mul] at m1
  have t1 := taylor_four hf hS hM hx m1
  have t2 := taylor_four hf hS hM hx m2
  have t3 := taylor_four hf hS hM hx m3
  have t4 := taylor_four hf hS hM hx m4
  have ha := abs_pos.2 hh
  rw [abs_mul, abs_of_pos (by norm_num : (0 : ℝ) < 2)] at t2
  rw [abs_mul, abs_of_pos (by norm_num : (0 : ℝ) < 3)] at t3
  rw [abs_mul, abs_of_pos (by norm_num : (0 : ℝ) < 4)] at t4
  rw [div_sub' hh, abs_div, div_le_iff₀ ha]
  have e5 : 17 / 3 * (M * h ^ 4) * |h| = 17 / 3 * (M * |h| ^ 5) := by
    rw [← Even.pow_abs (by decide : Even 4)]
    ring
  rw [e5]
  rw [abs_le] at t1 t2 t3 t4 ⊢
  obtain ⟨a1, b1⟩ := t1
  obtain ⟨a2, b2⟩ := t2
  obtain ⟨a3, b3⟩ := t3
  obtain ⟨a4, b4⟩ := t4
  generalize |h| = H at *
  constructor <;> ring_nf at * <;> linarith

/-- The stencils next to the ends. -/
theorem stencil_next {f : ℝ → ℝ} (hf : ContDiff ℝ 5 f) {S : Set ℝ} (hS : S.OrdConnected) {M : ℝ} (hM : ∀ s ∈ S, |iteratedDeriv 5 f s| ≤ M) {x h : ℝ} (hh : h ≠ 0)
    (m : ∀ k : ℕ, k ≤ 4 → (x - h) + k * h ∈ S) :
    |(-(1 / 4) * f (x - h) - 5 / 6 * f x + 3 / 2 * f (x + h) - 1 / 2 * f (x + 2 * h) + 1 / 12 * f (x + 3 * h)) / h - deriv f x| ≤ 19 / 60 * (M * h ^ 4) := by
  have m0 := m 0 (by omega)
  have hx := m 1 (by omega)
  have m1 := m 2 (by omega)
  have m2 := m 3 (by omega)
  have m3 := m 4 (by omega)
  rw [show x - h + ((1 : ℕ) : ℝ) * h = x by push_cast; ring] at hx
  rw [show x - h + ((0 : ℕ) : ℝ) * h = x + -h by push_cast; ring] at m0
  rw [show x - h + ((2 : ℕ) : ℝ) * h = x + h by push_cast; ring] at m1
  rw [show x - h + ((3 : ℕ) : ℝ) * h = x + 2 * h by push_cast; ring] at m2
  rw [show x - h + ((4 : ℕ) : ℝ) * h = x + 3 * h by push_cast; ring] at m3
  have t0 := taylor_four hf hS hM hx m0
  have t1 := taylor_four hf hS hM hx m1
  have t2 := taylor_four hf hS hM hx m2
  have t3 := taylor_four hf hS hM hx m3
  have ha := abs_pos.2 hh
  rw [abs_neg, ← sub_eq_add_neg] at t0
  rw [abs_mul, abs_of_pos (by norm_num : (0 : ℝ) < 2)] at t2
  rw [abs_mul, abs_of_pos (by norm_num : (0 : ℝ) < 3)] at t3
  rw [div_sub' hh, abs_div, div_le_iff₀ ha]
  have e5 : 19 / 60 * (M * h ^ 4) * |h| = 19 / 60 * (M * |h| ^ 5) := by
    rw [← Even.pow_abs (by decide : Even 4)]
    ring
  rw [e5]
  rw [abs_le] at t0 t1 t2 t3 ⊢
  obtain ⟨a1, b1⟩ := t1
  obtain ⟨a2, b2⟩ := t2
  obtain ⟨a3, b3⟩ := t3
  obtain ⟨a4, b4⟩ := t0
  generalize |h| = H at *
  constructor <;> ring_nf at * <;> linarith

/-- **C225.** Fourth order at all points, and with the constant 1/18 away from the ends. -/
theorem C225_open {f : ℝ → ℝ} (hf : ContDiff ℝ 5 f) {a h M : ℝ} (hh : 0 < h) {n : ℕ} (hn : 5 ≤ n)
    (hM : ∀ s ∈ Icc a (a + (n - 1 : ℕ) * h), |iteratedDeriv 5 f s| ≤ M) :
    ∃ r, c4 (gridSamples f a h n) false = .ok r ∧ r.length = n ∧ ∀ j, j < n →
      |r.getD j 0 / h - deriv f (a + j * h)| ≤ 17 / 3 * (M * h ^ 4) ∧
      (2 ≤ j → j + 2 < n → |r.getD j 0 / h - deriv f (a + j * h)| ≤ M * h ^ 4 / 18) := by
  obtain ⟨m, rfl⟩ : ∃ m, n = m + 5 := ⟨n - 5, by omega⟩
  have hS : (Icc a (a + (m + 5 - 1 : ℕ) * h)).OrdConnected := ordConnected_Icc
  have hM0 : 0 ≤ M := (abs_nonneg _).trans (hM a ⟨le_refl _, by
    have : (0 : ℝ) ≤ (m + 5 - 1 : ℕ) * h := by positivity
    linarith⟩)
  have hMh : 0 ≤ M * h ^ 4 := by positivity
  have mem : ∀ i : ℕ, i < m + 5 → a + i * h ∈ Icc a (a + (m + 5 - 1 : ℕ) * h) := by
    intro i hi
    have h1 : (i : ℝ) ≤ (m + 5 - 1 : ℕ) := by exact_mod_cast (by omega)
    have h2 : (0 : ℝ) ≤ i * h := by positivity
    constructor
    · linarith
    · nlinarith
  unfold c4
  rw [if_neg (by simp), if_neg (by rw [gridSamples_length]; omega), gridSamples_length]
  refine ⟨_, rfl, by simp, fun j hj => ?_⟩
  rw [List.getD_eq_getElem _ _ (by simpa using hj)]
  simp only [List.getElem_map, List.getElem_range]
  have n1 : at' (gridSamples f a h (m + 5)) (-1) = f (a + ((m + 4 : ℕ) : ℝ) * h) := gridAt_neg f a h (k := 1) (by omega) (by omega)
  have n2 : at' (gridSamples f a h (m + 5)) (-2) = f (a + ((m + 3 : ℕ) : ℝ) * h) := gridAt_neg f a h (k := 2) (by omega) (by omega)
  have n3 : at' (gridSamples f a h (m + 5)) (-3) = f (a + ((m + 2 : ℕ) : ℝ) * h) := gridAt_neg f a h (k := 3) (by omega) (by omega)
  have n4 : at' (gridSamples f a h (m + 5)) (-4) = f (a + ((m + 1 : ℕ) : ℝ) * h) := gridAt_neg f a h (k := 4) (by omega) (by omega)
  have n5 : at' (gridSamples f a h (m + 5)) (-5) = f (a + ((m : ℕ) : ℝ) * h) := gridAt_neg f a h (k := 5) (by omega) (by omega)
  have p0 : at' (gridSamples f a h (m + 5)) 0 = f (a + ((0 : ℕ) : ℝ) * h) := gridAt_nat f a h (i := 0) (by omega)
  have p1 : at' (gridSamples f a h (m + 5)) 1 = f (a + ((1 : ℕ) : ℝ) * h) := gridAt_nat f a h (i := 1) (by omega)
  have p2 : at' (gridSamples f a h (m + 5)) 2 = f (a + ((2 : ℕ) : ℝ) * h) := gridAt_nat f a h (i := 2) (by omega)
  have p3 : at' (gridSamples f a h (m + 5)) 3 = f (a + ((3 : ℕ) : ℝ) * h) := gridAt_nat f a h (i := 3) (by omega)
  have p4 : at' (gridSamples f a h (m + 5)) 4 = f (a + ((4 : ℕ) : ℝ) * h) := gridAt_nat f a h (i := 4) (by omega)
  split_ifs with h1 h2 h3 h4
  · have hj4 : j = m + 4 := by omega
    subst hj4
    refine ⟨?_, fun _ _ => by omega⟩
    have := stencil_end hf hS hM (x := a + ((m + 4 : ℕ) : ℝ) * h) (h := -h) (by linarith) (by
      intro k hk
      have := mem (m + 4 - k) (by omega)
      rw [Nat.cast_sub (by omega : k ≤ m + 4)] at this
      convert this using 1
      ring)
    rw [n1, n2, n3, n4, n5]
    convert this using 2
    · rw [div_neg, ← neg_div]
      congr 2
      push_cast
      ring_nf
    · ring
  · have hj4 : j = m + 3 := by omega
    subst hj4
    refine ⟨?_, fun _ _ => by omega⟩
    have := stencil_next hf hS hM (x := a + ((m + 3 : ℕ) : ℝ) * h) (h := -h) (by linarith) (by
      intro k hk
      have := mem (m + 4 - k) (by omega)
      rw [Nat.cast_sub (by omega : k ≤ m + 4)] at this
      convert this using 1
      push_cast
      ring)
    rw [n1, n2, n3, n4, n5]
    refine le_trans (le_of_eq ?_) (this.trans ?_)
    · rw [div_neg, ← neg_div]
      congr 3
      push_cast
      ring_nf
    · rw [Even.neg_pow (by decide)]
      linarith
  · subst h3
    refine ⟨?_, fun _ _ => by omega⟩
    have := stencil_next hf hS hM (x := a + ((1 : ℕ) : ℝ) * h) hh.ne' (by
      intro k hk
      have := mem k (by omega)
      convert this using 1
      push_cast
      ring)
    rw [p0, p1, p2, p3, p4]
    refine le_trans (le_of_eq ?_) (this.trans ?_)
    · congr 3
      push_cast
      ring_nf
    · linarith
  · subst h4
    refine ⟨?_, fun _ _ => by omega⟩
    have := stencil_end hf hS hM (x := a + ((0 : ℕ) : ℝ) * h) hh.ne' (by
      intro k hk
      have := mem k (by omega)
      convert this using 1
      push_cast
      ring)
    rw [p0, p1, p2, p3, p4]
    refine le_trans (le_of_eq ?_) this
    congr 3
    push_cast
    ring_nf
  · obtain ⟨k, rfl⟩ : ∃ k, j = k + 2 := ⟨j - 2, by omega⟩
    have q1 : at' (gridSamples f a h (m + 5)) (((k + 2 : ℕ) : ℤ) + 2) = f (a + ((k + 4 : ℕ) : ℝ) * h) := by
      rw [← gridAt_nat f a h (n := m + 5) (by omega)]; push_cast; ring_nf
    have q2 : at' (gridSamples f a h (m + 5)) (((k + 2 : ℕ) : ℤ) + 1) = f (a + ((k + 3 : ℕ) : ℝ) * h) := by
      rw [← gridAt_nat f a h (n := m + 5) (by omega)]; push_cast; ring_nf
    have q3 : at' (gridSamples f a h (m + 5)) (((k + 2 : ℕ) : ℤ) - 1) = f (a + ((k + 1 : ℕ) : ℝ) * h) := by
      rw [← gridAt_nat f a h (n := m + 5) (by omega)]; push_cast; ring_nf
    have q4 : at' (gridSamples f a h (m + 5)) (((k + 2 : ℕ) : ℤ) - 2) = f (a + ((k : ℕ) : ℝ) * h) := by
      rw [← gridAt_nat f a h (n := m + 5) (by omega)]; push_cast; ring_nf
    have := stencil_mid hf hS hM (x := a + ((k + 2 : ℕ) : ℝ) * h) hh (by
      have := mem k (by omega)
      convert this using 1
      push_cast
      ring) (by
      have := mem (k + 4) (by omega)
      convert this using 1
      push_cast
      ring)
    have key : |(-f (a + ((k + 4 : ℕ) : ℝ) * h) + 8 * f (a + ((k + 3 : ℕ) : ℝ) * h) - 8 * f (a + ((k + 1 : ℕ) : ℝ) * h) + f (a + ((k : ℕ) : ℝ) * h)) / 12 / h -
        deriv f (a + ((k + 2 : ℕ) : ℝ) * h)| ≤ M * h ^ 4 / 18 := by
      refine le_trans (le_of_eq ?_) this
      congr 3
      push_cast
      ring_nf
    rw [q1, q2, q3, q4]
    exact ⟨key.trans (by linarith), fun _ _ => key⟩

theorem gridRolled {f : ℝ → ℝ} {a h : ℝ} {n : ℕ} (hp : Function.Periodic f (n * h)) {j : ℕ} (hj : j < n) (i : ℤ) :
    rolled (gridSamples f a h n) i j = f (a + j * h + i * h) := by
  unfold rolled
  rw [gridSamples_length, gridSamples_getD f a h (by
    have := Int.emod_lt_of_pos ((j : ℤ) + i) (by omega : (0 : ℤ) < n)
    have := Int.emod_nonneg ((j : ℤ) + i) (by omega : (n : ℤ) ≠ 0)
    omega)]
  have e : ((((j : ℤ) + i) % (n : ℤ)).toNat : ℝ) = ((j : ℝ) + i) - n * (((j : ℤ) + i) / (n : ℤ) : ℤ) := by
    have h1 := Int.emod_nonneg ((j : ℤ) + i) (by omega : (n : ℤ) ≠ 0)
    have h2 : ((((j : ℤ) + i) % (n : ℤ)).toNat : ℤ) = (j : ℤ) + i - n * (((j : ℤ) + i) / (n : ℤ)) := by
      rw [Int.toNat_of_nonneg h1, Int.emod_def]
    exact_mod_cast congrArg (Int.cast : ℤ → ℝ) h2
  rw [e]
  have := hp.sub_int_mul_eq (x := a + j * h + i * h) (((j : ℤ) + i) / (n : ℤ))
  rw [← this]
  congr 1
  ring

/-- **C225.** The periodic version, for samples over one period. -/
theorem C225_periodic {f : ℝ → ℝ} (hf : ContDiff ℝ 5 f) {a h M : ℝ} (hh : 0 < h) {n : ℕ} (hp : Function.Periodic f (n * h))
    (hM : ∀ s, |iteratedDeriv 5 f s| ≤ M) :
    ∃ r, c4 (gridSamples f a h n) true = .ok r ∧ r.length = n ∧ ∀ j, j < n → |r.getD j 0 / h - deriv f (a + j * h)| ≤ M * h ^ 4 / 18 := by
  unfold c4
  rw [if_pos rfl, gridSamples_length]
  refine ⟨_, rfl, by simp, fun j hj => ?_⟩
  rw [List.getD_eq_getElem _ _ (by simpa using hj)]
  simp only [List.getElem_map, List.getElem_range, gridRolled hp hj]
  refine le_trans (le_of_eq ?_) (stencil_mid hf ordConnected_univ (fun s _ => hM s) hh (x := a + j * h) (mem_univ _) (mem_univ _))
  congr 3
  push_cast
  ring_nf

/-! ## C226 -/

theorem stencil2_mid {f : ℝ → ℝ} (hf : ContDiff ℝ 3 f) {S : Set ℝ} (hS : S.OrdConnected) {M : ℝ} (hM : ∀ s ∈ S, |iteratedDeriv 3 f s| ≤ M) {x h : ℝ} (hh : 0 < h)
    (m : x - h ∈ S) (p : x + h ∈ S) : |(f (x + h) - f (x - h)) / 2 / h - deriv f x| ≤ M * h ^ 2 / 6 := by
  have hx : x ∈ S := hS.out m p ⟨by linarith, by linarith⟩
  have t1 := taylor_two hf hS hM hx p
  have t2 := taylor_two hf hS hM hx (t := -h) (by rw [← sub_eq_add_neg]; exact m)
  rw [← sub_eq_add_neg, abs_neg] at t2
  rw [abs_of_pos hh] at t1 t2
  rw [div_sub' hh.ne', abs_div, abs_of_pos hh, div_le_iff₀ hh]
  rw [abs_le] at t1 t2 ⊢
  obtain ⟨a1, b1⟩ := t1
  obtain ⟨a2, b2⟩ := t2
  constructor <;> ring_nf at * <;> linarith

theorem stencil2_end {f : ℝ → ℝ} (hf : ContDiff ℝ 3 f) {S : Set ℝ} (hS : S.OrdConnected) {M : ℝ} (hM : ∀ s ∈ S, |iteratedDeriv 3 f s| ≤ M) {x h : ℝ} (hh : h ≠ 0)
    (m : x ∈ S) (p : x + 2 * h ∈ S) : |(f (x + 2 * h) - f x) / 2 / h - deriv f x - h * iteratedDeriv 2 f x| ≤ 2 / 3 * (M * h ^ 2) := by
  have t1 := taylor_two hf hS hM m p
  rw [abs_mul, abs_of_pos (by norm_num : (0 : ℝ) < 2)] at t1
  have e : (f (x + 2 * h) - f x) / 2 / h - deriv f x - h * iteratedDeriv 2 f x =
      (f (x + 2 * h) - (f x + deriv f x * (2 * h) + iteratedDeriv 2 f x * (2 * h) ^ 2 / 2)) / (2 * h) := by
    field_simp
    ring
  rw [e, abs_div, abs_mul, abs_of_pos (by norm_num : (0 : ℝ) < 2), div_le_iff₀ (by positivity)]
  refine t1.trans (le_of_eq ?_)
  rw [← sq_abs h]
  ring

/-- What `c2` returns for samples of a function: second order inside; at the ends the error is the spacing times the second derivative, and a rest of second order. -/
theorem C226_values {f : ℝ → ℝ} (hf : ContDiff ℝ 3 f) {a h M : ℝ} (hh : 0 < h) {n : ℕ} (hn : 3 ≤ n)
    (hM : ∀ s ∈ Icc a (a + (n - 1 : ℕ) * h), |iteratedDeriv 3 f s| ≤ M) :
    ∃ r, c2 (gridSamples f a h n) false = .ok r ∧ r.length = n ∧
      (∀ j, 1 ≤ j → j + 1 < n → |r.getD j 0 / h - deriv f (a + j * h)| ≤ M * h ^ 2 / 6) ∧
      |r.getD 0 0 / h - deriv f a - h * iteratedDeriv 2 f a| ≤ 2 / 3 * (M * h ^ 2) ∧
      |r.getD (n - 1) 0 / h - deriv f (a + (n - 1 : ℕ) * h) + h * iteratedDeriv 2 f (a + (n - 1 : ℕ) * h)| ≤ 2 / 3 * (M * h ^ 2) := by
  obtain ⟨m, rfl⟩ : ∃ m, n = m + 3 := ⟨n - 3, by omega⟩
  have hS : (Icc a (a + (m + 3 - 1 : ℕ) * h)).OrdConnected := ordConnected_Icc
  have mem : ∀ i : ℕ, i < m + 3 → a + i * h ∈ Icc a (a + (m + 3 - 1 : ℕ) * h) := by
    intro i hi
    have h1 : (i : ℝ) ≤ (m + 3 - 1 : ℕ) := by exact_mod_cast (by omega)
    have h2 : (0 : ℝ) ≤ i * h := by positivity
    constructor
    · linarith
    · nlinarith
  unfold c2
  rw [if_neg (by simp), if_neg (by rw [gridSamples_length]; omega), gridSamples_length]
  have n1 : at' (gridSamples f a h (m + 3)) (-1) = f (a + ((m + 2 : ℕ) : ℝ) * h) := gridAt_neg f a h (k := 1) (by omega) (by omega)
  have n3 : at' (gridSamples f a h (m + 3)) (-3) = f (a + ((m : ℕ) : ℝ) * h) := gridAt_neg f a h (k := 3) (by omega) (by omega)
  have p0 : at' (gridSamples f a h (m + 3)) 0 = f (a + ((0 : ℕ) : ℝ) * h) := gridAt_nat f a h (i := 0) (by omega)
  have p2 : at' (gridSamples f a h (m + 3)) 2 = f (a + ((2 : ℕ) : ℝ) * h) := gridAt_nat f a h (i := 2) (by omega)
  refine ⟨_, rfl, by simp, fun j h1 h2 => ?_, ?_, ?_⟩
  · rw [List.getD_eq_getElem _ _ (by simp; omega)]
    simp only [List.getElem_map, List.getElem_range]
    rw [if_neg (by omega), if_neg (by omega)]
    obtain ⟨k, rfl⟩ : ∃ k, j = k + 1 := ⟨j - 1, by omega⟩
    have q1 : at' (gridSamples f a h (m + 3)) (((k + 1 : ℕ) : ℤ) + 1) = f (a + ((k + 2 : ℕ) : ℝ) * h) := by
      rw [← gridAt_nat f a h (n := m + 3) (by omega)]; push_cast; ring_nf
    have q2 : at' (gridSamples f a h (m + 3)) (((k + 1 : ℕ) : ℤ) - 1) = f (a + ((k : ℕ) : ℝ) * h) := by
      rw [← gridAt_nat f a h (n := m + 3) (by omega)]; push_cast; ring_nf
    have := stencil2_mid hf hS hM (x := a + ((k + 1 : ℕ) : ℝ) * h) hh (by
      have := mem k (by omega)
      convert this using 1
      push_cast
      ring) (by
      have := mem (k + 2) (by omega)
      convert this using 1
      push_cast
      ring)
    rw [q1, q2]
    refine le_trans (le_of_eq ?_) this
    congr 3
    push_cast
    ring_nf
  · rw [List.getD_eq_getElem _ _ (by simp)]
    simp only [List.getElem_map, List.getElem_range]
    rw [if_neg (by omega), if_pos trivial, p0, p2]
    have m0 := mem 0 (by omega)
    rw [Nat.cast_zero, zero_mul, add_zero] at m0 ⊢
    exact stencil2_end hf hS hM hh.ne' m0 (mem 2 (by omega))
  · rw [List.getD_eq_getElem _ _ (by simp)]
    simp only [List.getElem_map, List.getElem_range]
    rw [if_pos trivial, n1, n3]
    have := stencil2_end hf hS hM (x := a + ((m + 2 : ℕ) : ℝ) * h) (h := -h) (by linarith) (mem (m + 2) (by omega)) (by
      have := mem m (by omega)
      convert this using 1
      push_cast
      ring)
    rw [Even.neg_pow (by decide)] at this
    refine le_trans (le_of_eq ?_) this
    rw [show m + 3 - 1 = m + 2 by omega, div_neg, ← neg_div]
    rw [show a + ((m + 2 : ℕ) : ℝ) * h + 2 * -h = a + m * h by push_cast; ring]
    congr 1
    ring

/-- The claim: second order at all points, with the interval fixed and the number of points growing. -/
def C2SecondOrder (f : ℝ → ℝ) (a L : ℝ) : Prop := ∃ C, ∀ n, 3 ≤ n → ∃ r, c2 (gridSamples f a (L / (n - 1 : ℕ)) n) false = .ok r ∧
  ∀ j, j < n → |r.getD j 0 / (L / (n - 1 : ℕ)) - deriv f (a + j * (L / (n - 1 : ℕ)))| ≤ C * (L / (n - 1 : ℕ)) ^ 2

theorem small_zero {x C L : ℝ} (h : ∀ n : ℕ, 3 ≤ n → |x| ≤ C * (L / (n - 1 : ℕ))) : x = 0 := by
  by_contra hx
  have hp := abs_pos.2 hx
  obtain ⟨N, hN⟩ := exists_nat_gt (|C * L| / |x|)
  have h1 := h (N + 3) (by omega)
  have hpos : (0 : ℝ) < (N + 3 - 1 : ℕ) := by exact_mod_cast (by omega)
  rw [← mul_div_assoc, le_div_iff₀ hpos] at h1
  rw [div_lt_iff₀ hp] at hN
  have h2 : (N : ℝ) ≤ (N + 3 - 1 : ℕ) := by exact_mod_cast (by omega)
  have h3 := le_abs_self (C * L)
  nlinarith

/-- **C226.** The claim holds exactly if the second derivative vanishes at both ends. -/
theorem C226_iff {f : ℝ → ℝ} (hf : ContDiff ℝ 3 f) {a L : ℝ} (hL : 0 < L) :
    C2SecondOrder f a L ↔ iteratedDeriv 2 f a = 0 ∧ iteratedDeriv 2 f (a + L) = 0 := by
  obtain ⟨M, hM⟩ := isCompact_Icc.exists_bound_of_continuousOn (s := Icc a (a + L)) ((hf.continuous_iteratedDeriv 3 le_rfl).continuousOn)
  simp only [Real.norm_eq_abs] at hM
  have hM0 : 0 ≤ M := (abs_nonneg _).trans (hM a ⟨le_refl _, by linarith⟩)
  have hend : ∀ n : ℕ, 3 ≤ n → ((n - 1 : ℕ) : ℝ) * (L / (n - 1 : ℕ)) = L := by
    intro n hn
    have hpos : (0 : ℝ) < (n - 1 : ℕ) := by exact_mod_cast (by omega)
    exact mul_div_cancel₀ _ hpos.ne'
  have hpos : ∀ n : ℕ, 3 ≤ n → 0 < L / ((n - 1 : ℕ) : ℝ) := by
    intro n hn
    have : (0 : ℝ) < (n - 1 : ℕ) := by exact_mod_cast (by omega)
    positivity
  have hv := fun n hn => C226_values hf (a := a) (M := M) (hpos n hn) hn (by rw [hend n hn]; exact hM)
  constructor
  · rintro ⟨C, hC⟩
    constructor
    · apply small_zero (C := C + 2 / 3 * M) (L := L)
      intro n hn
      obtain ⟨r, hr, _, _, h0, _⟩ := hv n hn
      obtain ⟨r', hr', hc⟩ := hC n hn
      obtain rfl : r = r' := Except.ok.inj (hr.symm.trans hr')
      have h1 := hc 0 (by omega)
      rw [Nat.cast_zero, zero_mul, add_zero] at h1
      have hp := hpos n hn
      generalize L / ((n - 1 : ℕ) : ℝ) = h at *
      have h2 : |h * iteratedDeriv 2 f a| ≤ C * h ^ 2 + 2 / 3 * (M * h ^ 2) := by
        have := abs_sub (r.getD 0 0 / h - deriv f a) (r.getD 0 0 / h - deriv f a - h * iteratedDeriv 2 f a)
        rw [sub_sub_cancel] at this
        linarith
      rw [abs_mul, abs_of_pos hp] at h2
      refine le_of_mul_le_mul_left (h2.trans (le_of_eq ?_)) hp
      ring
    · apply small_zero (C := C + 2 / 3 * M) (L := L)
      intro n hn
      obtain ⟨r, hr, _, _, _, h0⟩ := hv n hn
      obtain ⟨r', hr', hc⟩ := hC n hn
      obtain rfl : r = r' := Except.ok.inj (hr.symm.trans hr')
      have h1 := hc (n - 1) (by omega)
      rw [hend n hn] at h0 h1
      have hp := hpos n hn
      generalize L / ((n - 1 : ℕ) : ℝ) = h at *
      have h2 : |h * iteratedDeriv 2 f (a + L)| ≤ C * h ^ 2 + 2 / 3 * (M * h ^ 2) := by
        have := abs_sub (r.getD (n - 1) 0 / h - deriv f (a + L) + h * iteratedDeriv 2 f (a + L)) (r.getD (n - 1) 0 / h - deriv f (a + L))
        rw [add_sub_cancel_left] at this
        linarith
      rw [abs_mul, abs_of_pos hp] at h2
      refine le_of_mul_le_mul_left (h2.trans (le_of_eq ?_)) hp
      ring
  · rintro ⟨z0, z1⟩
    refine ⟨2 / 3 * M, fun n hn => ?_⟩
    obtain ⟨r, hr, hl, hi, h0, h1⟩ := hv n hn
    refine ⟨r, hr, fun j hj => ?_⟩
    rw [hend n hn, z1, mul_zero, add_zero] at h1
    rw [z0, mul_zero, sub_zero] at h0
    by_cases j0 : j = 0
    · subst j0
      rw [Nat.cast_zero, zero_mul, add_zero]
      linarith
    by_cases j1 : j = n - 1
    · subst j1
      rw [hend n hn]
      linarith
    refine (hi j (by omega) (by omega)).trans ?_
    have : 0 ≤ M * (L / ((n - 1 : ℕ) : ℝ)) ^ 2 := by positivity
    linarith

/-- **C226.** The periodic version is of second order everywhere. -/
theorem C226_periodic_partial {f : ℝ → ℝ} (hf : ContDiff ℝ 3 f) {a h M : ℝ} (hh : 0 < h) {n : ℕ} (hp : Function.Periodic f (n * h))
    (hM : ∀ s, |iteratedDeriv 3 f s| ≤ M) :
    ∃ r, c2 (gridSamples f a h n) true = .ok r ∧ r.length = n ∧ ∀ j, j < n → |r.getD j 0 / h - deriv f (a + j * h)| ≤ M * h ^ 2 / 6 := by
  unfold c2
  rw [if_pos rfl, gridSamples_length]
  refine ⟨_, rfl, by simp, fun j hj => ?_⟩
  rw [List.getD_eq_getElem _ _ (by simpa using hj)]
  simp only [List.getElem_map, List.getElem_range, gridRolled hp hj]
  refine le_trans (le_of_eq ?_) (stencil2_mid hf ordConnected_univ (fun s _ => hM s) hh (x := a + j * h) (mem_univ _) (mem_univ _))
  congr 3
  push_cast
  ring_nf

/-- **C226 (refutation).** The sine over a unit interval, as in `test_diff_c2_np` but starting at 1 instead of 0. -/
theorem C226_fails : ¬ C2SecondOrder Real.sin 1 1 := by
  rw [C226_iff Real.contDiff_sin one_pos]
  intro h
  have e : iteratedDeriv 2 Real.sin 1 = -Real.sin 1 := by
    rw [iteratedDeriv_succ, iteratedDeriv_one, Real.deriv_sin, Real.deriv_cos]
  rw [e] at h
  have : 0 < Real.sin 1 := Real.sin_pos_of_pos_of_lt_pi one_pos (by linarith [Real.two_le_pi])
  linarith [h.1]

/-- The sine over its period, as in `test_diff_c4_per`, for any number of points. -/
example (n : ℕ) (hn : 0 < n) : ∃ r, c4 (gridSamples Real.sin 0 (2 * Real.pi / n) n) true = .ok r ∧ r.length = n ∧
    ∀ j, j < n → |r.getD j 0 / (2 * Real.pi / n) - Real.cos (j * (2 * Real.pi / n))| ≤ (2 * Real.pi / n) ^ 4 / 18 := by
  have hn' : (0 : ℝ) < n := by exact_mod_cast hn
  have hpi := Real.pi_pos
  obtain ⟨r, h1, h2, h3⟩ := C225_periodic (a := 0) (h := 2 * Real.pi / n) Real.contDiff_sin (by positivity)
    (by rw [mul_div_cancel₀ _ hn'.ne']; exact Real.sin_periodic) (fun s => Real.abs_iteratedDeriv_sin_le_one 5 s)
  refine ⟨r, h1, h2, fun j hj => ?_⟩
  have := h3 j hj
  rwa [zero_add, Real.deriv_sin, one_mul] at this

/-- The sine over an interval of any length, for any number of points. -/
example (a h : ℝ) (hh : 0 < h) (n : ℕ) (hn : 5 ≤ n) : ∃ r, c4 (gridSamples Real.sin a h n) false = .ok r ∧
    ∀ j, j < n → |r.getD j 0 / h - Real.cos (a + j * h)| ≤ 17 / 3 * h ^ 4 := by
  obtain ⟨r, h1, _, h3⟩ := C225_open Real.contDiff_sin hh hn (a := a) (M := 1) fun s _ => Real.abs_iteratedDeriv_sin_le_one 5 s
  refine ⟨r, h1, fun j hj => ?_⟩
  have := (h3 j hj).1
  rwa [Real.deriv_sin, one_mul] at this

/-- From 0 to π the second derivative of the sine vanishes at both ends. -/
example : C2SecondOrder Real.sin 0 Real.pi := by
  rw [C226_iff Real.contDiff_sin Real.pi_pos]
  have e : iteratedDeriv 2 Real.sin = fun x => -Real.sin x := by
    funext x
    rw [iteratedDeriv_succ, iteratedDeriv_one, Real.deriv_sin, Real.deriv_cos]
  simp [e]

/-! ## C227 -/

/-- The claim: the type in which the samples are stored does not matter. -/
def IntAsFloat (diff : List ℚ → Bool → Except Err (List ℚ)) (diffInt : List ℤ → Bool → Except Err (List ℚ)) (periodic : Bool) (f : List ℤ) : Prop :=
  diffInt f periodic = diff (f.map fun k : ℤ => (k : ℚ)) periodic

/-- **C227.** It does not for periodic directions. -/
theorem C227_periodic_partial (f : List ℤ) : IntAsFloat c2 c2Int true f ∧ IntAsFloat c4 c4Int true f := ⟨rfl, rfl⟩

theorem pyInt_int {x : ℚ} : ((pyInt x : ℤ) : ℚ) = x ↔ ∃ k : ℤ, x = k := by
  constructor
  · intro h
    exact ⟨_, h.symm⟩
  · rintro ⟨k, rfl⟩
    unfold pyInt
    split_ifs <;> simp

/-- **C227.** Without `periodic`, `c2` works for no array of integers with three points or more, and `c4` is right exactly if all results are whole. -/
theorem C227_iff (f : List ℤ) : (IntAsFloat c2 c2Int false f ↔ f.length < 3) ∧
    (IntAsFloat c4 c4Int false f ↔ ∀ r, c4 (f.map fun k : ℤ => (k : ℚ)) false = .ok r → ∀ x ∈ r, ∃ k : ℤ, x = k) := by
  constructor
  · unfold IntAsFloat c2Int c2
    simp only [Bool.false_eq_true, if_false, List.length_map]
    by_cases h : f.length < 3 <;> simp [h]
  · unfold IntAsFloat c4Int
    rw [if_neg (by simp)]
    cases hc : c4 (f.map fun k : ℤ => (k : ℚ)) false with
    | error e => simp [Except.map]
    | ok r =>
      simp only [Except.map, Except.ok.injEq, forall_eq']
      constructor
      · intro h x hx
        have h2 : ∀ l : List ℚ, l.map (fun x => ((pyInt x : ℤ) : ℚ)) = l → ∀ x ∈ l, ((pyInt x : ℤ) : ℚ) = x := by
          intro l
          induction l with
          | nil => simp
          | cons y t ih =>
            intro h
            simp only [List.map_cons, List.cons.injEq] at h
            intro x hx
            rcases List.mem_cons.1 hx with rfl | hx
            · exact h.1
            · exact ih h.2 x hx
        exact pyInt_int.1 (h2 r h x hx)
      · intro h
        conv_rhs => rw [← List.map_id r]
        exact List.map_congr_left fun x hx => pyInt_int.2 (h x hx)

/-- **C227 (refutation).** The squares: the derivative at the first point is 0, but with a fifth point that is one too large the true value -1/4 becomes 0. -/
theorem C227_fails : ¬ IntAsFloat c2 c2Int false [0, 1, 4, 9, 16] ∧ ¬ IntAsFloat c4 c4Int false [0, 1, 4, 9, 17] ∧ IntAsFloat c4 c4Int false [0, 1, 4, 9, 16] := by
  refine ⟨?_, ?_, ?_⟩
  · rw [(C227_iff _).1]
    simp
  · rw [(C227_iff _).2]
    intro h
    obtain ⟨k, hk⟩ := h _ rfl (-1 / 4) (by simp [at', List.range_succ]; norm_num)
    have h4 : (4 * k : ℚ) = -1 := by rw [← hk]; norm_num
    have h5 : 4 * k = -1 := by exact_mod_cast h4
    omega
  · unfold IntAsFloat c4Int
    rw [if_neg (by simp)]
    simp [c4, at', List.range_succ, Except.map, pyInt]
    norm_num

end Zoidberg
