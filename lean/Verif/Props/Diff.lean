import Verif.Model.Diff
import Mathlib.Algebra.Order.Field.Basic
import Mathlib.Algebra.Polynomial.Derivative
import Mathlib.Algebra.Polynomial.Eval.Degree
import Mathlib.Algebra.BigOperators.Intervals
import Mathlib.Algebra.BigOperators.Field
import Mathlib.Tactic.Linarith
import Mathlib.Tactic.FieldSimp
import Mathlib.Tactic.LinearCombination
import Mathlib.Tactic.IntervalCases
import Mathlib.Data.List.Rotate
import Mathlib.Data.List.GetD

/-!
# C64, C65, C66: finite differences
-/

set_option linter.unusedSectionVars false

namespace Zoidberg

open Polynomial

variable {K : Type} [Field K] [LinearOrder K] [IsStrictOrderedRing K]

/-- The values of a polynomial at 0, 1, .., n-1. -/
noncomputable def diffSamples (p : K[X]) (n : ℕ) : List K := (List.range n).map fun i : ℕ => p.eval (i : K)

theorem samples_length (p : K[X]) (n : ℕ) : (diffSamples p n).length = n := by simp [diffSamples]

theorem samples_getD (p : K[X]) {n i : ℕ} (h : i < n) : (diffSamples p n).getD i 0 = p.eval (i : K) := by
  rw [List.getD_eq_getElem _ _ (by rw [samples_length]; exact h)]
  simp [diffSamples]

theorem at_nat (p : K[X]) {n i : ℕ} (h : i < n) : at' (diffSamples p n) (i : ℤ) = p.eval (i : K) := by
  unfold at'
  rw [if_neg (by omega), Int.toNat_natCast, samples_getD p h]

theorem at_neg (p : K[X]) {n m k : ℕ} (hk : 0 < k) (h : n = m + k) : at' (diffSamples p n) (-(k : ℤ)) = p.eval (m : K) := by
  unfold at'
  rw [if_pos (by omega), samples_length]
  have : ((n : ℤ) + -(k : ℤ)).toNat = m := by omega
  rw [this, samples_getD p (by omega)]

theorem rolled_mid (p : K[X]) {n j : ℕ} {i : ℤ} {t : ℕ} (h : (j : ℤ) + i = t) (ht : t < n) :
    rolled (diffSamples p n) i j = p.eval (t : K) := by
  unfold rolled
  rw [samples_length, h]
  have : ((t : ℤ) % (n : ℤ)).toNat = t := by
    rw [Int.emod_eq_of_lt (by omega) (by omega)]; rfl
  rw [this, samples_getD p ht]

/-- The value and the derivative of a quartic. -/
theorem quartic_eval {p : K[X]} (h : p.natDegree ≤ 4) (x : K) :
    p.eval x = p.coeff 0 + p.coeff 1 * x + p.coeff 2 * x ^ 2 + p.coeff 3 * x ^ 3 + p.coeff 4 * x ^ 4 := by
  rw [eval_eq_sum_range' (n := 5) (by omega)]
  simp [Finset.sum_range_succ]

theorem quartic_deriv {p : K[X]} (h : p.natDegree ≤ 4) (x : K) :
    p.derivative.eval x = p.coeff 1 + 2 * p.coeff 2 * x + 3 * p.coeff 3 * x ^ 2 + 4 * p.coeff 4 * x ^ 3 := by
  have hd : p.derivative.natDegree < 4 := by
    rcases Nat.eq_zero_or_pos p.natDegree with h0 | h0
    · have := natDegree_derivative_le p; omega
    · exact (natDegree_derivative_lt (by omega)).trans_le h
  rw [eval_eq_sum_range' (n := 4) hd]
  simp [Finset.sum_range_succ, coeff_derivative]
  ring

/-! ## C64 -/

/-- **C64.** `c4` is exact for quartics at every point. -/
theorem C64_open (p : K[X]) (hp : p.natDegree ≤ 4) (n : ℕ) (hn : 5 ≤ n) :
    c4 (diffSamples p n) false = .ok (diffSamples p.derivative n) := by
  obtain ⟨m, rfl⟩ : ∃ m, n = m + 5 := ⟨n - 5, by omega⟩
  unfold c4
  rw [if_neg (by simp), if_neg (by rw [samples_length]; omega)]
  congr 1
  rw [samples_length]
  change _ = (List.range (m + 5)).map fun i : ℕ => p.derivative.eval (i : K)
  apply List.map_congr_left
  intro j hj
  have hj' := List.mem_range.1 hj
  have n1 : at' (diffSamples p (m + 5)) (-1) = p.eval ((m + 4 : ℕ) : K) := at_neg p (k := 1) (by omega) (by omega)
  have n2 : at' (diffSamples p (m + 5)) (-2) = p.eval ((m + 3 : ℕ) : K) := at_neg p (k := 2) (by omega) (by omega)
  have n3 : at' (diffSamples p (m + 5)) (-3) = p.eval ((m + 2 : ℕ) : K) := at_neg p (k := 3) (by omega) (by omega)
  have n4 : at' (diffSamples p (m + 5)) (-4) = p.eval ((m + 1 : ℕ) : K) := at_neg p (k := 4) (by omega) (by omega)
  have n5 : at' (diffSamples p (m + 5)) (-5) = p.eval ((m : ℕ) : K) := at_neg p (k := 5) (by omega) (by omega)
  have p0 : at' (diffSamples p (m + 5)) 0 = p.eval ((0 : ℕ) : K) := at_nat p (i := 0) (by omega)
  have p1 : at' (diffSamples p (m + 5)) 1 = p.eval ((1 : ℕ) : K) := at_nat p (i := 1) (by omega)
  have p2 : at' (diffSamples p (m + 5)) 2 = p.eval ((2 : ℕ) : K) := at_nat p (i := 2) (by omega)
  have p3 : at' (diffSamples p (m + 5)) 3 = p.eval ((3 : ℕ) : K) := at_nat p (i := 3) (by omega)
  have p4 : at' (diffSamples p (m + 5)) 4 = p.eval ((4 : ℕ) : K) := at_nat p (i := 4) (by omega)
  split_ifs with h1 h2 h3 h4
  · have : j = m + 4 := by omega
    subst this
    simp only [n1, n2, n3, n4, n5, quartic_eval hp, quartic_deriv hp]
    push_cast
    ring
  · have : j = m + 3 := by omega
    subst this
    simp only [n1, n2, n3, n4, n5, quartic_eval hp, quartic_deriv hp]
    push_cast
    ring
  · subst h3
    simp only [p0, p1, p2, p3, p4, quartic_eval hp, quartic_deriv hp]
    push_cast
    ring
  · subst h4
    simp only [p0, p1, p2, p3, p4, quartic_eval hp, quartic_deriv hp]
    push_cast
    ring
  · obtain ⟨k, rfl⟩ : ∃ k, j = k + 2 := ⟨j - 2, by omega⟩
    have q1 : at' (diffSamples p (m + 5)) (((k + 2 : ℕ) : ℤ) + 2) = p.eval ((k + 4 : ℕ) : K) := by
      rw [← at_nat p (n := m + 5) (by omega)]; push_cast; ring_nf
    have q2 : at' (diffSamples p (m + 5)) (((k + 2 : ℕ) : ℤ) + 1) = p.eval ((k + 3 : ℕ) : K) := by
      rw [← at_nat p (n := m + 5) (by omega)]; push_cast; ring_nf
    have q3 : at' (diffSamples p (m + 5)) (((k + 2 : ℕ) : ℤ) - 1) = p.eval ((k + 1 : ℕ) : K) := by
      rw [← at_nat p (n := m + 5) (by omega)]; push_cast; ring_nf
    have q4 : at' (diffSamples p (m + 5)) (((k + 2 : ℕ) : ℤ) - 2) = p.eval ((k : ℕ) : K) := by
      rw [← at_nat p (n := m + 5) (by omega)]; push_cast; ring_nf
    simp only [q1, q2, q3, q4, quartic_eval hp, quartic_deriv hp]
    push_cast
    ring

/-- **C64.** The periodic version is exact at every point where the stencil does not wrap. -/
theorem C64_periodic (p : K[X]) (hp : p.natDegree ≤ 4) (n : ℕ) (r : List K) (h : c4 (diffSamples p n) true = .ok r) :
    r.length = n ∧ ∀ j, 2 ≤ j → j + 2 < n → r.getD j 0 = p.derivative.eval (j : K) := by
  unfold c4 at h
  rw [if_pos rfl, samples_length] at h
  injection h with h
  subst h
  refine ⟨by simp, fun j hj hn => ?_⟩
  obtain ⟨k, rfl⟩ : ∃ k, j = k + 2 := ⟨j - 2, by omega⟩
  rw [List.getD_eq_getElem _ _ (by simp; omega)]
  simp only [List.getElem_map, List.getElem_range]
  rw [rolled_mid p (t := k + 4) (by push_cast; ring) (by omega), rolled_mid p (t := k + 3) (by push_cast; ring) (by omega),
    rolled_mid p (t := k + 1) (by push_cast; ring) (by omega), rolled_mid p (t := k) (by push_cast; ring) (by omega)]
  simp only [quartic_eval hp, quartic_deriv hp]
  push_cast
  ring

/-- **C64.** Fewer than five points are an `IndexError`. -/
theorem C64_short (f : List K) (h : f.length < 5) : c4 f false = .error (.index "index 4 is out of bounds") := by
  unfold c4
  rw [if_neg (by simp), if_pos h]

/-- The fourth power at six points. -/
example : (c4 [(0 : ℚ), 1, 16, 81, 256, 625] false).toOption = some [0, 4, 32, 108, 256, 500] := by decide +kernel

/-! ## C65 -/

theorem quad_deg {p : K[X]} (h : p.natDegree ≤ 2) : p.natDegree ≤ 4 ∧ p.coeff 3 = 0 ∧ p.coeff 4 = 0 :=
  ⟨by omega, coeff_eq_zero_of_natDegree_lt (by omega), coeff_eq_zero_of_natDegree_lt (by omega)⟩

/-- **C65**, the claim: `c2` is exact for quadratics at every point. -/
def C2Exact (p : K[X]) (n : ℕ) : Prop := c2 (diffSamples p n) false = .ok (diffSamples p.derivative n)

/-- **C65.** `c2` gives the derivative in the interior, and at the two ends the derivative of the
neighbouring point. -/
theorem C65_values_partial (p : K[X]) (hp : p.natDegree ≤ 2) (n : ℕ) (hn : 3 ≤ n) :
    c2 (diffSamples p n) false =
      .ok ((List.range n).map fun j => p.derivative.eval ((if j = n - 1 then n - 2 else if j = 0 then 1 else j : ℕ) : K)) := by
  obtain ⟨m, rfl⟩ : ∃ m, n = m + 3 := ⟨n - 3, by omega⟩
  obtain ⟨hd, h3, h4⟩ := quad_deg hp
  unfold c2
  rw [if_neg (by simp), if_neg (by rw [samples_length]; omega)]
  congr 1
  rw [samples_length]
  apply List.map_congr_left
  intro j hj
  have hj' := List.mem_range.1 hj
  have n1 : at' (diffSamples p (m + 3)) (-1) = p.eval ((m + 2 : ℕ) : K) := at_neg p (k := 1) (by omega) (by omega)
  have n3 : at' (diffSamples p (m + 3)) (-3) = p.eval ((m : ℕ) : K) := at_neg p (k := 3) (by omega) (by omega)
  have p0 : at' (diffSamples p (m + 3)) 0 = p.eval ((0 : ℕ) : K) := at_nat p (i := 0) (by omega)
  have p2 : at' (diffSamples p (m + 3)) 2 = p.eval ((2 : ℕ) : K) := at_nat p (i := 2) (by omega)
  split_ifs with h1 h2
  · have e : m + 3 - 2 = m + 1 := by omega
    rw [e]
    simp only [n1, n3, quartic_eval hd, quartic_deriv hd, h3, h4]
    push_cast
    ring
  · simp only [p0, p2, quartic_eval hd, quartic_deriv hd, h3, h4]
    push_cast
    ring
  · obtain ⟨k, rfl⟩ : ∃ k, j = k + 1 := ⟨j - 1, by omega⟩
    have q2 : at' (diffSamples p (m + 3)) (((k + 1 : ℕ) : ℤ) + 1) = p.eval ((k + 2 : ℕ) : K) := by
      rw [← at_nat p (n := m + 3) (by omega)]; push_cast; ring_nf
    have q3 : at' (diffSamples p (m + 3)) (((k + 1 : ℕ) : ℤ) - 1) = p.eval ((k : ℕ) : K) := by
      rw [← at_nat p (n := m + 3) (by omega)]; push_cast; ring_nf
    simp only [q2, q3, quartic_eval hd, quartic_deriv hd, h3, h4]
    push_cast
    ring

/-- **C65** for affine functions. -/
theorem C65_affine_partial (p : K[X]) (hp : p.natDegree ≤ 1) (n : ℕ) (hn : 3 ≤ n) : C2Exact p n := by
  unfold C2Exact
  rw [C65_values_partial p (by omega) n hn]
  congr 1
  unfold diffSamples
  apply List.map_congr_left
  intro j _
  have h2 : p.coeff 2 = 0 := coeff_eq_zero_of_natDegree_lt (by omega)
  obtain ⟨hd, h3, h4⟩ := quad_deg (p := p) (by omega)
  simp only [quartic_deriv hd, h2, h3, h4]
  ring

/-- **C65** is false for every proper quadratic, for every number of points. -/
theorem C65_fails (p : K[X]) (hp : p.natDegree = 2) (n : ℕ) (hn : 3 ≤ n) : ¬ C2Exact p n := by
  intro h
  unfold C2Exact at h
  rw [C65_values_partial p hp.le n hn] at h
  injection h with h
  have h0 := congrArg (fun l => l.getD 0 0) h
  rw [samples_getD _ (by omega), List.getD_eq_getElem _ _ (by simp; omega)] at h0
  obtain ⟨hd, h3, h4⟩ := quad_deg hp.le
  simp only [List.getElem_map, List.getElem_range] at h0
  rw [if_neg (by omega), if_pos trivial] at h0
  simp only [quartic_deriv hd, h3, h4] at h0
  push_cast at h0
  have : p.coeff 2 = 0 := by linear_combination h0 / 2
  have hne : p.leadingCoeff ≠ 0 := leadingCoeff_ne_zero.2 (by rintro rfl; simp at hp)
  rw [leadingCoeff, hp] at hne
  exact hne this

/-- **C65.** Fewer than three points are an `IndexError`. -/
theorem C65_short (f : List K) (h : f.length < 3) : c2 f false = .error (.index "index 2 is out of bounds") := by
  unfold c2
  rw [if_neg (by simp), if_pos h]

/-- Squares: the derivative would be 0, 2, 4, 6, 8. -/
example : (c2 [(0 : ℚ), 1, 4, 9, 16] false).toOption = some [2, 2, 4, 6, 6] := by decide +kernel

/-! ## C66 -/

/-- The value at an index modulo the length. -/
theorem rolled_eq (f : List K) (i : ℤ) (j : ℕ) : rolled f i j = (fun z : ℤ => f.getD (z % (f.length : ℤ)).toNat 0) (j + i) := rfl

theorem shift_sum (G : ℤ → K) (n : ℕ) (hG : ∀ z, G (z + n) = G z) (i : ℤ) :
    ∑ j ∈ Finset.range n, G ((j : ℤ) + i) = ∑ j ∈ Finset.range n, G (j : ℤ) := by
  have step : ∀ i : ℤ, ∑ j ∈ Finset.range n, G ((j : ℤ) + (i + 1)) = ∑ j ∈ Finset.range n, G ((j : ℤ) + i) := by
    intro i
    have h1 := Finset.sum_range_succ' (fun j : ℕ => G ((j : ℤ) + i)) n
    have h2 := Finset.sum_range_succ (fun j : ℕ => G ((j : ℤ) + i)) n
    have h3 : G ((n : ℤ) + i) = G (((0 : ℕ) : ℤ) + i) := by
      rw [add_comm, hG]; simp
    rw [h3] at h2
    rw [h2] at h1
    have h4 : ∀ j ∈ Finset.range n, G ((j : ℤ) + (i + 1)) = G (((j + 1 : ℕ) : ℤ) + i) := by
      intro j _; congr 1; push_cast; ring
    rw [Finset.sum_congr rfl h4]
    linear_combination -h1
  induction i with
  | zero => simp
  | succ i ih => rw [step, ih]
  | pred i ih =>
    have := step (-(i : ℤ) - 1)
    rw [sub_add_cancel] at this
    rw [← this, ih]

theorem sum_rolled (f : List K) (i : ℤ) : ∑ j ∈ Finset.range f.length, rolled f i j = ∑ j ∈ Finset.range f.length, f.getD j 0 := by
  have h := shift_sum (fun z : ℤ => f.getD (z % (f.length : ℤ)).toNat 0) f.length (fun z => by simp) i
  refine h.trans (Finset.sum_congr rfl fun j hj => ?_)
  have hj' := Finset.mem_range.1 hj
  rw [Int.emod_eq_of_lt (by omega) (by omega), Int.toNat_natCast]

theorem list_sum_range (g : ℕ → K) (n : ℕ) : ((List.range n).map g).sum = ∑ j ∈ Finset.range n, g j := by
  induction n with
  | zero => simp
  | succ n ih => rw [List.range_succ, List.map_append, List.sum_append, ih, Finset.sum_range_succ]; simp

/-- **C66.** The periodic differences of any array sum to zero. -/
theorem C66_sum (f r : List K) (h : c2 f true = .ok r ∨ c4 f true = .ok r) : r.sum = 0 := by
  rcases h with h | h
  · unfold c2 at h
    rw [if_pos rfl] at h
    injection h with h
    rw [← h, list_sum_range, ← Finset.sum_div, Finset.sum_sub_distrib, sum_rolled, sum_rolled]
    simp
  · unfold c4 at h
    rw [if_pos rfl] at h
    injection h with h
    rw [← h, list_sum_range, ← Finset.sum_div, Finset.sum_add_distrib, Finset.sum_sub_distrib, Finset.sum_add_distrib,
      Finset.sum_neg_distrib, ← Finset.mul_sum, ← Finset.mul_sum, sum_rolled, sum_rolled, sum_rolled, sum_rolled]
    ring

theorem rolled_rotate (f : List K) (k : ℕ) (i : ℤ) (j : ℕ) (hj : j < f.length) :
    rolled (f.rotate k) i j = rolled f i ((j + k) % f.length) := by
  have hn : (0 : ℤ) < f.length := by omega
  unfold rolled
  rw [List.length_rotate, List.getD_eq_getElem?_getD, List.getD_eq_getElem?_getD]
  congr 1
  have h1 := Int.emod_nonneg ((j : ℤ) + i) hn.ne'
  have h2 := Int.emod_lt_of_pos ((j : ℤ) + i) hn
  rw [List.getElem?_rotate (by omega)]
  congr 1
  apply Int.natCast_inj.1
  have h3 := Int.emod_nonneg ((((j + k) % f.length : ℕ) : ℤ) + i) hn.ne'
  push_cast
  rw [Int.toNat_of_nonneg h1, Int.toNat_of_nonneg (by push_cast at h3; exact h3)]
  simp only [Int.emod_add_emod, Int.emod_add_emod]
  ring_nf

/-- **C66.** The periodic differences commute with rotations of the array. -/
theorem C66_rotate (f : List K) (k : ℕ) :
    c2 (f.rotate k) true = (c2 f true).map (fun r => r.rotate k) ∧
      c4 (f.rotate k) true = (c4 f true).map (fun r => r.rotate k) := by
  have key : ∀ g : (ℤ → K) → K,
      ((List.range (f.rotate k).length).map fun j => g fun i => rolled (f.rotate k) i j) =
        ((List.range f.length).map fun j => g fun i => rolled f i j).rotate k := by
    intro g
    apply List.ext_getElem
    · simp
    · intro j h1 h2
      have hj : j < f.length := by simpa using h1
      rw [List.getElem_rotate]
      simp only [List.getElem_map, List.getElem_range, List.length_map, List.length_range]
      congr 1
      funext i
      rw [rolled_rotate f k i j hj]
  constructor
  · unfold c2
    rw [if_pos rfl, if_pos rfl, Except.map]
    congr 1
    exact key fun v => (v 1 - v (-1)) / 2
  · unfold c4
    rw [if_pos rfl, if_pos rfl, Except.map]
    congr 1
    exact key fun v => (-v 2 + 8 * v 1 - 8 * v (-1) + v (-2)) / 12

example : (c4 [(0 : ℚ), 1, 4, 9, 16, 7] true).toOption = some [-3, 5 / 2, 4, 15 / 2, -1, -10] := by decide +kernel

end Zoidberg
