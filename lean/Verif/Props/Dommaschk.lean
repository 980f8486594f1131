import Verif.Model.Dommaschk
import Verif.Props.Field
import Mathlib.Analysis.Calculus.Deriv.ZPow
import Mathlib.Analysis.SpecialFunctions.Log.Deriv
import Mathlib.Analysis.SpecialFunctions.Trigonometric.Deriv
import Mathlib.Algebra.BigOperators.Intervals
import Mathlib.Tactic.FieldSimp
import Mathlib.Tactic.LinearCombination

/-!
# C150-C153: Dommaschk potentials
-/

set_option linter.unusedSectionVars false

namespace Zoidberg

open Real Finset

/-! ### The coefficients -/

theorem dmAlpha_nat (n m : ℕ) : dmAlpha n m = (-1) ^ n / (((m + n).factorial : ℝ) * (n.factorial : ℝ) * 2 ^ (2 * n + m)) := by
  unfold dmAlpha
  rw [if_pos (by positivity)]
  have h1 : ((m : ℝ) + ((n : ℤ) : ℝ) + 1) = ((m + n : ℕ) : ℝ) + 1 := by push_cast; ring
  have h2 : (((n : ℤ) : ℝ) + 1) = (n : ℝ) + 1 := by push_cast; ring
  rw [h1, h2, Gamma_nat_eq_factorial, Gamma_nat_eq_factorial]
  have h3 : (2 * (n : ℤ) + (m : ℤ)) = ((2 * n + m : ℕ) : ℤ) := by push_cast; ring
  rw [h3, zpow_natCast, zpow_natCast]

theorem dmAlpha_neg (n : ℤ) (m : ℕ) (h : n < 0) : dmAlpha n m = 0 := by
  unfold dmAlpha
  rw [if_neg (by omega)]

theorem dmDelta_neg (n : ℤ) (m : ℕ) (h : n ≤ 0) : dmDelta n m = 0 := by
  unfold dmDelta
  rw [if_neg (by omega)]

theorem dmBeta_big (n : ℤ) (m : ℕ) (h : (m : ℤ) ≤ n) : dmBeta n m = 0 := by
  unfold dmBeta
  rw [if_neg (by omega)]

/-- For `n < m`. -/
theorem dmBeta_nat (n p : ℕ) : dmBeta n (n + 1 + p) = (p.factorial : ℝ) / ((n.factorial : ℝ) * 2 ^ ((n : ℤ) - p)) := by
  unfold dmBeta
  rw [if_pos ⟨by positivity, by push_cast; omega⟩]
  have h1 : (((n + 1 + p : ℕ) : ℝ) - ((n : ℤ) : ℝ)) = (p : ℝ) + 1 := by push_cast; ring
  have h2 : (((n : ℤ) : ℝ) + 1) = (n : ℝ) + 1 := by push_cast; ring
  rw [h1, h2, Gamma_nat_eq_factorial, Gamma_nat_eq_factorial]
  have h3 : (2 * (n : ℤ) - ((n + 1 + p : ℕ) : ℤ) + 1) = (n : ℤ) - p := by push_cast; ring
  rw [h3]

/-- `4 n (n + m) alpha(n) = - alpha(n - 1)`. -/
theorem alpha_rec (n : ℤ) (m : ℕ) : dmAlpha n m * (4 * n * (n + m)) = -dmAlpha (n - 1) m := by
  rcases lt_trichotomy n 0 with h | h | h
  · rw [dmAlpha_neg _ _ h, dmAlpha_neg _ _ (by omega)]; simp
  · subst h; rw [dmAlpha_neg (0 - 1) _ (by omega)]; simp
  · obtain ⟨p, rfl⟩ : ∃ p : ℕ, n = ((p + 1 : ℕ) : ℤ) := ⟨(n - 1).toNat, by omega⟩
    have h1 : (((p + 1 : ℕ) : ℤ) - 1) = (p : ℤ) := by push_cast; ring
    rw [h1, dmAlpha_nat, dmAlpha_nat, ← Nat.add_assoc m p 1, Nat.factorial_succ, Nat.factorial_succ]
    have f1 : ((m + p).factorial : ℝ) ≠ 0 := by positivity
    have f2 : (p.factorial : ℝ) ≠ 0 := by positivity
    have f3 : ((m : ℝ) + p + 1) ≠ 0 := by positivity
    have f4 : ((p : ℝ) + 1) ≠ 0 := by positivity
    push_cast
    rw [show 2 * (p + 1) + m = (2 * p + m) + 2 by ring, pow_add, pow_succ (-1 : ℝ)]
    field_simp
    ring

/-- `4 n (n + m) delta(n) = - delta(n - 1) + 2 (2 n + m) alpha(n)`. -/
theorem delta_rec (n : ℤ) (m : ℕ) (h : 0 < n) : dmDelta n m * (4 * n * (n + m)) = -dmDelta (n - 1) m + 2 * (2 * n + m) * dmAlpha n m := by
  obtain ⟨p, rfl⟩ : ∃ p : ℕ, n = ((p + 1 : ℕ) : ℤ) := ⟨(n - 1).toNat, by omega⟩
  have hr := alpha_rec ((p + 1 : ℕ) : ℤ) m
  have h1 : (((p + 1 : ℕ) : ℤ) - 1) = (p : ℤ) := by push_cast; ring
  rw [h1] at hr ⊢
  have hd : ∀ q : ℕ, dmDelta q m = dmAlpha q m * (∑ i ∈ range q, (1 / ((i : ℝ) + 1) + 1 / (m + ((i : ℝ) + 1)))) / 2 := by
    intro q
    unfold dmDelta
    by_cases hq : (q : ℤ) > 0
    · rw [if_pos hq, Int.toNat_natCast]
    · rw [if_neg hq]
      have : q = 0 := by omega
      subst this
      simp
  rw [hd, hd, sum_range_succ]
  generalize (∑ i ∈ range p, (1 / ((i : ℝ) + 1) + 1 / (m + ((i : ℝ) + 1)))) = S at *
  have f3 : ((m : ℝ) + (p + 1)) ≠ 0 := by positivity
  have f4 : ((p : ℝ) + 1) ≠ 0 := by positivity
  have e : (1 / ((p : ℝ) + 1) + 1 / (m + ((p : ℝ) + 1))) * (4 * ((p : ℝ) + 1) * (m + (p + 1))) = 4 * (2 * (p + 1) + m) := by
    field_simp
    ring
  push_cast at hr ⊢
  linear_combination S / 2 * hr + dmAlpha ((p : ℤ) + 1) m / 2 * e

/-- `4 n (n - m) beta(n) = - beta(n - 1)` for `0 < n < m`. -/
theorem beta_rec (n m : ℕ) (h : 0 < n) (h2 : n < m) : dmBeta n m * (4 * n * (n - m)) = -dmBeta ((n : ℤ) - 1) m := by
  obtain ⟨p, rfl⟩ : ∃ p, n = p + 1 := ⟨n - 1, by omega⟩
  obtain ⟨q, rfl⟩ : ∃ q, m = (p + 1) + 1 + q := ⟨m - (p + 1) - 1, by omega⟩
  have h1 : (((p + 1 : ℕ) : ℤ) - 1) = (p : ℤ) := by push_cast; ring
  have h3 : (p + 1) + 1 + q = p + 1 + (q + 1) := by ring
  rw [h1, dmBeta_nat, h3, dmBeta_nat, Nat.factorial_succ, Nat.factorial_succ]
  have e1 : (2 : ℝ) ^ (((p + 1 : ℕ) : ℤ) - (q : ℤ)) = 2 ^ ((p : ℤ) - q) * 2 := by
    rw [show (((p + 1 : ℕ) : ℤ) - (q : ℤ)) = ((p : ℤ) - q) + 1 by push_cast; ring, zpow_add_one₀ (by norm_num)]
  have e2 : (2 : ℝ) ^ ((p : ℤ) - ((q + 1 : ℕ) : ℤ)) = 2 ^ ((p : ℤ) - q) / 2 := by
    rw [show ((p : ℤ) - ((q + 1 : ℕ) : ℤ)) = ((p : ℤ) - q) - 1 by push_cast; ring, zpow_sub_one₀ (by norm_num)]
    rfl
  rw [e1, e2]
  have f0 : (2 : ℝ) ^ ((p : ℤ) - q) ≠ 0 := by positivity
  have f2 : (p.factorial : ℝ) ≠ 0 := by positivity
  have f4 : ((p : ℝ) + 1) ≠ 0 := by positivity
  push_cast
  field_simp
  ring

/-- `2 m alpha(0) = beta(m - 1)`. -/
theorem alpha_beta (m : ℕ) (h : 0 < m) : 2 * m * dmAlpha 0 m = dmBeta ((m : ℤ) - 1) m := by
  obtain ⟨p, rfl⟩ : ∃ p, m = p + 1 := ⟨m - 1, by omega⟩
  have h1 : (((p + 1 : ℕ) : ℤ) - 1) = (p : ℤ) := by push_cast; ring
  have h2 := dmBeta_nat p 0
  have h3 := dmAlpha_nat 0 (p + 1)
  rw [Nat.add_zero] at h2
  rw [h1, h2]
  rw [show ((0 : ℕ) : ℤ) = 0 from rfl] at h3
  rw [h3, Nat.add_zero, Nat.factorial_succ]
  have f2 : (p.factorial : ℝ) ≠ 0 := by positivity
  have f4 : ((p : ℝ) + 1) ≠ 0 := by positivity
  rw [show (p : ℤ) - ((0 : ℕ) : ℤ) = ((p : ℕ) : ℤ) by simp, zpow_natCast]
  push_cast
  rw [show 2 * 0 + (p + 1) = p + 1 by ring, pow_succ]
  simp only [Nat.factorial, Nat.cast_one]
  field_simp

/-! ### Two families of solutions -/

/-- The constant factor of the second family. -/
noncomputable def dmC (m i : ℕ) : ℝ := dmBeta i m + dmDelta ((i : ℤ) - m) m

/-- The factor of the logarithm. -/
noncomputable def dmA (m i : ℕ) : ℝ := dmAlpha ((i : ℤ) - m) m

/-- The first family, its derivative and its second derivative. -/
noncomputable def dmu (m i : ℕ) (R : ℝ) : ℝ := dmAlpha i m * R ^ (2 * (i : ℤ) + m)
noncomputable def dmu1 (m i : ℕ) (R : ℝ) : ℝ := dmAlpha i m * (2 * i + m) * R ^ (2 * (i : ℤ) + m - 1)
noncomputable def dmu2 (m i : ℕ) (R : ℝ) : ℝ := dmAlpha i m * (2 * i + m) * (2 * i + m - 1) * R ^ (2 * (i : ℤ) + m - 1 - 1)

/-- The second family, its derivative and its second derivative. -/
noncomputable def dmv (m i : ℕ) (R : ℝ) : ℝ := (dmC m i - dmA m i * log R) * R ^ (2 * (i : ℤ) - m)
noncomputable def dmv1 (m i : ℕ) (R : ℝ) : ℝ := ((dmC m i - dmA m i * log R) * (2 * i - m) - dmA m i) * R ^ (2 * (i : ℤ) - m - 1)
noncomputable def dmv2 (m i : ℕ) (R : ℝ) : ℝ :=
  (((dmC m i - dmA m i * log R) * (2 * i - m) - dmA m i) * (2 * i - m - 1) - dmA m i * (2 * i - m)) * R ^ (2 * (i : ℤ) - m - 1 - 1)

theorem dmu_deriv (m i : ℕ) (R : ℝ) (h : 0 < R) : HasDerivAt (dmu m i) (dmu1 m i R) R := by
  refine ((hasDerivAt_zpow (2 * (i : ℤ) + m) R (Or.inl h.ne')).const_mul (dmAlpha i m)).congr_deriv ?_
  unfold dmu1; push_cast; ring

theorem dmu1_deriv (m i : ℕ) (R : ℝ) (h : 0 < R) : HasDerivAt (dmu1 m i) (dmu2 m i R) R := by
  refine ((hasDerivAt_zpow (2 * (i : ℤ) + m - 1) R (Or.inl h.ne')).const_mul (dmAlpha i m * (2 * i + m))).congr_deriv ?_
  unfold dmu2; push_cast; ring

theorem log_zpow_deriv (c a : ℝ) (e : ℤ) (R : ℝ) (h : 0 < R) :
    HasDerivAt (fun t => (c - a * log t) * t ^ e) (((c - a * log R) * e - a) * R ^ (e - 1)) R := by
  have h1 := (((hasDerivAt_log h.ne').const_mul a).const_sub c).mul (hasDerivAt_zpow e R (Or.inl h.ne'))
  refine h1.congr_deriv ?_
  rw [zpow_sub_one₀ h.ne']
  ring

theorem dmv_deriv (m i : ℕ) (R : ℝ) (h : 0 < R) : HasDerivAt (dmv m i) (dmv1 m i R) R := by
  refine (log_zpow_deriv (dmC m i) (dmA m i) (2 * (i : ℤ) - m) R h).congr_deriv ?_
  unfold dmv1; push_cast; ring

theorem dmv1_deriv (m i : ℕ) (R : ℝ) (h : 0 < R) : HasDerivAt (dmv1 m i) (dmv2 m i R) R := by
  have h1 := log_zpow_deriv (dmC m i * (2 * i - m) - dmA m i) (dmA m i * (2 * i - m)) (2 * (i : ℤ) - m - 1) R h
  have e : (fun t => (dmC m i * (2 * i - m) - dmA m i - dmA m i * (2 * i - m) * log t) * t ^ (2 * (i : ℤ) - m - 1)) = dmv1 m i := by
    funext t; unfold dmv1; ring
  rw [e] at h1
  refine h1.congr_deriv ?_
  unfold dmv2; push_cast; ring

/-- The previous member of a family. -/
def prevOf (f : ℕ → ℝ → ℝ) : ℕ → ℝ → ℝ
  | 0, _ => 0
  | i + 1, R => f i R

theorem dmu_eq (m i : ℕ) (R : ℝ) (h : 0 < R) : dmu2 m i R + dmu1 m i R / R - (m : ℝ) ^ 2 / R ^ 2 * dmu m i R = -prevOf (dmu m) i R := by
  have hr := alpha_rec i m
  have e1 : R ^ (2 * (i : ℤ) + m - 1) = R ^ (2 * (i : ℤ) + m - 1 - 1) * R := by rw [← zpow_add_one₀ h.ne']; ring_nf
  have e2 : R ^ (2 * (i : ℤ) + m) = R ^ (2 * (i : ℤ) + m - 1 - 1) * R ^ 2 := by
    rw [pow_two, ← mul_assoc, ← zpow_add_one₀ h.ne', ← zpow_add_one₀ h.ne']; ring_nf
  have h2 : dmu2 m i R + dmu1 m i R / R - (m : ℝ) ^ 2 / R ^ 2 * dmu m i R = dmAlpha i m * (4 * (i : ℤ) * ((i : ℤ) + m)) * R ^ (2 * (i : ℤ) + m - 1 - 1) := by
    unfold dmu dmu1 dmu2
    rw [e1, e2]
    have := h.ne'
    push_cast
    field_simp
    ring
  rw [h2, hr]
  cases i with
  | zero => rw [dmAlpha_neg _ _ (by simp)]; simp [prevOf]
  | succ j =>
    unfold prevOf dmu
    rw [show (((j + 1 : ℕ) : ℤ) - 1) = (j : ℤ) by push_cast; ring, show 2 * ((j + 1 : ℕ) : ℤ) + m - 1 - 1 = 2 * (j : ℤ) + m by push_cast; ring]
    ring

theorem dmC_rec (m i : ℕ) : dmC m (i + 1) * (4 * (i + 1) * (i + 1 - m)) - 2 * dmA m (i + 1) * (2 * (i + 1) - m) = -dmC m i := by
  unfold dmC dmA
  rcases lt_trichotomy (i + 1) m with h | h | h
  · have := beta_rec (i + 1) m (by omega) h
    rw [dmDelta_neg _ _ (by omega), dmDelta_neg _ _ (by omega), dmAlpha_neg _ _ (by omega)]
    rw [show (((i + 1 : ℕ) : ℤ) - 1) = (i : ℤ) by push_cast; ring] at this
    push_cast at this ⊢
    linear_combination this
  · have := alpha_beta m (by omega)
    rw [dmDelta_neg _ _ (by omega), dmDelta_neg _ _ (by omega), dmBeta_big _ _ (by omega)]
    rw [show (m : ℤ) - 1 = (i : ℤ) by omega] at this
    rw [show (((i + 1 : ℕ) : ℤ) - m) = 0 by omega, ← this, ← h]
    push_cast
    ring
  · have := delta_rec (((i + 1 : ℕ) : ℤ) - m) m (by omega)
    rw [dmBeta_big _ _ (by omega), dmBeta_big _ _ (by omega)]
    rw [show (((i + 1 : ℕ) : ℤ) - m - 1) = (i : ℤ) - m by push_cast; ring] at this
    push_cast at this ⊢
    linear_combination this

theorem dmA_rec (m i : ℕ) : dmA m (i + 1) * (4 * (i + 1) * (i + 1 - m)) = -dmA m i := by
  unfold dmA
  have := alpha_rec (((i + 1 : ℕ) : ℤ) - m) m
  rw [show (((i + 1 : ℕ) : ℤ) - m - 1) = (i : ℤ) - m by push_cast; ring] at this
  rw [← this]
  push_cast
  ring

theorem dmA_zero (m : ℕ) : dmA m 0 * m = 0 := by
  unfold dmA
  rcases Nat.eq_zero_or_pos m with h | h
  · subst h; simp
  · rw [dmAlpha_neg _ _ (by simpa using h)]; simp

theorem dmv_eq (m i : ℕ) (R : ℝ) (h : 0 < R) : dmv2 m i R + dmv1 m i R / R - (m : ℝ) ^ 2 / R ^ 2 * dmv m i R = -prevOf (dmv m) i R := by
  have e1 : R ^ (2 * (i : ℤ) - m - 1) = R ^ (2 * (i : ℤ) - m - 1 - 1) * R := by rw [← zpow_add_one₀ h.ne']; ring_nf
  have e2 : R ^ (2 * (i : ℤ) - m) = R ^ (2 * (i : ℤ) - m - 1 - 1) * R ^ 2 := by
    rw [pow_two, ← mul_assoc, ← zpow_add_one₀ h.ne', ← zpow_add_one₀ h.ne']; ring_nf
  have h2 : dmv2 m i R + dmv1 m i R / R - (m : ℝ) ^ 2 / R ^ 2 * dmv m i R =
      (dmC m i * (4 * i * (i - m)) - 2 * dmA m i * (2 * i - m) - dmA m i * (4 * i * (i - m)) * log R) * R ^ (2 * (i : ℤ) - m - 1 - 1) := by
    unfold dmv dmv1 dmv2
    rw [e1, e2]
    have := h.ne'
    field_simp
    ring
  rw [h2]
  cases i with
  | zero =>
    unfold prevOf
    have := dmA_zero m
    have e : (dmC m 0 * (4 * ((0 : ℕ) : ℝ) * (((0 : ℕ) : ℝ) - m)) - 2 * dmA m 0 * (2 * ((0 : ℕ) : ℝ) - m) - dmA m 0 * (4 * ((0 : ℕ) : ℝ) * (((0 : ℕ) : ℝ) - m)) * log R) = 0 := by
      push_cast
      linear_combination 2 * this
    rw [e]; simp
  | succ j =>
    unfold prevOf dmv
    have h3 := dmC_rec m j
    have h4 := dmA_rec m j
    rw [show 2 * ((j + 1 : ℕ) : ℤ) - m - 1 - 1 = 2 * (j : ℤ) - m by push_cast; ring]
    push_cast
    rw [h3, h4]
    ring

/-! ### CD and CN from the families -/

/-- Sums in which the index is moved by `m`. -/
theorem moved_sum (f g : ℕ → ℝ) (m k : ℕ) (hf : ∀ j, k < m + j → f j = 0) (hg : ∀ i, i < m → g i = 0) (h : ∀ j, g (m + j) = f j) :
    ∑ j ∈ range (k + 1), f j = ∑ i ∈ range (k + 1), g i := by
  rcases lt_or_ge k m with hk | hk
  · rw [sum_eq_zero fun j _ => hf j (by omega), sum_eq_zero fun i hi => hg i (by simp at hi; omega)]
  · obtain ⟨p, rfl⟩ : ∃ p, k = m + p := ⟨k - m, by omega⟩
    rw [show m + p + 1 = m + (p + 1) by ring, sum_range_add g m (p + 1), sum_eq_zero fun i hi => hg i (by simpa using hi), zero_add]
    rw [show m + (p + 1) = (p + 1) + m by ring, sum_range_add f (p + 1) m, sum_eq_zero (s := range m) fun j _ => hf _ (by omega), add_zero]
    exact sum_congr rfl fun j _ => (h j).symm

/-- The common form of `CD` and `CN`. -/
noncomputable def dmG (m : ℕ) (p q : ℕ → ℝ) (k : ℕ) (R : ℝ) : ℝ := ∑ j ∈ range (k + 1), (dmu m j R * q (k - j) - dmv m j R * p (k - j))

theorem dmCN_eq (m k : ℕ) (R : ℝ) (_ : 0 < R) : dmCN m k R = dmG m (fun i => dmu m i 1) (fun i => dmv m i 1) k R := by
  have key := moved_sum (fun j => (dmAlpha j m * log R - dmDelta j m) * dmAlpha ((k : ℤ) - m - j) m * R ^ (2 * (j : ℤ) + m))
    (fun i => (dmA m i * log R - dmDelta ((i : ℤ) - m) m) * dmAlpha ((k : ℤ) - i) m * R ^ (2 * (i : ℤ) - m)) m k
    (fun j hj => by rw [dmAlpha_neg ((k : ℤ) - m - j) _ (by omega)]; ring)
    (fun i hi => by unfold dmA; rw [dmAlpha_neg ((i : ℤ) - m) _ (by omega), dmDelta_neg _ _ (by omega)]; ring)
    (fun j => by
      unfold dmA
      rw [show ((m + j : ℕ) : ℤ) - m = j by push_cast; ring, show (k : ℤ) - ((m + j : ℕ) : ℤ) = (k : ℤ) - m - j by push_cast; ring,
        show 2 * ((m + j : ℕ) : ℤ) - m = 2 * (j : ℤ) + m by push_cast; ring])
  unfold dmCN dmG
  rw [← sub_eq_zero, ← sum_sub_distrib]
  rw [← sub_eq_zero, ← sum_sub_distrib] at key
  rw [← key]
  refine sum_congr rfl fun j hj => ?_
  have hj2 : ((k - j : ℕ) : ℤ) = (k : ℤ) - j := by simp at hj; omega
  unfold dmu dmv dmC dmA
  dsimp only
  rw [hj2, log_one, one_zpow, one_zpow, show (k : ℤ) - j - m = (k : ℤ) - m - j by ring]
  ring

theorem dmCD_eq (m k : ℕ) (R : ℝ) (_ : 0 < R) : dmCD m k R = -dmG m (fun i => dmu1 m i 1) (fun i => dmv1 m i 1) k R := by
  have key := moved_sum (fun j => (dmAlpha j m * log R - dmDelta j m) * dmAlphaSt ((k : ℤ) - m - j) m * R ^ (2 * (j : ℤ) + m))
    (fun i => (dmA m i * log R - dmDelta ((i : ℤ) - m) m) * dmAlphaSt ((k : ℤ) - i) m * R ^ (2 * (i : ℤ) - m)) m k
    (fun j hj => by unfold dmAlphaSt; rw [dmAlpha_neg ((k : ℤ) - m - j) _ (by omega)]; ring)
    (fun i hi => by unfold dmA; rw [dmAlpha_neg ((i : ℤ) - m) _ (by omega), dmDelta_neg _ _ (by omega)]; ring)
    (fun j => by
      unfold dmA
      rw [show ((m + j : ℕ) : ℤ) - m = j by push_cast; ring, show (k : ℤ) - ((m + j : ℕ) : ℤ) = (k : ℤ) - m - j by push_cast; ring,
        show 2 * ((m + j : ℕ) : ℤ) - m = 2 * (j : ℤ) + m by push_cast; ring])
  unfold dmCD dmG
  rw [eq_neg_iff_add_eq_zero, ← sum_add_distrib]
  rw [← sub_eq_zero, ← sum_sub_distrib, ← neg_eq_zero, ← sum_neg_distrib] at key
  rw [← key]
  refine sum_congr rfl fun j hj => ?_
  have hj2 : ((k - j : ℕ) : ℤ) = (k : ℤ) - j := by simp at hj; omega
  have hj3 : ((k - j : ℕ) : ℝ) = (k : ℝ) - j := by
    rw [Nat.cast_sub]; simp at hj; omega
  unfold dmu dmv dmu1 dmv1 dmC dmA dmDeltaSt dmBetaSt dmAlphaSt
  dsimp only
  rw [hj2, hj3, log_one, one_zpow, one_zpow, show (k : ℤ) - j - m = (k : ℤ) - m - j by ring]
  push_cast
  ring

/-! ### Derivatives and equation of the common form -/

noncomputable def dmG1 (m : ℕ) (p q : ℕ → ℝ) (k : ℕ) (R : ℝ) : ℝ := ∑ j ∈ range (k + 1), (dmu1 m j R * q (k - j) - dmv1 m j R * p (k - j))
noncomputable def dmG2 (m : ℕ) (p q : ℕ → ℝ) (k : ℕ) (R : ℝ) : ℝ := ∑ j ∈ range (k + 1), (dmu2 m j R * q (k - j) - dmv2 m j R * p (k - j))

theorem dmG_deriv (m : ℕ) (p q : ℕ → ℝ) (k : ℕ) (R : ℝ) (h : 0 < R) : HasDerivAt (dmG m p q k) (dmG1 m p q k R) R := by
  unfold dmG dmG1
  exact HasDerivAt.fun_sum fun j _ => ((dmu_deriv m j R h).mul_const _).sub ((dmv_deriv m j R h).mul_const _)

theorem dmG1_deriv (m : ℕ) (p q : ℕ → ℝ) (k : ℕ) (R : ℝ) (h : 0 < R) : HasDerivAt (dmG1 m p q k) (dmG2 m p q k R) R := by
  unfold dmG1 dmG2
  exact HasDerivAt.fun_sum fun j _ => ((dmu1_deriv m j R h).mul_const _).sub ((dmv1_deriv m j R h).mul_const _)

theorem dmG_eq (m : ℕ) (p q : ℕ → ℝ) (k : ℕ) (R : ℝ) (h : 0 < R) :
    dmG2 m p q k R + dmG1 m p q k R / R - (m : ℝ) ^ 2 / R ^ 2 * dmG m p q k R = -prevOf (dmG m p q) k R := by
  have h1 : dmG2 m p q k R + dmG1 m p q k R / R - (m : ℝ) ^ 2 / R ^ 2 * dmG m p q k R =
      ∑ j ∈ range (k + 1), (-prevOf (dmu m) j R * q (k - j) + prevOf (dmv m) j R * p (k - j)) := by
    unfold dmG2 dmG1 dmG
    rw [sum_div, mul_sum, ← sum_add_distrib, ← sum_sub_distrib]
    refine sum_congr rfl fun j _ => ?_
    rw [← dmu_eq m j R h, ← neg_neg (prevOf (dmv m) j R), ← dmv_eq m j R h]
    ring
  rw [h1, sum_range_succ']
  simp only [prevOf, neg_zero, zero_mul, add_zero]
  cases k with
  | zero => simp
  | succ k =>
    change _ = -dmG m p q k R
    unfold dmG
    rw [← sum_neg_distrib]
    refine sum_congr rfl fun j _ => ?_
    rw [show k + 1 - (j + 1) = k - j by omega]
    ring

/-! ### The values at `R = 1` -/

/-- Sums that change their sign when they are read from the other end. -/
theorem antisymm_sum (f g : ℕ → ℝ) (k : ℕ) : ∑ j ∈ range (k + 1), (f j * g (k - j) - g j * f (k - j)) = 0 := by
  rw [sum_sub_distrib, sub_eq_zero]
  rw [← sum_range_reflect (fun j => g j * f (k - j)) (k + 1)]
  refine sum_congr rfl fun j hj => ?_
  simp only [mem_range] at hj
  rw [show k + 1 - 1 - j = k - j by omega, show k - (k - j) = j by omega, mul_comm]

/-- The Wronskian of the families. -/
noncomputable def dmW (m k : ℕ) (R : ℝ) : ℝ := ∑ j ∈ range (k + 1), R * (dmu1 m j R * dmv m (k - j) R - dmu m j R * dmv1 m (k - j) R)

theorem dmW_deriv (m k : ℕ) (R : ℝ) (h : 0 < R) : HasDerivAt (dmW m k) 0 R := by
  have h1 : HasDerivAt (dmW m k) (∑ j ∈ range (k + 1), R * (dmu m j R * prevOf (dmv m) (k - j) R - prevOf (dmu m) j R * dmv m (k - j) R)) R := by
    unfold dmW
    refine HasDerivAt.fun_sum fun j _ => ?_
    have h2 := (hasDerivAt_id R).mul (((dmu1_deriv m j R h).mul (dmv_deriv m (k - j) R h)).sub ((dmu_deriv m j R h).mul (dmv1_deriv m (k - j) R h)))
    refine h2.congr_deriv ?_
    have e1 := dmu_eq m j R h
    have e2 := dmv_eq m (k - j) R h
    have e3 : prevOf (dmu m) j R = -(dmu2 m j R + dmu1 m j R / R - (m : ℝ) ^ 2 / R ^ 2 * dmu m j R) := by rw [e1]; ring
    have e4 : prevOf (dmv m) (k - j) R = -(dmv2 m (k - j) R + dmv1 m (k - j) R / R - (m : ℝ) ^ 2 / R ^ 2 * dmv m (k - j) R) := by rw [e2]; ring
    rw [e3, e4]
    have := h.ne'
    simp only [Pi.mul_apply, Pi.sub_apply, id]
    field_simp
    ring
  refine h1.congr_deriv ?_
  rw [← mul_sum, sum_sub_distrib]
  have e : ∑ j ∈ range (k + 1), dmu m j R * prevOf (dmv m) (k - j) R = ∑ j ∈ range (k + 1), prevOf (dmu m) j R * dmv m (k - j) R := by
    rw [sum_range_succ, sum_range_succ', Nat.sub_self]
    simp only [prevOf, mul_zero, zero_mul, add_zero]
    refine sum_congr rfl fun j hj => ?_
    simp only [mem_range] at hj
    obtain ⟨p, rfl⟩ : ∃ p, k = j + (p + 1) := ⟨k - j - 1, by omega⟩
    rw [show j + (p + 1) - j = p + 1 by omega, show j + (p + 1) - (j + 1) = p by omega]
  rw [e, sub_self, mul_zero]

/-- Its form. -/
theorem dmW_form (m k : ℕ) (R : ℝ) (h : 0 < R) : dmW m k R =
    ((∑ j ∈ range (k + 1), dmAlpha j m * (dmC m (k - j) * (2 * j - 2 * (k - j : ℕ) + 2 * m) + dmA m (k - j))) -
      (∑ j ∈ range (k + 1), dmAlpha j m * (dmA m (k - j) * (2 * j - 2 * (k - j : ℕ) + 2 * m))) * log R) * R ^ (2 * (k : ℤ)) := by
  unfold dmW
  rw [sum_mul, ← sum_sub_distrib, sum_mul]
  refine sum_congr rfl fun j hj => ?_
  have hj2 : ((k - j : ℕ) : ℤ) = (k : ℤ) - j := by simp at hj; omega
  unfold dmu1 dmv dmu dmv1
  have e1 : R * (R ^ (2 * (j : ℤ) + m - 1) * R ^ (2 * ((k - j : ℕ) : ℤ) - m)) = R ^ (2 * (k : ℤ)) := by
    rw [← zpow_add₀ h.ne', mul_comm, ← zpow_add_one₀ h.ne', hj2]; ring_nf
  have e2 : R * (R ^ (2 * (j : ℤ) + m) * R ^ (2 * ((k - j : ℕ) : ℤ) - m - 1)) = R ^ (2 * (k : ℤ)) := by
    rw [← zpow_add₀ h.ne', mul_comm, ← zpow_add_one₀ h.ne', hj2]; ring_nf
  linear_combination (dmAlpha j m * (2 * j + m) * (dmC m (k - j) - dmA m (k - j) * log R)) * e1 -
    dmAlpha j m * ((dmC m (k - j) - dmA m (k - j) * log R) * (2 * (k - j : ℕ) - m) - dmA m (k - j)) * e2

theorem alpha_zero_beta_zero (m : ℕ) (h : 0 < m) : dmAlpha 0 m * dmBeta 0 m * (2 * m) = 1 := by
  obtain ⟨p, rfl⟩ : ∃ p, m = p + 1 := ⟨m - 1, by omega⟩
  have h3 := dmAlpha_nat 0 (p + 1)
  have h2 := dmBeta_nat 0 p
  rw [show 0 + 1 + p = p + 1 by ring] at h2
  rw [show ((0 : ℕ) : ℤ) = 0 from rfl] at h2 h3
  rw [h3, h2, Nat.add_zero, Nat.factorial_succ]
  have f2 : (p.factorial : ℝ) ≠ 0 := by positivity
  have f4 : ((p : ℝ) + 1) ≠ 0 := by positivity
  rw [zero_sub, zpow_neg, zpow_natCast, show 2 * 0 + (p + 1) = p + 1 by ring, pow_succ]
  push_cast
  simp only [Nat.factorial, Nat.cast_one]
  field_simp

/-- The Wronskian at one. -/
theorem dmW_one (m k : ℕ) : dmW m k 1 = if k = 0 then 1 else 0 := by
  by_cases hk : k = 0
  · subst hk
    rw [if_pos rfl, dmW_form m 0 1 one_pos]
    simp only [zero_add, range_one, sum_singleton, log_one, mul_zero, sub_zero, one_zpow, mul_one, Nat.sub_self, Nat.cast_zero]
    unfold dmC dmA
    rcases Nat.eq_zero_or_pos m with h | h
    · subst h
      rw [dmBeta_big _ _ (by simp), dmDelta_neg _ _ (by simp)]
      have := dmAlpha_nat 0 0
      simp at this
      simp [this]
    · rw [dmDelta_neg _ _ (by simp), dmAlpha_neg (((0 : ℕ) : ℤ) - m) _ (by simpa using h)]
      have := alpha_zero_beta_zero m h
      simp only [Nat.cast_zero]
      linear_combination this
  · rw [if_neg hk]
    set a := ∑ j ∈ range (k + 1), dmAlpha j m * (dmC m (k - j) * (2 * j - 2 * (k - j : ℕ) + 2 * m) + dmA m (k - j)) with ha
    set b := ∑ j ∈ range (k + 1), dmAlpha j m * (dmA m (k - j) * (2 * j - 2 * (k - j : ℕ) + 2 * m)) with hb
    have hform : ∀ R, 0 < R → dmW m k R = (a - b * log R) * R ^ (2 * (k : ℤ)) := fun R hR => dmW_form m k R hR
    have hd : ∀ R, 0 < R → ((a - b * log R) * (2 * (k : ℤ) : ℤ) - b) * R ^ (2 * (k : ℤ) - 1) = 0 := by
      intro R hR
      have h1 := log_zpow_deriv a b (2 * (k : ℤ)) R hR
      refine h1.unique ((dmW_deriv m k R hR).congr_of_eventuallyEq ?_)
      filter_upwards [lt_mem_nhds hR] with t ht
      exact (hform t ht).symm
    have h1 := hd 1 one_pos
    have h2 := hd (exp 1) (exp_pos 1)
    rw [log_one, one_zpow, mul_one] at h1
    rw [log_exp, mul_eq_zero, or_iff_left (by positivity)] at h2
    have hk2 : (k : ℝ) ≠ 0 := by exact_mod_cast hk
    push_cast at h1 h2
    have hb0 : b = 0 := by
      have : b * (2 * k) = 0 := by linear_combination h1 - h2
      rcases mul_eq_zero.1 this with h | h
      · exact h
      · exact absurd h (by positivity)
    have ha0 : a = 0 := by
      rw [hb0] at h1
      have : a * (2 * k) = 0 := by linear_combination h1
      rcases mul_eq_zero.1 this with h | h
      · exact h
      · exact absurd h (by positivity)
    rw [hform 1 one_pos, ha0, hb0]
    simp

/-- **C151.** `CN` is zero at one, and its derivative there is one for `k = 0` and zero for all others. -/
theorem C151_CN (m k : ℕ) : dmCN m k 1 = 0 ∧ HasDerivAt (dmCN m k) (if k = 0 then 1 else 0) 1 := by
  constructor
  · rw [dmCN_eq m k 1 one_pos]
    exact antisymm_sum (fun i => dmu m i 1) (fun i => dmv m i 1) k
  · have h1 := dmG_deriv m (fun i => dmu m i 1) (fun i => dmv m i 1) k 1 one_pos
    have h2 : HasDerivAt (dmCN m k) (dmG1 m (fun i => dmu m i 1) (fun i => dmv m i 1) k 1) 1 := by
      refine h1.congr_of_eventuallyEq ?_
      filter_upwards [lt_mem_nhds one_pos] with t ht
      exact dmCN_eq m k t ht
    refine h2.congr_deriv ?_
    rw [← dmW_one m k]
    unfold dmG1 dmW
    simp only [one_mul]
    rw [sum_sub_distrib, sum_sub_distrib]
    congr 1
    rw [← sum_range_reflect (fun j => dmu m j 1 * dmv1 m (k - j) 1) (k + 1)]
    refine sum_congr rfl fun j hj => ?_
    simp only [mem_range] at hj
    rw [show k + 1 - 1 - j = k - j by omega, show k - (k - j) = j by omega, mul_comm]

/-- **C151.** `CD` is one at one for `k = 0` and zero for all others, and its derivative is zero there. -/
theorem C151_CD (m k : ℕ) : dmCD m k 1 = (if k = 0 then 1 else 0) ∧ HasDerivAt (dmCD m k) 0 1 := by
  constructor
  · rw [dmCD_eq m k 1 one_pos, ← dmW_one m k]
    unfold dmG dmW
    simp only [one_mul]
    rw [← sum_neg_distrib]
    simp only [neg_sub]
    rw [sum_sub_distrib, sum_sub_distrib]
    congr 1
    rw [← sum_range_reflect (fun j => dmu1 m j 1 * dmv m (k - j) 1) (k + 1)]
    refine sum_congr rfl fun j hj => ?_
    simp only [mem_range] at hj
    rw [show k + 1 - 1 - j = k - j by omega, show k - (k - j) = j by omega, mul_comm]
  · have h1 := (dmG_deriv m (fun i => dmu1 m i 1) (fun i => dmv1 m i 1) k 1 one_pos).neg
    have h2 : HasDerivAt (dmCD m k) (-dmG1 m (fun i => dmu1 m i 1) (fun i => dmv1 m i 1) k 1) 1 := by
      refine h1.congr_of_eventuallyEq ?_
      filter_upwards [lt_mem_nhds one_pos] with t ht
      exact dmCD_eq m k t ht
    refine h2.congr_deriv ?_
    rw [neg_eq_zero]
    exact antisymm_sum (fun i => dmu1 m i 1) (fun i => dmv1 m i 1) k

end Zoidberg
