import Verif.Props.DommaschkExact
import Mathlib.Algebra.Polynomial.Roots

/-!
# C213: the coefficients for which Sfunc is invariant to the first order everywhere
-/

set_option linter.unusedSectionVars false

namespace Zoidberg

open Real Finset

theorem poly_coeff_zero (L : ℕ) (c : ℕ → ℝ) (h : ∀ Z : ℝ, ∑ j ∈ range L, c j * Z ^ j = 0) (j : ℕ) (hj : j < L) : c j = 0 := by
  have e : (∑ i ∈ range L, Polynomial.C (c i) * Polynomial.X ^ i : Polynomial ℝ) = 0 := by
    apply Polynomial.funext
    intro Z
    rw [Polynomial.eval_finsetSum, Polynomial.eval_zero]
    simpa using h Z
  have := congrArg (fun p => Polynomial.coeff p j) e
  simpa [Polynomial.finsetSum_coeff, Polynomial.coeff_C_mul, Polynomial.coeff_X_pow, hj] using this

theorem dmAxi_succ (M L : ℕ) (A : ℕ → ℕ → DmMode) (R Z : ℝ) :
    dmAxi (M + 1) L A R Z = ∑ j ∈ range L, (((A 0 j).a + (A 0 j).b) * dmD 0 j R Z + ((A 0 j).c + (A 0 j).d) * dmN 0 ((j : ℤ) - 1) R Z) := by
  unfold dmAxi
  rw [sum_range_succ', sum_eq_zero fun i _ => sum_eq_zero fun j _ => if_neg (by omega), zero_add]
  exact sum_congr rfl fun j _ => if_pos rfl

theorem dmD_zero_zero (R Z : ℝ) : dmD 0 ((0 : ℕ) : ℤ) R Z = 1 := by
  have h : dmTerms 0 = 1 := by decide
  simp [dmD, h, dmZ, dmCD_zero]

/-- The modes that matter to the first order: toroidal number 0, poloidal number at least 1. -/
def AxiOrder (M L : ℕ) (A : ℕ → ℕ → DmMode) : Prop :=
  0 < M → ∀ j, 0 < j → j < L → (A 0 j).a + (A 0 j).b = 0 ∧ (A 0 j).c + (A 0 j).d = 0

theorem dmAxi_order (M L : ℕ) (A : ℕ → ℕ → DmMode) (h : AxiOrder M L A) : ∃ c, ∀ R Z : ℝ, dmAxi M L A R Z = c := by
  cases M with
  | zero => exact ⟨0, fun R Z => by simp [dmAxi]⟩
  | succ M =>
    refine ⟨∑ j ∈ range L, if j = 0 then (A 0 0).a + (A 0 0).b else 0, fun R Z => ?_⟩
    rw [dmAxi_succ]
    refine sum_congr rfl fun j hj => ?_
    rw [mem_range] at hj
    split_ifs with h0
    · subst h0
      rw [dmD_zero_zero, dmN_neg]
      ring
    · obtain ⟨h1, h2⟩ := h (Nat.succ_pos M) j (by omega) hj
      rw [h1, h2]
      ring

/-- The derivative of `dmN` in `R` at one. -/
theorem dmN_one_deriv (j : ℕ) (Z : ℝ) :
    HasDerivAt (fun t => dmN 0 ((j : ℤ) - 1) t Z) (if j = 0 then 0 else Z ^ (j - 1) / ((j - 1).factorial : ℝ)) 1 := by
  cases j with
  | zero =>
    simp only [dmN_neg, if_pos]
    exact hasDerivAt_const _ _
  | succ j =>
    rw [if_neg (by omega), show ((j + 1 : ℕ) : ℤ) - 1 = (j : ℤ) by push_cast; ring]
    exact (C151_N 0 j Z).2

theorem dmAxi_flat (M L : ℕ) (A : ℕ → ℕ → DmMode)
    (H : ∀ R Z wR wZ : ℝ, 0 < R → HasDerivAt (fun s => dmAxi (M + 1) L A s Z) wR R → HasDerivAt (fun s => dmAxi (M + 1) L A R s) wZ Z →
      log R / R * wR + Z * wZ = 0) (j : ℕ) (h0 : 0 < j) (hj : j < L) :
    (A 0 j).a + (A 0 j).b = 0 ∧ (A 0 j).c + (A 0 j).d = 0 := by
  obtain ⟨w⟩ := harmonic_axi (M + 1) L A
  have H2 : ∀ R Z : ℝ, 0 < R → log R / R * w.PR R 0 Z + Z * w.PZ R 0 Z = 0 := fun R Z h => H R Z _ _ h (w.hR R 0 Z h) (w.hZ R 0 Z h)
  have hZ0 : ∀ Z : ℝ, Z * w.PZ 1 0 Z = 0 := by
    intro Z
    have := H2 1 Z one_pos
    rw [log_one] at this
    linarith
  constructor
  · have d : ∀ Z : ℝ, w.PZ 1 0 Z = ∑ j ∈ range L, ((A 0 j).a + (A 0 j).b) * ((j * Z ^ (j - 1)) / (j.factorial : ℝ)) := by
      intro Z
      refine (w.hZ 1 0 Z one_pos).unique ?_
      have e : (fun s => dmAxi (M + 1) L A 1 s) = fun s => ∑ j ∈ range L, ((A 0 j).a + (A 0 j).b) * (s ^ j / (j.factorial : ℝ)) := by
        funext s
        rw [dmAxi_succ]
        refine sum_congr rfl fun j _ => ?_
        rw [(C151_D 0 j s).1, dmN_one, mul_zero, add_zero]
      rw [e]
      exact HasDerivAt.fun_sum fun j _ => (((hasDerivAt_pow j Z).div_const _).const_mul _)
    have := poly_coeff_zero L (fun j => ((A 0 j).a + (A 0 j).b) * (j / (j.factorial : ℝ))) (fun Z => by
      rw [← hZ0 Z, d Z, mul_sum]
      refine sum_congr rfl fun j _ => ?_
      cases j with
      | zero => simp
      | succ j => rw [Nat.add_sub_cancel, pow_succ]; ring) j hj
    have hn : (j : ℝ) ≠ 0 := by exact_mod_cast h0.ne'
    exact (mul_eq_zero.1 this).resolve_right (by positivity)
  · have p : ∀ Z : ℝ, w.PR 1 0 Z = ∑ j ∈ range L, ((A 0 j).c + (A 0 j).d) * (if j = 0 then 0 else Z ^ (j - 1) / ((j - 1).factorial : ℝ)) := by
      intro Z
      refine (w.hR 1 0 Z one_pos).unique ?_
      simp only [dmAxi_succ]
      refine (HasDerivAt.fun_sum fun j _ => ((C151_D 0 j Z).2.const_mul _).add ((dmN_one_deriv j Z).const_mul _)).congr_deriv ?_
      exact sum_congr rfl fun j _ => by rw [mul_zero, zero_add]
    have pz : ∀ Z : ℝ, w.PRZ 1 0 Z = ∑ j ∈ range L, ((A 0 j).c + (A 0 j).d) * (if j = 0 then 0 else ((j - 1 : ℕ) * Z ^ (j - 1 - 1)) / ((j - 1).factorial : ℝ)) := by
      intro Z
      refine (w.hRZ 1 0 Z one_pos).unique ?_
      simp only [p]
      refine HasDerivAt.fun_sum fun j _ => HasDerivAt.const_mul _ ?_
      split_ifs with h
      · exact hasDerivAt_const _ _
      · exact (hasDerivAt_pow (j - 1) Z).div_const _
    have s : ∀ Z : ℝ, w.PR 1 0 Z + Z * w.PRZ 1 0 Z = 0 := by
      intro Z
      have d1 : HasDerivAt (fun R => log R * w.PR R 0 Z + R * (Z * w.PZ R 0 Z))
          ((1 : ℝ)⁻¹ * w.PR 1 0 Z + log 1 * w.PRR 1 0 Z + (1 * (Z * w.PZ 1 0 Z) + 1 * (Z * w.PRZ 1 0 Z))) 1 :=
        ((hasDerivAt_log one_ne_zero).mul (w.hRR 1 0 Z one_pos)).add ((hasDerivAt_id (1 : ℝ)).mul ((w.hZR 1 0 Z one_pos).const_mul Z))
      have d2 : HasDerivAt (fun R => log R * w.PR R 0 Z + R * (Z * w.PZ R 0 Z)) 0 1 := by
        refine (hasDerivAt_const (1 : ℝ) (0 : ℝ)).congr_of_eventuallyEq ?_
        filter_upwards [lt_mem_nhds (one_pos : (0 : ℝ) < 1)] with R hR
        have := H2 R Z hR
        field_simp at this
        linarith
      have e := d1.unique d2
      rw [log_one, hZ0 Z] at e
      linarith
    have := poly_coeff_zero L (fun j => if j = 0 then 0 else ((A 0 j).c + (A 0 j).d) * (j / ((j - 1).factorial : ℝ))) (fun Z => by
      refine Eq.trans ?_ (show Z * (w.PR 1 0 Z + Z * w.PRZ 1 0 Z) = 0 by rw [s Z, mul_zero])
      rw [p Z, pz Z, mul_sum, ← sum_add_distrib, mul_sum]
      refine sum_congr rfl fun j _ => ?_
      match j with
      | 0 => simp
      | 1 => simp; ring
      | j + 2 =>
        simp only [if_neg (Nat.succ_ne_zero _), Nat.add_sub_cancel, show j + 2 - 1 = j + 1 by omega]
        push_cast
        ring) j hj
    simp only [if_neg h0.ne'] at this
    have hn : (j : ℝ) ≠ 0 := by exact_mod_cast h0.ne'
    exact (mul_eq_zero.1 this).resolve_right (by positivity)

/-- **C213, the exact condition**: `Sfunc` is invariant up to the second order in the coefficients at every point exactly if the coefficients of the modes of toroidal number 0 and poloidal
number at least 1 cancel in pairs.  The mode with both numbers 0 is a constant. -/
theorem C213_coefficients_iff (M L : ℕ) (A : ℕ → ℕ → DmMode) (R0 B0 : ℝ) (h0 : 0 < R0) (hB : B0 ≠ 0) :
    (∀ x z phi : ℝ, 0 < x → ∃ q c : ℝ, ∀ t : ℝ, 1 + t * c ≠ 0 → SurfRate M L (dmScale t A) R0 B0 x z phi (t ^ 2 * q / (1 + t * c))) ↔
      AxiOrder M L A := by
  constructor
  · intro h hM
    obtain ⟨M, rfl⟩ : ∃ m, M = m + 1 := ⟨M - 1, by omega⟩
    refine fun j => dmAxi_flat M L A (fun R Z wR wZ hR h1 h2 => ?_) j
    have e1 : R * R0 / R0 = R := by field_simp
    have e2 : Z * R0 / R0 = Z := by field_simp
    have := (C213_iff (M + 1) L A R0 B0 (R * R0) (Z * R0) 0 wR wZ h0 (by positivity) hB (by rw [e1, e2]; exact h1) (by rw [e1, e2]; exact h2)).1
      (h (R * R0) (Z * R0) 0 (by positivity))
    rwa [e1, e2] at this
  · intro h x z phi hx
    obtain ⟨c, hc⟩ := dmAxi_order M L A h
    refine (C213_iff M L A R0 B0 x z phi 0 0 h0 hx hB (by simp only [hc]; exact hasDerivAt_const _ _) (by simp only [hc]; exact hasDerivAt_const _ _)).2 ?_
    ring

/-- Coefficients that meet the condition, none of which need vanish. -/
example (a c : ℝ) : AxiOrder 2 3 (fun i j => if i = 0 ∧ 0 < j then ⟨a, -a, c, -c⟩ else ⟨a, c, c, a⟩) := by
  intro _ j hj _
  simp [hj]

/-- The vertical field does not. -/
example (a : ℝ) (ha : a ≠ 0) : ¬ AxiOrder 1 2 (verticalMode a) := by
  intro h
  have := (h one_pos 1 one_pos (by norm_num)).1
  simp [verticalMode] at this
  exact ha this

end Zoidberg
