import Verif.Props.DagpEnergy
import Mathlib.Algebra.Order.BigOperators.Group.Finset
import Mathlib.Algebra.BigOperators.Group.Finset.Sigma
import Mathlib.Tactic.Linarith
import Mathlib.Tactic.FinCases
import Mathlib.Data.Fin.VecNotation
import Mathlib.Algebra.BigOperators.Fin
import Mathlib.Data.Fintype.BigOperators

/-!
# C277: exactly which coefficients give a symmetric operator, and which of these lose energy
-/

set_option linter.unusedSectionVars false

namespace Zoidberg

open Finset

variable {K : Type} [Field K] [LinearOrder K] [IsStrictOrderedRing K] [FloorRing K]

/-- The way back from a neighbour, in the order of `near8`. -/
def back8 : Fin 8 → Fin 8 := ![1, 0, 3, 2, 7, 6, 5, 4]

/-- The interior cells. -/
def Inner (nx nz : ℕ) (q : ℕ × ℕ) : Prop := 1 ≤ q.1 ∧ q.1 + 1 < nx ∧ q.2 < nz

theorem roll_forth {nz k : ℕ} (hk : k < nz) : ((k + 1) % nz + nz - 1) % nz = k := by
  rcases Nat.lt_or_ge (k + 1) nz with h | h
  · rw [Nat.mod_eq_of_lt h, show k + 1 + nz - 1 = k + nz by omega, Nat.add_mod_right, Nat.mod_eq_of_lt hk]
  · rw [show k + 1 = nz by omega, Nat.mod_self, Nat.mod_eq_of_lt (by omega)]
    omega

theorem near8_back {nz x k : ℕ} (hx : 1 ≤ x) (hk : k < nz) (j : Fin 8) : near8 nz (near8 nz x k j).1 (near8 nz x k j).2 (back8 j) = (x, k) := by
  have h1 := roll_back hk
  have h2 := roll_forth hk
  fin_cases j <;> simp [near8, back8, h1, h2] <;> omega

theorem near8_col {nz x k : ℕ} (hk : k < nz) (j : Fin 8) : (near8 nz x k j).2 < nz := by
  have h : ∀ a, a % nz < nz := fun a => Nat.mod_lt _ (by omega)
  fin_cases j <;> simp [near8, h, hk]

theorem near8_ne {nz x k : ℕ} (hx : 1 ≤ x) (hk : k < nz) (hz : 3 ≤ nz) : (∀ i j, near8 nz x k i = near8 nz x k j → i = j) ∧ ∀ j, near8 nz x k j ≠ (x, k) := by
  have hp : (k + 1) % nz ≠ k ∧ (k + nz - 1) % nz ≠ k ∧ (k + 1) % nz ≠ (k + nz - 1) % nz := by
    rcases Nat.lt_or_ge (k + 1) nz with h | h
    · rw [Nat.mod_eq_of_lt h]
      rcases Nat.eq_zero_or_pos k with h0 | h0
      · subst h0; rw [Nat.mod_eq_of_lt (show 0 + nz - 1 < nz by omega)]; omega
      · rw [show k + nz - 1 = (k - 1) + nz by omega, Nat.add_mod_right, Nat.mod_eq_of_lt (show k - 1 < nz by omega)]; omega
    · rw [show k + 1 = nz by omega, Nat.mod_self, show k + nz - 1 = (k - 1) + nz by omega, Nat.add_mod_right, Nat.mod_eq_of_lt (show k - 1 < nz by omega)]; omega
  constructor
  · intro i j
    unfold near8
    fin_cases i <;> fin_cases j <;> simp [Prod.ext_iff] <;> omega
  · intro j
    unfold near8
    fin_cases j <;> simp [Prod.ext_iff] <;> omega

/-- The sum against one cell is the value in it. -/
theorem spot_sum (nx nz : ℕ) (cX cZ : ℕ → ℕ → K × K) (f : ℕ → ℕ → K) (x k : ℕ) (h1 : 1 ≤ x) (h2 : x + 1 < nx) (hk : k < nz) :
    ∑ a ∈ range nx, ∑ b ∈ range nz, spot x k a b * dagpCleared nx nz cX cZ f a b = dagpResult nx nz cX cZ f x k := by
  rw [sum_eq_single x]
  · rw [sum_eq_single k]
    · rw [show (spot x k x k : K) = 1 from if_pos ⟨rfl, rfl⟩, one_mul]
      exact if_neg (by omega)
    · intro b _ hb
      rw [show (spot x k x b : K) = 0 from if_neg fun h => hb h.2, zero_mul]
    · intro h; exact absurd (mem_range.mpr hk) h
  · intro a _ ha
    refine sum_eq_zero fun b _ => ?_
    rw [show (spot x k a b : K) = 0 from if_neg fun h => ha h.1, zero_mul]
  · intro h; exact absurd (mem_range.mpr (by omega)) h

/-- One neighbour alone shows its weight. -/
theorem spot_weight (nx nz : ℕ) (cX cZ : ℕ → ℕ → K × K) (x k : ℕ) (h1 : 1 ≤ x) (h2 : x + 1 < nx) (hk : k < nz) (hz : 3 ≤ nz) (j : Fin 8) :
    dagpResult nx nz cX cZ (spot (near8 nz x k j).1 (near8 nz x k j).2) x k = weights8 nz cX cZ x k j := by
  obtain ⟨hinj, hne⟩ := near8_ne h1 hk hz
  have e1 : (spot (near8 nz x k j).1 (near8 nz x k j).2 x k : K) = 0 := if_neg fun h => hne j (Prod.ext h.1.symm h.2.symm)
  rw [C278_weights nx nz cX cZ _ x k h1 h2 hk, sum_eq_single j]
  · have e2 : (spot (near8 nz x k j).1 (near8 nz x k j).2 (near8 nz x k j).1 (near8 nz x k j).2 : K) = 1 := if_pos ⟨rfl, rfl⟩
    rw [e1, e2, sub_zero, mul_one]
  · intro i _ hi
    have e2 : (spot (near8 nz x k j).1 (near8 nz x k j).2 (near8 nz x k i).1 (near8 nz x k i).2 : K) = 0 := if_neg fun h => hi (hinj i j (Prod.ext h.1 h.2))
    rw [e1, e2, sub_zero, mul_zero]
  · intro h; exact absurd (mem_univ j) h

/-- The operator is symmetric. -/
def DagpSymmetric (nx nz : ℕ) (cX cZ : ℕ → ℕ → K × K) : Prop :=
  ∀ f g : ℕ → ℕ → K, ZeroEnds nx f → ZeroEnds nx g →
    ∑ x ∈ range nx, ∑ k ∈ range nz, g x k * dagpCleared nx nz cX cZ f x k = ∑ x ∈ range nx, ∑ k ∈ range nz, f x k * dagpCleared nx nz cX cZ g x k

/-- Every two interior neighbours have the same weight for each other. -/
def WeightsAgree (nx nz : ℕ) (cX cZ : ℕ → ℕ → K × K) : Prop :=
  ∀ x k, Inner nx nz (x, k) → ∀ j, Inner nx nz (near8 nz x k j) →
    weights8 nz cX cZ x k j = weights8 nz cX cZ (near8 nz x k j).1 (near8 nz x k j).2 (back8 j)

/-- The interior cells with their neighbours. -/
def pairs (nx nz : ℕ) : Finset ((ℕ × ℕ) × Fin 8) := ((range nx ×ˢ range nz) ×ˢ univ).filter fun p => 1 ≤ p.1.1 ∧ p.1.1 + 1 < nx

/-- Those with interior neighbours. -/
def innerPairs (nx nz : ℕ) : Finset ((ℕ × ℕ) × Fin 8) := (pairs nx nz).filter fun p => 1 ≤ (near8 nz p.1.1 p.1.2 p.2).1 ∧ (near8 nz p.1.1 p.1.2 p.2).1 + 1 < nx

theorem mem_pairs {nx nz : ℕ} {p : (ℕ × ℕ) × Fin 8} : p ∈ pairs nx nz ↔ Inner nx nz p.1 := by
  simp only [pairs, mem_filter, mem_product, mem_range, mem_univ, and_true, Inner]
  omega

theorem mem_innerPairs {nx nz : ℕ} {p : (ℕ × ℕ) × Fin 8} : p ∈ innerPairs nx nz ↔ Inner nx nz p.1 ∧ Inner nx nz (near8 nz p.1.1 p.1.2 p.2) := by
  simp only [innerPairs, mem_filter, mem_pairs]
  constructor
  · rintro ⟨h, a, b⟩
    exact ⟨h, a, b, near8_col h.2.2 _⟩
  · rintro ⟨h, a, b, _⟩
    exact ⟨h, a, b⟩

/-- A pair seen from the other side. -/
def flip8 (nz : ℕ) (p : (ℕ × ℕ) × Fin 8) : (ℕ × ℕ) × Fin 8 := (near8 nz p.1.1 p.1.2 p.2, back8 p.2)

theorem flip8_mem {nx nz : ℕ} {p : (ℕ × ℕ) × Fin 8} (h : p ∈ innerPairs nx nz) : flip8 nz p ∈ innerPairs nx nz := by
  rw [mem_innerPairs] at h ⊢
  unfold flip8
  dsimp only
  rw [near8_back h.1.1 h.1.2.2]
  exact ⟨h.2, h.1⟩

theorem flip8_flip8 {nx nz : ℕ} {p : (ℕ × ℕ) × Fin 8} (h : p ∈ innerPairs nx nz) : flip8 nz (flip8 nz p) = p := by
  rw [mem_innerPairs] at h
  unfold flip8
  dsimp only
  rw [near8_back h.1.1 h.1.2.2]
  have : back8 (back8 p.2) = p.2 := by generalize p.2 = j; fin_cases j <;> rfl
  rw [this]

theorem back8_ne (j : Fin 8) : back8 j ≠ j := by fin_cases j <;> decide

/-- The sum against a field, as a sum over pairs. -/
theorem pair_sum (nx nz : ℕ) (cX cZ : ℕ → ℕ → K × K) (f g : ℕ → ℕ → K) :
    ∑ x ∈ range nx, ∑ k ∈ range nz, g x k * dagpCleared nx nz cX cZ f x k =
      ∑ p ∈ pairs nx nz, weights8 nz cX cZ p.1.1 p.1.2 p.2 * (g p.1.1 p.1.2 * f (near8 nz p.1.1 p.1.2 p.2).1 (near8 nz p.1.1 p.1.2 p.2).2 - g p.1.1 p.1.2 * f p.1.1 p.1.2) := by
  unfold pairs
  rw [sum_filter, sum_product, sum_product]
  refine sum_congr rfl fun x hx => sum_congr rfl fun k hk => ?_
  dsimp only
  rw [mem_range] at hx hk
  by_cases h : 1 ≤ x ∧ x + 1 < nx
  · unfold dagpCleared
    rw [if_neg (by omega), C278_weights nx nz cX cZ f x k h.1 h.2 hk, mul_sum]
    refine sum_congr rfl fun j _ => ?_
    rw [if_pos h]
    ring
  · rw [sum_eq_zero fun j _ => if_neg h]
    unfold dagpCleared
    rw [if_pos (by omega), mul_zero]

theorem zero_outside {nx nz : ℕ} {f : ℕ → ℕ → K} (hf : ZeroEnds nx f) {p : (ℕ × ℕ) × Fin 8} (h : p ∈ pairs nx nz) (hn : p ∉ innerPairs nx nz) :
    f (near8 nz p.1.1 p.1.2 p.2).1 (near8 nz p.1.1 p.1.2 p.2).2 = 0 := by
  rw [mem_innerPairs] at hn
  rw [mem_pairs] at h
  have hc := near8_col (x := p.1.1) h.2.2 p.2
  have hr : (near8 nz p.1.1 p.1.2 p.2).1 ≤ p.1.1 + 1 := by
    generalize p.2 = j
    fin_cases j <;> simp [near8] <;> omega
  have h3 : (near8 nz p.1.1 p.1.2 p.2).1 = 0 ∨ (near8 nz p.1.1 p.1.2 p.2).1 = nx - 1 := by
    unfold Inner at h hn
    by_contra hc2
    exact hn ⟨h, by omega, by omega, hc⟩
  rcases h3 with h3 | h3
  · rw [h3]; exact (hf _).1
  · rw [h3]; exact (hf _).2

/-- **C277.** The operator is symmetric exactly if every two interior neighbours have the same weight for each other. -/
theorem C277_iff (nx nz : ℕ) (cX cZ : ℕ → ℕ → K × K) (hz : 3 ≤ nz) : DagpSymmetric nx nz cX cZ ↔ WeightsAgree nx nz cX cZ := by
  constructor
  · intro h x k hq j hn
    have ze : ∀ q : ℕ × ℕ, Inner nx nz q → ZeroEnds nx (spot q.1 q.2 : ℕ → ℕ → K) := by
      intro q hq' b
      unfold Inner at hq'
      exact ⟨if_neg fun e => by omega, if_neg fun e => by omega⟩
    have e := h (spot (near8 nz x k j).1 (near8 nz x k j).2) (spot x k) (ze _ hn) (ze _ hq)
    rw [spot_sum nx nz cX cZ _ x k hq.1 hq.2.1 hq.2.2, spot_sum nx nz cX cZ _ _ _ hn.1 hn.2.1 hn.2.2, spot_weight nx nz cX cZ x k hq.1 hq.2.1 hq.2.2 hz] at e
    rw [e]
    have e2 := spot_weight nx nz cX cZ (near8 nz x k j).1 (near8 nz x k j).2 hn.1 hn.2.1 hn.2.2 hz (back8 j)
    rw [near8_back hq.1 hq.2.2] at e2
    exact e2
  · intro h f g hf hg
    rw [pair_sum, pair_sum, ← sub_eq_zero, ← sum_sub_distrib]
    rw [← sum_subset (filter_subset _ _ : innerPairs nx nz ⊆ pairs nx nz)]
    · refine sum_involution (fun p _ => flip8 nz p) ?_ ?_ ?_ ?_
      · intro p hp
        have hm := mem_innerPairs.mp hp
        have e := h p.1.1 p.1.2 hm.1 p.2 hm.2
        unfold flip8
        dsimp only
        rw [near8_back hm.1.1 hm.1.2.2, ← e]
        ring
      · intro p hp _ he
        exact back8_ne p.2 (congrArg Prod.snd he)
      · intro p hp; exact flip8_mem hp
      · intro p hp; exact flip8_flip8 hp
    · intro p hp hn
      rw [zero_outside hf hp hn, zero_outside hg hp hn]
      ring

/-- **C277 (partial).** If every two interior neighbours have the same weight for each other and no weight is negative, the operator is symmetric and the energy of a field never grows.
Missing: negative weights, which every skew grid has (`C278_skew`). -/
theorem C277_weights_partial (nx nz : ℕ) (cX cZ : ℕ → ℕ → K × K) (hz : 3 ≤ nz) (h : WeightsAgree nx nz cX cZ) (hw : ∀ x k, Inner nx nz (x, k) → ∀ j, 0 ≤ weights8 nz cX cZ x k j) :
    Dissipates nx nz cX cZ := by
  refine ⟨(C277_iff nx nz cX cZ hz).mpr h, fun f hf => ?_⟩
  rw [pair_sum, ← sum_filter_add_sum_filter_not (pairs nx nz) fun p => 1 ≤ (near8 nz p.1.1 p.1.2 p.2).1 ∧ (near8 nz p.1.1 p.1.2 p.2).1 + 1 < nx]
  refine add_nonpos ?_ ?_
  · change ∑ p ∈ innerPairs nx nz, _ ≤ 0
    have e : ∑ p ∈ innerPairs nx nz, weights8 nz cX cZ p.1.1 p.1.2 p.2 * (f p.1.1 p.1.2 * f (near8 nz p.1.1 p.1.2 p.2).1 (near8 nz p.1.1 p.1.2 p.2).2 - f p.1.1 p.1.2 * f p.1.1 p.1.2) =
        ∑ p ∈ innerPairs nx nz, weights8 nz cX cZ p.1.1 p.1.2 p.2 * (f (near8 nz p.1.1 p.1.2 p.2).1 (near8 nz p.1.1 p.1.2 p.2).2 * f p.1.1 p.1.2 -
          f (near8 nz p.1.1 p.1.2 p.2).1 (near8 nz p.1.1 p.1.2 p.2).2 * f (near8 nz p.1.1 p.1.2 p.2).1 (near8 nz p.1.1 p.1.2 p.2).2) := by
      refine sum_bij' (fun p _ => flip8 nz p) (fun p _ => flip8 nz p) (fun p hp => flip8_mem hp) (fun p hp => flip8_mem hp) (fun p hp => flip8_flip8 hp) (fun p hp => flip8_flip8 hp) ?_
      intro p hp
      have hm := mem_innerPairs.mp hp
      have e := h p.1.1 p.1.2 hm.1 p.2 hm.2
      unfold flip8
      dsimp only
      rw [near8_back hm.1.1 hm.1.2.2, ← e]
    have s : ∑ p ∈ innerPairs nx nz, weights8 nz cX cZ p.1.1 p.1.2 p.2 * (f p.1.1 p.1.2 * f (near8 nz p.1.1 p.1.2 p.2).1 (near8 nz p.1.1 p.1.2 p.2).2 - f p.1.1 p.1.2 * f p.1.1 p.1.2) +
        ∑ p ∈ innerPairs nx nz, weights8 nz cX cZ p.1.1 p.1.2 p.2 * (f p.1.1 p.1.2 * f (near8 nz p.1.1 p.1.2 p.2).1 (near8 nz p.1.1 p.1.2 p.2).2 - f p.1.1 p.1.2 * f p.1.1 p.1.2) ≤ 0 := by
      nth_rewrite 2 [e]
      rw [← sum_add_distrib]
      refine sum_nonpos fun p hp => ?_
      have := hw p.1.1 p.1.2 (mem_innerPairs.mp hp).1 p.2
      nlinarith [mul_nonneg this (mul_self_nonneg (f p.1.1 p.1.2 - f (near8 nz p.1.1 p.1.2 p.2).1 (near8 nz p.1.1 p.1.2 p.2).2))]
    linarith
  · refine sum_nonpos fun p hp => ?_
    rw [mem_filter] at hp
    have hn : p ∉ innerPairs nx nz := fun h => hp.2 (mem_filter.mp h).2
    rw [zero_outside hf hp.1 hn]
    have := hw p.1.1 p.1.2 (mem_pairs.mp hp.1) p.2
    nlinarith [mul_nonneg this (mul_self_nonneg (f p.1.1 p.1.2))]

/-- Coefficients with all weights not negative and equal in both directions. -/
example : WeightsAgree 5 4 (fun _ _ => ((2 : ℚ), 0)) (fun _ _ => (0, 3)) ∧ ∀ x k, Inner 5 4 (x, k) → ∀ j, 0 ≤ weights8 4 (fun _ _ => ((2 : ℚ), 0)) (fun _ _ => (0, 3)) x k j := by
  constructor
  · intro x k _ j _
    fin_cases j <;> simp [weights8, back8]
  · intro x k _ j
    fin_cases j <;> simp [weights8]

end Zoidberg
