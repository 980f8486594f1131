import Verif.Model.Mms
import Verif.Proofs.Numbering
import Mathlib.Algebra.BigOperators.Intervals
import Mathlib.LinearAlgebra.Matrix.Determinant.Basic
import Mathlib.Tactic.FinCases
import Mathlib.Tactic.Linarith
import Mathlib.Tactic.LinearCombination
import Mathlib.Tactic.FieldSimp

/-!
# C270, C271: the metric after `fixup` of the convergence tests
-/

set_option linter.unusedSectionVars false

namespace Zoidberg

open Finset

variable {K : Type} [Field K] [LinearOrder K] [IsStrictOrderedRing K]

/-! ## Statements -/

/-- The value of a variable of the file in a cell, zero if there is no such variable. -/
def fileVal (file : Dict (Cell → K)) (k : String) (c : Cell) : K :=
  match file k with
  | some a => a c
  | none => 0

/-- The square of the length of `(a, b, d)` with the six components (the others follow by symmetry). -/
def quadAt (g11 g12 g13 g22 g23 g33 a b d : K) : K := g11 * a ^ 2 + g22 * b ^ 2 + g33 * d ^ 2 + 2 * g12 * (a * b) + 2 * g13 * (a * d) + 2 * g23 * (b * d)

/-- The tensor of a file is positive definite in a cell. -/
def MetricPos (file : Dict (Cell → K)) (c : Cell) : Prop := ∀ a b d : K, ¬ (a = 0 ∧ b = 0 ∧ d = 0) →
  0 < quadAt (fileVal file "g11" c) (fileVal file "g12" c) (fileVal file "g13" c) (fileVal file "g22" c) (fileVal file "g23" c) (fileVal file "g33" c) a b d

/-- The symmetric matrix with the six components. -/
def symMatrix (g11 g12 g13 g22 g23 g33 : K) : Matrix (Fin 3) (Fin 3) K := !![g11, g12, g13; g12, g22, g23; g13, g23, g33]

/-- The two tensors of a file are inverse to each other in a cell. -/
def MetricInverse (file : Dict (Cell → K)) (c : Cell) : Prop :=
  symMatrix (fileVal file "g_11" c) (fileVal file "g_12" c) (fileVal file "g_13" c) (fileVal file "g_22" c) (fileVal file "g_23" c) (fileVal file "g_33" c) *
    symMatrix (fileVal file "g11" c) (fileVal file "g12" c) (fileVal file "g13" c) (fileVal file "g22" c) (fileVal file "g23" c) (fileVal file "g33" c) = 1

/-- The six names of the components. -/
def upperNames : List String := ["g11", "g12", "g13", "g22", "g23", "g33"]

/-- A file as `write_maps` makes it: one name for each pair of components, positive definite. -/
structure GoodFile (nx ny nz : ℕ) (file : Dict (Cell → K)) : Prop where
  R : ∃ a, file "R" = some a
  Z : ∃ a, file "Z" = some a
  J : ∃ a, file "J" = some a
  g11 : ∃ a, file "g11" = some a
  g21 : file "g21" = none
  g31 : file "g31" = none
  g32 : file "g32" = none
  pos : ∀ x y z, x < nx → y < ny → z < nz → MetricPos file (x, y, z)

/-! ## Sums around -/

theorem sum_rollNext (n : ℕ) (f : ℕ → K) : ∑ i ∈ range n, f (rollNext n i) = ∑ i ∈ range n, f i := by
  cases n with
  | zero => rfl
  | succ m =>
    rw [sum_range_succ, sum_range_succ']
    congr 1
    · refine sum_congr rfl fun i hi => ?_
      rw [rollNext, Nat.mod_eq_of_lt (by have := mem_range.1 hi; omega)]
    · rw [rollNext, Nat.mod_self]

theorem sum_rollPrev (n : ℕ) (f : ℕ → K) : ∑ i ∈ range n, f (rollPrev n i) = ∑ i ∈ range n, f i := by
  rw [← sum_rollNext n fun i => f (rollPrev n i)]
  refine sum_congr rfl fun i hi => ?_
  have hi := mem_range.1 hi
  congr 1
  unfold rollPrev rollNext
  rw [Nat.mod_add_mod, show i + 1 + (n - 1) = i + n by omega, Nat.add_mod_right, Nat.mod_eq_of_lt hi]

theorem prev_lt {n i : ℕ} (h : i < n) : rollPrev n i < n := Nat.mod_lt _ (by omega)

theorem next_lt {n i : ℕ} (h : i < n) : rollNext n i < n := Nat.mod_lt _ (by omega)

/-! ## One pass -/

/-- The sum of the four neighbours of a cell. -/
def nbSum (ny nz : ℕ) (g : Cell → Matrix (Fin 3) (Fin 3) K) (c : Cell) (i j : Fin 3) : K :=
  g (c.1, c.2.1, rollPrev nz c.2.2) i j + g (c.1, c.2.1, rollNext nz c.2.2) i j + g (c.1, rollPrev ny c.2.1, c.2.2) i j + g (c.1, rollNext ny c.2.1, c.2.2) i j

theorem fixD_apply (ny nz : ℕ) (g : Cell → Matrix (Fin 3) (Fin 3) K) (c : Cell) (i j : Fin 3) :
    fixD ny nz g c i j = 2 * g c i j - 1 / 2 * nbSum ny nz g c i j := by
  simp only [fixD, diff2Z, diff2Y, Matrix.add_apply, Matrix.smul_apply, Matrix.sub_apply, smul_eq_mul, nbSum]
  ring

theorem tenth_apply (ny nz : ℕ) (g : Cell → Matrix (Fin 3) (Fin 3) K) (c : Cell) (i j : Fin 3) :
    (g c - (1 / 10 : K) • fixD ny nz g c) i j = 4 / 5 * g c i j + 1 / 20 * nbSum ny nz g c i j := by
  rw [Matrix.sub_apply, Matrix.smul_apply, smul_eq_mul, fixD_apply]
  ring

/-- The array is triangular and positive definite in the cells of the grid. -/
def TriPos (nx ny nz : ℕ) (g : Cell → Matrix (Fin 3) (Fin 3) K) : Prop := ∀ x y z, x < nx → y < ny → z < nz →
  (g (x, y, z) 1 0 = 0 ∧ g (x, y, z) 2 0 = 0 ∧ g (x, y, z) 2 1 = 0) ∧ ∀ a b d : K, ¬ (a = 0 ∧ b = 0 ∧ d = 0) →
    0 < quadAt (g (x, y, z) 0 0) (g (x, y, z) 0 1) (g (x, y, z) 0 2) (g (x, y, z) 1 1) (g (x, y, z) 1 2) (g (x, y, z) 2 2) a b d

theorem quad_diag {g11 g12 g13 g22 g23 g33 : K} (h : ∀ a b d : K, ¬ (a = 0 ∧ b = 0 ∧ d = 0) → 0 < quadAt g11 g12 g13 g22 g23 g33 a b d) :
    0 < g11 ∧ 0 < g22 ∧ 0 < g33 := by
  have h1 := h 1 0 0 (by simp)
  have h2 := h 0 1 0 (by simp)
  have h3 := h 0 0 1 (by simp)
  simp [quadAt] at h1 h2 h3
  exact ⟨h1, h2, h3⟩

theorem TriPos.det {nx ny nz : ℕ} {g : Cell → Matrix (Fin 3) (Fin 3) K} (h : TriPos nx ny nz g) : detsPos nx ny nz g = true := by
  unfold detsPos
  rw [List.all_eq_true]
  rintro ⟨x, y, z⟩ hc
  rw [mem_loop3] at hc
  obtain ⟨⟨h1, h2, h3⟩, hq⟩ := h x y z (by simp at hc; omega) (by simp at hc; omega) (by simp at hc; omega)
  obtain ⟨d1, d2, d3⟩ := quad_diag hq
  rw [decide_eq_true_eq, Matrix.det_fin_three, h1, h2, h3]
  have := mul_pos (mul_pos d1 d2) d3
  linarith

theorem quad_mix (p q : K) (g u v w t : Matrix (Fin 3) (Fin 3) K) (a b d : K) :
    quadAt (p * g 0 0 + q * (u 0 0 + v 0 0 + w 0 0 + t 0 0)) (p * g 0 1 + q * (u 0 1 + v 0 1 + w 0 1 + t 0 1)) (p * g 0 2 + q * (u 0 2 + v 0 2 + w 0 2 + t 0 2))
      (p * g 1 1 + q * (u 1 1 + v 1 1 + w 1 1 + t 1 1)) (p * g 1 2 + q * (u 1 2 + v 1 2 + w 1 2 + t 1 2)) (p * g 2 2 + q * (u 2 2 + v 2 2 + w 2 2 + t 2 2)) a b d =
    p * quadAt (g 0 0) (g 0 1) (g 0 2) (g 1 1) (g 1 2) (g 2 2) a b d +
      q * (quadAt (u 0 0) (u 0 1) (u 0 2) (u 1 1) (u 1 2) (u 2 2) a b d + quadAt (v 0 0) (v 0 1) (v 0 2) (v 1 1) (v 1 2) (v 2 2) a b d +
        quadAt (w 0 0) (w 0 1) (w 0 2) (w 1 1) (w 1 2) (w 2 2) a b d + quadAt (t 0 0) (t 0 1) (t 0 2) (t 1 1) (t 1 2) (t 2 2) a b d) := by
  unfold quadAt
  ring

theorem TriPos.tenth {nx ny nz : ℕ} {g : Cell → Matrix (Fin 3) (Fin 3) K} (h : TriPos nx ny nz g) :
    TriPos nx ny nz fun c => g c - (1 / 10 : K) • fixD ny nz g c := by
  intro x y z hx hy hz
  obtain ⟨l0, q0⟩ := h x y z hx hy hz
  obtain ⟨l1, q1⟩ := h x y _ hx hy (prev_lt hz)
  obtain ⟨l2, q2⟩ := h x y _ hx hy (next_lt hz)
  obtain ⟨l3, q3⟩ := h x _ z hx (prev_lt hy) hz
  obtain ⟨l4, q4⟩ := h x _ z hx (next_lt hy) hz
  simp only [tenth_apply, nbSum]
  refine ⟨⟨?_, ?_, ?_⟩, fun a b d hv => ?_⟩
  · rw [l0.1, l1.1, l2.1, l3.1, l4.1]; ring
  · rw [l0.2.1, l1.2.1, l2.2.1, l3.2.1, l4.2.1]; ring
  · rw [l0.2.2, l1.2.2, l2.2.2, l3.2.2, l4.2.2]; ring
  · rw [quad_mix (4 / 5) (1 / 20) (g (x, y, z)) (g (x, y, rollPrev nz z)) (g (x, y, rollNext nz z)) (g (x, rollPrev ny y, z)) (g (x, rollNext ny y, z))]
    have := q0 a b d hv
    have := q1 a b d hv
    have := q2 a b d hv
    have := q3 a b d hv
    have := q4 a b d hv
    linarith

/-- The second value of `fac` is never taken. -/
theorem TriPos.fac {nx ny nz : ℕ} {g : Cell → Matrix (Fin 3) (Fin 3) K} (h : TriPos nx ny nz g) : fixFac nx ny nz g = 10 := by
  unfold fixFac
  rw [if_pos h.tenth.det]

theorem TriPos.pass {nx ny nz : ℕ} {g : Cell → Matrix (Fin 3) (Fin 3) K} (h : TriPos nx ny nz g) : TriPos nx ny nz (fixPass nx ny nz g) := by
  have := h.tenth
  unfold fixPass
  rw [h.fac]
  exact this

theorem fac_cases (nx ny nz : ℕ) (g : Cell → Matrix (Fin 3) (Fin 3) K) : 10 ≤ fixFac nx ny nz g := by
  unfold fixFac
  split <;> norm_num

theorem pass_apply (nx ny nz : ℕ) (g : Cell → Matrix (Fin 3) (Fin 3) K) (c : Cell) (i j : Fin 3) :
    fixPass nx ny nz g c i j = (1 - 2 / fixFac nx ny nz g) * g c i j + 1 / (2 * fixFac nx ny nz g) * nbSum ny nz g c i j := by
  have := fac_cases nx ny nz g
  have h0 : fixFac nx ny nz g ≠ 0 := by intro h; rw [h] at this; linarith
  unfold fixPass
  rw [Matrix.sub_apply, Matrix.smul_apply, smul_eq_mul, fixD_apply]
  field_simp
  ring

theorem pass_sum (nx ny nz : ℕ) (g : Cell → Matrix (Fin 3) (Fin 3) K) (x : ℕ) (i j : Fin 3) :
    ∑ y ∈ range ny, ∑ z ∈ range nz, fixPass nx ny nz g (x, y, z) i j = ∑ y ∈ range ny, ∑ z ∈ range nz, g (x, y, z) i j := by
  have e : ∑ y ∈ range ny, ∑ z ∈ range nz, nbSum ny nz g (x, y, z) i j = 4 * ∑ y ∈ range ny, ∑ z ∈ range nz, g (x, y, z) i j := by
    simp only [nbSum, sum_add_distrib]
    have e1 : ∑ y ∈ range ny, ∑ z ∈ range nz, g (x, y, rollPrev nz z) i j = ∑ y ∈ range ny, ∑ z ∈ range nz, g (x, y, z) i j :=
      sum_congr rfl fun y _ => sum_rollPrev nz fun z => g (x, y, z) i j
    have e2 : ∑ y ∈ range ny, ∑ z ∈ range nz, g (x, y, rollNext nz z) i j = ∑ y ∈ range ny, ∑ z ∈ range nz, g (x, y, z) i j :=
      sum_congr rfl fun y _ => sum_rollNext nz fun z => g (x, y, z) i j
    have e3 := sum_rollPrev ny fun y => ∑ z ∈ range nz, g (x, y, z) i j
    have e4 := sum_rollNext ny fun y => ∑ z ∈ range nz, g (x, y, z) i j
    linear_combination e1 + e2 + e3 + e4
  simp only [pass_apply, sum_add_distrib, ← mul_sum, e]
  have := fac_cases nx ny nz g
  have h0 : fixFac nx ny nz g ≠ 0 := by intro h; rw [h] at this; linarith
  field_simp
  ring

theorem pass_between (nx ny nz : ℕ) (g : Cell → Matrix (Fin 3) (Fin 3) K) (x : ℕ) (i j : Fin 3) (lo hi : K)
    (h : ∀ y z, y < ny → z < nz → lo ≤ g (x, y, z) i j ∧ g (x, y, z) i j ≤ hi) (y z : ℕ) (hy : y < ny) (hz : z < nz) :
    lo ≤ fixPass nx ny nz g (x, y, z) i j ∧ fixPass nx ny nz g (x, y, z) i j ≤ hi := by
  have hf := fac_cases nx ny nz g
  have hp : (0 : K) < fixFac nx ny nz g := by linarith
  have e : fixPass nx ny nz g (x, y, z) i j = g (x, y, z) i j + 1 / (2 * fixFac nx ny nz g) * (nbSum ny nz g (x, y, z) i j - 4 * g (x, y, z) i j) := by
    rw [pass_apply]
    field_simp
    ring
  have ht : 0 ≤ 1 / (2 * fixFac nx ny nz g) := by positivity
  have ht2 : 1 / (2 * fixFac nx ny nz g) ≤ 1 / 20 := one_div_le_one_div_of_le (by norm_num) (by linarith)
  rw [e]
  generalize 1 / (2 * fixFac nx ny nz g) = t at *
  have h0 := h y z hy hz
  have h1 := h y _ hy (prev_lt hz)
  have h2 := h y _ hy (next_lt hz)
  have h3 := h _ z (prev_lt hy) hz
  have h4 := h _ z (next_lt hy) hz
  simp only [nbSum]
  constructor
  · nlinarith [mul_nonneg ht (sub_nonneg.2 h1.1), mul_nonneg ht (sub_nonneg.2 h2.1), mul_nonneg ht (sub_nonneg.2 h3.1), mul_nonneg ht (sub_nonneg.2 h4.1),
      mul_nonneg (sub_nonneg.2 ht2) (sub_nonneg.2 h0.1), sub_nonneg.2 h0.1]
  · nlinarith [mul_nonneg ht (sub_nonneg.2 h1.2), mul_nonneg ht (sub_nonneg.2 h2.2), mul_nonneg ht (sub_nonneg.2 h3.2), mul_nonneg ht (sub_nonneg.2 h4.2),
      mul_nonneg (sub_nonneg.2 ht2) (sub_nonneg.2 h0.2), sub_nonneg.2 h0.2]

/-! ## All passes -/

theorem TriPos.passes {nx ny nz : ℕ} : ∀ (n : ℕ) {g : Cell → Matrix (Fin 3) (Fin 3) K}, TriPos nx ny nz g → TriPos nx ny nz (fixPasses nx ny nz n g)
  | 0, _, h => h
  | n + 1, _, h => TriPos.passes n h.pass

theorem passes_sum (nx ny nz x : ℕ) (i j : Fin 3) : ∀ (n : ℕ) (g : Cell → Matrix (Fin 3) (Fin 3) K),
    ∑ y ∈ range ny, ∑ z ∈ range nz, fixPasses nx ny nz n g (x, y, z) i j = ∑ y ∈ range ny, ∑ z ∈ range nz, g (x, y, z) i j
  | 0, _ => rfl
  | n + 1, g => (passes_sum nx ny nz x i j n _).trans (pass_sum nx ny nz g x i j)

theorem passes_between (nx ny nz x : ℕ) (i j : Fin 3) (lo hi : K) : ∀ (n : ℕ) (g : Cell → Matrix (Fin 3) (Fin 3) K),
    (∀ y z, y < ny → z < nz → lo ≤ g (x, y, z) i j ∧ g (x, y, z) i j ≤ hi) →
      ∀ y z, y < ny → z < nz → lo ≤ fixPasses nx ny nz n g (x, y, z) i j ∧ fixPasses nx ny nz n g (x, y, z) i j ≤ hi
  | 0, _, h => h
  | n + 1, g, h => passes_between nx ny nz x i j lo hi n _ (pass_between nx ny nz g x i j lo hi h)

/-! ## The file -/

theorem fixName_ne (i j k l : Fin 3) (h : fixName i j = fixName k l) : i = k ∧ j = l := by
  revert i j k l; decide

theorem fixStore_con (g : Cell → Matrix (Fin 3) (Fin 3) K) (file : Dict (Cell → K)) (i j : Fin 3) : fixStore g file (fixName i j) = some fun c => g c i j := by
  fin_cases i <;> fin_cases j <;> simp [fixStore, fixPairs, fixName, fixName_, Dict.set, Function.update]

theorem fixStore_cov (g : Cell → Matrix (Fin 3) (Fin 3) K) (file : Dict (Cell → K)) (i j : Fin 3) : fixStore g file (fixName_ i j) = some fun c => fixInv g c i j := by
  fin_cases i <;> fin_cases j <;> simp [fixStore, fixPairs, fixName, fixName_, Dict.set, Function.update]

theorem fixStore_other (g : Cell → Matrix (Fin 3) (Fin 3) K) (file : Dict (Cell → K)) (k : String) (h : ∀ i j, k ≠ fixName i j ∧ k ≠ fixName_ i j) :
    fixStore g file k = file k := by
  have e : ∀ (l : List (Fin 3 × Fin 3)) (f : Dict (Cell → K)),
      l.foldl (fun f p => (f.set (fixName_ p.1 p.2) fun c => fixInv g c p.1 p.2).set (fixName p.1 p.2) fun c => g c p.1 p.2) f k = f k := by
    intro l
    induction l with
    | nil => exact fun _ => rfl
    | cons p l ih =>
      intro f
      rw [List.foldl_cons, ih]
      simp [Dict.set, Function.update, (h p.1 p.2).1, (h p.1 p.2).2]
  exact e _ _

theorem fixInput_apply (file : Dict (Cell → K)) (c : Cell) (i j : Fin 3) : fixInput file c i j = fileVal file (fixName i j) c := by
  unfold fixInput fileVal
  rfl

theorem GoodFile.tri {nx ny nz : ℕ} {file : Dict (Cell → K)} (h : GoodFile nx ny nz file) : TriPos nx ny nz (fixInput file) := by
  intro x y z hx hy hz
  refine ⟨⟨?_, ?_, ?_⟩, ?_⟩
  · simp [fixInput, fixName, h.g21]
  · simp [fixInput, fixName, h.g31]
  · simp [fixInput, fixName, h.g32]
  · exact h.pos x y z hx hy hz

theorem fixup_ok {nx ny nz : ℕ} {file : Dict (Cell → K)} (h : GoodFile nx ny nz file) :
    mmsFixup nx ny nz file = .ok ((fixStore (fixPasses nx ny nz 6 (fixInput file)) file).pop "J") := by
  obtain ⟨r, hr⟩ := h.R
  obtain ⟨z, hz⟩ := h.Z
  obtain ⟨j, hj⟩ := h.J
  obtain ⟨a, ha⟩ := h.g11
  have hJ : fixStore (fixPasses nx ny nz 6 (fixInput file)) file "J" = some j := by
    rw [fixStore_other _ _ _ (by decide), hj]
  unfold mmsFixup
  simp only [hr, hz, ha, hJ, h.tri.det, (TriPos.passes 6 h.tri).det, if_true]

theorem new_con {nx ny nz : ℕ} {file new : Dict (Cell → K)} (h : GoodFile nx ny nz file) (hn : mmsFixup nx ny nz file = .ok new) (i j : Fin 3) (c : Cell) :
    fileVal new (fixName i j) c = fixPasses nx ny nz 6 (fixInput file) c i j := by
  rw [fixup_ok h] at hn
  cases hn
  have : fixName i j ≠ "J" := by revert i j; decide
  simp [fileVal, Dict.pop, Function.update, this, fixStore_con]

theorem new_cov {nx ny nz : ℕ} {file new : Dict (Cell → K)} (h : GoodFile nx ny nz file) (hn : mmsFixup nx ny nz file = .ok new) (i j : Fin 3) (c : Cell) :
    fileVal new (fixName_ i j) c = fixInv (fixPasses nx ny nz 6 (fixInput file)) c i j := by
  rw [fixup_ok h] at hn
  cases hn
  have : fixName_ i j ≠ "J" := by revert i j; decide
  simp [fileVal, Dict.pop, Function.update, this, fixStore_cov]

theorem upper_name {k : String} (hk : k ∈ upperNames) : ∃ i j, k = fixName i j := by
  simp only [upperNames, List.mem_cons, List.not_mem_nil, or_false] at hk
  rcases hk with rfl | rfl | rfl | rfl | rfl | rfl
  exacts [⟨0, 0, rfl⟩, ⟨0, 1, rfl⟩, ⟨0, 2, rfl⟩, ⟨1, 1, rfl⟩, ⟨1, 2, rfl⟩, ⟨2, 2, rfl⟩]

/-- **C270.** `fixup` succeeds for every positive definite metric; the new one is positive definite again, every component keeps its sum over each x surface and stays between its bounds there;
`J` is removed, and all other variables are kept. -/
theorem C270_fixup (nx ny nz : ℕ) (file : Dict (Cell → K)) (h : GoodFile nx ny nz file) :
    ∃ new, mmsFixup nx ny nz file = .ok new ∧
      (∀ x y z, x < nx → y < ny → z < nz → MetricPos new (x, y, z)) ∧
      (∀ k ∈ upperNames, ∀ x, ∑ y ∈ range ny, ∑ z ∈ range nz, fileVal new k (x, y, z) = ∑ y ∈ range ny, ∑ z ∈ range nz, fileVal file k (x, y, z)) ∧
      (∀ k ∈ upperNames, ∀ x lo hi, (∀ y z, y < ny → z < nz → lo ≤ fileVal file k (x, y, z) ∧ fileVal file k (x, y, z) ≤ hi) →
        ∀ y z, y < ny → z < nz → lo ≤ fileVal new k (x, y, z) ∧ fileVal new k (x, y, z) ≤ hi) ∧
      new "J" = none ∧ ∀ k, k ≠ "J" → (∀ i j, k ≠ fixName i j ∧ k ≠ fixName_ i j) → new k = file k := by
  refine ⟨_, fixup_ok h, ?_, ?_, ?_, ?_, ?_⟩
  · intro x y z hx hy hz a b d hv
    have := (TriPos.passes 6 h.tri x y z hx hy hz).2 a b d hv
    simp only [← new_con h (fixup_ok h)] at this
    exact this
  · intro k hk x
    obtain ⟨i, j, rfl⟩ := upper_name hk
    simp only [new_con h (fixup_ok h)]
    rw [passes_sum]
    simp only [fixInput_apply]
  · intro k hk x lo hi hb y z hy hz
    obtain ⟨i, j, rfl⟩ := upper_name hk
    rw [new_con h (fixup_ok h)]
    exact passes_between nx ny nz x i j lo hi 6 _ (by simpa only [fixInput_apply] using hb) y z hy hz
  · simp [Dict.pop]
  · intro k hJ hk
    simp [Dict.pop, Function.update, hJ, fixStore_other _ _ _ hk]

theorem inv_entries (M : Matrix (Fin 3) (Fin 3) K) (l : M 1 0 = 0 ∧ M 2 0 = 0 ∧ M 2 1 = 0) (h0 : M 0 0 ≠ 0) (h1 : M 1 1 ≠ 0) (h2 : M 2 2 ≠ 0) :
    let V : Matrix (Fin 3) (Fin 3) K := (1 / M.det) • M.adjugate
    V 0 0 = 1 / M 0 0 ∧ V 0 1 = -M 0 1 / (M 0 0 * M 1 1) ∧ V 0 2 = (M 0 1 * M 1 2 - M 0 2 * M 1 1) / (M 0 0 * M 1 1 * M 2 2) ∧
      V 1 1 = 1 / M 1 1 ∧ V 1 2 = -M 1 2 / (M 1 1 * M 2 2) ∧ V 2 2 = 1 / M 2 2 := by
  obtain ⟨l1, l2, l3⟩ := l
  simp only [Matrix.smul_apply, smul_eq_mul, Matrix.adjugate_fin_three, Matrix.det_fin_three, l1, l2, l3]
  simp
  refine ⟨?_, ?_, ?_, ?_, ?_, ?_⟩ <;> field_simp

/-- **C271, the exact condition**: after `fixup` the two tensors are inverse to each other in a cell exactly if the components off the diagonal vanish there. -/
theorem C271_iff (nx ny nz : ℕ) (file new : Dict (Cell → K)) (h : GoodFile nx ny nz file) (hn : mmsFixup nx ny nz file = .ok new) (x y z : ℕ)
    (hx : x < nx) (hy : y < ny) (hz : z < nz) :
    MetricInverse new (x, y, z) ↔ fileVal new "g12" (x, y, z) = 0 ∧ fileVal new "g13" (x, y, z) = 0 ∧ fileVal new "g23" (x, y, z) = 0 := by
  obtain ⟨hl, hq⟩ := TriPos.passes 6 h.tri x y z hx hy hz
  obtain ⟨d0, d1, d2⟩ := quad_diag hq
  have cv := new_cov h hn
  have cn := new_con h hn
  have e11 := cn 0 0 (x, y, z)
  have e12 := cn 0 1 (x, y, z)
  have e13 := cn 0 2 (x, y, z)
  have e22 := cn 1 1 (x, y, z)
  have e23 := cn 1 2 (x, y, z)
  have e33 := cn 2 2 (x, y, z)
  have f11 := cv 0 0 (x, y, z)
  have f12 := cv 0 1 (x, y, z)
  have f13 := cv 0 2 (x, y, z)
  have f22 := cv 1 1 (x, y, z)
  have f23 := cv 1 2 (x, y, z)
  have f33 := cv 2 2 (x, y, z)
  have hi := inv_entries _ hl d0.ne' d1.ne' d2.ne'
  simp only [fixName, fixName_, fixInv] at e11 e12 e13 e22 e23 e33 f11 f12 f13 f22 f23 f33 hi
  obtain ⟨i1, i2, i3, i4, i5, i6⟩ := hi
  rw [i1] at f11
  rw [i2] at f12
  rw [i3] at f13
  rw [i4] at f22
  rw [i5] at f23
  rw [i6] at f33
  unfold MetricInverse
  rw [e11, e12, e13, e22, e23, e33, f11, f12, f13, f22, f23, f33]
  generalize fixPasses nx ny nz 6 (fixInput file) (x, y, z) = M at *
  constructor
  · intro e
    have e1 := congrFun (congrFun e 1) 1
    have e0 := congrFun (congrFun e 0) 0
    simp [symMatrix, Matrix.mul_apply, Fin.sum_univ_three] at e1 e0
    field_simp at e1 e0
    have k1 : M 0 1 ^ 2 * M 2 2 + M 1 2 ^ 2 * M 0 0 = 0 := by linarith
    have k2 : M 0 1 = 0 := by
      have := mul_nonneg (sq_nonneg (M 1 2)) d0.le
      have h3 := mul_nonneg (sq_nonneg (M 0 1)) d2.le
      have : M 0 1 ^ 2 * M 2 2 = 0 := by linarith
      exact pow_eq_zero_iff (two_ne_zero) |>.1 ((mul_eq_zero.1 this).resolve_right d2.ne')
    have k3 : M 1 2 = 0 := by
      rw [k2] at k1
      have : M 1 2 ^ 2 * M 0 0 = 0 := by linarith
      exact pow_eq_zero_iff (two_ne_zero) |>.1 ((mul_eq_zero.1 this).resolve_right d0.ne')
    refine ⟨k2, ?_, k3⟩
    rw [k2, k3] at e0
    have : M 0 2 ^ 2 * M 1 1 = 0 := by
      by_contra hc
      apply hc
      nlinarith
    exact pow_eq_zero_iff (two_ne_zero) |>.1 ((mul_eq_zero.1 this).resolve_right d1.ne')
  · rintro ⟨k1, k2, k3⟩
    rw [k1, k2, k3]
    ext i j
    have := d0.ne'
    have := d1.ne'
    have := d2.ne'
    fin_cases i <;> fin_cases j <;> simp [symMatrix, Matrix.mul_apply, Fin.sum_univ_three] <;> field_simp

/-- **C271 (partial).** The two tensors are inverse to each other on the x surfaces where all components off the diagonal are zero.  Missing: all other surfaces. -/
theorem C271_partial (nx ny nz : ℕ) (file new : Dict (Cell → K)) (h : GoodFile nx ny nz file) (hn : mmsFixup nx ny nz file = .ok new) (x : ℕ) (hx : x < nx)
    (h0 : ∀ y z, y < ny → z < nz → fileVal file "g12" (x, y, z) = 0 ∧ fileVal file "g13" (x, y, z) = 0 ∧ fileVal file "g23" (x, y, z) = 0) (y z : ℕ) (hy : y < ny) (hz : z < nz) :
    MetricInverse new (x, y, z) := by
  obtain ⟨new', hn', -, -, hb, -⟩ := C270_fixup nx ny nz file h
  rw [hn] at hn'
  cases hn'
  refine (C271_iff nx ny nz file new h hn x y z hx hy hz).2 ⟨?_, ?_, ?_⟩
  · have := hb "g12" (by simp [upperNames]) x 0 0 (fun y z hy hz => by rw [(h0 y z hy hz).1]; exact ⟨le_rfl, le_rfl⟩) y z hy hz
    exact le_antisymm this.2 this.1
  · have := hb "g13" (by simp [upperNames]) x 0 0 (fun y z hy hz => by rw [(h0 y z hy hz).2.1]; exact ⟨le_rfl, le_rfl⟩) y z hy hz
    exact le_antisymm this.2 this.1
  · have := hb "g23" (by simp [upperNames]) x 0 0 (fun y z hy hz => by rw [(h0 y z hy hz).2.2]; exact ⟨le_rfl, le_rfl⟩) y z hy hz
    exact le_antisymm this.2 this.1

/-- **C271 (refutation), for all files**: on every x surface where `g13` is positive the two tensors are inverse to each other nowhere. -/
theorem C271_fails_all (nx ny nz : ℕ) (file new : Dict (Cell → K)) (h : GoodFile nx ny nz file) (hn : mmsFixup nx ny nz file = .ok new) (x : ℕ) (hx : x < nx)
    (lo : K) (hlo : 0 < lo) (hg : ∀ y z, y < ny → z < nz → lo ≤ fileVal file "g13" (x, y, z)) (y z : ℕ) (hy : y < ny) (hz : z < nz) :
    ¬ MetricInverse new (x, y, z) := by
  intro hi
  have h13 := ((C271_iff nx ny nz file new h hn x y z hx hy hz).1 hi).2.1
  have e := new_con h hn 0 2 (x, y, z)
  simp only [fixName] at e
  have hsup : ∃ hi, ∀ y z, y < ny → z < nz → fileVal file "g13" (x, y, z) ≤ hi := by
    refine ⟨∑ y ∈ range ny, ∑ z ∈ range nz, fileVal file "g13" (x, y, z), fun y z hy hz => ?_⟩
    have hnn : ∀ y z, y < ny → z < nz → 0 ≤ fileVal file "g13" (x, y, z) := fun y z hy hz => hlo.le.trans (hg y z hy hz)
    refine (single_le_sum (f := fun z => fileVal file "g13" (x, y, z)) (fun z hz => hnn y z hy (mem_range.1 hz)) (mem_range.2 hz)).trans ?_
    exact single_le_sum (f := fun y => ∑ z ∈ range nz, fileVal file "g13" (x, y, z))
      (fun y hy => sum_nonneg fun z hz => hnn y z (mem_range.1 hy) (mem_range.1 hz)) (mem_range.2 hy)
  obtain ⟨hi', hs⟩ := hsup
  have := (passes_between nx ny nz x 0 2 lo hi' 6 (fixInput file) (fun y z hy hz => ⟨hg y z hy hz, hs y z hy hz⟩) y z hy hz).1
  rw [← e, h13] at this
  linarith

/-- A file with one x surface: the components are constant, and `g13` is not zero. -/
def skewFile : Dict (Cell → ℚ) := fun k =>
  if k = "g11" ∨ k = "g22" ∨ k = "g33" then some fun _ => 1 else if k = "g13" then some fun _ => 1 / 2 else if k = "R" ∨ k = "Z" ∨ k = "J" then some fun _ => 1 else none

/-- The hypotheses are met by it, for all sizes. -/
theorem skewFile_good (nx ny nz : ℕ) : GoodFile nx ny nz skewFile where
  R := ⟨_, rfl⟩
  Z := ⟨_, rfl⟩
  J := ⟨_, rfl⟩
  g11 := ⟨_, rfl⟩
  g21 := rfl
  g31 := rfl
  g32 := rfl
  pos := by
    intro x y z _ _ _ a b d hv
    have e : quadAt (fileVal skewFile "g11" (x, y, z)) (fileVal skewFile "g12" (x, y, z)) (fileVal skewFile "g13" (x, y, z)) (fileVal skewFile "g22" (x, y, z))
        (fileVal skewFile "g23" (x, y, z)) (fileVal skewFile "g33" (x, y, z)) a b d = 1 / 2 * a ^ 2 + b ^ 2 + 1 / 2 * d ^ 2 + 1 / 2 * (a + d) ^ 2 := by
      simp [quadAt, fileVal, skewFile]
      ring
    rw [e]
    by_contra hc
    push Not at hc
    have h1 := sq_nonneg a
    have h2 := sq_nonneg b
    have h3 := sq_nonneg d
    have h4 := sq_nonneg (a + d)
    exact hv ⟨pow_eq_zero_iff two_ne_zero |>.1 (by linarith), pow_eq_zero_iff two_ne_zero |>.1 (by linarith), pow_eq_zero_iff two_ne_zero |>.1 (by linarith)⟩

/-- **C271 (refutation).** There are positive definite metrics that are not inverse to their covariant components after `fixup`. -/
theorem C271_fails : ∃ (file new : Dict (Cell → ℚ)), GoodFile 1 1 1 file ∧ mmsFixup 1 1 1 file = .ok new ∧ ¬ MetricInverse new (0, 0, 0) := by
  obtain ⟨new, hn, -⟩ := C270_fixup 1 1 1 skewFile (skewFile_good 1 1 1)
  exact ⟨skewFile, new, skewFile_good 1 1 1, hn, C271_fails_all 1 1 1 skewFile new (skewFile_good 1 1 1) hn 0 (by norm_num) (1 / 2) (by norm_num)
    (fun y z _ _ => by simp [fileVal, skewFile]) 0 0 (by norm_num) (by norm_num)⟩

end Zoidberg
