import Verif.Model.Field
import Mathlib.Analysis.SpecialFunctions.Gamma.Basic
import Mathlib.Analysis.SpecialFunctions.Log.Basic
import Mathlib.Analysis.Calculus.Deriv.Basic

/-!
# Model of `DommaschkPotentials` (`/repo/zoidberg/field.py:539-880`)

The sympy expressions are real functions of `R`, `phi` and `Z`, for positive `R`; `diff` is the derivative.
-/

namespace Zoidberg

open Real Finset

/-- `alpha` (field.py:654-659, 715-720). -/
noncomputable def dmAlpha (n : ℤ) (b : ℕ) : ℝ :=
  if n ≥ 0 then (-1) ^ n / (Gamma (b + n + 1) * Gamma (n + 1) * 2 ^ (2 * n + b)) else 0

/-- `alpha_st` (field.py:661-662, 722-723). -/
noncomputable def dmAlphaSt (n : ℤ) (b : ℕ) : ℝ := dmAlpha n b * (2 * n + b)

/-- `beta` (field.py:664-669, 725-730). -/
noncomputable def dmBeta (n : ℤ) (b : ℕ) : ℝ :=
  if n ≥ 0 ∧ n < b then Gamma (b - n) / (Gamma (n + 1) * 2 ^ (2 * n - b + 1)) else 0

/-- `beta_st` (field.py:671-672, 732-733). -/
noncomputable def dmBetaSt (n : ℤ) (b : ℕ) : ℝ := dmBeta n b * (2 * n - b)

/-- `delta` (field.py:674-681, 735-742). -/
noncomputable def dmDelta (n : ℤ) (b : ℕ) : ℝ :=
  if n > 0 then dmAlpha n b * (∑ i ∈ range n.toNat, (1 / ((i : ℝ) + 1) + 1 / (b + ((i : ℝ) + 1)))) / 2 else 0

/-- `delta_st` (field.py:683-684). -/
noncomputable def dmDeltaSt (n : ℤ) (b : ℕ) : ℝ := dmDelta n b * (2 * n + b)

/-- `CD` (field.py:642-701). -/
noncomputable def dmCD (m k : ℕ) (R : ℝ) : ℝ :=
  ∑ j ∈ range (k + 1),
    (-(dmAlpha j m * (dmAlphaSt ((k : ℤ) - m - j) m * log R + dmDeltaSt ((k : ℤ) - m - j) m - dmAlpha ((k : ℤ) - m - j) m)
        - dmDelta j m * dmAlphaSt ((k : ℤ) - m - j) m + dmAlpha j m * dmBetaSt ((k : ℤ) - j) m) * R ^ (2 * (j : ℤ) + m)
      + dmBeta j m * dmAlphaSt ((k : ℤ) - j) m * R ^ (2 * (j : ℤ) - m))

/-- `CN` (field.py:703-754). -/
noncomputable def dmCN (m k : ℕ) (R : ℝ) : ℝ :=
  ∑ j ∈ range (k + 1),
    ((dmAlpha j m * (dmAlpha ((k : ℤ) - m - j) m * log R + dmDelta ((k : ℤ) - m - j) m)
        - dmDelta j m * dmAlpha ((k : ℤ) - m - j) m + dmAlpha j m * dmBeta ((k : ℤ) - j) m) * R ^ (2 * (j : ℤ) + m)
      - dmBeta j m * dmAlpha ((k : ℤ) - j) m * R ^ (2 * (j : ℤ) - m))

/-- `Z ** e / factorial(e)` of sympy (field.py:772, 792): the factorial of a negative number is infinite. -/
noncomputable def dmZ (e : ℤ) (Z : ℝ) : ℝ := if e < 0 then 0 else Z ^ e / (e.toNat.factorial : ℝ)

/-- `int(v / 2) + 1` (field.py:769, 789): the number of terms; `int` rounds towards zero. -/
def dmTerms (v : ℤ) : ℕ := (v.tdiv 2 + 1).toNat

/-- `D` (field.py:756-774). -/
noncomputable def dmD (n : ℕ) (v : ℤ) (R Z : ℝ) : ℝ := ∑ k ∈ range (dmTerms v), dmZ (v - 2 * k) Z * dmCD n k R

/-- `N` (field.py:776-794). -/
noncomputable def dmN (n : ℕ) (v : ℤ) (R Z : ℝ) : ℝ := ∑ k ∈ range (dmTerms v), dmZ (v - 2 * k) Z * dmCN n k R

/-- The coefficients of one mode, the last index of `A` (field.py:796-812, 874-877). -/
structure DmMode where
  a : ℝ
  b : ℝ
  c : ℝ
  d : ℝ

/-- `V` (field.py:796-813). -/
noncomputable def dmV (n m : ℕ) (q : DmMode) (R phi Z : ℝ) : ℝ :=
  (q.a * cos (n * phi) + q.b * sin (n * phi)) * dmD n m R Z + (q.c * cos (n * phi) + q.d * sin (n * phi)) * dmN n ((m : ℤ) - 1) R Z

open Classical in
/-- `U` (field.py:815-832), for `A` of the shape `(M, L, 4)`. -/
noncomputable def dmU (M L : ℕ) (A : ℕ → ℕ → DmMode) (R phi Z : ℝ) : ℝ :=
  phi + ∑ i ∈ range M, ∑ j ∈ range L,
    if (A i j).a ≠ 0 ∨ (A i j).b ≠ 0 ∨ (A i j).c ≠ 0 ∨ (A i j).d ≠ 0 then dmV i j (A i j) R phi Z else 0

/-- `self.P` (field.py:574-578). -/
noncomputable def dmP (M L : ℕ) (A : ℕ → ℕ → DmMode) (R0 R phi Z : ℝ) : ℝ := dmU M L A (R / R0) phi (Z / R0)

/-- `Bxf` (field.py:592, 598). -/
noncomputable def dmBx (M L : ℕ) (A : ℕ → ℕ → DmMode) (R0 R phi Z : ℝ) : ℝ := R0 * deriv (fun t => dmP M L A R0 t phi Z) R

/-- `Byf` (field.py:593, 599). -/
noncomputable def dmBy (M L : ℕ) (A : ℕ → ℕ → DmMode) (R0 R phi Z : ℝ) : ℝ := R0 / R * deriv (fun t => dmP M L A R0 R t Z) phi

/-- `Bzf` (field.py:594, 600). -/
noncomputable def dmBz (M L : ℕ) (A : ℕ → ℕ → DmMode) (R0 R phi Z : ℝ) : ℝ := R0 * deriv (fun t => dmP M L A R0 R phi t) Z

/-- `DommaschkPotentials` (field.py:559-639), where `Byf(R_0, 0, 0)` is not zero. -/
noncomputable def dommaschk (M L : ℕ) (A : ℕ → ℕ → DmMode) (R0 B0 : ℝ) : FieldFns ℝ :=
  ⟨fun x z phi => dmBx M L A R0 x phi z / dmBy M L A R0 R0 0 0 * B0, fun x z phi => dmBy M L A R0 x phi z / dmBy M L A R0 R0 0 0 * B0,
    fun x z phi => dmBz M L A R0 x phi z / dmBy M L A R0 R0 0 0 * B0, some fun x _ _ => x⟩

/-- `V_hat` (field.py:834-853). -/
noncomputable def dmVhat (n m : ℕ) (q : DmMode) (R phi Z : ℝ) : ℝ :=
  (q.a * cos (n * phi - π / 2) + q.b * sin (n * phi - π / 2)) * dmD n m R Z +
    (q.c * cos (n * phi - π / 2) + q.d * sin (n * phi - π / 2)) * dmN n ((m : ℤ) - 1) R Z

/-- `Piecewise((self.phi, i == 0), (i_inv, i > 0))` (field.py:869-877); sympy drops the branch with nan. -/
noncomputable def dmFactor (i : ℕ) (phi : ℝ) : ℝ := if i = 0 then phi else 1 / (i : ℝ)

open Classical in
/-- `U_hat` (field.py:855-879), for `A` of the shape `(M, L, 4)`. -/
noncomputable def dmUhat (M L : ℕ) (A : ℕ → ℕ → DmMode) (R phi Z : ℝ) : ℝ :=
  ∑ i ∈ range M, ∑ j ∈ range L,
    if (A i j).a ≠ 0 ∨ (A i j).b ≠ 0 ∨ (A i j).c ≠ 0 ∨ (A i j).d ≠ 0 then dmVhat i j (A i j) R phi Z * dmFactor i phi else 0

/-- `self.P_hat` (field.py:579-583). -/
noncomputable def dmPhat (M L : ℕ) (A : ℕ → ℕ → DmMode) (R0 R phi Z : ℝ) : ℝ := dmUhat M L A (R / R0) phi (Z / R0)

/-- `S` (field.py:585-590). -/
noncomputable def dmS (M L : ℕ) (A : ℕ → ℕ → DmMode) (R0 R phi Z : ℝ) : ℝ :=
  1 / 2 * (log (R / R0) ^ 2 + (Z / R0) ^ 2) -
    R / R0 * (log (R / R0) * R0 * deriv (fun t => dmPhat M L A R0 t phi Z) R + Z * R / R0 * deriv (fun t => dmPhat M L A R0 R phi t) Z)

/-- `Sfunc` (field.py:611-624). -/
noncomputable def dmSfunc (M L : ℕ) (A : ℕ → ℕ → DmMode) (R0 x z y : ℝ) : ℝ := dmS M L A R0 x y z

end Zoidberg
