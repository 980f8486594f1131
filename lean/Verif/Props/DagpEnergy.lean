import Verif.Props.Dagp
import Mathlib.Algebra.Order.BigOperators.Group.Finset
import Mathlib.Tactic.Linarith
import Mathlib.Tactic.FieldSimp
import Mathlib.Tactic.Positivity
import Mathlib.Tactic.FinCases
import Mathlib.Data.Fin.VecNotation
import Mathlib.Algebra.BigOperators.Fin
import Mathlib.Data.Fintype.BigOperators
import Mathlib.Tactic.LinearCombination

/-!
# C277, C278: is the discrete Laplacian symmetric, does it lose energy, and does a step of diffusion make new extremes?
-/

set_option linter.unusedSectionVars false

namespace Zoidberg

open Finset

variable {K : Type} [Field K] [LinearOrder K] [IsStrictOrderedRing K] [FloorRing K]

/-! ### C277 -/

/-- Fields that vanish in the first and in the last row. -/
def ZeroEnds (nx : ℕ) (f : ℕ → ℕ → K) : Prop := ∀ k, f 0 k = 0 ∧ f (nx - 1) k = 0

/-- What the statement says: the operator is symmetric, and the energy of a field never grows. -/
def Dissipates (nx nz : ℕ) (cX cZ : ℕ → ℕ → K × K) : Prop :=
  (∀ f g : ℕ → ℕ → K, ZeroEnds nx f → ZeroEnds nx g →
    ∑ x ∈ range nx, ∑ k ∈ range nz, g x k * dagpCleared nx nz cX cZ f x k = ∑ x ∈ range nx, ∑ k ∈ range nz, f x k * dagpCleared nx nz cX cZ g x k) ∧
  ∀ f : ℕ → ℕ → K, ZeroEnds nx f → ∑ x ∈ range nx, ∑ k ∈ range nz, f x k * dagpCleared nx nz cX cZ f x k ≤ 0

theorem roll_back {nz k : ℕ} (hk : k < nz) : ((k + nz - 1) % nz + 1) % nz = k := by
  rcases Nat.eq_zero_or_pos k with h0 | h0
  · subst h0
    rw [show 0 + nz - 1 = nz - 1 by omega, Nat.mod_eq_of_lt (show nz - 1 < nz by omega), show nz - 1 + 1 = nz by omega, Nat.mod_self]
  · rw [show k + nz - 1 = (k - 1) + nz by omega, Nat.add_mod_right, Nat.mod_eq_of_lt (show k - 1 < nz by omega), show k - 1 + 1 = k by omega, Nat.mod_eq_of_lt hk]

/-- **C277.** For every grid and all fields: summed against another field, the operator is minus the sum over all faces of the flux times the difference across the face. -/
theorem C277_parts (nx nz : ℕ) (cX cZ : ℕ → ℕ → K × K) (f g : ℕ → ℕ → K) :
    ∑ x ∈ range nx, ∑ k ∈ range nz, g x k * dagpResult nx nz cX cZ f x k =
      -(∑ x ∈ range (nx - 1), ∑ k ∈ range nz, fluxX nz cX f x k * (g (x + 1) k - g x k)) -
        ∑ x ∈ range (nx - 2), ∑ k ∈ range nz, fluxZ nz cZ f x k * (g (x + 1) ((k + 1) % nz) - g (x + 1) k) := by
  have hX : ∑ x ∈ range nx, ∑ k ∈ range nz, (g x k * (if x + 1 < nx then fluxX nz cX f x k else 0) - g x k * (if 1 ≤ x then fluxX nz cX f (x - 1) k else 0)) =
      -∑ x ∈ range (nx - 1), ∑ k ∈ range nz, fluxX nz cX f x k * (g (x + 1) k - g x k) := by
    simp only [sum_sub_distrib]
    cases nx with
    | zero => simp
    | succ m =>
      rw [sum_range_succ, sum_range_succ' (fun x => ∑ k ∈ range nz, g x k * (if 1 ≤ x then fluxX nz cX f (x - 1) k else 0))]
      simp only [show ¬ m + 1 < m + 1 by omega, if_false, mul_zero, sum_const_zero, add_zero, show ¬ 1 ≤ 0 by omega, Nat.add_sub_cancel]
      rw [← sum_sub_distrib, ← sum_neg_distrib]
      refine sum_congr rfl fun x hx => ?_
      rw [← sum_sub_distrib, ← sum_neg_distrib]
      refine sum_congr rfl fun k _ => ?_
      rw [mem_range] at hx
      rw [if_pos (by omega), if_pos (by omega)]
      ring
  have hZ : ∑ x ∈ range nx, ∑ k ∈ range nz, g x k * (if 1 ≤ x ∧ x + 1 < nx then fluxZ nz cZ f (x - 1) k - fluxZ nz cZ f (x - 1) ((k + nz - 1) % nz) else 0) =
      -∑ x ∈ range (nx - 2), ∑ k ∈ range nz, fluxZ nz cZ f x k * (g (x + 1) ((k + 1) % nz) - g (x + 1) k) := by
    have hrow : ∀ x, ∑ k ∈ range nz, g (x + 1) k * (fluxZ nz cZ f x k - fluxZ nz cZ f x ((k + nz - 1) % nz)) = -∑ k ∈ range nz, fluxZ nz cZ f x k * (g (x + 1) ((k + 1) % nz) - g (x + 1) k) := by
      intro x
      have h1 := sum_roll nz fun k => fluxZ nz cZ f x k * g (x + 1) ((k + 1) % nz)
      have h2 : ∑ k ∈ range nz, fluxZ nz cZ f x ((k + nz - 1) % nz) * g (x + 1) (((k + nz - 1) % nz + 1) % nz) = ∑ k ∈ range nz, g (x + 1) k * fluxZ nz cZ f x ((k + nz - 1) % nz) :=
        sum_congr rfl fun k hk => by rw [roll_back (mem_range.mp hk), mul_comm]
      simp only [mul_sub, sum_sub_distrib]
      rw [← h2, h1, sum_congr rfl fun k (_ : k ∈ range nz) => mul_comm (g (x + 1) k) (fluxZ nz cZ f x k)]
      ring
    match nx with
    | 0 => simp
    | 1 => simp
    | m + 2 =>
      rw [sum_range_succ, sum_range_succ']
      simp only [show ¬ (1 ≤ m + 1 ∧ m + 1 + 1 < m + 2) by omega, show ¬ (1 ≤ 0 ∧ 0 + 1 < m + 2) by omega, if_false, mul_zero, sum_const_zero, add_zero, Nat.add_sub_cancel]
      rw [← sum_neg_distrib]
      refine sum_congr rfl fun x hx => ?_
      rw [mem_range] at hx
      rw [← hrow]
      refine sum_congr rfl fun k _ => ?_
      rw [if_pos (by omega)]
  unfold dagpResult
  simp only [mul_add, mul_sub, sum_add_distrib]
  simp only [← mul_sub]
  simp only [mul_sub] at hX
  simp only [← mul_sub] at hX
  rw [hX, hZ]
  ring

/-- Clearing the boundary rows does not matter for fields that vanish there. -/
theorem cleared_energy (nx nz : ℕ) (cX cZ : ℕ → ℕ → K × K) (f g : ℕ → ℕ → K) (hg : ZeroEnds nx g) :
    ∑ x ∈ range nx, ∑ k ∈ range nz, g x k * dagpCleared nx nz cX cZ f x k = ∑ x ∈ range nx, ∑ k ∈ range nz, g x k * dagpResult nx nz cX cZ f x k := by
  refine sum_congr rfl fun x _ => sum_congr rfl fun k _ => ?_
  unfold dagpCleared
  split_ifs with h
  · rcases h with h | h
    · rw [h, (hg k).1, zero_mul, zero_mul]
    · have : g x k = 0 := by rw [show x = nx - 1 by omega]; exact (hg k).2
      rw [this, zero_mul, zero_mul]
  · rfl

/-- The coefficients of a grid as arrays. -/
def gridX (sq : K → K) (n : ℕ) (slab : Bool) (g : DagpPol K) (i k : ℕ) : K × K := coefOf (coefX sq n slab g i k)

/-- The same for the Z faces. -/
def gridZ (sq : K → K) (n : ℕ) (slab : Bool) (g : DagpPol K) (i k : ℕ) : K × K := coefOf (coefZ sq n slab g i k)

/-- Radii are positive at the faces and in the cells, or the geometry is that of a slab. -/
def RadiiPos (slab : Bool) (g : RectPol K) : Prop := 0 < g.dR ∧ (slab = true ∨ 0 ≤ g.Rmin)

theorem cylW_pos (slab : Bool) (g : RectPol K) (h : RadiiPos slab g) (t : K) (ht : 0 < t) : 0 < cylW slab (g.Rmin + t * g.dR) := by
  unfold cylW
  rcases h with ⟨h1, h2 | h2⟩
  · rw [if_pos h2]; exact one_pos
  · split_ifs
    · exact one_pos
    · have := mul_pos ht h1; linarith

/-- **C277.** On a rectangular grid the energy is a sum of squares over all faces. -/
theorem C277_squares (g : RectPol K) (sq : K → K) (hsq : SqrtPos sq) (n : ℕ) (hn : 2 ≤ n) (slab : Bool) (hR : g.dR ≠ 0) (hZ : 0 < g.dZ) (hz : 3 ≤ g.nz) (f h : ℕ → ℕ → K) :
    ∑ x ∈ range g.nx, ∑ k ∈ range g.nz, h x k * dagpResult g.nx g.nz (gridX sq n slab g.dagpPol) (gridZ sq n slab g.dagpPol) f x k =
      -(∑ x ∈ range (g.nx - 1), ∑ k ∈ range g.nz, cylW slab (g.Rmin + ((x : K) + 1 / 2) * g.dR) * g.dZ / g.dR * ((f (x + 1) k - f x k) * (h (x + 1) k - h x k))) -
        ∑ x ∈ range (g.nx - 2), ∑ k ∈ range g.nz, cylW slab (g.Rmin + ((x : K) + 1) * g.dR) * g.dR / g.dZ *
          ((f (x + 1) ((k + 1) % g.nz) - f (x + 1) k) * (h (x + 1) ((k + 1) % g.nz) - h (x + 1) k)) := by
  have hc := C155_coefs_partial g sq hsq n hn slab hR hZ hz
  rw [C277_parts]
  congr 1
  · congr 1
    refine sum_congr rfl fun x hx => sum_congr rfl fun k hk => ?_
    rw [mem_range] at hx hk
    unfold fluxX gridX
    rw [hc.1 x k (by omega) hk]
    unfold coefOf
    dsimp only
    ring
  · refine sum_congr rfl fun x hx => sum_congr rfl fun k hk => ?_
    rw [mem_range] at hx hk
    unfold fluxZ gridZ
    rw [hc.2 x k (by omega) hk]
    unfold coefOf
    dsimp only
    ring

/-- **C277 (partial).** Rectangular grids with at least three points in z and positive radii dissipate.  Missing: other grids, for which the operator need not even be
symmetric (`C277_fails`). -/
theorem C277_rect_partial (g : RectPol K) (sq : K → K) (hsq : SqrtPos sq) (n : ℕ) (hn : 2 ≤ n) (slab : Bool) (hr : RadiiPos slab g) (hZ : 0 < g.dZ) (hz : 3 ≤ g.nz) :
    Dissipates g.nx g.nz (gridX sq n slab g.dagpPol) (gridZ sq n slab g.dagpPol) := by
  constructor
  · intro f h hf hh
    rw [cleared_energy _ _ _ _ _ _ hh, cleared_energy _ _ _ _ _ _ hf, C277_squares g sq hsq n hn slab hr.1.ne' hZ hz, C277_squares g sq hsq n hn slab hr.1.ne' hZ hz]
    simp only [mul_comm (f _ _ - f _ _)]
  · intro f hf
    rw [cleared_energy _ _ _ _ _ _ hf, C277_squares g sq hsq n hn slab hr.1.ne' hZ hz]
    have h1 : 0 ≤ ∑ x ∈ range (g.nx - 1), ∑ k ∈ range g.nz, cylW slab (g.Rmin + ((x : K) + 1 / 2) * g.dR) * g.dZ / g.dR * ((f (x + 1) k - f x k) * (f (x + 1) k - f x k)) :=
      sum_nonneg fun x _ => sum_nonneg fun k _ =>
        mul_nonneg (div_nonneg (mul_nonneg (cylW_pos slab g hr _ (by positivity)).le hZ.le) hr.1.le) (mul_self_nonneg _)
    have h2 : 0 ≤ ∑ x ∈ range (g.nx - 2), ∑ k ∈ range g.nz, cylW slab (g.Rmin + ((x : K) + 1) * g.dR) * g.dR / g.dZ *
          ((f (x + 1) ((k + 1) % g.nz) - f (x + 1) k) * (f (x + 1) ((k + 1) % g.nz) - f (x + 1) k)) :=
      sum_nonneg fun x _ => sum_nonneg fun k _ =>
        mul_nonneg (div_nonneg (mul_nonneg (cylW_pos slab g hr _ (by positivity)).le hr.1.le) hZ.le) (mul_self_nonneg _)
    linarith

/-- **C277.** Then the energy is lost strictly, unless the field is zero in all cells. -/
theorem C277_strict (g : RectPol K) (sq : K → K) (hsq : SqrtPos sq) (n : ℕ) (hn : 2 ≤ n) (slab : Bool) (hr : RadiiPos slab g) (hZ : 0 < g.dZ) (hz : 3 ≤ g.nz)
    (f : ℕ → ℕ → K) (hf : ZeroEnds g.nx f) :
    ∑ x ∈ range g.nx, ∑ k ∈ range g.nz, f x k * dagpCleared g.nx g.nz (gridX sq n slab g.dagpPol) (gridZ sq n slab g.dagpPol) f x k = 0 ↔ ∀ x k, x < g.nx → k < g.nz → f x k = 0 := by
  constructor
  · intro h0
    rw [cleared_energy _ _ _ _ _ _ hf, C277_squares g sq hsq n hn slab hr.1.ne' hZ hz] at h0
    have hnn : ∀ x : ℕ, ∀ k : ℕ, 0 ≤ cylW slab (g.Rmin + ((x : K) + 1 / 2) * g.dR) * g.dZ / g.dR * ((f (x + 1) k - f x k) * (f (x + 1) k - f x k)) := fun x k =>
        mul_nonneg (div_nonneg (mul_nonneg (cylW_pos slab g hr _ (by positivity)).le hZ.le) hr.1.le) (mul_self_nonneg _)
    have h1 : 0 ≤ ∑ x ∈ range (g.nx - 1), ∑ k ∈ range g.nz, cylW slab (g.Rmin + ((x : K) + 1 / 2) * g.dR) * g.dZ / g.dR * ((f (x + 1) k - f x k) * (f (x + 1) k - f x k)) :=
      sum_nonneg fun x _ => sum_nonneg fun k _ => hnn x k
    have h2 : 0 ≤ ∑ x ∈ range (g.nx - 2), ∑ k ∈ range g.nz, cylW slab (g.Rmin + ((x : K) + 1) * g.dR) * g.dR / g.dZ *
          ((f (x + 1) ((k + 1) % g.nz) - f (x + 1) k) * (f (x + 1) ((k + 1) % g.nz) - f (x + 1) k)) :=
      sum_nonneg fun x _ => sum_nonneg fun k _ =>
        mul_nonneg (div_nonneg (mul_nonneg (cylW_pos slab g hr _ (by positivity)).le hr.1.le) hZ.le) (mul_self_nonneg _)
    have h3 := le_antisymm (show _ ≤ (0 : K) by linarith) h1
    have h4 : ∀ x < g.nx - 1, ∀ k < g.nz, f (x + 1) k = f x k := by
      intro x hx k hk
      rw [sum_eq_zero_iff_of_nonneg fun x _ => sum_nonneg fun k _ => hnn x k] at h3
      have h5 := h3 x (mem_range.mpr hx)
      rw [sum_eq_zero_iff_of_nonneg fun k _ => hnn x k] at h5
      have h6 := h5 k (mem_range.mpr hk)
      have hp : 0 < cylW slab (g.Rmin + ((x : K) + 1 / 2) * g.dR) * g.dZ / g.dR := div_pos (mul_pos (cylW_pos slab g hr _ (by positivity)) hZ) hr.1
      rcases mul_eq_zero.mp h6 with h7 | h7
      · exact absurd h7 hp.ne'
      · linarith [mul_self_eq_zero.mp h7]
    intro x
    induction x with
    | zero => intro k _ _; exact (hf k).1
    | succ x ih => intro k hx hk; rw [h4 x (by omega) k hk]; exact ih k (by omega) hk
  · intro h
    refine sum_eq_zero fun x hx => sum_eq_zero fun k hk => ?_
    rw [h x k (mem_range.mp hx) (mem_range.mp hk), zero_mul]

/-! ### Coefficients do not depend on the square root -/

theorem pieceLength_id (sq : K → K) (hsq : SqrtPos sq) (rot : K × K → K × K) (p q : K × K) (h : pieceLength id rot p q ≠ 0) : pieceLength sq rot p q ≠ 0 := by
  unfold pieceLength at h ⊢
  dsimp only [id] at h ⊢
  exact hsq _ (lt_of_le_of_ne (by positivity) (Ne.symm h))

theorem faceX_sqrt (sq : K → K) (hsq : SqrtPos sq) (slab : Bool) (l : List (K × K)) (r : K × K) (h : faceVector id slab rotX l = some r) : faceVector sq slab rotX l = some r := by
  obtain ⟨rfl, hl⟩ := faceVector_some id slab rotX l r h
  unfold faceVector
  rw [if_neg]
  · congr 1
    refine pieceSum_congr _ _ l fun s hs => ?_
    rw [pieceVector_X sq slab _ _ (pieceLength_id sq hsq _ _ _ (hl s hs)), pieceVector_X id slab _ _ (hl s hs)]
  · rw [List.any_eq_true]
    rintro ⟨s, hs, h0⟩
    exact pieceLength_id sq hsq _ _ _ (hl s hs) (by simpa using h0)

theorem faceZ_sqrt (sq : K → K) (hsq : SqrtPos sq) (slab : Bool) (l : List (K × K)) (r : K × K) (h : faceVector id slab rotZ l = some r) : faceVector sq slab rotZ l = some r := by
  obtain ⟨rfl, hl⟩ := faceVector_some id slab rotZ l r h
  unfold faceVector
  rw [if_neg]
  · congr 1
    refine pieceSum_congr _ _ l fun s hs => ?_
    rw [pieceVector_Z sq slab _ _ (pieceLength_id sq hsq _ _ _ (hl s hs)), pieceVector_Z id slab _ _ (hl s hs)]
  · rw [List.any_eq_true]
    rintro ⟨s, hs, h0⟩
    exact pieceLength_id sq hsq _ _ _ (hl s hs) (by simpa using h0)

theorem coefX_sqrt (sq : K → K) (hsq : SqrtPos sq) (n : ℕ) (slab : Bool) (g : DagpPol K) (i k : ℕ) (v : K × K) (h : coefX id n slab g i k = .ok (some v)) : coefX sq n slab g i k = .ok (some v) := by
  unfold coefX at h ⊢
  cases hf : faceVector id slab rotX (xFace n g i k) with
  | none => rw [hf] at h; unfold solve2 at h; dsimp only at h; split_ifs at h; cases h
  | some r => rw [faceX_sqrt sq hsq slab _ r hf]; rw [hf] at h; exact h

theorem coefZ_sqrt (sq : K → K) (hsq : SqrtPos sq) (n : ℕ) (slab : Bool) (g : DagpPol K) (i k : ℕ) (v : K × K) (h : coefZ id n slab g i k = .ok (some v)) : coefZ sq n slab g i k = .ok (some v) := by
  unfold coefZ at h ⊢
  cases hf : faceVector id slab rotZ (zFace n g i k) with
  | none => rw [hf] at h; unfold solve2 at h; dsimp only at h; split_ifs at h; cases h
  | some r => rw [faceZ_sqrt sq hsq slab _ r hf]; rw [hf] at h; exact h

theorem result_congr (nx nz : ℕ) (cX cX' cZ cZ' : ℕ → ℕ → K × K) (hX : ∀ i k, i + 1 < nx → k < nz → cX i k = cX' i k) (hZ : ∀ i k, i + 2 < nx → k < nz → cZ i k = cZ' i k)
    (f : ℕ → ℕ → K) (x k : ℕ) (hx : x < nx) (hk : k < nz) : dagpResult nx nz cX cZ f x k = dagpResult nx nz cX' cZ' f x k := by
  have hm : (k + nz - 1) % nz < nz := Nat.mod_lt _ (by omega)
  unfold dagpResult
  congr 1
  · congr 1
    · split_ifs with h
      · unfold fluxX; rw [hX x k h hk]
      · rfl
    · split_ifs with h
      · unfold fluxX; rw [hX (x - 1) k (by omega) hk]
      · rfl
  · split_ifs with h
    · unfold fluxZ; rw [hZ (x - 1) k (by omega) hk, hZ (x - 1) _ (by omega) hm]
    · rfl

/-- Nested squares, turned the other way than `exSquares`, so that volumes are positive. -/
def exDiamonds : DagpPol ℚ :=
  ⟨4, 8, fun x z => (10 + (x + 1) * exWave z, -((x + 1) * exWave (z + 2))), fun x z => 10 + ((x : ℚ) + 1) * exWave z, fun x z => -(((x : ℚ) + 1) * exWave ((z : ℚ) + 2)), none⟩

theorem exDiamonds_X (sq : ℚ → ℚ) (hsq : SqrtPos sq) (i k : ℕ) (hi : i + 1 < 4) (hk : k < 8) : gridX sq 12 true exDiamonds i k = gridX id 12 true exDiamonds i k := by
  have h : ∀ i < 3, ∀ k < 8, (match coefX id 12 true exDiamonds i k with | .ok (some _) => true | _ => false) = true := by decide +kernel
  unfold gridX
  rw [coefX_sqrt sq hsq 12 true exDiamonds i k _ (coefOf_some _ (h i (by omega) k hk))]
  rfl

theorem exDiamonds_Z (sq : ℚ → ℚ) (hsq : SqrtPos sq) (i k : ℕ) (hi : i + 2 < 4) (hk : k < 8) : gridZ sq 12 true exDiamonds i k = gridZ id 12 true exDiamonds i k := by
  have h : ∀ i < 2, ∀ k < 8, (match coefZ id 12 true exDiamonds i k with | .ok (some _) => true | _ => false) = true := by decide +kernel
  unfold gridZ
  rw [coefZ_sqrt sq hsq 12 true exDiamonds i k _ (coefOf_some _ (h i (by omega) k hk))]
  rfl

/-- One cell. -/
def spot (a b x k : ℕ) : K := if x = a ∧ k = b then 1 else 0

/-- **C277.** For nested squares, whose cells all have positive volume, the operator is not symmetric. -/
theorem C277_fails (sq : ℚ → ℚ) (hsq : SqrtPos sq) : ¬ Dissipates 4 8 (gridX sq 12 true exDiamonds) (gridZ sq 12 true exDiamonds) := by
  intro h
  have h1 := h.1 (spot 1 1) (spot 2 1) (fun k => by simp [spot]) (fun k => by simp [spot])
  have e : ∀ f : ℕ → ℕ → ℚ, ∀ x < 4, ∀ k < 8, dagpCleared 4 8 (gridX sq 12 true exDiamonds) (gridZ sq 12 true exDiamonds) f x k =
      dagpCleared 4 8 (gridX id 12 true exDiamonds) (gridZ id 12 true exDiamonds) f x k := by
    intro f x hx k hk
    unfold dagpCleared
    rw [result_congr 4 8 _ _ _ _ (exDiamonds_X sq hsq) (exDiamonds_Z sq hsq) f x k hx hk]
  rw [sum_congr rfl fun x hx => sum_congr rfl fun k hk => by rw [e _ x (mem_range.mp hx) k (mem_range.mp hk)],
    sum_congr (s₁ := range 4) (f := fun x => ∑ k ∈ range 8, spot 1 1 x k * dagpCleared 4 8 (gridX sq 12 true exDiamonds) (gridZ sq 12 true exDiamonds) (spot 2 1) x k) rfl
      fun x hx => sum_congr rfl fun k hk => by rw [e _ x (mem_range.mp hx) k (mem_range.mp hk)]] at h1
  revert h1
  decide +kernel

example : ∀ x < 2, ∀ k < 8, 0 < dagpVolume 12 true exDiamonds (fun _ _ => 0) (x + 1) k := by decide +kernel

example : RadiiPos false (⟨5, 6, 1 / 2, 1 / 4, 3, 0⟩ : RectPol ℚ) := ⟨by norm_num, Or.inr (by norm_num)⟩

/-! ### C278 -/

/-- What the statement says, for one cell and one step `dt`: after the step the value is within any bounds of the field. -/
def StepBounded (nx nz : ℕ) (cX cZ : ℕ → ℕ → K × K) (V dt : K) (x k : ℕ) : Prop :=
  ∀ (f : ℕ → ℕ → K) (lo hi : K), (∀ x k, lo ≤ f x k ∧ f x k ≤ hi) →
    lo ≤ f x k + dt * (dagpResult nx nz cX cZ f x k / V) ∧ f x k + dt * (dagpResult nx nz cX cZ f x k / V) ≤ hi

/-- The eight weights of the neighbours of a cell: E, W, N, S, NE, SE, NW, SW. -/
def weights8 (nz : ℕ) (cX cZ : ℕ → ℕ → K × K) (x k : ℕ) : Fin 8 → K :=
  let m := (k + nz - 1) % nz
  ![(cX x k).1 + ((cZ (x - 1) k).1 - (cZ (x - 1) m).1) / 2, (cX (x - 1) k).1 - ((cZ (x - 1) k).1 - (cZ (x - 1) m).1) / 2,
    (cZ (x - 1) k).2 + ((cX x k).2 - (cX (x - 1) k).2) / 2, (cZ (x - 1) m).2 - ((cX x k).2 - (cX (x - 1) k).2) / 2,
    ((cX x k).2 + (cZ (x - 1) k).1) / 2, -((cX x k).2 + (cZ (x - 1) m).1) / 2, -((cX (x - 1) k).2 + (cZ (x - 1) k).1) / 2, ((cX (x - 1) k).2 + (cZ (x - 1) m).1) / 2]

/-- The neighbours in the same order. -/
def near8 (nz x k : ℕ) : Fin 8 → ℕ × ℕ :=
  let p := (k + 1) % nz
  let m := (k + nz - 1) % nz
  ![(x + 1, k), (x - 1, k), (x, p), (x, m), (x + 1, p), (x + 1, m), (x - 1, p), (x - 1, m)]

/-- **C278.** The operator in a cell is the sum of the weights times the differences to the neighbours. -/
theorem C278_weights (nx nz : ℕ) (cX cZ : ℕ → ℕ → K × K) (f : ℕ → ℕ → K) (x k : ℕ) (h1 : 1 ≤ x) (h2 : x + 1 < nx) (hk : k < nz) :
    dagpResult nx nz cX cZ f x k = ∑ j, weights8 nz cX cZ x k j * (f (near8 nz x k j).1 (near8 nz x k j).2 - f x k) := by
  unfold dagpResult
  rw [if_pos h2, if_pos h1, if_pos ⟨h1, h2⟩]
  unfold fluxX fluxZ
  dsimp only
  rw [roll_back hk, show x - 1 + 1 = x by omega, show x - 1 + 2 = x + 1 by omega]
  simp only [Fin.sum_univ_eight, weights8, near8, Matrix.cons_val]
  ring

/-- **C278.** A step makes no new extremes in a cell exactly if no weight is negative and the step is short enough. -/
theorem C278_iff (nx nz : ℕ) (cX cZ : ℕ → ℕ → K × K) (V dt : K) (hV : 0 < V) (hdt : 0 < dt) (x k : ℕ) (h1 : 1 ≤ x) (h2 : x + 1 < nx) (hk : k < nz) (hz : 3 ≤ nz) :
    StepBounded nx nz cX cZ V dt x k ↔ (∀ j, 0 ≤ weights8 nz cX cZ x k j) ∧ dt * ∑ j, weights8 nz cX cZ x k j ≤ V := by
  have hp : (k + 1) % nz ≠ k ∧ (k + nz - 1) % nz ≠ k ∧ (k + 1) % nz ≠ (k + nz - 1) % nz := by
    rcases Nat.lt_or_ge (k + 1) nz with h | h
    · rw [Nat.mod_eq_of_lt h]
      rcases Nat.eq_zero_or_pos k with h0 | h0
      · subst h0; rw [Nat.mod_eq_of_lt (show 0 + nz - 1 < nz by omega)]; omega
      · rw [show k + nz - 1 = (k - 1) + nz by omega, Nat.add_mod_right, Nat.mod_eq_of_lt (show k - 1 < nz by omega)]; omega
    · rw [show k + 1 = nz by omega, Nat.mod_self, show k + nz - 1 = (k - 1) + nz by omega, Nat.add_mod_right, Nat.mod_eq_of_lt (show k - 1 < nz by omega)]; omega
  have hinj : ∀ i j, near8 nz x k i = near8 nz x k j → i = j := by
    intro i j
    unfold near8
    fin_cases i <;> fin_cases j <;> simp [Prod.ext_iff] <;> omega
  have hne : ∀ j, near8 nz x k j ≠ (x, k) := by
    intro j
    unfold near8
    fin_cases j <;> simp [Prod.ext_iff] <;> omega
  constructor
  · intro h
    constructor
    · intro j
      have h3 := (h (spot (near8 nz x k j).1 (near8 nz x k j).2) 0 1 (fun a b => by unfold spot; split_ifs <;> simp)).1
      rw [C278_weights nx nz cX cZ _ x k h1 h2 hk, sum_eq_single j] at h3
      · have e1 : (spot (near8 nz x k j).1 (near8 nz x k j).2 x k : K) = 0 := if_neg fun h => hne j (Prod.ext h.1.symm h.2.symm)
        have e2 : (spot (near8 nz x k j).1 (near8 nz x k j).2 (near8 nz x k j).1 (near8 nz x k j).2 : K) = 1 := if_pos ⟨rfl, rfl⟩
        rw [e1, e2] at h3
        by_contra hc
        push Not at hc
        have : dt * (weights8 nz cX cZ x k j / V) < 0 := mul_neg_of_pos_of_neg hdt (div_neg_of_neg_of_pos hc hV)
        simp only [sub_zero, mul_one, zero_add] at h3
        linarith
      · intro i _ hi
        have e1 : (spot (near8 nz x k j).1 (near8 nz x k j).2 x k : K) = 0 := if_neg fun h => hne j (Prod.ext h.1.symm h.2.symm)
        have e2 : (spot (near8 nz x k j).1 (near8 nz x k j).2 (near8 nz x k i).1 (near8 nz x k i).2 : K) = 0 := if_neg fun h => hi (hinj i j (Prod.ext h.1 h.2))
        rw [e1, e2, sub_zero, mul_zero]
      · intro hj; exact absurd (mem_univ j) hj
    · have h3 := (h (spot x k) 0 1 (fun a b => by unfold spot; split_ifs <;> simp)).1
      have e1 : (spot x k x k : K) = 1 := if_pos ⟨rfl, rfl⟩
      have e2 : ∀ j, (spot x k (near8 nz x k j).1 (near8 nz x k j).2 : K) = 0 := fun j => if_neg fun h => hne j (Prod.ext h.1 h.2)
      rw [C278_weights nx nz cX cZ _ x k h1 h2 hk] at h3
      simp only [e1, e2, zero_sub, mul_neg, mul_one, sum_neg_distrib] at h3
      have h4 : dt * ((∑ j, weights8 nz cX cZ x k j) / V) ≤ 1 := by
        have : dt * (-(∑ j, weights8 nz cX cZ x k j) / V) = -(dt * ((∑ j, weights8 nz cX cZ x k j) / V)) := by ring
        linarith
      rw [← mul_div_assoc, div_le_one hV] at h4
      exact h4
  · rintro ⟨hw, hs⟩ f lo hi hb
    rw [C278_weights nx nz cX cZ f x k h1 h2 hk]
    have a1 : ∀ j, weights8 nz cX cZ x k j * (lo - f x k) ≤ weights8 nz cX cZ x k j * (f (near8 nz x k j).1 (near8 nz x k j).2 - f x k) := fun j =>
      mul_le_mul_of_nonneg_left (sub_le_sub_right (hb _ _).1 _) (hw j)
    have a2 : ∀ j, weights8 nz cX cZ x k j * (f (near8 nz x k j).1 (near8 nz x k j).2 - f x k) ≤ weights8 nz cX cZ x k j * (hi - f x k) := fun j =>
      mul_le_mul_of_nonneg_left (sub_le_sub_right (hb _ _).2 _) (hw j)
    have b1 := sum_le_sum fun j (_ : j ∈ univ) => a1 j
    have b2 := sum_le_sum fun j (_ : j ∈ univ) => a2 j
    rw [← sum_mul] at b1 b2
    have hq : dt * (∑ j, weights8 nz cX cZ x k j) / V ≤ 1 := (div_le_one hV).mpr hs
    have c1 := mul_le_mul_of_nonneg_left (div_le_div_of_nonneg_right b1 hV.le) hdt.le
    have c2 := mul_le_mul_of_nonneg_left (div_le_div_of_nonneg_right b2 hV.le) hdt.le
    have d1 : dt * ((∑ j, weights8 nz cX cZ x k j) * (lo - f x k) / V) = dt * (∑ j, weights8 nz cX cZ x k j) / V * (lo - f x k) := by ring
    have d2 : dt * ((∑ j, weights8 nz cX cZ x k j) * (hi - f x k) / V) = dt * (∑ j, weights8 nz cX cZ x k j) / V * (hi - f x k) := by ring
    rw [d1] at c1
    rw [d2] at c2
    have := hb x k
    constructor
    · nlinarith
    · nlinarith

/-- **C278.** Where the mixed coefficients of the two Z faces of a cell are the same, they must be opposite to that of its X face: on a uniformly skew grid, where both have the same
sign, every step makes new extremes. -/
theorem C278_skew (nx nz : ℕ) (cX cZ : ℕ → ℕ → K × K) (V dt : K) (hV : 0 < V) (hdt : 0 < dt) (x k : ℕ) (h1 : 1 ≤ x) (h2 : x + 1 < nx) (hk : k < nz) (hz : 3 ≤ nz)
    (hZ : (cZ (x - 1) k).1 = (cZ (x - 1) ((k + nz - 1) % nz)).1) (h : StepBounded nx nz cX cZ V dt x k) :
    (cX x k).2 + (cZ (x - 1) k).1 = 0 := by
  have hw := ((C278_iff nx nz cX cZ V dt hV hdt x k h1 h2 hk hz).mp h).1
  have a := hw 4
  have b := hw 5
  simp only [weights8, Matrix.cons_val] at a b
  rw [← hZ] at b
  linarith

/-- **C278 (partial).** On a rectangular slab grid a step makes no new extremes exactly if it is at most that of the usual explicit scheme.  Missing: other grids (`C278_fails`). -/
theorem C278_rect_partial (g : RectPol K) (sq : K → K) (hsq : SqrtPos sq) (n : ℕ) (hn : 2 ≤ n) (mem : ℕ → ℕ → K) (hR : 0 < g.dR) (hZ : 0 < g.dZ) (hz : 3 ≤ g.nz) (dt : K) (hdt : 0 < dt)
    (x k : ℕ) (h1 : 1 ≤ x) (h2 : x + 1 < g.nx) (hk : k < g.nz) :
    StepBounded g.nx g.nz (gridX sq n true g.dagpPol) (gridZ sq n true g.dagpPol) (dagpVolume n true g.dagpPol mem x k) dt x k ↔ dt * (2 / g.dR ^ 2 + 2 / g.dZ ^ 2) ≤ 1 := by
  have hc := C155_coefs_partial g sq hsq n hn true hR.ne' hZ hz
  have hm : (k + g.nz - 1) % g.nz < g.nz := Nat.mod_lt _ (by omega)
  have hV : dagpVolume n true g.dagpPol mem x k = g.dR * g.dZ := by
    rw [C83_volume n hn true g mem x k h1 h2]; simp
  rw [hV, C278_iff _ _ _ _ _ dt (mul_pos hR hZ) hdt x k h1 h2 hk hz]
  have hw : weights8 g.nz (gridX sq n true g.dagpPol) (gridZ sq n true g.dagpPol) x k = ![g.dZ / g.dR, g.dZ / g.dR, g.dR / g.dZ, g.dR / g.dZ, 0, 0, 0, 0] := by
    unfold weights8 gridX gridZ
    dsimp only
    rw [hc.1 x k h2 hk, hc.1 (x - 1) k (by omega) hk, hc.2 (x - 1) k (by omega) hk, hc.2 (x - 1) _ (by omega) hm]
    simp [coefOf, cylW]
  rw [hw]
  have hs : ∑ j, (![g.dZ / g.dR, g.dZ / g.dR, g.dR / g.dZ, g.dR / g.dZ, 0, 0, 0, 0] : Fin 8 → K) j = g.dR * g.dZ * (2 / g.dR ^ 2 + 2 / g.dZ ^ 2) := by
    simp only [Fin.sum_univ_eight, Matrix.cons_val]
    field_simp
    ring
  rw [hs]
  constructor
  · rintro ⟨-, h⟩
    have hp := mul_pos hR hZ
    have : g.dR * g.dZ * (dt * (2 / g.dR ^ 2 + 2 / g.dZ ^ 2)) ≤ g.dR * g.dZ * 1 := by linarith
    exact le_of_mul_le_mul_left this hp
  · intro h
    refine ⟨fun j => ?_, ?_⟩
    · have a := (div_pos hZ hR).le
      have b := (div_pos hR hZ).le
      fin_cases j <;> simp [a, b]
    · have := mul_le_mul_of_nonneg_left h (mul_pos hR hZ).le
      linarith

/-- **C278.** In the nested squares every step, however short, makes new extremes in some cell. -/
theorem C278_fails (sq : ℚ → ℚ) (hsq : SqrtPos sq) (mem : ℕ → ℕ → ℚ) (dt : ℚ) (hdt : 0 < dt) :
    ¬ StepBounded 4 8 (gridX sq 12 true exDiamonds) (gridZ sq 12 true exDiamonds) (dagpVolume 12 true exDiamonds mem 1 1) dt 1 1 := by
  have hV : 0 < dagpVolume 12 true exDiamonds mem 1 1 := by
    rw [C87_inside_partial 12 true exDiamonds mem (fun _ _ => 0) 1 1 (by decide) (by decide)]
    decide +kernel
  rw [C278_iff 4 8 _ _ _ dt hV hdt 1 1 (by decide) (by decide) (by decide) (by decide)]
  rintro ⟨hw, -⟩
  have e : weights8 8 (gridX sq 12 true exDiamonds) (gridZ sq 12 true exDiamonds) 1 1 = weights8 8 (gridX id 12 true exDiamonds) (gridZ id 12 true exDiamonds) 1 1 := by
    unfold weights8
    dsimp only
    rw [exDiamonds_X sq hsq 1 1 (by decide) (by decide), exDiamonds_X sq hsq (1 - 1) 1 (by decide) (by decide), exDiamonds_Z sq hsq (1 - 1) 1 (by decide) (by decide),
      exDiamonds_Z sq hsq (1 - 1) ((1 + 8 - 1) % 8) (by decide) (by decide)]
  rw [e] at hw
  revert hw
  decide +kernel

-- C277, C278: the hypotheses are met by a grid with five times six points; a step of 1/100 is short enough, one of 1/10 is not.
example : Dissipates 5 6 (gridX id 12 false (RectPol.dagpPol (⟨5, 6, 1 / 2, 1 / 4, 3, 0⟩ : RectPol ℚ))) (gridZ id 12 false (RectPol.dagpPol ⟨5, 6, 1 / 2, 1 / 4, 3, 0⟩)) :=
  C277_rect_partial ⟨5, 6, 1 / 2, 1 / 4, 3, 0⟩ id (fun _ ha => ha.ne') 12 (by norm_num) false ⟨by norm_num, Or.inr (by norm_num)⟩ (by norm_num) (by norm_num)

example (dt : ℚ) (hdt : 0 < dt) : StepBounded 5 6 (gridX id 12 true (RectPol.dagpPol (⟨5, 6, 1 / 2, 1 / 4, 3, 0⟩ : RectPol ℚ))) (gridZ id 12 true (RectPol.dagpPol ⟨5, 6, 1 / 2, 1 / 4, 3, 0⟩))
    (dagpVolume 12 true (RectPol.dagpPol ⟨5, 6, 1 / 2, 1 / 4, 3, 0⟩) (fun _ _ => 0) 2 0) dt 2 0 ↔ dt * 40 ≤ 1 := by
  have h := C278_rect_partial (⟨5, 6, 1 / 2, 1 / 4, 3, 0⟩ : RectPol ℚ) id (fun _ ha => ha.ne') 12 (by norm_num) (fun _ _ => 0) (by norm_num) (by norm_num) (by norm_num) dt hdt 2 0
    (by norm_num) (by norm_num) (by norm_num)
  refine h.trans ?_
  norm_num

end Zoidberg
