import Verif.Props.DagpEnergy

/-!
# C277: the energy can grow, even if all cells are convex
-/

set_option linter.unusedSectionVars false

namespace Zoidberg

open Finset

/-- The wave by which the centres of the cells are moved to one side in even rows and to the other in odd rows; it is zero on all faces. -/
def exMove (x z : ℚ) : ℚ := 1 / 4 * (4 * |Int.fract (x / 2) - 1 / 2| - 1) * |1 - 2 * Int.fract z|

/-- Nested squares with two cells on each side, whose corners are corners of cells: all cells are convex, in fact trapezoids.  The centres of the cells are moved along the sides by a
quarter of a cell. -/
def exTrapezoids : DagpPol ℚ :=
  ⟨4, 8, fun x z => (100 + (x + 8) * exWave (z + 1 / 2 + exMove x z), -((x + 8) * exWave (z + 5 / 2 + exMove x z))),
    fun x z => 100 + ((x : ℚ) + 8) * exWave ((z : ℚ) + 1 / 2 + exMove x z), fun x z => -(((x : ℚ) + 8) * exWave ((z : ℚ) + 5 / 2 + exMove x z)), none⟩

theorem exTrapezoids_X (sq : ℚ → ℚ) (hsq : SqrtPos sq) (i k : ℕ) (hi : i + 1 < 4) (hk : k < 8) : gridX sq 12 true exTrapezoids i k = gridX id 12 true exTrapezoids i k := by
  have h : ∀ i < 3, ∀ k < 8, (match coefX id 12 true exTrapezoids i k with | .ok (some _) => true | _ => false) = true := by decide +kernel
  unfold gridX
  rw [coefX_sqrt sq hsq 12 true exTrapezoids i k _ (coefOf_some _ (h i (by omega) k hk))]
  rfl

theorem exTrapezoids_Z (sq : ℚ → ℚ) (hsq : SqrtPos sq) (i k : ℕ) (hi : i + 2 < 4) (hk : k < 8) : gridZ sq 12 true exTrapezoids i k = gridZ id 12 true exTrapezoids i k := by
  have h : ∀ i < 2, ∀ k < 8, (match coefZ id 12 true exTrapezoids i k with | .ok (some _) => true | _ => false) = true := by decide +kernel
  unfold gridZ
  rw [coefZ_sqrt sq hsq 12 true exTrapezoids i k _ (coefOf_some _ (h i (by omega) k hk))]
  rfl

/-- **C277 (refutation of the second half).** In this grid the energy of a field that is not zero in one cell only grows. -/
theorem C277_grows (sq : ℚ → ℚ) (hsq : SqrtPos sq) : ∃ f : ℕ → ℕ → ℚ, ZeroEnds 4 f ∧
    0 < ∑ x ∈ range 4, ∑ k ∈ range 8, f x k * dagpCleared 4 8 (gridX sq 12 true exTrapezoids) (gridZ sq 12 true exTrapezoids) f x k := by
  refine ⟨spot 1 0, fun k => by simp [spot], ?_⟩
  have e : ∀ f : ℕ → ℕ → ℚ, ∀ x < 4, ∀ k < 8, dagpCleared 4 8 (gridX sq 12 true exTrapezoids) (gridZ sq 12 true exTrapezoids) f x k =
      dagpCleared 4 8 (gridX id 12 true exTrapezoids) (gridZ id 12 true exTrapezoids) f x k := by
    intro f x hx k hk
    unfold dagpCleared
    rw [result_congr 4 8 _ _ _ _ (exTrapezoids_X sq hsq) (exTrapezoids_Z sq hsq) f x k hx hk]
  rw [sum_congr rfl fun x hx => sum_congr rfl fun k hk => by rw [e _ x (mem_range.mp hx) k (mem_range.mp hk)]]
  decide +kernel

/-- The corners of a cell, in order. -/
def cellCorners (g : DagpPol ℚ) (x k : ℕ) : List (ℚ × ℚ) :=
  [g.coord ((x : ℚ) - 1 / 2) ((k : ℚ) - 1 / 2), g.coord ((x : ℚ) + 1 / 2) ((k : ℚ) - 1 / 2), g.coord ((x : ℚ) + 1 / 2) ((k : ℚ) + 1 / 2), g.coord ((x : ℚ) - 1 / 2) ((k : ℚ) + 1 / 2)]

/-- The cross product of two successive edges. -/
def turnOf (p q r : ℚ × ℚ) : ℚ := (q.1 - p.1) * (r.2 - q.2) - (q.2 - p.2) * (r.1 - q.1)

/-- All cells have positive volume. -/
theorem exTrapezoids_volume : ∀ x < 2, ∀ k < 8, 0 < dagpVolume 12 true exTrapezoids (fun _ _ => 0) (x + 1) k := by decide +kernel

/-- All corners of all cells turn to the same side. -/
theorem exTrapezoids_corners : ∀ x < 4, ∀ k < 8, ∀ i < 4,
    turnOf ((cellCorners exTrapezoids x k).getD i 0) ((cellCorners exTrapezoids x k).getD ((i + 1) % 4) 0) ((cellCorners exTrapezoids x k).getD ((i + 2) % 4) 0) > 0 := by decide +kernel

/-- All points of the outline of a cell that has a volume are on the straight lines between its corners, so that the cell is a convex quadrilateral. -/
theorem exTrapezoids_straight : ∀ x < 2, ∀ k < 8, ∀ p ∈ (dagpOutline 12 ((x + 1 : ℕ) : ℚ) ((k : ℕ) : ℚ)).map fun p => exTrapezoids.coord p.1 p.2,
    ∃ i < 4, 0 ≤ turnOf ((cellCorners exTrapezoids (x + 1) k).getD i 0) p ((cellCorners exTrapezoids (x + 1) k).getD ((i + 1) % 4) 0) ∧
      turnOf ((cellCorners exTrapezoids (x + 1) k).getD i 0) p ((cellCorners exTrapezoids (x + 1) k).getD ((i + 1) % 4) 0) ≤ 0 := by decide +kernel

end Zoidberg
