import Verif.Prelude.Basic
import Mathlib.Algebra.BigOperators.Group.Finset.Basic

/-!
# The volume of a grid (C294)
-/

namespace Zoidberg

open Finset

variable {K : Type} [Field K]

/-- The sum over all cells (test_volume_dommaschk.py:88-89), for the arrays of a file.  How the file gets the values of `make_maps` and `Grid.metric`
is C105; floats are exact. -/
def gridVolume (nx ny nz : ℕ) (J dx dy dz : Cell → K) : K :=
  ∑ x ∈ range nx, ∑ j ∈ range ny, ∑ z ∈ range nz, J (x, j, z) * dx (x, j, z) * dy (x, j, z) * dz (x, j, z)

end Zoidberg
