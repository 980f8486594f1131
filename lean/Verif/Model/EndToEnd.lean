import Verif.Model.MakeMaps
import Verif.Model.Weights
import Verif.Model.PolRect
import Verif.Model.Field

/-!
# From `make_maps` to the operators

The dictionary that `make_maps` returns is passed to `weights.modify_maps` or
`weights.calculate_parallel_map_operators` as it is (`/repo/examples/rotating-ellipse.py:70-80`).
The two models keep arrays in different forms; this file converts them.
-/

namespace Zoidberg

variable {K : Type} [Field K] [LinearOrder K] [FloorRing K]

/-- A value of the dictionary of `make_maps` with the shape of its array (zoidberg.py:108-118, 152-159, 183-192). -/
def MapVal.toVal (nx ny nz ns : ℕ) : MapVal K → Weights.Val K
  | .f3 a => .arr3 nx ny nz a
  | .f4 a => .arr4 nx ny nz ns a
  | .arr l => .vec l
  | .num n => .nat n

/-- The dictionary of `make_maps` (zoidberg.py:152-195, 402-408) as `weights.py` sees it. -/
def asMapDict (nx ny nz ns : ℕ) (m : ODict (MapVal K)) : Weights.MapDict K :=
  fun k => (m.get? k).map (MapVal.toVal nx ny nz ns)

/-- A `RectangularPoloidalGrid` as `make_maps` uses it; `findIndex` (poloidal_grid.py:201-230) acts on every element of
the arrays. -/
def RectPol.mapPol (g : RectPol K) : MapPol K :=
  { g.pol with findIndex := fun R Z x z => g.findIndex (R x z) (Z x z) }

end Zoidberg
