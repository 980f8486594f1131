import Verif.Model.MakeMapsExc
import Verif.Model.PolStructured
import Verif.Model.PolRect

/-!
# The poloidal grids of `/repo/zoidberg/poloidal_grid.py` as `make_maps` uses them (`/repo/zoidberg/zoidberg.py:235-243`)
-/

namespace Zoidberg

variable {K : Type} [Field K] [LinearOrder K] [FloorRing K]

/-- `findIndex` of a `StructuredPoloidalGrid` for arrays of shape `(n, m)` (poloidal_grid.py:348-473): these are flattened
(poloidal_grid.py:372-381) and the results get the shape back (poloidal_grid.py:473). -/
def StrPol.findArray (g : StrPol K) (nearest : K → K → ℕ) (tol : K) (n m : ℕ) (R Z : ℕ → ℕ → K) : Except Err (ℕ → ℕ → K × K) :=
  (g.findIndex nearest tol 1000 ((List.range n).flatMap fun x => (List.range m).map fun z => (R x z, Z x z))).map
    fun l x z => l.getD (x * m + z) (0, 0)

/-- A `StructuredPoloidalGrid` (poloidal_grid.py:257-541). -/
def StrPol.mapPolX (g : StrPol K) (nearest : K → K → ℕ) (tol : K) : MapPolX K where
  nx := g.nx
  nz := g.nz
  R := g.R
  Z := g.Z
  metric := g.metric
  findIndex := g.findArray nearest tol

/-- A `RectangularPoloidalGrid` (poloidal_grid.py:100-254), which raises no exceptions here. -/
def RectPol.mapPolX (g : RectPol K) : MapPolX K where
  nx := g.nx
  nz := g.nz
  R := g.pol.R
  Z := g.pol.Z
  metric := .ok g.pol.metric
  findIndex := fun _ _ R Z => .ok fun x z => g.findIndex (R x z) (Z x z)

end Zoidberg
