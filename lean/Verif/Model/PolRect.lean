import Verif.Model.Grid

/-!
# Model of `RectangularPoloidalGrid` (`/repo/zoidberg/poloidal_grid.py:91-254`)
-/

namespace Zoidberg

variable {K : Type} [Field K]

/-- The attributes of a `RectangularPoloidalGrid` that its methods use (poloidal_grid.py:126-146). -/
structure RectPol (K : Type) where
  nx : ℕ
  nz : ℕ
  dR : K
  dZ : K
  Rmin : K
  Zmin : K

/-- `__init__` (poloidal_grid.py:125-146) without the arrays.  Sizes are natural numbers. -/
def RectPol.init (nx nz : ℕ) (Lx Lz Rcentre Zcentre : K) (mxg : ℕ) : Except Err (RectPol K) :=
  if nx = 2 * mxg ∨ nz = 0 then .error (.runtime "ZeroDivisionError")
  else
    let dR := Lx / ((nx : K) - 2 * (mxg : K))
    let dZ := Lz / (nz : K)
    .ok ⟨nx, nz, dR, dZ, Rcentre - dR * ((nx : K) - 1) / 2, Zcentre - dZ * ((nz : K) - 1) / 2⟩

/-- `getCoordinate` (poloidal_grid.py:155-199) for one index; `dx`, `dz` are integers. -/
def RectPol.getCoordinate (g : RectPol K) (xind zind : K) (dx dz : ℤ) : Except Err (K × K) :=
  if ¬ dx ≥ 0 then .error (.assertion "dx >= 0")
  else if ¬ dz ≥ 0 then .error (.assertion "dz >= 0")
  else if dx + dz > 2 then .ok (0, 0)
  else if dx = 1 then .ok (g.dR, 0)
  else if dz = 1 then .ok (0, g.dZ)
  else .ok (g.Rmin + xind * g.dR, g.Zmin + zind * g.dZ)

/-- `findIndex` (poloidal_grid.py:201-230) for one position. -/
def RectPol.findIndex (g : RectPol K) (R Z : K) : K × K := ((R - g.Rmin) / g.dR, (Z - g.Zmin) / g.dZ)

/-- `metric` (poloidal_grid.py:232-254): the entries of the dictionary are numbers. -/
def RectPol.metric (g : RectPol K) : ODict K :=
  [("dx", g.dR), ("dz", g.dZ), ("gxx", 1), ("g_xx", 1), ("gxz", 0), ("g_xz", 0), ("gzz", 1), ("g_zz", 1)]

/-- The grid as the rest of the code sees it: the arrays `R`, `Z` (poloidal_grid.py:143-146)
and the metric, of which numpy repeats the numbers for every point (grid.py:165-174). -/
def RectPol.pol (g : RectPol K) : PolGrid K :=
  ⟨g.nx, g.nz, fun x _ => g.Rmin + (x : K) * g.dR, fun _ z => g.Zmin + (z : K) * g.dZ,
    fun n => (g.metric.get? n).map fun v _ _ => v⟩

end Zoidberg
