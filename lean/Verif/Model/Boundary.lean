import Verif.Prelude.Basic
import Mathlib.Algebra.Order.Ring.Abs

/-!
# Model of `/repo/zoidberg/boundary.py`

The functions `outside` act on every point of the arrays on its own; they are modelled for one point.
-/

namespace Zoidberg

variable {K : Type} [Field K] [LinearOrder K]

/-- `NoBoundary.outside` (boundary.py:9-22). -/
def noBoundaryOutside (_x _y _z : K) : Bool := false

/-- `RectangularBoundaryXZ` (boundary.py:25-41). -/
structure RectBoundary (K : Type) where
  xmin : K
  xmax : K
  zmin : K
  zmax : K

/-- `RectangularBoundaryXZ.outside` (boundary.py:43-60). -/
def RectBoundary.outside (b : RectBoundary K) (x _y z : K) : Bool :=
  (decide (x < b.xmin) || decide (x > b.xmax)) || (decide (z < b.zmin) || decide (z > b.zmax))

/-- `PolygonBoundaryXZ` (boundary.py:63-78), for arrays of the same length. -/
structure PolyBoundary (K : Type) where
  zout : K
  pts : List (K × K)

/-- `PolygonBoundaryXZ.__init__` (boundary.py:64-78); `np.amax` of an empty array is a `ValueError`. -/
def PolyBoundary.init : List (K × K) → Except Err (PolyBoundary K)
  | [] => .error (.value "zero-size array to reduction operation maximum which has no identity")
  | p :: ps => .ok ⟨(ps.map Prod.snd).foldl max p.2 + 1, p :: ps⟩

/-- `intersect` for one segment (boundary.py:122-137).  If `z` is `zout`, the division gives an infinite
value or nan, which is not between 0 and 1. -/
def polyHit (zout x z : K) (p q : K × K) : Bool :=
  if |q.1 - p.1| < 1 / 1000000 then false
  else
    let b := (x - p.1) / (q.1 - p.1)
    let a := (p.2 - z + b * (q.2 - p.2)) / (zout - z)
    if zout = z then false
    else (decide (b ≥ 0) && decide (b ≤ 1)) && (decide (a ≥ 0) && decide (a ≤ 1))

/-- `PolygonBoundaryXZ.outside` (boundary.py:80-141). -/
def PolyBoundary.outside (b : PolyBoundary K) (x _y z : K) : Bool :=
  (List.range b.pts.length).foldl
    (fun out i => xor out (polyHit b.zout x z (b.pts.getD i (0, 0)) (b.pts.getD ((i + 1) % b.pts.length) (0, 0)))) true

end Zoidberg
