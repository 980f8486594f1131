import Verif.Model.Grid

/-!
# Model of `StructuredPoloidalGrid` (`/repo/zoidberg/poloidal_grid.py:257-539`)
-/

namespace Zoidberg

variable {K : Type} [Field K] [LinearOrder K] [FloorRing K]

/-- `RectBivariateSpline(np.arange(n), np.arange(m), data)`: derivative orders, then position.
The real one is cubic and raises an error for fewer than four points in a direction; a total
function here (poloidal_grid.py:305-312). -/
abbrev MkSpline (K : Type) := ℕ → ℕ → (ℕ → ℕ → K) → ℕ → ℕ → K → K → K

/-- The attributes of a `StructuredPoloidalGrid`. `splR dx dz x z` is
`_spl_r(x, z, dx=dx, dy=dz, grid=False)` (poloidal_grid.py:279-312). -/
structure StrPol (K : Type) where
  nx : ℕ
  nz : ℕ
  R : ℕ → ℕ → K
  Z : ℕ → ℕ → K
  splR : ℕ → ℕ → K → K → K
  splZ : ℕ → ℕ → K → K → K

/-- `__init__` (poloidal_grid.py:279-312) for arrays of the same shape.  `area` is the area of
the polygon through some points (shapely).  The tree of the points is in `findIndex`. -/
def StrPol.init (mk : MkSpline K) (area : List (K × K) → K) (nx nz : ℕ) (R Z : ℕ → ℕ → K) :
    Except Err (StrPol K) :=
  let row := fun i => (List.range nz).map fun j => (R i j, Z i j)
  if nx > 4 ∧ ¬ area (row 2) ≤ area (row (nx - 2)) then .error (.assertion "switch inner and outer boundary")
  else .ok ⟨nx, nz, R, Z, mk nx (nz * 3) fun x k => R x (k % nz), mk nx (nz * 3) fun x k => Z x (k % nz)⟩

/-- `getCoordinate` (poloidal_grid.py:317-346) for one index. -/
def StrPol.getCoordinate (g : StrPol K) (xind zind : K) (dx dz : ℕ) : Except Err (K × K) :=
  if xind < 0 ∨ xind > (g.nx : K) - 1 then .error (.value "x index out of range")
  else
    let zind := npRem zind (g.nz : K)
    .ok (g.splR dx dz xind (zind + (g.nz : K)), g.splZ dx dz xind (zind + (g.nz : K)))

/-! ## `findIndex` -/

/-- One point during the iteration: the position that is looked for, the index, and
whether the mask is 1 (poloidal_grid.py:383-398). -/
structure FiPt (K : Type) where
  R : K
  Z : K
  x : K
  z : K
  on : Bool

/-- The start of the iteration (poloidal_grid.py:382-397); `nearest` is the index in the
flattened arrays found by the tree. -/
def FiPt.start (nx nz : ℕ) (nearest : K → K → ℕ) (p : K × K) : FiPt K :=
  let ind := nearest p.1 p.2
  let x : K := ((ind / nz : ℕ) : K)
  ⟨p.1, p.2, x, ((ind % nz : ℕ) : K), !decide (x < 1 / 2 ∨ x > (nx : K) - 3 / 2)⟩

/-- `getCoordinate` for all points: a `ValueError` of numpy if there are none, otherwise that of
`getCoordinate` if some index is out of range (poloidal_grid.py:336-346, 411). -/
def StrPol.coords (g : StrPol K) (pts : List (FiPt K)) (dx dz : ℕ) : Except Err (List (K × K)) :=
  if pts = [] then .error (.value "zero-size array to reduction operation")
  else pts.mapM fun p => g.getCoordinate p.x p.z dx dz

/-- `mask * (dR**2 + dZ**2)` (poloidal_grid.py:414-419). -/
def FiPt.dist (p : FiPt K) (pos : K × K) : K :=
  (if p.on then 1 else 0) * ((pos.1 - p.R) ^ 2 + (pos.2 - p.Z) ^ 2)

/-- `underrelax` after `cnt` was increased (poloidal_grid.py:427-435). -/
def underrelax (cnt : ℕ) : K :=
  if cnt < 10 then 1 else if cnt < 100 then 3 / 2 else if cnt < 300 then 2 else if cnt < 700 then 5 / 2 else 3

/-- The Newton step for one point and the check for the boundary (poloidal_grid.py:452-463).
With a determinant of zero `zind` becomes `inf` or `nan`, also where the mask is 0; the
distance is `nan` from then on and the loop ends with the `RuntimeError`, here at once. -/
def FiPt.newton (nx : ℕ) (u : K) (p : FiPt K) (pos dx dz : K × K) : Except Err (FiPt K) :=
  let det := dx.1 * dz.2 - dz.1 * dx.2
  if det = 0 then .error (.runtime "Failed to converge")
  else
    let dR := pos.1 - p.R
    let dZ := pos.2 - p.Z
    let m : K := if p.on then 1 else 0
    let x := p.x - m * ((dz.2 * dR - dz.1 * dZ) / det / u)
    let z := p.z - m * ((dx.1 * dZ - dx.2 * dR) / det / u)
    let p : FiPt K := ⟨p.R, p.Z, x, z, p.on⟩
    let p : FiPt K := if p.x < 1 / 2 then { p with on := false, x := 0 } else p
    .ok (if p.x > (nx : K) - 3 / 2 then { p with on := false, x := (nx : K) - 1 } else p)

/-- All Newton steps of one pass (poloidal_grid.py:437-463). -/
def newtonAll (nx : ℕ) (u : K) : List (FiPt K) → List (K × K) → List (K × K) → List (K × K) →
    Except Err (List (FiPt K))
  | p :: ps, c :: cs, a :: as, b :: bs => do
    let q ← p.newton nx u c a b
    let qs ← newtonAll nx u ps cs as bs
    pure (q :: qs)
  | _, _, _, _ => .ok []

/-- The loop (poloidal_grid.py:407-463).  The first argument bounds the number of passes. -/
def StrPol.fiLoop (g : StrPol K) (tol : K) : ℕ → ℕ → ℕ → List (FiPt K) → Except Err (List (FiPt K))
  | 0, _, _, _ => .error (.runtime "does not terminate")
  | fuel + 1, cnt, extra, pts => do
    let pos ← g.coords pts 0 0
    let conv := (List.zipWith FiPt.dist pts pos).all fun v => decide (v < tol)
    if conv ∧ extra + 1 > 3 then pure pts
    else if ¬ conv ∧ extra ≠ 0 then .error (.runtime "Failed to converge")
    else
      let extra := if conv then extra + 1 else extra
      let cnt := cnt + 1
      if cnt = 1000 then .error (.runtime "Failed to converge")
      else do
        let dx ← g.coords pts 1 0
        let dz ← g.coords pts 0 1
        let pts ← newtonAll g.nx (underrelax cnt) pts pos dx dz
        g.fiLoop tol fuel cnt extra pts

/-- The index that is returned (poloidal_grid.py:468-473). -/
def FiPt.result (nx : ℕ) (p : FiPt K) : K × K :=
  let x := if p.x < 1 / 2 then -1 else p.x
  (if x > (nx : K) - 3 / 2 then (nx : K) else x, p.z)

/-- `findIndex` (poloidal_grid.py:348-473) for a list of positions.  Plots are left out. -/
def StrPol.findIndex (g : StrPol K) (nearest : K → K → ℕ) (tol : K) (fuel : ℕ) (ps : List (K × K)) :
    Except Err (List (K × K)) :=
  (g.fiLoop tol fuel 0 0 (ps.map (FiPt.start g.nx g.nz nearest))).map fun l => l.map (FiPt.result g.nx)

/-! ## `metric` -/

/-- `g` at one point (poloidal_grid.py:493-519): the derivatives of the coordinates, divided
by the cell sizes, contracted.  The result are the entries 00, 01, 11; the matrix is
symmetric. -/
def polG (nx nz : ℕ) (dx dz : K × K) : K × K × K :=
  let J0 := (dx.1 / (1 / (nx : K)), dx.2 / (1 / (nx : K)))
  let J1 := (dz.1 / (1 / (nz : K)), dz.2 / (1 / (nz : K)))
  (J0.1 * J0.1 + J0.2 * J0.2, J1.1 * J0.1 + J1.2 * J0.2, J1.1 * J1.1 + J1.2 * J1.2)

/-- `det g` (poloidal_grid.py:526). -/
def polDet (g : K × K × K) : K := g.1 * g.2.2 - g.2.1 * g.2.1

/-- `getCoordinate` with derivatives at a point of the grid (poloidal_grid.py:492-496), where it
does not raise an exception. -/
def StrPol.deriv (g : StrPol K) (a b x z : ℕ) : K × K :=
  match g.getCoordinate (x : K) (z : K) a b with
  | .ok p => p
  | .error _ => (0, 0)

/-- `g` at one point of the grid (poloidal_grid.py:492-519). -/
def StrPol.gAt (g : StrPol K) (x z : ℕ) : K × K × K := polG g.nx g.nz (g.deriv 1 0 x z) (g.deriv 0 1 x z)

/-- `np.all` over the grid (poloidal_grid.py:519-526). -/
def StrPol.allG (g : StrPol K) (P : K × K × K → Bool) : Bool :=
  (List.range g.nx).all fun x => (List.range g.nz).all fun z => P (g.gAt x z)

/-- The dictionary that `metric` returns (poloidal_grid.py:530-539). -/
def StrPol.metricDict (g : StrPol K) : Dict (ℕ → ℕ → K) := fun n =>
  if n = "dx" then some fun _ _ => 1 / (g.nx : K)
  else if n = "dz" then some fun _ _ => 1 / (g.nz : K)
  else if n = "gxx" then some fun x z => (g.gAt x z).2.2 / polDet (g.gAt x z)
  else if n = "g_xx" then some fun x z => (g.gAt x z).1
  else if n = "gxz" then some fun x z => -(g.gAt x z).2.1 / polDet (g.gAt x z)
  else if n = "g_xz" then some fun x z => (g.gAt x z).2.1
  else if n = "gzz" then some fun x z => (g.gAt x z).1 / polDet (g.gAt x z)
  else if n = "g_zz" then some fun x z => (g.gAt x z).2.2
  else none

/-- `metric` (poloidal_grid.py:475-539).  `np.linalg.det` and `np.linalg.inv` of a 2×2 matrix
are the exact determinant and inverse. -/
def StrPol.metric (g : StrPol K) : Except Err (Dict (ℕ → ℕ → K)) :=
  if ¬ g.allG fun v => decide (v.1 > 0) then .error (.assertion "g[0, 0] is expected to be positive")
  else if ¬ g.allG fun v => decide (v.2.2 > 0) then .error (.assertion "g[1, 1] is expected to be positive")
  else if ¬ g.allG fun v => decide (polDet v > 0) then
    .error (.assertion "All determinants of g should be positive")
  else .ok g.metricDict

end Zoidberg
