import Verif.Prelude.Numpy
import Mathlib.Data.Rat.Floor

/-!
# Model of `grid_annulus` and `grid_elliptic` (`/repo/zoidberg/poloidal_grid.py:542-1047`)

Arrays of `nx` rows and `nz` columns are functions of the two indices.
-/

namespace Zoidberg

variable {K : Type} [Field K] [LinearOrder K] [FloorRing K]

/-- What the two functions use of an `RZline`: `Rvalue` and `Zvalue` (poloidal_grid.py:583-587, 883-900). -/
structure LineFn (K : Type) where
  Rvalue : K → K
  Zvalue : K → K

/-- `R` or `Z` of a grid (poloidal_grid.py:588-591). -/
abbrev Arr2 (K : Type) := ℕ → ℕ → K

/-- `grid_annulus` (poloidal_grid.py:542-603) with `return_coords`; without it the arrays go to
`StructuredPoloidalGrid`. -/
def gridAnnulus (pi : K) (inner outer : LineFn K) (nx nz : ℤ) : Except Err (Arr2 K × Arr2 K) :=
  if ¬ nx ≥ 2 then .error (.assertion "nx >= 2")
  else if ¬ nz > 1 then .error (.assertion "nz > 1")
  else
    let thetavals := linspaceOpen 0 (2 * pi) nz.toNat
    let xvals := linspaceClosed (0 : K) 1 nx.toNat
    let line := fun (a b : K → K) i j =>
      xvals.getD i 0 * a (thetavals.getD j 0) + (1 - xvals.getD i 0) * b (thetavals.getD j 0)
    .ok (line outer.Rvalue inner.Rvalue, line outer.Zvalue inner.Zvalue)

/-! ## The angles of the inner points -/

/-- `dx(x, sign)` in `laplace` (poloidal_grid.py:757-760) for `sign` 1 or -1; `nb` is the index
of the neighbour: `np.roll(x, 1)[i] = x[i - 1]`. -/
def lapDx (pi : K) (x : List K) (nb : ℕ → ℕ) : List K :=
  (List.range x.length).map fun i => npRem (x.getD (nb i % x.length) 0 - x.getD i 0 + pi) (2 * pi) - pi

/-- `dx(x, 1)`: the previous point (poloidal_grid.py:757-760, 769). -/
def lapPrev (pi : K) (x : List K) : List K := lapDx pi x fun i => i + x.length - 1

/-- `dx(x, -1)`: the next point (poloidal_grid.py:757-760, 769, 775). -/
def lapNext (pi : K) (x : List K) : List K := lapDx pi x fun i => i + 1

/-- `x += fac * (dx(x, 1) + dx(x, -1))` (poloidal_grid.py:769). -/
def lapStep (pi fac : K) (x : List K) : List K :=
  List.zipWith (fun a d => a + fac * d) x (List.zipWith (· + ·) (lapPrev pi x) (lapNext pi x))

/-- `np.all(dx(x, -1) > 0)` (poloidal_grid.py:778). -/
def lapMono (pi : K) (x : List K) : Bool := (lapNext pi x).all fun d => decide (0 < d)

/-- `while cond: x += …` with at most `fuel` passes (poloidal_grid.py:778-780, 797-799, 801-803). -/
def lapWhile (pi fac : K) (cond : List K → Bool) : ℕ → List K → Except Err (List K)
  | 0, _ => .error (.runtime "does not terminate")
  | fuel + 1, x => if cond x then lapWhile pi fac cond fuel (lapStep pi fac x) else .ok x

/-- `getfac` (poloidal_grid.py:774-776): the largest over the smallest distance. -/
def lapFac (pi : K) (x : List K) : K :=
  let d := lapNext pi x
  d.foldl max (d.getD 0 0) / d.foldl min (d.getD 0 0)

/-- `x1` (poloidal_grid.py:783-786): make the angles increase by adding `2 pi`. -/
def lapUnroll (pi : K) : K → List K → List K
  | _, [] => []
  | prev, a :: rest =>
    let a := if prev > a then a + 2 * pi else a
    a :: lapUnroll pi a rest

/-- The same for the whole list, of which the first entry stays (poloidal_grid.py:783-786). -/
def lapUnrollAll (pi : K) : List K → List K
  | [] => []
  | a :: rest => a :: lapUnroll pi a rest

/-- The case `maxfac_inner == 1` (poloidal_grid.py:782-795).  If the quotient of the distances
of the first angles is 1 the division gives `nan`, and the assertion at the end fails. -/
def lapUniform (pi : K) (x0 x : List K) : Except Err (List K) :=
  let x1 := lapUnrollAll pi x
  let n : K := (x0.length : K)
  let x2 := (linspaceOpen (-pi) pi x0.length).map fun v => x1.sum / (x1.length : K) + v + pi / n
  let gf := lapFac pi x0
  if gf - 1 = 0 then .error (.assertion "Not monotonic!")
  else
    let ratio := (1 - 1) / (gf - 1)
    .ok ((List.zipWith (fun a b => a * (1 - ratio) + b * ratio) x2 x1).map fun v => npRem v (2 * pi))

/-- The use of `maxfac_inner`, for which `None` and 0 are the same (poloidal_grid.py:772, 782-800). -/
def lapLimit (pi fac : K) (maxfac : Option K) (fuel : ℕ) (x0 x : List K) : Except Err (List K) :=
  match maxfac with
  | none => .ok x
  | some m =>
    if m = 0 then .ok x
    else if m = 1 then lapUniform pi x0 x
    else lapWhile pi fac (fun x => decide (lapFac pi x > m)) fuel x

/-- `laplace` (poloidal_grid.py:756-816); `fac` and `steps` are the numbers of lines 762-766. -/
def laplace (pi fac : K) (steps : ℕ) (maxfac : Option K) (fuel : ℕ) (x0 : List K) : Except Err (List K) := do
  let x ← lapWhile pi fac (fun x => !lapMono pi x) fuel ((lapStep pi fac)^[steps] x0)
  let x ← lapLimit pi fac maxfac fuel x0 x
  if ¬ lapMono pi x then .error (.assertion "Not monotonic!") else pure x

/-- `dx` in `fft_smooth` (poloidal_grid.py:819-821). -/
def fsDx (pi : K) (x : List K) : List K :=
  (List.range x.length).map fun i =>
    let d := x.getD i 0 - x.getD ((i + x.length - 1) % x.length) 0
    let d := if d < -pi then d + pi * 2 else d
    if d > pi then d - pi * 2 else d

/-- `xnew` before the modulo (poloidal_grid.py:829-832). -/
def fsSum (x0 : K) (dxn : List K) : ℕ → K
  | 0 => x0
  | i + 1 => fsSum x0 dxn i + dxn.getD i 0

/-- `fft_smooth` (poloidal_grid.py:818-833).  `filter` is the transform, the removal of the
modes and the transform back (poloidal_grid.py:822-828). -/
def fftSmooth (pi : K) (filter : List K → List K) (x : List K) : List K :=
  (List.range x.length).map fun i => npRem (fsSum (x.getD 0 0) (filter (fsDx pi x)) i) (pi * 2)

/-! ## The solver -/

/-- The central differences and sums that are used at an inner point: `R_xp - R_xm`,
`R_zp - R_zm`, `R_xm + R_xp`, `R_zm + R_zp` and `R_xpzp - R_xmzp - R_xpzm + R_xmzm`
(poloidal_grid.py:942-962). -/
structure Stencil (K : Type) where
  dx : K
  dz : K
  sx : K
  sz : K
  cross : K

/-- The `z` direction is periodic (poloidal_grid.py:942-962). -/
def Stencil.at (nz : ℕ) (R : Arr2 K) (i j : ℕ) : Stencil K :=
  let zm := (j + nz - 1) % nz
  let zp := (j + 1) % nz
  ⟨R (i + 1) j - R (i - 1) j, R i zp - R i zm, R (i - 1) j + R (i + 1) j, R i zm + R i zp,
    R (i + 1) zp - R (i - 1) zp - R (i + 1) zm + R (i - 1) zm⟩

/-- `a`, `b`, `c` (poloidal_grid.py:965-973). -/
def ellCoeffs (lam dx dz : K) (r z : Stencil K) : K × K × K :=
  let dRdz := lam * r.dz / (2 * dz)
  let dRdx := r.dx / (2 * dx)
  let dZdz := lam * z.dz / (2 * dz)
  let dZdx := z.dx / (2 * dx)
  (dRdz ^ 2 + dZdz ^ 2, dRdz * dRdx + dZdx * dZdz, dRdx ^ 2 + dZdx ^ 2)

/-- The denominator of `inv_diag` (poloidal_grid.py:981). -/
def ellDiag (dx dz : K) (co : K × K × K) : K := 2 * co.1 / dx ^ 2 + 2 * co.2.2 / dz ^ 2

/-- The new value at an inner point (poloidal_grid.py:978-996). -/
def ellUpdate (dx dz : K) (co : K × K × K) (s : Stencil K) : K :=
  (co.1 / dx ^ 2 * s.sx - co.2.1 / (2 * dx * dz) * s.cross + co.2.2 / dz ^ 2 * s.sz) * (1 / ellDiag dx dz co)

/-- One pass of the loop (poloidal_grid.py:939-996).  If the denominator is zero somewhere the
new values are `nan`, the change is `nan` from then on, and the loop ends with the
`RuntimeError`, here at once. -/
def ellSweep (nx nz : ℕ) (lam dx dz : K) (g : Arr2 K × Arr2 K) : Except Err (Arr2 K × Arr2 K) :=
  let co := fun i j => ellCoeffs lam dx dz (Stencil.at nz g.1 i j) (Stencil.at nz g.2 i j)
  let new := fun (A : Arr2 K) i j =>
    if 1 ≤ i ∧ i + 1 < nx then ellUpdate dx dz (co i j) (Stencil.at nz A i j) else A i j
  if (List.range (nx - 2)).all fun i => (List.range nz).all fun j => decide (ellDiag dx dz (co (i + 1) j) ≠ 0) then
    .ok (new g.1, new g.2)
  else .error (.runtime "Failed to converge")

/-- The loop with at most so many passes (poloidal_grid.py:937-1025). -/
def ellLoop (nx nz : ℕ) (lam dx dz tol : K) : ℕ → Arr2 K × Arr2 K → Except Err (Arr2 K × Arr2 K)
  | 0, _ => .error (.runtime "Failed to converge")
  | n + 1, g => do
    let g' ← ellSweep nx nz lam dx dz g
    if (List.range nx).all fun i => (List.range nz).all fun j =>
      decide ((g'.1 i j - g.1 i j) ^ 2 + (g'.2 i j - g.2 i j) ^ 2 < tol) then pure g'
    else ellLoop nx nz lam dx dz tol n g'

/-- The extra rows (poloidal_grid.py:1027-1038) for an array of `nx` rows. -/
def ellExtend (nx nxi : ℕ) (A : Arr2 K) : Arr2 K := fun i j =>
  if i < nxi then A 0 j + (A 0 j - A 1 j) * ((nxi - i : ℕ) : K)
  else if i < nxi + nx then A (i - nxi) j
  else A (nx - 1) j + (A (nx - 1) j - A (nx - 2) j) * ((i - (nxi + nx) + 1 : ℕ) : K)

/-- What `grid_elliptic` calls: `align inner outer` are the lines after the alignment
(poloidal_grid.py:720-754), `innerTheta inner ps` are the angles of the inner points for the
outer points `ps` (`closestPoint`, `laplace`, `fft_smooth`), `spline` is
`RectBivariateSpline(x, z, data)`. -/
structure EllEnv (K : Type) where
  pi : K
  align : LineFn K → LineFn K → LineFn K × LineFn K
  innerTheta : LineFn K → List (K × K) → Except Err (List K)
  spline : List K → List K → Arr2 K → K → K → K

/-- The arguments that stay the same in the recursion.  `dz_relax` is taken after `or 10 / 3` (poloidal_grid.py:606-624). -/
structure EllOpts (K : Type) where
  tol : K
  restrictSize : ℕ
  restrictFactor : ℕ
  innerOrt : Bool
  dzRelax : K

/-- The size of the coarse grid in one direction (poloidal_grid.py:840-846).  `restrict_factor` is
a natural number; where python divides by zero the size is 0 here, which is an exception, too. -/
def ellCoarse (s f n : ℕ) : ℕ := if n > s then n / f else n

/-- The angles of the inner points (poloidal_grid.py:886-892, 902-908). -/
def ellInnerTheta (e : EllEnv K) (o : EllOpts K) (inner outer : LineFn K) (theta : List K) :
    Except Err (List K) :=
  if o.innerOrt then e.innerTheta inner (theta.map fun t => (outer.Rvalue t, outer.Zvalue t)) else .ok theta

/-- The starting guess from a coarse grid (poloidal_grid.py:865-895). -/
def ellFromCoarse (e : EllEnv K) (o : EllOpts K) (inner outer : LineFn K) (nx nz nxr nzr : ℕ)
    (c : Arr2 K × Arr2 K) : Except Err (Arr2 K × Arr2 K) := do
  let theta := linspaceOpen 0 (2 * e.pi) nz
  let xv := linspaceClosed (0 : K) 1 nx
  let zr := linspaceClosed 0 (2 * e.pi) (nzr + 1)
  let xr := linspaceClosed (0 : K) 1 nxr
  let ext := fun (A : Arr2 K) i j => if j = nzr then A i 0 else A i j
  let ti ← ellInnerTheta e o inner outer theta
  let mk := fun (A : Arr2 K) (vi vo : K → K) i j =>
    if i = 0 then vi (ti.getD j 0)
    else if i = nx - 1 then vo (theta.getD j 0)
    else e.spline xr zr (ext A) (xv.getD i 0) (theta.getD j 0)
  pure (mk c.1 inner.Rvalue outer.Rvalue, mk c.2 inner.Zvalue outer.Zvalue)

/-- The starting guess without a coarse grid (poloidal_grid.py:897-916). -/
def ellDirect (e : EllEnv K) (o : EllOpts K) (inner outer : LineFn K) (nx nz : ℕ) :
    Except Err (Arr2 K × Arr2 K) := do
  let theta := linspaceOpen 0 (2 * e.pi) nz
  let xv := linspaceClosed (0 : K) 1 nx
  let ti ← ellInnerTheta e o inner outer theta
  let mk := fun (vi vo : K → K) i j =>
    xv.getD i 0 * vo (theta.getD j 0) + (1 - xv.getD i 0) * vi (ti.getD j 0)
  pure (mk inner.Rvalue outer.Rvalue, mk inner.Zvalue outer.Zvalue)

/-- The solver loop with its spacings (poloidal_grid.py:918-919, 937-1025). -/
def ellSolve (e : EllEnv K) (o : EllOpts K) (nx nz : ℕ) (g : Arr2 K × Arr2 K) : Except Err (Arr2 K × Arr2 K) :=
  let theta := linspaceOpen 0 (2 * e.pi) nz
  let xv := linspaceClosed (0 : K) 1 nx
  ellLoop nx nz o.dzRelax (xv.getD 1 0 - xv.getD 0 0) (theta.getD 1 0 - theta.getD 0 0) o.tol
    (max (max nx nz * 10) 300) g

/-- `grid_elliptic` without extra rows and alignment, as it is called for the coarse grids
(poloidal_grid.py:709-1025).  The first argument bounds the depth of the recursion. -/
def ellCore (e : EllEnv K) (o : EllOpts K) (inner outer : LineFn K) : ℕ → ℕ → ℕ → Except Err (Arr2 K × Arr2 K)
  | 0, _, _ => .error (.runtime "maximum recursion depth exceeded")
  | fuel + 1, nx, nz =>
    if ¬ nx > 1 then .error (.assertion "nx > 1")
    else if ¬ nz > 1 then .error (.assertion "nz > 1")
    else
      (if nx > o.restrictSize ∨ nz > o.restrictSize then
        (ellCore e o inner outer fuel (ellCoarse o.restrictSize o.restrictFactor nx)
          (ellCoarse o.restrictSize o.restrictFactor nz)).bind
          (ellFromCoarse e o inner outer nx nz (ellCoarse o.restrictSize o.restrictFactor nx)
            (ellCoarse o.restrictSize o.restrictFactor nz))
      else ellDirect e o inner outer nx nz).bind (ellSolve e o nx nz)

/-- `grid_elliptic` (poloidal_grid.py:606-1046) with `return_coords`; without it the arrays go to
`StructuredPoloidalGrid`.  `nxOuter` and `nxInner` are 0 by default.  Plots are left out. -/
def gridElliptic (e : EllEnv K) (o : EllOpts K) (align : Bool) (fuel : ℕ) (inner outer : LineFn K) (nx nz : ℤ)
    (nxOuter nxInner : ℤ) : Except Err (Arr2 K × Arr2 K) :=
  if nxOuter ≠ 0 ∧ ¬ nxOuter > 0 then .error (.assertion "nx_outer > 0")
  else if nxInner ≠ 0 ∧ ¬ nxInner > 0 then .error (.assertion "nx_inner > 0")
  else do
    let n := (nx - nxOuter - nxInner).toNat
    let (inner, outer) := if align && !o.innerOrt then e.align inner outer else (inner, outer)
    let g ← ellCore e o inner outer fuel n nz.toNat
    pure (ellExtend n nxInner.toNat g.1, ellExtend n nxInner.toNat g.2)

end Zoidberg
