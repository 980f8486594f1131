import Verif.Model.PolRect
import Mathlib.Algebra.Group.Prod
import Mathlib.Algebra.Field.Defs

/-!
# Model of `stencil_dagp_fv.py` (`/repo/zoidberg/stencil_dagp_fv.py`)

The arrays of the code hold all poloidal grids; every operation acts on each grid alone, and the model is about one of them.  Not modelled: the
messages, `load` and `write` as access to files, and the plot and the printed error of `test`.
-/

namespace Zoidberg

variable {K : Type} [Field K] [LinearOrder K]

/-- What `doit` uses of a poloidal grid: the sizes, `getCoordinate`, the arrays `R` and `Z`, and `Lz` for a `RectangularPoloidalGrid`
(stencil_dagp_fv.py:81-143). -/
structure DagpPol (K : Type) where
  nx : ℕ
  nz : ℕ
  coord : K → K → K × K
  R : ℕ → ℕ → K
  Z : ℕ → ℕ → K
  Lz : Option K

/-- A `RectangularPoloidalGrid` (poloidal_grid.py:125-199), with `Lz = nz dZ`. -/
def RectPol.dagpPol {K : Type} [Field K] (g : RectPol K) : DagpPol K :=
  ⟨g.nx, g.nz, fun x z => (g.Rmin + x * g.dR, g.Zmin + z * g.dZ), g.pol.R, g.pol.Z, some ((g.nz : K) * g.dZ)⟩

/-- The line around a cell in index space (stencil_dagp_fv.py:97-115), with `n` points on each edge. -/
def dagpOutline (n : ℕ) (x y : K) : List (K × K) :=
  (linspaceClosed (x - 1 / 2) (x + 1 / 2) n).map (fun t => (t, y + 1 / 2)) ++
    (linspaceClosed (y + 1 / 2) (y - 1 / 2) n).map (fun t => (x + 1 / 2, t)) ++
    (linspaceClosed (x + 1 / 2) (x - 1 / 2) n).map (fun t => (t, y - 1 / 2)) ++
    (linspaceClosed (y - 1 / 2) (y + 1 / 2) n).map fun t => (x - 1 / 2, t)

/-- One term of the volume (stencil_dagp_fv.py:117-123). -/
def dagpArea (slab : Bool) (p q : K × K) : K :=
  let dy := q.2 - p.2
  let xx := (p.1 + q.1) / 2
  if slab then xx * dy else 1 / 2 * xx * xx * dy

/-- The sum over the pieces of a line (stencil_dagp_fv.py:121-123, 189, 245). -/
def pieceSum {K M : Type} [AddMonoid M] (f : K × K → K × K → M) (l : List (K × K)) : M := ((l.zip l.tail).map fun s => f s.1 s.2).sum

/-- `volume` (stencil_dagp_fv.py:91-130); `mem` is what `np.empty` gives. -/
def dagpVolume (n : ℕ) (slab : Bool) (g : DagpPol K) (mem : ℕ → ℕ → K) (x k : ℕ) : K :=
  if 1 ≤ x ∧ x + 1 < g.nx then -pieceSum (dagpArea slab) ((dagpOutline n (x : K) (k : K)).map fun p => g.coord p.1 p.2) else mem x k

/-- The length by which a piece is divided (stencil_dagp_fv.py:187, 243). -/
def pieceLength (sqrt : K → K) (rot : K × K → K × K) (p q : K × K) : K :=
  let r := rot (p.1 - q.1, p.2 - q.2)
  sqrt (r.1 ^ 2 + r.2 ^ 2)

/-- One piece of a face (stencil_dagp_fv.py:177-188, 233-244): the normal vector times the area.  `rot` is the rotation by a right angle. -/
def pieceVector (sqrt : K → K) (slab : Bool) (rot : K × K → K × K) (p q : K × K) : K × K :=
  let dR := (p.1 - q.1, p.2 - q.2)
  let dX := sqrt (dR.1 ^ 2 + dR.2 ^ 2)
  let area := if slab then dX else dX * (q.1 + p.1) * (1 / 2)
  let r := rot dR
  let l := pieceLength sqrt rot p q
  (r.1 / l * area, r.2 / l * area)

/-- `dRr` of a face (stencil_dagp_fv.py:177-189, 233-245) from its points: the sum over the pieces, or nan (`none`) if some piece has no length. -/
def faceVector (sqrt : K → K) (slab : Bool) (rot : K × K → K × K) (pts : List (K × K)) : Option (K × K) :=
  if (pts.zip pts.tail).any fun s => pieceLength sqrt rot s.1 s.2 = 0 then none else some (pieceSum (pieceVector sqrt slab rot) pts)

/-- The rotation for X faces (stencil_dagp_fv.py:186). -/
def rotX (d : K × K) : K × K := (-d.2, d.1)

/-- The rotation for Z faces (stencil_dagp_fv.py:242). -/
def rotZ (d : K × K) : K × K := (d.2, -d.1)

/-- The points of an X face (stencil_dagp_fv.py:164-174), `i < nx - 1`. -/
def xFace (n : ℕ) (g : DagpPol K) (i k : ℕ) : List (K × K) :=
  (linspaceClosed (0 : K) 1 n).map fun s => g.coord ((i : K) + 1 / 2) ((k : K) - 1 / 2 + s)

/-- The points of a Z face (stencil_dagp_fv.py:222-231), `i < nx - 2`; it belongs to the cell `i + 1`. -/
def zFace (n : ℕ) (g : DagpPol K) (i k : ℕ) : List (K × K) :=
  (linspaceClosed (0 : K) 1 n).map fun s => g.coord ((i : K) + 1 / 2 + s) ((k : K) + 1 / 2)

/-- `dzR[dzR < -Lz / 2] += Lz` and `dzR[dzR > Lz / 2] -= Lz` (stencil_dagp_fv.py:194-196, 250-252). -/
def wrapLz (Lz : Option K) (a : K) : K :=
  match Lz with
  | none => a
  | some L =>
    let b := if a < -L / 2 then a + L else a
    if b > L / 2 then b - L else b

/-- `dxR` of an X face (stencil_dagp_fv.py:192). -/
def xFaceDx (g : DagpPol K) (i k : ℕ) : K × K := (g.R (i + 1) k - g.R i k, g.Z (i + 1) k - g.Z i k)

/-- The two rolls (stencil_dagp_fv.py:193-196) at one point. -/
def rollDz (g : DagpPol K) (x k : ℕ) : K × K :=
  let p := (k + 1) % g.nz
  let m := (k + g.nz - 1) % g.nz
  (wrapLz g.Lz (g.R x p - g.R x m), wrapLz g.Lz (g.Z x p - g.Z x m))

/-- `dzR` of an X face (stencil_dagp_fv.py:193-197). -/
def xFaceDz (g : DagpPol K) (i k : ℕ) : K × K :=
  (1 / 2 * ((rollDz g (i + 1) k).1 + (rollDz g i k).1), 1 / 2 * ((rollDz g (i + 1) k).2 + (rollDz g i k).2))

/-- `dxR` of a Z face (stencil_dagp_fv.py:247-248). -/
def zFaceDx (g : DagpPol K) (i k : ℕ) : K × K :=
  let p := (k + 1) % g.nz
  (1 / 2 * ((g.R (i + 2) p - g.R i p) + (g.R (i + 2) k - g.R i k)), 1 / 2 * ((g.Z (i + 2) p - g.Z i p) + (g.Z (i + 2) k - g.Z i k)))

/-- `dzR` of a Z face (stencil_dagp_fv.py:249-252). -/
def zFaceDz (g : DagpPol K) (i k : ℕ) : K × K :=
  let p := (k + 1) % g.nz
  (wrapLz g.Lz (g.R (i + 1) p - g.R (i + 1) k), wrapLz g.Lz (g.Z (i + 1) p - g.Z (i + 1) k))

/-- `np.linalg.solve` for the matrix with the columns `dx` and `dz` (stencil_dagp_fv.py:200-201, 254-270), exactly. -/
def solve2 (dx dz : K × K) (r : Option (K × K)) : Except Err (Option (K × K)) :=
  let det := dx.1 * dz.2 - dz.1 * dx.2
  if det = 0 then .error (.runtime "LinAlgError: Singular matrix")
  else .ok <| r.map fun r => ((r.1 * dz.2 - dz.1 * r.2) / det, (dx.1 * r.2 - r.1 * dx.2) / det)

/-- `coefsX` (stencil_dagp_fv.py:164-201). -/
def coefX (sqrt : K → K) (n : ℕ) (slab : Bool) (g : DagpPol K) (i k : ℕ) : Except Err (Option (K × K)) :=
  solve2 (xFaceDx g i k) (xFaceDz g i k) (faceVector sqrt slab rotX (xFace n g i k))

/-- `coefsZ` (stencil_dagp_fv.py:222-270). -/
def coefZ (sqrt : K → K) (n : ℕ) (slab : Bool) (g : DagpPol K) (i k : ℕ) : Except Err (Option (K × K)) :=
  solve2 (zFaceDx g i k) (zFaceDz g i k) (faceVector sqrt slab rotZ (zFace n g i k))

/-- Coefficients as arrays; nan is zero here (stencil_dagp_fv.py:201, 257). -/
def coefOf (c : Except Err (Option (K × K))) : K × K :=
  match c with
  | .ok (some r) => r
  | _ => 0

/-- `getSame` (stencil_dagp_fv.py:69-75).  `np.min` of nothing raises a `ValueError`. -/
def getSame {α : Type} [DecidableEq α] : List α → Except Err α
  | [] => .error (.value "zero-size array to reduction operation minimum which has no identity")
  | a :: l => if l.all fun b => b = a then .ok a else .error (.value "Expected a list of identical values")

/-- `Lz` of `doit` (stencil_dagp_fv.py:81-85). -/
def dagpLz (pols : List (DagpPol K)) : Except Err (Option K) :=
  (getSame (pols.map fun p => p.Lz.isSome)).bind fun b =>
    if b then (getSame (pols.map fun p => p.Lz.getD 0)).map some else .ok none

/-- What `doit` computes for one grid (stencil_dagp_fv.py:272-274). -/
structure DagpOut (K : Type) where
  volume : ℕ → ℕ → K
  X : ℕ → ℕ → Option (K × K)
  Z : ℕ → ℕ → Option (K × K)

/-- All entries of an array, or the first exception (stencil_dagp_fv.py:201, 257-269). -/
def allOk {α : Type} (nx nz : ℕ) (a : ℕ → ℕ → Except Err α) : Except Err Unit :=
  (List.range nx).foldl (fun (r : Except Err Unit) i => (List.range nz).foldl (fun (r : Except Err Unit) k => r.bind fun _ => (a i k).map fun _ => ()) r) (.ok ())

/-- The result for one grid (stencil_dagp_fv.py:78-274). -/
def dagpOut (sqrt : K → K) (slab : Bool) (mem : ℕ → ℕ → K) (g : DagpPol K) : DagpOut K :=
  ⟨dagpVolume 12 slab g mem, fun i k => (coefX sqrt 12 slab g i k).toOption.join, fun i k => (coefZ sqrt 12 slab g i k).toOption.join⟩

/-- `doit` (stencil_dagp_fv.py:78-274): the result for each grid.  Grids of different sizes cannot be put into one array. -/
def dagpDoit (sqrt : K → K) (slab : Bool) (mem : ℕ → ℕ → ℕ → K) (pols : List (DagpPol K)) : Except Err (List (DagpOut K)) :=
  (dagpLz pols).bind fun _ =>
    (getSame (pols.map fun p => (p.nx, p.nz))).bind fun s =>
      if ¬ s.1 - 1 > 2 then .error (.assertion "area.shape[0] > 2")
      else (pols.foldl (fun (r : Except Err Unit) g => r.bind fun _ => allOk (g.nx - 1) g.nz (coefX sqrt 12 slab g)) (Except.ok ())).bind fun _ =>
        (pols.foldl (fun (r : Except Err Unit) g => r.bind fun _ => allOk (g.nx - 2) g.nz (coefZ sqrt 12 slab g)) (Except.ok ())).map fun _ =>
          (pols.zip (List.range pols.length)).map fun q => dagpOut sqrt slab (mem q.2) q.1

/-! ### `test` -/

variable {K : Type} [Field K]

/-- The flux through an X face (stencil_dagp_fv.py:309-314), `-this`. -/
def fluxX (nz : ℕ) (c : ℕ → ℕ → K × K) (f : ℕ → ℕ → K) (i k : ℕ) : K :=
  let dz2 := fun x => f x ((k + 1) % nz) - f x ((k + nz - 1) % nz)
  (c i k).1 * (f (i + 1) k - f i k) + (c i k).2 * (1 / 2 * (dz2 (i + 1) + dz2 i))

/-- The flux through a Z face (stencil_dagp_fv.py:322-327), `-this`. -/
def fluxZ (nz : ℕ) (c : ℕ → ℕ → K × K) (f : ℕ → ℕ → K) (i k : ℕ) : K :=
  let p := (k + 1) % nz
  let dx2 := 1 / 2 * ((f (i + 2) p - f i p) + (f (i + 2) k - f i k))
  (c i k).1 * dx2 + (c i k).2 * (f (i + 1) p - f (i + 1) k)

/-- `result` (stencil_dagp_fv.py:306-329) before the boundary rows are cleared. -/
def dagpResult (nx nz : ℕ) (cX cZ : ℕ → ℕ → K × K) (f : ℕ → ℕ → K) (x k : ℕ) : K :=
  (if x + 1 < nx then fluxX nz cX f x k else 0) - (if 1 ≤ x then fluxX nz cX f (x - 1) k else 0) +
    (if 1 ≤ x ∧ x + 1 < nx then fluxZ nz cZ f (x - 1) k - fluxZ nz cZ f (x - 1) ((k + nz - 1) % nz) else 0)

/-- `result` at the end (stencil_dagp_fv.py:334-335). -/
def dagpCleared (nx nz : ℕ) (cX cZ : ℕ → ℕ → K × K) (f : ℕ → ℕ → K) (x k : ℕ) : K :=
  if x = 0 ∨ x + 1 = nx then 0 else dagpResult nx nz cX cZ f x k

/-! ### `fixup` and `fixup2` -/

/-- `a[s] = d` for the rows of an array: the number of rows must agree, or there is one row for all (stencil_dagp_fv.py:363, 365, 371, 373). -/
def assignRows {α : Type} (want : ℕ) (d : List α) : Except Err (List α) :=
  if d.length = want then .ok d
  else match d with
    | [r] => .ok (List.replicate want r)
    | _ => .error (.value "could not broadcast input array")

/-- `fixup` (stencil_dagp_fv.py:360-366) on rows; `zero` is a row of zeros, `nx` the number of rows of `R`. -/
def fixup {α : Type} (zero : α) (nx : ℕ) (d : List α) : Except Err (List α) :=
  if nx = d.length + 1 then (assignRows (nx - 1) d).map fun r => r ++ [zero]
  else (assignRows (nx - 2) d).map fun r => if nx = 0 then [] else if nx = 1 then [zero] else zero :: (r ++ [zero])

/-- `fixup2` (stencil_dagp_fv.py:369-373): the new contents of `d`, which has `m` rows. -/
def fixup2 {α : Type} (m : ℕ) (val : List α) : Except Err (List α) :=
  if val.length = m + 1 then assignRows m val.dropLast else assignRows m val.tail.dropLast

end Zoidberg
