import Verif.Prelude.NdArray

/-!
# `upscale` (zoidberg.py:936-1052)
-/

namespace Zoidberg

variable {K : Type} [Field K]

/-- The two interpolations of scipy that `upscale` calls.

`mapCoords a p` is one element of `map_coordinates(a, …)` (the spline evaluated at the point
`p` in index space), `griddata pts vals p` one element of
`griddata(pts, vals, …, method="linear", fill_value=0.0)` (zoidberg.py:992, 1014-1018, 1046-1048). -/
structure Interp (K : Type) where
  mapCoords : NdArray K → List K → K
  griddata : List (K × K) → List K → K × K → K

/-- The field in the shape of the grid (zoidberg.py:970-979). -/
def upscaleField (field xt : NdArray K) : Except Err (NdArray K) :=
  if field.shape ≠ xt.shape then
    match field.reshape xt.T.shape with
    | .error _ => .error (.value "Field must be same shape as grid")
    | .ok a => .ok a.T
  else .ok field

/-- Start and end values of one quantity on every field line (zoidberg.py:986-1001): the
array of `start` and `end`, a first axis of two. -/
def startEnd (nx ny nz : ℕ) (start end_ : ℕ → ℕ → ℕ → K) : NdArray K :=
  NdArray.pair ⟨[nx, ny, nz], fun i => start (i.getD 0 0) (i.getD 1 0) (i.getD 2 0)⟩
    ⟨[nx, ny, nz], fun i => end_ (i.getD 0 0) (i.getD 1 0) (i.getD 2 0)⟩

/-- `yup_3d` (zoidberg.py:986-987): the index of the next plane, 0 for the last one. -/
def yup (ny j : ℕ) : ℕ := if j + 1 = ny then 0 else j + 1

/-- `map_coordinates(a, hires_points)` (zoidberg.py:1004-1018): the points have the
coordinates `(midpoints[m], x, y, z)`. -/
def alongLine (ip : Interp K) (factor nx ny nz : ℕ) (a : NdArray K) : NdArray K :=
  ⟨[factor, nx, ny, nz], fun i => ip.mapCoords a
    [(linspaceOpen (0 : K) 1 factor).getD (i.getD 0 0) 0, (i.getD 1 0 : ℕ), (i.getD 2 0 : ℕ), (i.getD 3 0 : ℕ)]⟩

/-- `twizzle` (zoidberg.py:1020-1024). -/
def twizzle (nx factor ny nz : ℕ) (a : NdArray K) : Except Err (NdArray K) :=
  (a.transpose [1, 2, 0, 3]).reshape [nx, factor * ny, nz]

/-- `y_first` followed by `.T` (zoidberg.py:1036-1044): the planes of the array, each with the
axes `z`, `x`. -/
def planes (a : NdArray K) : NdArray K := (a.transpose [0, 2, 1]).T

/-- One iteration of the loop (zoidberg.py:1042-1050): the values at `(x, z)` of plane `k`. -/
def upscalePlane (ip : Interp K) (hx hz hf : NdArray K) (k : ℕ) (x z : ℕ) : K :=
  ip.griddata (((planes hx).row k).flat.zip ((planes hz).row k).flat) ((planes hf).row k).flat
    ((x : K), (z : K))

/-- The value of the progress bar after plane `k` (zoidberg.py:1049-1050):
`ZeroDivisionError` for a single plane. -/
def upscaleProgress (quiet : Bool) (ny : ℕ) (k : ℕ) : Except Err (Option K) :=
  if quiet then .ok none
  else if ny = 1 then .error (.runtime "ZeroDivisionError")
  else .ok (some ((k : K) / ((ny : K) - 1)))

/-- `upscale` (zoidberg.py:936-1052); `xt`, `zt` are the maps `forward_xt_prime` and
`forward_zt_prime`, both of the shape `nx, ny, nz` of the first, with at least one plane.

Simplifications: the factor is a natural number, and 0, for which numpy raises one of several
exceptions, is one error; the progress bar only contributes its exception; `field` is a numpy
array of numbers. -/
def upscale (ip : Interp K) (field xt zt : NdArray K) (factor : ℕ) (quiet : Bool) :
    Except Err (NdArray K) := do
  let field ← upscaleField field xt
  match xt.shape with
  | [nx, ny, nz] =>
    if ny = 0 then .error (.index "yup_3d[:, -1, :]") else
    if factor = 0 then .error (.value "upscale_factor") else do
    let at3 := fun (a : NdArray K) x y z => a.val [x, y, z]
    let fieldPrime := fun x y z => ip.mapCoords field [at3 xt x y z, (yup ny y : ℕ), at3 zt x y z]
    let line := alongLine ip factor nx ny nz
    let hf ← twizzle nx factor ny nz (line (startEnd nx ny nz (at3 field) fieldPrime))
    let hx ← twizzle nx factor ny nz (line (startEnd nx ny nz (fun x _ _ => (x : K)) (at3 xt)))
    let hz ← twizzle nx factor ny nz (line (startEnd nx ny nz (fun _ _ z => (z : K)) (at3 zt)))
    let _ ← (List.range (factor * ny)).mapM (upscaleProgress (K := K) quiet ny)
    pure ⟨[nx, factor * ny, nz], fun i => upscalePlane ip hx hz hf (i.getD 1 0) (i.getD 0 0) (i.getD 2 0)⟩
  | _ => .error (.value "not enough values to unpack (expected 3)")

end Zoidberg
