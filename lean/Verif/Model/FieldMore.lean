import Verif.Model.FieldData
import Verif.Model.Grid
import Mathlib.Analysis.SpecialFunctions.Trigonometric.Arctan
import Mathlib.Analysis.SpecialFunctions.Complex.Arg

/-!
# Model of the rest of `field.py`, of the web tracer and of the VTK output

`VMEC.__init__`, `SmoothedMagneticField`, `GEQDSK.pressure`, `W7X_vacuum.__init__`, `plasma_field`, `magnetic_axis` and `W7X_VMEC.__init__`
(`/repo/zoidberg/field.py:1048-1105, 1142-1171, 1288-1326, 1333-1402, 1540-1659, 1816-1884`), `FieldTracerWeb._follow_field_lines`
(`/repo/zoidberg/fieldtracer.py:679-711`), `write_Bfield_to_vtk` and `fci_to_vtk` (`/repo/zoidberg/zoidberg.py:801-871`).
-/

namespace Zoidberg

open Real

/-! ## `FieldTracerWeb._follow_field_lines` -/

/-- `xor` (fieldtracer.py:692-693). -/
def pyXor (x y : Bool) : Bool := (x && !y) || (!x && y)

/-- A starting point in Cartesian coordinates (fieldtracer.py:684-686). -/
noncomputable def webPoint (y0 : ℝ) (p : ℝ × ℝ) : ℝ × ℝ × ℝ := (p.1 * cos y0, p.1 * sin y0, p.2)

/-- What is stored for a vertex (fieldtracer.py:709-710). -/
noncomputable def webRZ (v : ℝ × ℝ × ℝ) : ℝ × ℝ := (sqrt (v.2.1 ^ 2 + v.1 ^ 2), v.2.2)

/-- The rows after the first one (fieldtracer.py:702-710): `vs i` are the last vertices of the lines for `y_values[i]`, `empty` is what the
memory holds before. -/
noncomputable def webRow (empty : ℕ → ℕ → ℝ × ℝ) (n i : ℕ) (vs : List (ℝ × ℝ × ℝ)) : Except Err (List (ℝ × ℝ)) :=
  if vs.length > n then .error (.index "index is out of bounds for axis 1")
  else .ok ((List.range n).map fun j => match vs[j]? with
    | some v => webRZ v
    | none => empty i j)

/-- `FieldTracerWeb._follow_field_lines` (fieldtracer.py:679-711): the rows of `result`, for at least two values of `y`.  `trace inverse dphi points` is the
service with the other settings; it gives the last vertex of every line.  Lines without a vertex are left out. -/
noncomputable def webLines (empty : ℕ → ℕ → ℝ × ℝ) (isforward : Bool)
    (trace : Bool → ℝ → List (ℝ × ℝ × ℝ) → Except Err (List (ℝ × ℝ × ℝ))) (pts : List (ℝ × ℝ)) (ys : List ℝ) :
    Except Err (List (List (ℝ × ℝ))) :=
  let y0 := ys.getD 0 0
  let inverse := pyXor (decide (ys.getD 1 0 - y0 > 0)) isforward
  ((pyRange 1 ys.length).mapM fun i =>
    (trace inverse (ys.getD i 0 - y0) (pts.map (webPoint y0))).bind (webRow empty pts.length i)).map (pts :: ·)

/-! ## `W7X_vacuum` -/

/-- `np.arctan(y / x)` (field.py:1651); nan for `0 / 0`. -/
noncomputable def axisAngle (v : ℝ × ℝ × ℝ) : Option ℝ :=
  if v.1 = 0 then (if v.2.1 > 0 then some (π / 2) else if v.2.1 < 0 then some (-(π / 2)) else none)
  else some (arctan (v.2.1 / v.1))

/-- The test of field.py:1653-1656. -/
noncomputable def axisNear (phi : ℝ) (v : ℝ × ℝ × ℝ) : Prop :=
  match axisAngle v with
  | none => False
  | some a => 97 / 100 * phi ≤ a ∧ a ≤ 103 / 100 * phi

open Classical in
/-- `magnetic_axis` (field.py:1629-1659) for the vertices that the service gives. -/
noncomputable def magneticAxis (vs : List (ℝ × ℝ × ℝ)) (phi : ℝ) : Except Err (ℝ × ℝ) :=
  match vs.find? (fun v => decide (axisNear phi v)) with
  | none => .error (.index "index 0 is out of bounds for axis 1 with size 0")
  | some v => .ok (sqrt (v.1 ^ 2 + v.2.1 ^ 2), v.2.2)

/-- The name of the file (field.py:1559-1584). -/
def W7Args.plasmaName {K : Type} (fmt : K → String) (a : W7Args K) : String := "B.w7x_plasma_field." ++ a.stem fmt ++ ".dat"

/-- `vmecURL` (field.py:1557). -/
def vmecURL : String := "http://svvmec1.ipp-hgw.mpg.de:8080/vmecrest/v1/w7x_ref_1/wout.nc"

/-- `plasma_field` (field.py:1540-1627): the files afterwards and the result; `extender url a` is the field from the web service. -/
def plasmaField {K B : Type} (fmt : K → String) (extender : String → W7Args K → Except Err B) (files : Dict B) (a : W7Args K)
    (_wout : String) : Dict B × Except Err B :=
  match files (a.plasmaName fmt) with
  | some b => (files, .ok b)
  | none => match extender vmecURL a with
    | .ok b => (files.set (a.plasmaName fmt) b, .ok b)
    | .error e => (files, .error e)

/-- The three components on the points of the grid (field.py:1366-1388). -/
abbrev Comp3 := ℕ → ℕ → ℕ → ℝ × ℝ × ℝ

/-- The coordinates of the points (field.py:1361-1363, 1830-1832). -/
noncomputable def W7Args.coords (a : W7Args ℝ) : List ℝ × List ℝ × List ℝ :=
  (linspaceClosed a.r.1 a.r.2 a.nx, linspaceClosed a.phi.1 a.phi.2 a.ny, linspaceClosed a.z.1 a.z.2 a.nz)

/-- `RegularGridInterpolator(points, values, bounds_error=False, fill_value)` (field.py:1394-1402) as a function of the three coordinates of the points, the
values, the fill value and a position. -/
abbrev GridInterp := List ℝ × List ℝ × List ℝ → (ℕ → ℕ → ℕ → ℝ) → ℝ → ℝ × ℝ × ℝ → ℝ

/-- `W7X_vacuum.__init__` (field.py:1360-1402) with the results of `field_values` and, if it is included, of `plasma_field`; and the functions of the
field (field.py:1661-1676). -/
noncomputable def w7Field (interp : GridInterp) (a : W7Args ℝ) (vac : Comp3) (plasma : Option Comp3) : FieldFns ℝ :=
  let pl : Comp3 := plasma.getD fun _ _ _ => (0, 0, 0)
  let br := interp a.coords (fun i j k => (vac i j k).1 + (pl i j k).1) 0
  let bphi := interp a.coords (fun i j k => (vac i j k).2.1 + (pl i j k).2.1) 1
  let bz := interp a.coords (fun i j k => (vac i j k).2.2 + (pl i j k).2.2) 0
  interpField (fun x z phi => br (x, phi, z)) (fun x z phi => bphi (x, phi, z)) (fun x z phi => bz (x, phi, z))

/-! ## `W7X_VMEC` -/

/-- `W7X_VMEC.__init__` (field.py:1816-1884) as far as the first use of an attribute of the object in `field_values` (field.py:1865): `attrs` are the attributes
that are set by then. -/
def w7Vmec {α : Type} (attrs : List String) (rest : Except Err α) : Except Err α :=
  if "nx" ∈ attrs then rest else .error (.attribute "'W7X_VMEC' object has no attribute 'nx'")

/-! ## `SmoothedMagneticField` -/

section
variable {K : Type} [Field K] [LinearOrder K] [FloorRing K]

/-- `np.argmin(np.abs(phi - ycoords))` for a list that is not empty (field.py:1151-1162). -/
def nearestY (ys : List K) (phi : K) : ℕ :=
  (List.range ys.length).foldl (fun b i => if |phi - ys.getD i 0| < |phi - ys.getD b 0| then i else b) 0

/-- `SmoothedMagneticField.Bxfunc` (field.py:1151-1162).  It has no `return`: `Option` is for `None`, which is always returned.  `findIndex` is that of the poloidal grid. -/
def smoothedBx {G : Type} (g : Grid G K) (findIndex : G → Except Err Unit) (phi : K) : Except Err (Option K) :=
  if g.ycoords = [] then .error (.value "attempt to get argmin of an empty sequence")
  else
    let ind : ℤ := nearestY g.ycoords phi
    let ind := if phi < g.ycoords.getD (nearestY g.ycoords phi) 0 then ind - 1 else ind
    (g.getPoloidalGrid (ind : K)).bind fun d => (g.getPoloidalGrid ((ind + 1 : ℤ) : K)).bind fun _ =>
      match d.1 with
      | none => .error (.attribute "'NoneType' object has no attribute 'findIndex'")
      | some p => (findIndex p).bind fun _ => (findIndex p).bind fun _ => .ok none

/-- `Byfunc` and `Rfunc` of the smoothed field (field.py:1164-1171), and `Bzfunc` and `pressure`, which it has from `MagneticField` (field.py:90-104, 124-138). -/
def smoothedRest (f : FieldFns K) : (K → K → K → K) × Option (K → K → K → K) × (K → K → K → K) × (K → K → K → K) :=
  (f.By, f.R, fun _ _ _ => 0, fun _ _ _ => 0)

end

/-! ## `GEQDSK` -/

/-- A spline with `ext=3` (field.py:1287-1291): outside of the range of its points, 0 to 1, it has the values at the ends. -/
def clampSpline {K : Type} [Field K] [LinearOrder K] (spl : K → K) (t : K) : K := spl (max 0 (min 1 t))

/-- `GEQDSK.pressure` (field.py:1319-1326). -/
def geqdskPressure {K : Type} [Field K] [LinearOrder K] (psinorm : K → K → K) (p : K → K) (x z : K) : K := clampSpline p (psinorm x z)

/-! ## `VMEC.__init__` -/

/-- The default number of values of `zeta` (field.py:1017-1020). -/
def vmecNzeta (ntor : ℕ) (nzeta : Option ℕ) : ℕ := nzeta.getD (ntor + 1)

/-- `zeta` (field.py:1023). -/
noncomputable def vmecZeta (n : ℕ) : List ℝ := linspaceClosed 0 (2 * π) n

/-- `VMEC.__init__` (field.py:1048-1105) and the functions of the field: `rz k fill R Z` is `griddata` with the points and the three components of plane `k`;
`r_1D` and `z_1D` are given. -/
noncomputable def vmecField (interp : GridInterp) (rz : ℕ → ℝ → ℝ → ℝ → ℝ × ℝ × ℝ) (r1 z1 : List ℝ) (nzeta : ℕ) : FieldFns ℝ :=
  let pts := (r1, z1, vmecZeta nzeta)
  let v := fun i j k => rz k 0 (r1.getD i 0) (z1.getD j 0)
  let w := fun i j k => rz k 1 (r1.getD i 0) (z1.getD j 0)
  let br := interp pts (fun i j k => (v i j k).1) 0
  let bphi := interp pts (fun i j k => (w i j k).2.1) 1
  let bz := interp pts (fun i j k => (v i j k).2.2) 0
  interpField (fun x z phi => br (x, z, phi)) (fun x z phi => bphi (x, z, phi)) (fun x z phi => bz (x, z, phi))

/-! ## VTK -/

/-- `write_Bfield_to_vtk` (zoidberg.py:825-840): it reads `bx`, `by`, `bz` of the field first. -/
def writeVtk {α : Type} (fieldAttrs gridAttrs : List String) (rest : Except Err α) : Except Err α :=
  if "bx" ∉ fieldAttrs then .error (.attribute "bx")
  else if "by" ∉ fieldAttrs then .error (.attribute "by")
  else if "bz" ∉ fieldAttrs then .error (.attribute "bz")
  else if "xarray" ∉ gridAttrs then .error (.attribute "xarray")
  else rest

/-- The attributes and methods of a `MagneticField` (field.py:55-227). -/
def fieldAttributes : List String :=
  ["boundary", "attributes", "Bxfunc", "Byfunc", "Bzfunc", "Rfunc", "pressure", "Bmag", "field_direction"]

/-- The output of `fci_to_vtk`: the coordinates and the three components of `B` (zoidberg.py:865-871). -/
structure VtkOut (K : Type) where
  x : List K
  y : List K
  z : List K
  B : Cell → K × K × K

/-- `fci_to_vtk` (zoidberg.py:843-871) for a file with numbers `dx`, `dy` and arrays of the shape `nx, ny, nz`; a variable that is not there is read as `None`.
The branch for a missing `bx` (zoidberg.py:854-860) comes after its shape is read (zoidberg.py:852) and is never reached. -/
def fciToVtk {K : Type} [Field K] (have_evtk : Bool) (nx ny nz : ℕ) (dx dy : K) (bx bz _xt _zt : Option (Cell → K)) (scale : K) :
    Except Err (Option (VtkOut K)) :=
  if have_evtk = false then .ok none
  else match bx with
    | none => .error (.attribute "'NoneType' object has no attribute 'shape'")
    | some b => match bz with
      | none => .error (.type "unsupported operand type(s) for *: 'NoneType' and 'int'")
      | some c =>
        let dz := (nx : K) * dx / (nz : K)
        .ok (some ⟨(linspaceClosed 0 ((nx : K) * dx) nx).map (· * scale), linspaceOpen 0 ((ny : K) * dy) ny,
          (linspaceOpen 0 ((nz : K) * dz) nz).map (· * scale), fun i => (b i * scale, 1, c i * scale)⟩)

end Zoidberg
