import Verif.Model.GetMetric
import Verif.Model.FieldTracer
import Verif.Model.LineFromPoints
import Verif.Model.FieldCoils
import Mathlib.Analysis.Real.Pi.Bounds

/-!
# Model of `/repo/zoidberg/examples`

`common.py`: `calc_curvilinear_curvature`, `get_lines`, `smooth_metric`, `calc_iota`; `rotating_ellipse.py`: `rotating_ellipse` and the flags of `main`; `screwpinch.py`: what `screwpinch` makes
the grid from; and the planes of two scripts in `/repo/examples`.
-/

namespace Zoidberg

/-! ## `calc_curvilinear_curvature` -/

section
variable {K : Type} [Field K]

/-- What `calc_curvilinear_curvature` works with (common.py:11-33, 45-47): the entries of `grid.metric()`, the positions of the slices, the arrays of the
file, and the components of the field with the arguments `(x, z, phi)`. -/
structure CurvIn (K : Type) where
  nx : ℕ
  ny : ℕ
  nz : ℕ
  B : Cell → K
  dx : Cell → K
  dz : Cell → K
  g_11 : Cell → K
  g_22 : Cell → K
  g_33 : Cell → K
  g_13 : Cell → K
  polR : Cell → K
  polZ : Cell → K
  R : Cell → K
  dy : Cell → K
  Bx : K → K → K → K
  By : K → K → K → K
  Bz : K → K → K → K

/-- `calc.deriv(a[:, y, z]) / d[:, y, z]` (common.py:42-43, 69-70).  `deriv n` is `boututils.calculus.deriv` for an array with `n` entries. -/
def derX (deriv : ℕ → (ℕ → K) → ℕ → K) (n : ℕ) (a d : Cell → K) : Cell → K :=
  fun c => deriv n (fun i => a (i, c.2.1, c.2.2)) c.1 / d c

/-- `calc.deriv(a[x, :, z]) / d[x, :, z]` (common.py:75-76). -/
def derY (deriv : ℕ → (ℕ → K) → ℕ → K) (n : ℕ) (a d : Cell → K) : Cell → K :=
  fun c => deriv n (fun i => a (c.1, i, c.2.2)) c.2.1 / d c

/-- `calc.deriv(a[x, y, :]) / d[x, y, :]` (common.py:39-40, 66-67). -/
def derZ (deriv : ℕ → (ℕ → K) → ℕ → K) (n : ℕ) (a d : Cell → K) : Cell → K :=
  fun c => deriv n (fun i => a (c.1, c.2.1, i)) c.2.2 / d c

namespace CurvIn

/-- `GR` (common.py:35): the second argument is the number of the slice, the third is `Z`. -/
def GR (i : CurvIn K) : Cell → K := fun c => i.Bx (i.polR c) (c.2.1 : K) (i.polZ c) / i.B c ^ 2
/-- `GZ` (common.py:36). -/
def GZ (i : CurvIn K) : Cell → K := fun c => i.Bz (i.polR c) (c.2.1 : K) (i.polZ c) / i.B c ^ 2
/-- `Gphi` (common.py:37). -/
def Gphi (i : CurvIn K) : Cell → K := fun c => i.By (i.polR c) (c.2.1 : K) (i.polZ c) / i.B c ^ 2

variable (deriv : ℕ → (ℕ → K) → ℕ → K)

/-- `dRdz` (common.py:39). -/
def dRdz (i : CurvIn K) : Cell → K := derZ deriv i.nz i.polR i.dz
/-- `dZdz` (common.py:40). -/
def dZdz (i : CurvIn K) : Cell → K := derZ deriv i.nz i.polZ i.dz
/-- `dRdx` (common.py:42). -/
def dRdx (i : CurvIn K) : Cell → K := derX deriv i.nx i.polR i.dx
/-- `dZdx` (common.py:43). -/
def dZdx (i : CurvIn K) : Cell → K := derX deriv i.nx i.polZ i.dx

/-- `J` (common.py:50). -/
def J (i : CurvIn K) : Cell → K := fun c => i.R c * (i.dZdz deriv c * i.dRdx deriv c - i.dZdx deriv c * i.dRdz deriv c)
/-- `Gx` (common.py:51). -/
def Gx (i : CurvIn K) : Cell → K := fun c => (i.GR c * i.dZdz deriv c - i.GZ c * i.dRdz deriv c) * (i.R c / i.J deriv c)
/-- `Gz` (common.py:52). -/
def Gz (i : CurvIn K) : Cell → K := fun c => (i.GZ c * i.dRdx deriv c - i.GR c * i.dZdx deriv c) * (i.R c / i.J deriv c)

/-- `G_x` (common.py:54), where `g_12 = 0.0`. -/
def G_x (i : CurvIn K) : Cell → K := fun c => i.Gx deriv c * i.g_11 c + i.Gphi c * 0 + i.Gz deriv c * i.g_13 c
/-- `G_y` (common.py:55), where `g_12 = g_23 = 0.0`. -/
def G_y (i : CurvIn K) : Cell → K := fun c => i.Gx deriv c * 0 + i.Gphi c * i.g_22 c + i.Gz deriv c * 0
/-- `G_z` (common.py:56), where `g_23 = 0.0`. -/
def G_z (i : CurvIn K) : Cell → K := fun c => i.Gx deriv c * i.g_13 c + i.Gphi c * 0 + i.Gz deriv c * i.g_33 c

/-- `bxcvx` (common.py:58-78). -/
def bxcvx (i : CurvIn K) : Cell → K :=
  fun c => (derY deriv i.ny (i.G_z deriv) i.dy c - derZ deriv i.nz (i.G_y deriv) i.dz c) / i.J deriv c
/-- `bxcvy` (common.py:58-79). -/
def bxcvy (i : CurvIn K) : Cell → K :=
  fun c => (derZ deriv i.nz (i.G_x deriv) i.dz c - derX deriv i.nx (i.G_z deriv) i.dx c) / i.J deriv c
/-- `bxcvz` (common.py:58-80). -/
def bxcvz (i : CurvIn K) : Cell → K :=
  fun c => (derX deriv i.nx (i.G_y deriv) i.dx c - derY deriv i.ny (i.G_x deriv) i.dy c) / i.J deriv c

/-- The four variables written (common.py:82-85). -/
def write (i : CurvIn K) (file : Dict (Cell → K)) : Dict (Cell → K) :=
  (((file.set "bxcvx" (i.bxcvx deriv)).set "bxcvy" (i.bxcvy deriv)).set "bxcvz" (i.bxcvz deriv)).set "J" (i.J deriv)

end CurvIn

/-- `f.read(name)` followed by a use of the array: `DataFile.read` gives `None` for a variable that is not there
(examples/common.py:11, 45-47, 116-132). -/
def fileRead {V : Type} (file : Dict V) (k : String) : Except Err V :=
  match file k with
  | some v => .ok v
  | none => .error (.attribute "'NoneType' object has no attribute 'shape'")

end

section
variable {K : Type} [Field K] [LinearOrder K] [FloorRing K]

/-- The inputs (common.py:10-33, 45-47).  The arrays of the file are taken to have the shape of the grid, and no entry of the metric to be missing.
`cache` is the metric cache of the grid; `write_maps` leaves it empty (zoidberg.py:617). -/
def curvInputs (g : Grid (PolGrid K) K) (cache : Option (Metric K)) (file : Dict (Cell → K)) (Bx By Bz : K → K → K → K) :
    Except Err (CurvIn K) :=
  (fileRead file "B").bind fun B =>
  (g.metric cache).bind fun m =>
  (m.getE "dx").bind fun dx =>
  (m.getE "dz").bind fun dz =>
  (m.getE "g_xx").bind fun g11 =>
  (m.getE "g_yy").bind fun g22 =>
  (m.getE "g_zz").bind fun g33 =>
  (m.getE "g_xz").bind fun g13 =>
  ((List.range g.ny).mapM fun y => (sliceOf g y).map Prod.fst).bind fun pols =>
  (fileRead file "R").bind fun R =>
  (fileRead file "dy").bind fun dy =>
  .ok ⟨g.nx, g.ny, g.nz, B, dx, dz, g11, g22, g33, g13,
    fun c => (pols.map fun p => p.R c.1 c.2.2).getD c.2.1 0, fun c => (pols.map fun p => p.Z c.1 c.2.2).getD c.2.1 0, R, dy, Bx, By, Bz⟩

/-- `calc_curvilinear_curvature` (common.py:9-86): the file afterwards. -/
def calcCurvature (deriv : ℕ → (ℕ → K) → ℕ → K) (g : Grid (PolGrid K) K) (cache : Option (Metric K)) (file : Dict (Cell → K))
    (Bx By Bz : K → K → K → K) : Except Err (Dict (Cell → K)) :=
  (curvInputs g cache file Bx By Bz).map fun i => i.write deriv file

end

/-! ## `smooth_metric` -/

section
variable {K : Type} [Field K]

/-- `np.int(np.ceil(n / 2) // 2 * 2 + 1)` (common.py:144) where there is `np.int`. -/
def sgWindow (n : ℕ) : ℕ := ((n + 1) / 2) / 2 * 2 + 1

/-- `savgol_filter(a, np.int(...), order)` (common.py:143-145).  `npInt` says whether numpy has `np.int`: it was removed in 1.24, and
pyproject.toml asks for at least 2.0.  `savgol window order n` is the filter of scipy for arrays with `n` entries; scipy raises a `ValueError` if the order
is not less than the window, or if the window is longer than the array. -/
def savgolCall (npInt : Bool) (savgol : ℕ → ℕ → ℕ → (ℕ → K) → ℕ → K) (order n : ℕ) (a : ℕ → K) : Except Err (ℕ → K) :=
  if npInt = false then .error (.attribute "module 'numpy' has no attribute 'int'")
  else if order ≥ sgWindow n then .error (.value "polyorder must be less than window_length.")
  else if sgWindow n > n then .error (.value "window_length must be less than or equal to the size of x")
  else .ok (savgol (sgWindow n) order n a)

/-- One array of common.py:141-179: the rows are smoothed into an array of zeros.  All arrays are taken to have the shape `(nx, ny, nz)`, so that an
error is the same in whichever row it comes first. -/
def smoothArr (npInt : Bool) (savgol : ℕ → ℕ → ℕ → (ℕ → K) → ℕ → K) (order nx ny nz : ℕ) (a : Cell → K) : Except Err (Cell → K) :=
  if nx = 0 ∨ ny = 0 then .ok fun _ => 0
  else (savgolCall npInt savgol order nz fun z => a (0, 0, z)).map fun _ => fun c =>
    savgol (sgWindow nz) order nz (fun z => a (c.1, c.2.1, z)) c.2.2

/-- The names read and smoothed in any case (common.py:116-119). -/
def smoothAlways : List String := ["bxcvx", "bxcvz", "bxcvy", "J"]
/-- The names read and smoothed with `smooth_metric` (common.py:127-132). -/
def smoothTensor : List String := ["g13", "g_13", "g11", "g_11", "g33", "g_33"]

/-- `smooth_metric` (common.py:110-194): the file afterwards, and the six arrays returned if `return_values`.  All arrays are read before the first is
smoothed. -/
def smoothMetric (npInt : Bool) (savgol : ℕ → ℕ → ℕ → (ℕ → K) → ℕ → K) (nx ny nz : ℕ) (file : Dict (Cell → K))
    (writeToFile returnValues smoothG : Bool) (order : ℕ) : Except Err (Dict (Cell → K) × Option (List (Cell → K))) :=
  let names := if smoothG then smoothAlways ++ smoothTensor else smoothAlways
  (names.mapM fun n => (fileRead file n).map fun a => (n, a)).bind fun arrs =>
  (arrs.mapM fun p => (smoothArr npInt savgol order nx ny nz p.2).map fun s => (p.1, s)).bind fun sm =>
    let written := if writeToFile then sm.filter fun p => p.1 ∉ ["bxcvx", "bxcvy", "bxcvz"] else []
    let old := fun n => (ODict.get? arrs n).getD fun _ => 0
    let new := fun n => (ODict.get? sm n).getD fun _ => 0
    .ok (written.foldl (fun f p => f.set p.1 p.2) file,
      if returnValues then some [new "bxcvx", new "bxcvy", new "bxcvz", old "bxcvx", old "bxcvy", old "bxcvz"] else none)

end

/-! ## `calc_iota` -/

/-- `argrelextrema(d, np.greater, order=order)[0]` (common.py:204): the places where the value is greater than all those up to `order` places to both
sides, with places beyond the ends replaced by the ends (mode "clip"). -/
def relMaxima {K : Type} [Zero K] [LinearOrder K] (order : ℕ) (d : List K) : List ℕ :=
  (List.range d.length).filter fun i => (pyRange 1 (order + 1)).all fun k =>
    decide (d.getD i 0 > d.getD (min (i + k) (d.length - 1)) 0) && decide (d.getD i 0 > d.getD (i - k) 0)

/-- `toroidal_angle` (common.py:200). -/
noncomputable def iotaAngles : List ℝ := linspaceOpen 0 (400 * Real.pi) 10000

/-- `calc_iota` (common.py:197-206); `follow` gives `result[:, 0, 0]` for the angles.  The method of the tracer is called with the field in the place of
the tracer, of which it only uses `field_direction`. -/
noncomputable def calcIota (follow : List ℝ → Except Err (List ℝ)) : Except Err ℝ :=
  (follow iotaAngles).bind fun r =>
    match relMaxima 10 r with
    | p0 :: p1 :: _ => .ok (2 * Real.pi / (iotaAngles.getD p1 0 - iotaAngles.getD p0 0))
    | _ => .error (.index "index is out of bounds for axis 0")

/-! ## `get_lines` -/

section
variable {K : Type} [Field K] [LinearOrder K] [FloorRing K]

/-- `rzcoord[:, i, 0, 0]` and `rzcoord[:, i, 0, 1]` (common.py:98-99): the first two numbers of every row. -/
def slicePoints (rz : List (List (List K))) (i : ℕ) : List (K × K) :=
  rz.map fun rev => ((rev.getD i []).getD 0 0, (rev.getD i []).getD 1 0)

/-- `get_lines` (common.py:89-106).  `follow` gives the rows of the tracer, see `tracePoincare`; `smoothing` is not used. -/
def getLines (e : RzEnv K) (follow : List K → Except Err (List (List K))) (yslices : List K) (yperiod : K) (npoints : ℕ) :
    Except Err (List (RZLine K)) :=
  (tracePoincare follow yperiod (some 3) (some yslices) npoints 20).bind fun a =>
    (List.range a.2.length).mapM fun i =>
      (lineFromPoints e (slicePoints a.1 i) none none false).bind fun l => match l with
        | none => .error (.attribute "'NoneType' object has no attribute 'equallySpaced'")
        | some l => l.equallySpaced e none none

end

/-! ## `rotating_ellipse` -/

/-- The flags of `rotating_ellipse` (rotating_ellipse.py:17-29) with their defaults; what concerns plots is left out. -/
structure EllipseOpts where
  curvilinear : Bool := true
  rectangular : Bool := false
  innerAligned : Bool := true
  outerAligned : Bool := true
  calcCurvature : Bool := true
  smoothCurvature : Bool := false
  returnIota : Bool := true
  writeIota : Bool := false

/-- `poloidal_grid` (rotating_ellipse.py:40-78).  `inner`, `outer` are the two shaped lines, `aligned r` is `get_lines` from the radius `r`, and
`elliptic` is `grid_elliptic`.  If it was never assigned, its first use is an `UnboundLocalError`. -/
def ellipseGrid {G L K : Type} (o : EllipseOpts) (rect : Except Err G) (shaped : K → Except Err L) (aligned : K → Except Err (List L))
    (elliptic : L → L → Except Err G) (rIn rOut aIn aOut : K) : Except Err (GridArg G) :=
  if o.rectangular then rect.map .one
  else if o.curvilinear then
    (shaped aIn).bind fun inner =>
    (shaped aOut).bind fun outer =>
    (if o.innerAligned then aligned rIn else .ok []).bind fun ins =>
    (if o.outerAligned then aligned rOut else .ok []).bind fun outs =>
      if o.innerAligned then
        if o.outerAligned then ((ins.zip outs).mapM fun p => elliptic p.1 p.2).map .many
        else (ins.mapM fun l => elliptic l outer).map .many
      else (elliptic inner outer).map .one
  else .error (.runtime "UnboundLocalError: poloidal_grid")

/-- What `rotating_ellipse` leaves behind: the file, the number that was printed, and the value of the call (examples/rotating_ellipse.py:80-101). -/
structure EllipseOut (F K : Type) where
  file : F
  printed : Option K
  value : Option K

/-- `rotating_ellipse` (rotating_ellipse.py:80-101) after the choice of the grid: `build` makes the grid, the maps and the file, `curv` is
`calc_curvilinear_curvature`, `smooth` is `smooth_metric`, `iota` is `calc_iota` and `setIota` writes the number.  There is no `return`. -/
def ellipseExample {G F K : Type} (o : EllipseOpts) (pol : Except Err (GridArg G)) (build : GridArg G → Except Err F)
    (curv smooth : F → Except Err F) (iota : Except Err K) (setIota : F → K → F) : Except Err (EllipseOut F K) :=
  (pol.bind build).bind fun f =>
  (if o.curvilinear && o.calcCurvature then curv f else .ok f).bind fun f =>
  (if o.calcCurvature && o.smoothCurvature then smooth f else .ok f).bind fun f =>
  if o.returnIota || o.writeIota then
    iota.map fun v => if o.writeIota then ⟨setIota f v, none, none⟩ else ⟨f, some v, none⟩
  else .ok ⟨f, none, none⟩

/-- The options of the command line (rotating_ellipse.py:105-144): the flags given; four of them switch something off. -/
def ellipseMain (flags : List String) : EllipseOpts :=
  { curvilinear := decide ("--curvilinear" ∉ flags), rectangular := decide ("--rectangular" ∈ flags),
    outerAligned := decide ("--curvilinear_outer_aligned" ∉ flags), innerAligned := decide ("--curvilinear_inner_aligned" ∉ flags),
    calcCurvature := decide ("--calc_curvature" ∉ flags), smoothCurvature := decide ("--smooth_curvature" ∈ flags),
    writeIota := decide ("--write_iota" ∈ flags), returnIota := false }

/-! ## `screwpinch` and the scripts -/

/-- The field, the planes and the boundaries of `screwpinch` (examples/screwpinch.py:21-30). -/
noncomputable def pinchExample (e : RzEnv ℝ) (ny : ℕ) (xcentre a : ℝ) (npoints : ℕ) : Except Err (FieldFns ℝ × List ℝ × RZLine ℝ × RZLine ℝ) :=
  (shapedLine e Real.cos Real.sin xcentre (a / 2) 0 0 0 npoints).bind fun inner =>
    (shapedLine e Real.cos Real.sin xcentre a 0 0 0 npoints).map fun outer =>
      (screwpinch xcentre 0 0 1, linspaceOpen 0 (2 * Real.pi) ny, inner, outer)

/-- `ycoords` of the scripts `/repo/examples/straight-stellarator-curvilinear.py:29` and `/repo/examples/rotating-ellipse.py:34`.  The grid is made with these values,
the period `yperiod` and `yperiodic=True` (lines 68 and 73). -/
def scriptPlanes {K : Type} [Field K] (yperiod : K) (nslices : ℕ) : List K := linspaceClosed 0 yperiod nslices

end Zoidberg
