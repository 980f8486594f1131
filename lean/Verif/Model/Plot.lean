import Verif.Model.FieldTracer
import Verif.Model.Grid

/-!
# Model of `plot.py` and of `make_surfaces` (`/repo/zoidberg/plot.py`, `/repo/zoidberg/zoidberg.py:874-933`)

A plot is modelled by the data it shows: the points that are handed to matplotlib, with their labels and colours.
`avail` is `plotting_available`.  Axis labels, legends, `show` and the class `AnimateVectorField`, which hands its data
to matplotlib unchanged, are left out.
-/

namespace Zoidberg

/-- What `warnings.warning` raises (plot.py:57, 167, 226, 324, 395): the module has a function `warn`, no `warning`. -/
def noWarning : Err := .attribute "module 'warnings' has no attribute 'warning'"

/-! ## `plot_poincare` -/

/-- `colours` (plot.py:76). -/
def plotColours : List String := ["k", "b", "r", "g", "c", "m"]

/-- One set of points: the colour, the value of `y` in the legend and the points (plot.py:82-97). -/
structure Series (K α : Type) where
  colour : String
  label : K
  points : List α

section
variable {K : Type} [Field K] [LinearOrder K]

/-- `plot_poincare` (plot.py:56-101) for starting points with at most one axis: matplotlib refuses arrays with three.
`follow` gives the rows of the tracer, as for `tracePoincare`.  `np.floor` gives a float, by which a list cannot be
multiplied (plot.py:78). -/
def plotPoincare {α : Type} (avail : Bool) (follow : List K → Except Err (List α)) (yperiod : K) (nplot : Option ℕ)
    (slices : Option (List K)) (revs nover : ℕ) : Except Err (Option (List (Series K α))) :=
  if avail = false then .error noWarning
  else (tracePoincare follow yperiod nplot slices revs nover).bind fun a =>
    if a.2.length > plotColours.length then .error (.type "can't multiply sequence by non-int of type 'numpy.float64'")
    else .ok (some ((List.range a.2.length).map fun index =>
      ⟨plotColours.getD index "", a.2.getD index 0, a.1.filterMap fun row => row[index]?⟩))

/-- `result[:, c]` (plot.py:117-122), the values in C order. -/
def FArr.column (r : FArr K) (c : ℕ) : Except Err (List K) :=
  match r.shape with
  | n :: m :: s =>
    if c < m then .ok ((List.range n).flatMap fun i => (r.data.drop ((i * m + c) * s.prod)).take s.prod)
    else .error (.index "index is out of bounds for axis 1")
  | _ => .error (.index "too many indices for array")

/-- `onclick` (plot.py:103-127): the two arrays of the points that are shown afterwards.  `pos` is the position of the mouse,
if it is inside the plot; `ys` are `y_values` (plot.py:132-135), computed as in `trace_poincare`. -/
def onclick (ode : List K → List K → Except Err (List (List K))) (ys : List K) (pos : Option (K × K)) (button : ℕ)
    (shown : List K × List K) : Except Err (List K × List K) :=
  match pos with
  | none => .ok shown
  | some p =>
    if button = 2 then .ok ([], [])
    else (followFieldLines ode ⟨[], [p.1]⟩ ⟨[], [p.2]⟩ ⟨[ys.length], ys⟩).bind fun r =>
      (r.column 0).bind fun x => (r.column 1).bind fun z =>
        .ok (if button = 3 then (shown.1 ++ x, shown.2 ++ z) else (x, z))

end

section
variable {K : Type} [Field K] [LinearOrder K] [FloorRing K]

/-! ## `plot_3d_field_line` -/

/-- `plot_3d_field_line` (plot.py:166-200): one curve of `y_res` points for every cycle. -/
def plot3d (avail : Bool) (ode : List K → List K → Except Err (List (List K))) (x z : FArr K) (yperiod : K)
    (cycles yres : ℕ) : Except Err (Option (List (List (K × K × K)))) :=
  if avail = false then .error noWarning
  else
    let phi := linspaceOpen 0 ((cycles : K) * yperiod) (yres * cycles)
    (followFieldLines ode x z ⟨[phi.length], phi⟩).bind fun r =>
      if r.data.length ≠ cycles * yres * 2 then .error (.value "cannot reshape array")
      else .ok (some ((List.range cycles).map fun n => (List.range yres).map fun j =>
        (r.data.getD (2 * (n * yres + j)) 0, r.data.getD (2 * (n * yres + j) + 1) 0,
          npRem (phi.getD (n * yres + j) 0) yperiod)))

/-! ## `plot_forward_map`, `plot_backward_map` -/

/-- The four sets of points (plot.py:332-368, 403-439). -/
structure MapPlot (K : Type) where
  grid : List (K × K)
  mapped : List (K × K)
  inner : List (K × K)
  outer : List (K × K)

/-- The indices of an array with `nx` by `nz` entries in the order of `np.ravel` (plot.py:335-336, 345-346, 355-356, 364-365). -/
def ravelCells (nx nz : ℕ) : List (ℕ × ℕ) := (List.range nx).flatMap fun x => (List.range nz).map fun z => (x, z)

/-- `plot_forward_map` with `pre = "forward"`, `step = 1` (plot.py:323-372) and `plot_backward_map` with `pre = "backward"`,
`step = -1` (plot.py:394-443).  The arrays of `maps` have the shape of the grid. -/
def plotMap (avail : Bool) (pre : String) (step : ℤ) (g : Grid (PolGrid K) K) (maps : Dict (Cell → K)) (yslice : ℤ) :
    Except Err (Option (MapPlot K)) :=
  if avail = false then .error noWarning
  else (g.getPoloidalGrid (yslice : K)).bind fun _ => (g.getPoloidalGrid ((yslice + step : ℤ) : K)).bind fun next =>
    match next.1 with
    | none => .error (.attribute "'NoneType' object has no attribute 'R'")
    | some pol => (maps.get (pre ++ "_R")).bind fun mR =>
      match pyIndex g.ycoords.length yslice with
      | none => .error (.index "index is out of bounds for axis 1")
      | some y => (maps.get (pre ++ "_Z")).bind fun mZ => (maps.get (pre ++ "_xt_prime")).bind fun xt =>
        let cells := ravelCells g.nx g.nz
        let pts := fun l : List (ℕ × ℕ) => l.map fun c => (mR (c.1, y, c.2), mZ (c.1, y, c.2))
        .ok (some ⟨(ravelCells pol.nx pol.nz).map fun c => (pol.R c.1 c.2, pol.Z c.1 c.2), pts cells,
          pts (cells.filter fun c => decide (xt (c.1, y, c.2) < 0)),
          pts (cells.filter fun c => decide (xt (c.1, y, c.2) > (g.nx : K) - 1 / 2))⟩)

end

/-! ## `plot_streamlines` -/

/-- The attributes of a `Grid` (grid.py:50-58, 60-134). -/
def gridAttributes : List String :=
  ["poloidal_grids", "ycoords", "Ly", "yperiodic", "_metric_cache", "shape", "numberOfPoloidalGrids", "getPoloidalGrid",
    "metric"]

/-- Access to attributes, one after the other (zoidberg.py:824-838, 898-920). -/
def accessAll (has : List String) : List String → Except Err Unit
  | [] => .ok ()
  | a :: l => if a ∈ has then accessAll has l else .error (.attribute a)

/-- `plot_streamlines` (plot.py:225-246): the attributes of the two objects that it uses, in the order of the calls. -/
def plotStreamlines (avail : Bool) (grid field : List String) (width : Bool) : Except Err Unit :=
  if avail = false then .error noWarning
  else (if width then accessAll field ["b_mag", "by"] else .ok ()).bind fun _ =>
    (accessAll grid ["xarray", "zarray"]).bind fun _ => accessAll field ["bx", "bz"]

/-! ## `make_surfaces` -/

/-- The attributes of the grid that `make_surfaces` uses (zoidberg.py:898-931).  `ny` is the length of `yarray`; `x_3d` has the
shape `nx, ny, nz` of the arrays. -/
structure SurfGrid (K : Type) where
  xcentre : K
  zcentre : K
  xarray : List K
  yarray : List K
  zarray : List K
  Ly : K

/-- The names of these attributes, in the order of their use (zoidberg.py:898-920). -/
def surfAttributes : List String := ["xcentre", "xarray", "zcentre", "yarray", "Ly", "ny", "zarray", "x_3d"]

section
variable {K : Type} [Field K] [LinearOrder K]

/-- `make_surfaces` (zoidberg.py:896-933).  `interp points x z` is `griddata` with the points and their values at one position.
The result is a function of the indices. -/
def makeSurfaces (ode : List K → List K → Except Err (List (List K))) (interp : List ((K × K) × K) → K → K → K)
    (g : SurfGrid K) (nsurf revs : ℕ) : Except Err (ℕ → ℕ → ℕ → K) :=
  match g.xarray.max? with
  | none => .error (.value "zero-size array to reduction operation maximum which has no identity")
  | some m =>
    let xpos := (linspaceClosed 0 (1 / 2 * m) nsurf).map fun d => g.xcentre + d
    let phi := poincareYs g.Ly g.yarray revs
    let ny := g.yarray.length
    (followFieldLines ode ⟨[nsurf], xpos⟩ ⟨[], [g.zcentre]⟩ ⟨[phi.length], phi⟩).bind fun p =>
      if p.data.length ≠ revs * ny * nsurf * 2 then .error (.value "cannot reshape array")
      else if nsurf = 1 then .error (.runtime "ZeroDivisionError")
      else .ok fun i y k => interp
        ((List.range revs).flatMap fun r => (List.range nsurf).map fun s : ℕ =>
          ((p.data.getD (2 * ((r * ny + y) * nsurf + s)) 0, p.data.getD (2 * ((r * ny + y) * nsurf + s) + 1) 0),
            (s : K) / ((nsurf : K) - 1))) (g.xarray.getD i 0) (g.zarray.getD k 0)

/-- `make_surfaces` for an object with the given attributes: the first access (zoidberg.py:898) needs `xcentre`.  The order of
the accesses and the other calls is simplified: all attributes first. -/
def makeSurfacesOf {α : Type} (attributes : List String) (rest : Except Err α) : Except Err α :=
  (accessAll attributes surfAttributes).bind fun _ => rest

end

end Zoidberg
