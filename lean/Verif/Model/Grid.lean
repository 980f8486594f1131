import Verif.Prelude.Numpy

/-!
# Model of `/repo/zoidberg/grid.py`

Floating point numbers are elements of an ordered field `K`.  Poloidal grids are
an arbitrary type `G`; only where their arrays or metric are used (`PolGrid`) is
their content fixed.
-/

namespace Zoidberg

variable {K : Type} [Field K] [LinearOrder K] [FloorRing K]

/-- `Grid` (grid.py:40-58) without the metric cache, which is explicit state of
the functions that use it. -/
structure Grid (G K : Type) where
  polGrids : List G
  ycoords : List K
  Ly : K
  yperiodic : Bool
  nx : ℕ
  nz : ℕ

/-- The `poloidal_grids` argument: one grid or a list of them (grid.py:41). -/
inductive GridArg (G : Type) where
  | one (g : G)
  | many (l : List G)

/-- `Grid.__init__` (grid.py:40-58); `size` gives `(nx, nz)` of a poloidal
grid. -/
def Grid.init {G : Type} (size : G → ℕ × ℕ) (a : GridArg G) (ycoords : List K) (Ly : K)
    (yperiodic : Bool) : Except Err (Grid G K) :=
  let l := match a with
    | .one g => ycoords.map fun _ => g
    | .many l => l
  if ycoords.length ≠ l.length then .error (.assertion "len(ycoords) == len(poloidal_grids)")
  else match l[0]? with
    | none => .error (.index "poloidal_grids[0]")
    | some g => .ok ⟨l, ycoords, Ly, yperiodic, (size g).1, (size g).2⟩

/-- `Grid.numberOfPoloidalGrids` (grid.py:69-77). -/
def Grid.ny {G : Type} (g : Grid G K) : ℕ := g.ycoords.length

/-- `(poloidal_grids[i], ycoords[i])`, with `IndexError` (grid.py:111, 124-126). -/
def Grid.at {G : Type} (g : Grid G K) (i : ℤ) : Except Err (G × K) :=
  match (pyIndex g.polGrids.length i).bind (g.polGrids[·]?),
    (pyIndex g.ycoords.length i).bind (g.ycoords[·]?) with
  | some p, some y => .ok (p, y)
  | _, _ => .error (.index "yindex")

/-- `getPoloidalGrid` for an index that passes the test of grid.py:102, i.e.
grid.py:109-132. -/
def Grid.getInt {G : Type} (g : Grid G K) (yindex : K) : Except Err (Option G × K) :=
  let yindexint := pyInt yindex
  let ny := g.ny
  if 0 ≤ yindex ∧ yindex < (ny : K) then
    (g.at yindexint).map fun p => (some p.1, p.2)
  else if g.yperiodic then
    let yremap := pyMod yindexint ny
    let nperiods := ⌊yindex / (ny : K)⌋
    (g.at yremap).map fun p => (some p.1, p.2 + (nperiods : K) * g.Ly)
  else if yindex < 0 then .ok (none, 0)
  else .ok (none, g.Ly)

/-- `Grid.getPoloidalGrid` (grid.py:79-132).  The recursive calls of lines
104-105 get whole numbers, for which the test of line 102 is false, so they are
calls of `getInt`. -/
def Grid.getPoloidalGrid {G : Type} (g : Grid G K) (yindex : K) : Except Err (Option G × K) :=
  if |((pyInt yindex : ℤ) : K) - yindex| > 1 / 10 ^ 6 then
    let floor : K := (⌊yindex⌋ : K)
    match g.getInt (floor + 1), g.getInt floor with
    | .ok (_, yup), .ok (_, ydown) =>
      let fac := yindex - floor
      .ok (none, ydown + (yup - ydown) * (1 - fac))
    | .error e, _ => .error e
    | _, .error e => .error e
  else g.getInt yindex

/-! ## The metric -/

/-- What `Grid.metric` and `get_metric` use of a poloidal grid: its sizes, the
arrays `R`, `Z` and the result of `metric()` (poloidal_grid.py:232-254,
475-539). -/
structure PolGrid (K : Type) where
  nx : ℕ
  nz : ℕ
  R : ℕ → ℕ → K
  Z : ℕ → ℕ → K
  metric : Dict (ℕ → ℕ → K)

/-- The entries `Grid.metric` copies from every slice (grid.py:165-174). -/
def sliceNames : List String := ["dx", "dz", "gxx", "gxz", "gzz", "g_xx", "g_xz", "g_zz"]

/-- State of the loop over slices (grid.py:149-182). -/
structure MetricState (K : Type) where
  arr : String → Cell → K
  J : Cell → K
  hasJ : ℤ

/-- Body of the loop over slices (grid.py:164-182).  Calling `metric()` on the
missing grid `None` is an `AttributeError`, here `Err.type`.  All slices are
taken to have the shape of the first one. -/
def metricStep (g : Grid (PolGrid K) K) (s : MetricState K) (y : ℕ) :
    Except Err (MetricState K) :=
  match g.getPoloidalGrid (y : K) with
  | .error e => .error e
  | .ok (none, _) => .error (.type "NoneType has no attribute metric")
  | .ok (some pol, _) =>
    match sliceNames.foldlM (fun arr n => (pol.metric.get n).map fun v =>
        Function.update arr n (setSlice (arr n) y v)) s.arr with
    | .error e => .error e
    | .ok arr =>
      match pol.metric "J" with
      | some J =>
        if s.hasJ + 1 > 0 then .ok ⟨arr, setSlice s.J y J, s.hasJ + 1⟩
        else .error (.assertion "J only in some slices!")
      | none =>
        if s.hasJ - 1 < 0 then .ok ⟨arr, s.J, s.hasJ - 1⟩
        else .error (.assertion "J only in some slices!")

/-- The `dy` of `Grid.metric` (grid.py:186-193), including the array repeated
three times of which the middle is cut out before differentiating. -/
def Grid.dy {G : Type} (g : Grid G K) : Except Err (List K) :=
  let ycoords := g.ycoords.map (fun v => v - g.Ly) ++ g.ycoords ++ g.ycoords.map (fun v => v + g.Ly)
  let ny := g.ny
  if ny = 1 then .ok [g.Ly]
  else npGradient ((ycoords.drop ny).take (2 * ny - ny))

/-- The metric as a dictionary of three-dimensional arrays (grid.py:203-219). -/
abbrev Metric (K : Type) := ODict (Cell → K)

/-- `Grid.metric` with an empty cache (grid.py:148-219). -/
def Grid.computeMetric (g : Grid (PolGrid K) K) : Except Err (Metric K) :=
  match (List.range g.ny).foldlM (metricStep g) ⟨fun _ _ => 0, fun _ => 0, 0⟩ with
  | .error e => .error e
  | .ok s =>
    match g.dy with
    | .error e => .error e
    | .ok dy =>
      .ok ([("dx", s.arr "dx"), ("dy", fun c => dy.getD c.2.1 0), ("dz", s.arr "dz"),
        ("gyy", fun _ => 1), ("g_yy", fun _ => 1), ("gxx", s.arr "gxx"), ("g_xx", s.arr "g_xx"),
        ("gxz", s.arr "gxz"), ("g_xz", s.arr "g_xz"), ("gzz", s.arr "gzz"),
        ("g_zz", s.arr "g_zz")] ++ if s.hasJ > 0 then [("J", s.J)] else [])

/-- `Grid.metric` (grid.py:134-219) as a function of the cache; returns the
metric, which is also the new cache. -/
def Grid.metric (g : Grid (PolGrid K) K) (cache : Option (Metric K)) : Except Err (Metric K) :=
  match cache with
  | some m => .ok m
  | none => g.computeMetric

/-- The y coordinates of `rectangular_grid` (grid.py:252-256). -/
def rectangularY (ny : ℕ) (Ly : K) (yperiodic : Bool) : List K :=
  if yperiodic then linspaceOpen 0 Ly ny
  else (List.range ny).map fun i : ℕ => ((i : K) + 1 / 2) * Ly / (ny : K)

/-- `rectangular_grid` (grid.py:222-258); `pol` is the
`RectangularPoloidalGrid(nx, nz, Lx, Lz, xcentre, zcentre)` of line 250. -/
def rectangularGrid {G : Type} (size : G → ℕ × ℕ) (pol : G) (ny : ℕ) (Ly : K) (yperiodic : Bool) :
    Except Err (Grid G K) :=
  Grid.init size (.one pol) (rectangularY ny Ly yperiodic) Ly yperiodic

end Zoidberg
