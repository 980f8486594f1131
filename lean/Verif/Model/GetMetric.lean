import Verif.Model.Grid

/-!
# Model of the metric part of `/repo/zoidberg/zoidberg.py`

`update_metric_names`, `get_metric`, `MapWriter.write_dict` and
`MapWriter._write_metric`.
-/

namespace Zoidberg

variable {K : Type} [Field K] [LinearOrder K] [FloorRing K]

/-! ## `update_metric_names` -/

/-- The table of zoidberg.py:416-425. -/
def tensorNames : List (String × String) :=
  [("g_yy", "g_22"), ("gyy", "g22"), ("gxx", "g11"), ("gxz", "g13"), ("gzz", "g33"),
    ("g_xx", "g_11"), ("g_xz", "g_13"), ("g_zz", "g_33")]

/-- `name_changes` (zoidberg.py:415-427). -/
def nameChanges : List (String × String) :=
  tensorNames.flatMap fun p => ["", "_cell_ylow", "_cell_yhigh"].map fun post =>
    (p.1 ++ post, p.2 ++ post)

/-- `name_changes.get(key, key)` (zoidberg.py:429). -/
def rename (k : String) : String := (ODict.get? nameChanges k).getD k

/-- `update_metric_names` (zoidberg.py:411-429). -/
def updateMetricNames {V : Type} (m : ODict V) : ODict V :=
  ODict.ofList (m.map fun p => (rename p.1, p.2))

/-! ## `get_metric` -/

/-- What `get_metric` uses of a magnetic field (zoidberg.py:440-461): `Rfunc`
(`None` in Cartesian coordinates), `Bmag`, `pressure`, `Byfunc` and the
dictionary `attributes`.  `Rfunc` is taken to return `None` everywhere or
nowhere, as all fields in field.py do. -/
structure MagField (K : Type) where
  Rfunc : Option (K → K → K → K)
  Bmag : K → K → K → K
  pressure : K → K → K → K
  Byfunc : K → K → K → K
  attributes : List (String × (K → K → K → K)) := []

/-- A function of `(R, Z, y)` on one poloidal grid, `f(pol.R, pol.Z, ypos)` (zoidberg.py:440, 447, 457-459, 625-627). -/
def onSlice (f : K → K → K → K) (pol : PolGrid K) (ypos : K) : ℕ → ℕ → K :=
  fun x z => f (pol.R x z) (pol.Z x z) ypos

/-- `grid.getPoloidalGrid(yindex)` where attributes of the grid are used, so that
a missing grid (`None`) is an error (zoidberg.py:439, 446, 456, 624). -/
def sliceOf (g : Grid (PolGrid K) K) (y : ℕ) : Except Err (PolGrid K × K) :=
  match g.getPoloidalGrid (y : K) with
  | .error e => .error e
  | .ok (none, _) => .error (.type "NoneType has no attribute R")
  | .ok (some p, yp) => .ok (p, yp)

/-- The loops `for yindex in range(ny): a[:, yindex, :] = f(pol.R, pol.Z, ypos)`
into an array of zeros (zoidberg.py:444-447, 621-626). -/
def fieldOnGrid (g : Grid (PolGrid K) K) (f : K → K → K → K) : Except Err (Cell → K) :=
  (List.range g.ny).foldlM (fun a y => (sliceOf g y).map fun p => setSlice a y (onSlice f p.1 p.2))
    (fun _ => 0)

/-- `a[:, y, :] *= v` (zoidberg.py:460-461). -/
def mulSlice (a : Cell → K) (y : ℕ) (v : ℕ → ℕ → K) : Cell → K :=
  fun c => if c.2.1 = y then a c * v c.1 c.2.2 else a c

/-- State of the loop zoidberg.py:455-461. -/
structure GmState (K : Type) where
  metric : Metric K
  Bmag : Cell → K
  pressure : Cell → K

/-- Body of the loop zoidberg.py:455-461. -/
def gmStep (g : Grid (PolGrid K) K) (f : MagField K) (s : GmState K) (y : ℕ) :
    Except Err (GmState K) :=
  match sliceOf g y with
  | .error e => .error e
  | .ok (pol, ypos) =>
    let B := onSlice f.Bmag pol ypos
    let By := onSlice f.Byfunc pol ypos
    let Bmag := setSlice s.Bmag y B
    let pressure := setSlice s.pressure y (onSlice f.pressure pol ypos)
    match s.metric.getE "g_yy" with
    | .error e => .error e
    | .ok g_yy =>
      let m := s.metric.set "g_yy"
        (mulSlice g_yy y fun x z => (Bmag (x, y, z) / By x z) ^ 2)
      match m.getE "gyy" with
      | .error e => .error e
      | .ok gyy =>
        .ok ⟨m.set "gyy" (mulSlice gyy y fun x z => (By x z / Bmag (x, y, z)) ^ 2), Bmag, pressure⟩

/-- The replacement in cylindrical coordinates (zoidberg.py:439-449).  The
assertion that `Rfunc` is finite has no counterpart in a field of numbers. -/
def cylindrical (g : Grid (PolGrid K) K) (f : MagField K) (m : Metric K) : Except Err (Metric K) :=
  match f.Rfunc with
  | none => .ok m
  | some R => (fieldOnGrid g R).map fun Rmaj =>
      (m.set "gyy" fun c => 1 / Rmaj c ^ 2).set "g_yy" fun c => Rmaj c ^ 2

/-- `get_metric` (zoidberg.py:432-470) as a function of the metric cache of the
grid.  Returns the metric and `BJg`.  The returned dictionary is the cached one,
so it is also the cache afterwards.  `sqrt` is `np.sqrt`. -/
def getMetric (sqrt : K → K) (g : Grid (PolGrid K) K) (f : MagField K)
    (cache : Option (Metric K)) : Except Err (Metric K × (Cell → K)) :=
  match g.metric cache with
  | .error e => .error e
  | .ok m =>
    match cylindrical g f m with
    | .error e => .error e
    | .ok m =>
      match (List.range g.ny).foldlM (gmStep g f) ⟨m, fun _ => 0, fun _ => 0⟩ with
      | .error e => .error e
      | .ok s =>
        let m := ((s.metric.set "Bxy" s.Bmag).set "B" s.Bmag).set "pressure" s.pressure
        match m.getE "g_xx", m.getE "g_zz", m.getE "g_xz" with
        | .ok gxx, .ok gzz, .ok gxz =>
          .ok (m, fun c => s.Bmag c * sqrt (gxx c * gzz c - gxz c ^ 2))
        | .error e, _, _ => .error e
        | _, .error e, _ => .error e
        | _, _, .error e => .error e

/-! ## `MapWriter.write_dict` -/

/-- What can be done with a value in `write_dict`: test `isinstance(v,
np.ndarray)`, test finiteness, take `v[:, :, 0]` and `v[0, 0]` (zoidberg.py:641-655). -/
structure Vals (V : Type) where
  isArray : V → Bool
  finite : V → Bool
  cut : V → Except Err V
  corner : V → Except Err V

/-- `metric[key] = metric[key][:, :, 0]`, keeping the value on `TypeError`
(zoidberg.py:641-645). -/
def cutEntry {V : Type} (o : Vals V) (v : V) : Except Err V :=
  match o.cut v with
  | .ok w => .ok w
  | .error (.type _) => .ok v
  | .error e => .error e

/-- The reduction to two dimensions (zoidberg.py:637-648). -/
def cutDict {V : Type} (o : Vals V) (d : ODict V) : Except Err (ODict V) :=
  match d.mapM fun p => (cutEntry o p.2).map fun v => (p.1, v) with
  | .error e => .error e
  | .ok d =>
    match ODict.get? d "dz" with
    | none => .ok d
    | some dz => (o.corner dz).map fun v => ODict.set d "dz" v

/-- The loop writing the entries (zoidberg.py:650-655): the file afterwards and
the exception, if any.  `self.f.write(k, v)` sets variable `k` of the file. -/
def writeEntries {V : Type} (o : Vals V) : ODict V → ODict V → ODict V × Option Err
  | [], file => (file, none)
  | (k, v) :: t, file =>
    if o.isArray v && !o.finite v then (file, some (.assertion (k ++ " is not finite")))
    else writeEntries o t (file.set k v)

/-- `MapWriter.write_dict` (zoidberg.py:631-655). -/
def writeDict {V : Type} (o : Vals V) (isOpen metric2d always3d : Bool) (d : ODict V)
    (file : ODict V) : ODict V × Option Err :=
  if !isOpen then (file, some (.assertion "File needs to be open. Call open first."))
  else if metric2d && !always3d then
    match cutDict o d with
    | .error e => (file, some e)
    | .ok d => writeEntries o d file
  else writeEntries o d file

/-! ## `MapWriter._write_metric` -/

/-- Values of the metric dictionary and of variables in the file (zoidberg.py:602-615, 641-655). -/
inductive Val (K : Type) where
  | f3 (a : Cell → K)
  | f2 (a : ℕ → ℕ → K)
  | num (v : K)
  | f4 (a : Cell → ℕ → K)
  | arr (l : List K)
  | int (n : ℤ)

/-- numpy on these values; which arrays are finite is left open, so that the
assertion in `write_dict` may fail in every possible way (zoidberg.py:641-655). -/
def valOps (finite : Val K → Bool) : Vals (Val K) where
  isArray v := match v with
    | .num _ => false
    | .int _ => false
    | _ => true
  finite := finite
  cut v := match v with
    | .f3 a => .ok (.f2 fun x y => a (x, y, 0))
    | .f2 _ => .error (.index "too many indices for array")
    | .num _ => .error (.type "not subscriptable")
    | .f4 a => .ok (.f3 fun c => a (c.1, c.2.1, 0) c.2.2)
    | .arr _ => .error (.index "too many indices for array")
    | .int _ => .error (.type "not subscriptable")
  corner v := match v with
    | .f3 _ => .error (.runtime "not used")
    | .f2 a => .ok (.num (a 0 0))
    | .num _ => .error (.type "not subscriptable")
    | .f4 _ => .error (.runtime "not used")
    | .arr _ => .error (.index "too many indices for array")
    | .int _ => .error (.type "not subscriptable")

/-- Configuration of a `MapWriter` with grid and field (zoidberg.py:490-511). -/
structure MwConf (K : Type) where
  newNames : Bool
  metric2d : Bool
  isOpen : Bool
  finite : Val K → Bool
  sqrt : K → K

/-- Cell-wise `(Ly / dy) ** 2` (zoidberg.py:607-608). -/
def lyMetric (ly dy : Cell → K) : Cell → K := fun c => (ly c / dy c) ^ 2

/-- The parallel components from the field line length (zoidberg.py:604-611).
Stops at the first missing entry. -/
def addLy (m : Metric K) (maps : ODict (Cell → K)) : Metric K × Option Err :=
  match maps.get? "Ly" with
  | some ly =>
    match m.getE "g_yy" with
    | .error e => (m, some e)
    | .ok g_yy =>
      let m := m.set "g_yy_old" g_yy
      match m.getE "dy" with
      | .error e => (m, some e)
      | .ok dy =>
        let m := m.set "g_yy" (lyMetric ly dy)
        match maps.getE "Ly_cell_ylow" with
        | .error e => (m, some e)
        | .ok lo =>
          let m := m.set "g_yy_cell_ylow" (lyMetric lo dy)
          match maps.getE "Ly_cell_yhigh" with
          | .error e => (m, some e)
          | .ok hi =>
            ((m.set "g_yy_cell_yhigh" (lyMetric hi dy)).set "g_yy_correct" (lyMetric ly dy), none)
  | none =>
    match m.getE "g_yy" with
    | .error e => (m, some e)
    | .ok g_yy => ((m.set "g_yy_cell_ylow" g_yy).set "g_yy_cell_yhigh" g_yy, none)

/-- File, metric cache of the grid, and the exception, if any (zoidberg.py:598-629). -/
structure WmState (K : Type) where
  file : ODict (Val K)
  cache : Option (Metric K)
  err : Option Err

/-- `MapWriter._write_metric` (zoidberg.py:598-629).  `metric_done` is never set,
so the test of line 599 is always false.  When `write_dict` raises, the cache is
kept as it was before that call (with `new_names` and `metric2d` the code leaves
the cached arrays cut to two dimensions). -/
def writeMetric (c : MwConf K) (g : Grid (PolGrid K) K) (f : MagField K)
    (maps : ODict (Cell → K)) (file : ODict (Val K)) (cache : Option (Metric K)) : WmState K :=
  match getMetric c.sqrt g f cache with
  | .error e =>
    ⟨file, match g.metric cache with | .ok m => some m | .error _ => cache, some e⟩
  | .ok (m, _) =>
    match addLy m maps with
    | (m, some e) => ⟨file, some m, some e⟩
    | (m, none) =>
      let out := if c.newNames then m else updateMetricNames m
      match writeDict (valOps c.finite) c.isOpen c.metric2d false (out.mapV .f3) file with
      | (file, some e) => ⟨file, some m, some e⟩
      | (file, none) =>
        match f.attributes.mapM fun p => (fieldOnGrid g p.2).map fun a => (p.1, Val.f3 a) with
        | .error e => ⟨file, none, some e⟩
        | .ok attrs =>
          let r := writeDict (valOps c.finite) c.isOpen c.metric2d true attrs file
          ⟨r.1, none, r.2⟩

end Zoidberg
