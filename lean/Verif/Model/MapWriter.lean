import Verif.Model.ParMetric
import Verif.Model.Final

/-!
# Model of `MapWriter` as a whole (`/repo/zoidberg/zoidberg.py:473-755`) and of
`write_maps` (`/repo/zoidberg/zoidberg.py:758-798`)

`add_dagp` is in `AddDagp.lean`.
-/

namespace Zoidberg

variable {K : Type} [Field K] [LinearOrder K] [FloorRing K]

/-- The arguments of `MapWriter` (zoidberg.py:490-511) and what it uses from elsewhere:
`finite`, `sqrt` are numpy, `shape` gives the shape of a variable in the file, `mkPol` is
`StructuredPoloidalGrid`, `repr` the text of a number, `version` is `__version__`. -/
structure MwParams (K : Type) where
  create : Bool
  newNames : Bool
  metric2d : Bool
  finite : Val K → Bool
  sqrt : K → K
  shape : Val K → List ℕ
  mkPol : (ℕ → ℕ → K) → (ℕ → ℕ → K) → PolGrid K
  repr : K → String
  version : String

/-- The attributes of a `MapWriter`, the metric cache of its grid, and the file.  `nxyz` is
`none` while the attribute does not exist (zoidberg.py:499-520). -/
structure Mw (K : Type) where
  isOpen : Bool
  grid : Option (Grid (PolGrid K) K)
  cache : Option (Metric K)
  field : Option (MagField K)
  nxyz : Option (List ℕ)
  file : ODict (Val K)
  attrs : ODict String

/-- A new `MapWriter` (zoidberg.py:490-511) for a file with the given content. -/
def Mw.new (file : ODict (Val K)) (attrs : ODict String) : Mw K :=
  ⟨false, none, none, none, none, file, attrs⟩

/-- The parameters as used by `_write_metric` and `_write_par_metric` (zoidberg.py:598-700). -/
def MwParams.conf (c : MwParams K) (isOpen : Bool) : MwConf K :=
  ⟨c.newNames, c.metric2d, isOpen, c.finite, c.sqrt⟩

/-- `__enter__` and `open` (zoidberg.py:513-525).  `create=True` truncates the file. -/
def Mw.enter (c : MwParams K) (s : Mw K) : Mw K :=
  if c.create then { s with isOpen := true, file := [], attrs := [] }
  else { s with
    isOpen := true
    nxyz := match s.file.get? "B" with
      | some B => some (c.shape B)
      | none => s.nxyz }

/-- `__exit__` (zoidberg.py:527-529). -/
def Mw.exit (s : Mw K) : Mw K := { s with isOpen := false }

/-- `write_dict` (zoidberg.py:631-655). -/
def Mw.writeDict (c : MwParams K) (d : ODict (Val K)) (always3d : Bool) (s : Mw K) : Mw K × Option Err :=
  let r := Zoidberg.writeDict (valOps c.finite) s.isOpen c.metric2d always3d d s.file
  ({ s with file := r.1 }, r.2)

/-- `add_grid` (zoidberg.py:530-542).  `cache` is the metric cache of the grid. -/
def Mw.addGrid (c : MwParams K) (g : Grid (PolGrid K) K) (cache : Option (Metric K)) (s : Mw K) :
    Mw K × Option Err :=
  let s := { s with grid := some g, cache := cache, nxyz := some [g.nx, g.ny, g.nz] }
  match fieldOnGrid g (fun R _ _ => R), fieldOnGrid g (fun _ Z _ => Z) with
  | .ok R, .ok Z => s.writeDict c [("R", .f3 R), ("Z", .f3 Z)] true
  | .error e, _ => (s, some e)
  | _, .error e => (s, some e)

/-- `add_field` (zoidberg.py:584-586). -/
def Mw.addField (f : MagField K) (s : Mw K) : Mw K := { s with field := some f }

/-- The three-dimensional arrays among the maps.  Other entries are taken as missing where
an array is needed (zoidberg.py:607, 678, 714-716). -/
def f3s (maps : ODict (Val K)) : ODict (Cell → K) :=
  maps.filterMap fun p => match p.2 with
    | .f3 a => some (p.1, a)
    | _ => none

/-- `nslice` and `keep` (zoidberg.py:711-717).  A value of `MYG` that is not an integer is a
`TypeError` in `range`. -/
def keepSlices (repr : K → String) (maps : ODict (Val K)) : Except Err (ℕ × ODict (Val K)) :=
  match maps.getE "MYG" with
  | .error e => .error e
  | .ok (.int n) =>
    ((parOffsets n.toNat).mapM fun o => ["R", "Z"].mapM fun k => do
      let nm ← parallelSliceFieldName repr k (.int o)
      let v ← maps.getE nm
      pure (nm, v)).map fun l : List (List (String × Val K)) => (n.toNat, ODict.ofList l.flatten)
  | .ok _ => .error (.type "object cannot be interpreted as an integer")

/-- `_final()` (zoidberg.py:725-755); `id` is the new `uuid`.  `None`-attribute errors are
`Err.type`. -/
def Mw.final (c : MwParams K) (id : String) (s : Mw K) : Mw K × Option Err :=
  match finalFile false (newAttrs "BOUT++ grid file" "zoidberg" c.version id) s.attrs with
  | none => (s, some (.runtime "does not terminate"))
  | some attrs =>
    let s := { s with attrs := attrs }
    match s.nxyz with
    | none => (s, some (.type "no attribute nxyz"))
    | some [nx, ny, nz] =>
      ({ s with file := ((((s.file.set "nx" (.int nx)).set "ny" (.int ny)).set "nz" (.int nz)).set
          "ixseps1" (.int (nx + 1))).set "ixseps2" (.int (nx + 1)) }, none)
    | some _ => (s, some (.value "wrong number of values to unpack"))

/-- `maps["Rxy"]` is added if it is missing (zoidberg.py:708-709). -/
def addRxy (maps : ODict (Val K)) : Except Err (ODict (Val K)) :=
  match maps.get? "Rxy" with
  | some _ => .ok maps
  | none => (maps.getE "R").map fun R => maps.set "Rxy" R

/-- The part of `add_maps` after the assertions (zoidberg.py:720-723). -/
def Mw.metrics (c : MwParams K) (maps : ODict (Val K)) (nslice : ℕ) (keep : ODict (Val K)) (id : String)
    (f : MagField K) (g : Grid (PolGrid K) K) (s : Mw K) : Mw K × Option Err :=
  let w := writeMetric (c.conf s.isOpen) g f (f3s maps) s.file s.cache
  let s := { s with file := w.file, cache := w.cache }
  match w.err with
  | some e => (s, some e)
  | none =>
    let r := writeParMetric (c.conf s.isOpen) c.mkPol f g.ycoords g.Ly g.yperiodic (f3s keep) c.repr nslice
      s.file
    let s := { s with file := r.1 }
    match r.2 with
    | some e => (s, some e)
    | none => s.final c id

/-- `add_maps` (zoidberg.py:702-723).  That the caller's dictionary gets an entry `Rxy` is
left out. -/
def Mw.addMaps (c : MwParams K) (maps : ODict (Val K)) (id : String) (s : Mw K) : Mw K × Option Err :=
  match addRxy maps with
  | .error e => (s, some e)
  | .ok maps =>
    match s.writeDict c maps true with
    | (s, some e) => (s, some e)
    | (s, none) =>
      match keepSlices c.repr maps with
      | .error e => (s, some e)
      | .ok (nslice, keep) =>
        match s.field with
        | none => (s, some (.assertion "Ensure field is set before calling add_maps"))
        | some f =>
          match s.grid with
          | none => (s, some (.assertion "Ensure grid is set before calling add_maps"))
          | some g => s.metrics c maps nslice keep id f g

/-- The calls on a `MapWriter` (zoidberg.py:513-596, 702-723). -/
inductive MwOp (K : Type) where
  | enter
  | exit
  | addGrid (g : Grid (PolGrid K) K) (cache : Option (Metric K))
  | addField (f : MagField K)
  | writeDict (d : ODict (Val K)) (always3d : Bool)
  | addMaps (maps : ODict (Val K)) (id : String)

/-- One call; an exception leaves the object as it is at that point (zoidberg.py:513-596, 702-723). -/
def Mw.call (c : MwParams K) (s : Mw K) : MwOp K → Mw K × Option Err
  | .enter => (s.enter c, none)
  | .exit => (s.exit, none)
  | .addGrid g cache => s.addGrid c g cache
  | .addField f => (s.addField f, none)
  | .writeDict d always3d => s.writeDict c d always3d
  | .addMaps maps id => s.addMaps c maps id

/-- A sequence of calls, going on after exceptions (zoidberg.py:513-596, 702-723). -/
def Mw.calls (c : MwParams K) (s : Mw K) (l : List (MwOp K)) : Mw K :=
  l.foldl (fun s o => (s.call c o).1) s

/-- `write_maps` (zoidberg.py:792-798), with `add_grid_field` (zoidberg.py:588-596): the calls
in the `with` block stop at the first exception, after which the file is closed. -/
def writeMaps (c : MwParams K) (g : Grid (PolGrid K) K) (cache : Option (Metric K)) (f : MagField K)
    (maps : ODict (Val K)) (id : String) (s : Mw K) : Mw K × Option Err :=
  let s := (s.enter c).addField f
  match s.addGrid c g cache with
  | (s, some e) => (s.exit, some e)
  | (s, none) =>
    let r := s.addMaps c maps id
    (r.1.exit, r.2)

end Zoidberg
