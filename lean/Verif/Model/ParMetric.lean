import Verif.Model.MakeMaps
import Verif.Model.GetMetric

/-!
# Model of `MapWriter._write_par_metric` (`/repo/zoidberg/zoidberg.py:657-700`)
-/

namespace Zoidberg

variable {K : Type} [Field K] [LinearOrder K] [FloorRing K]

/-- `np.isclose(a, b)` with the default tolerances (zoidberg.py:663, 674). -/
def isClose (a b : K) : Prop := |a - b| ≤ 1 / 10 ^ 8 + 1 / 10 ^ 5 * |b|

instance (a b : K) : Decidable (isClose a b) := by unfold isClose; infer_instance

/-- `np.mean(np.diff(y))`.  For fewer than two values numpy gives `nan`, here 0; the
value is not used in that case (zoidberg.py:660, 674). -/
def meanDiff (y : List K) : K :=
  ((List.range (y.length - 1)).map fun i => y.getD (i + 1) 0 - y.getD i 0).sum / ((y.length - 1 : ℕ) : K)

/-- `np.roll(y, -offset)` (zoidberg.py:668). -/
def rollBack (y : List K) (offset : ℤ) : List K :=
  (List.range y.length).map fun i : ℕ => y.getD (((i : ℤ) + offset) % (y.length : ℤ)).toNat 0

/-- The loop zoidberg.py:670-672: `shift` is `np.sign(meandy) * Ly`. -/
def unwrap (meandy shift : K) (p : List K) : List K :=
  (pyRange 1 p.length).foldl (fun p i =>
    if meandy * (p.getD i 0 - p.getD (i - 1) 0) < 0 then p.set i (p.getD i 0 + shift) else p) p

/-- `np.sign` (zoidberg.py:672). -/
def npSign (x : K) : K := if x < 0 then -1 else if 0 < x then 1 else 0

/-- The test of zoidberg.py:659-665, with the grid set. -/
def checkLy (ypar : List K) (Ly : K) : Except Err Unit :=
  if 1 < ypar.length ∧ ¬ isClose Ly (meanDiff ypar * (ypar.length : K)) then
    .error (.assertion "Ly of grid does not seem to match the average dy")
  else .ok ()

/-- The y coordinates of one slice (zoidberg.py:668-676). -/
def parCoords (ypar : List K) (Ly : K) (yperiodic : Bool) (offset : ℤ) : Except Err (List K) :=
  let pypar := rollBack ypar offset
  if yperiodic then
    let meandy := meanDiff ypar
    let pypar := unwrap meandy (npSign meandy * Ly) pypar
    if 1 < pypar.length ∧ ¬ isClose (meanDiff pypar) meandy then
      .error (.assertion "Mean of dy changes")
    else .ok pypar
  else .ok pypar

/-- The grid of one slice (zoidberg.py:678-685); `mkPol` is the constructor
`StructuredPoloidalGrid`, of which exceptions are not modelled. -/
def parGrid (mkPol : (ℕ → ℕ → K) → (ℕ → ℕ → K) → PolGrid K) (ypar : List K) (Ly : K) (yperiodic : Bool)
    (maps : ODict (Cell → K)) (repr : K → String) (offset : ℤ) : Except Err (Grid (PolGrid K) K) := do
  let pypar ← parCoords ypar Ly yperiodic offset
  let R ← maps.getE (← parallelSliceFieldName repr "R" (.int offset))
  let Z ← maps.getE (← parallelSliceFieldName repr "Z" (.int offset))
  Grid.init (fun p => (p.nx, p.nz)) (.many ((List.range ypar.length).map fun i =>
    mkPol (fun x z => R (x, i, z)) fun x z => Z (x, i, z))) pypar Ly yperiodic

/-- The offsets `1, .., nslice, -1, .., -nslice` (zoidberg.py:667, 714). -/
def parOffsets (nslice : ℕ) : List ℤ :=
  (List.range nslice).map (fun i : ℕ => (i : ℤ) + 1) ++ (List.range nslice).map fun i : ℕ => -((i : ℤ) + 1)

/-- `{parallel_slice_field_name(k, offset): v for k, v in par_metric.items()}`
(zoidberg.py:698-700). -/
def sliceDict (repr : K → String) (offset : ℤ) (m : Metric K) : Except Err (ODict (Val K)) :=
  (m.mapM fun p => (parallelSliceFieldName repr p.1 (.int offset)).map fun n => (n, Val.f3 p.2)).map
    ODict.ofList

/-! ### The test of flux conservation -/

/-- `np.max` of an array that is not empty (zoidberg.py:691-692). -/
def npMax (l : List K) : K := l.tail.foldl max (l.headD 0)

/-- `np.max(np.abs(par_BJg / self.BJg - 1)[2:-2], axis=(0, 2))` (zoidberg.py:691) for plane `y`.  `BJg` is taken
to be nowhere zero and `nz` to be positive. -/
def fluxMax (nx nz : ℕ) (bjg par : Cell → K) (y : ℕ) : K :=
  npMax ((List.range (nx - 4)).flatMap fun x => (List.range nz).map fun z => |par (x + 2, y, z) / bjg (x + 2, y, z) - 1|)

/-- The test of flux conservation (zoidberg.py:690-693): the numbers that are printed after `FluxError`, if any. -/
def fluxCheck (nx ny nz : ℕ) (bjg par : Cell → K) : Option (List K) :=
  if 4 < nx then
    let mymax := (List.range ny).map (fluxMax nx nz bjg par)
    if 1 / 10 ^ 6 < npMax mymax then some mymax else none
  else none

/-- What is printed for one slice (zoidberg.py:668-693); `bjg` is `self.BJg`, which `_write_metric` has set (zoidberg.py:602). -/
def sliceFlux (sqrt : K → K) (mkPol : (ℕ → ℕ → K) → (ℕ → ℕ → K) → PolGrid K) (f : MagField K) (ypar : List K) (Ly : K) (yperiodic : Bool)
    (maps : ODict (Cell → K)) (repr : K → String) (nx nz : ℕ) (bjg : Cell → K) (offset : ℤ) : Except Err (Option (List K)) :=
  (parGrid mkPol ypar Ly yperiodic maps repr offset).bind fun g =>
    (getMetric sqrt g f none).map fun r => fluxCheck nx ypar.length nz bjg r.2

/-- Body of the loop over slices (zoidberg.py:668-700).  The test of flux
conservation only prints and is left out here (`sliceFlux`). -/
def writeSlice (c : MwConf K) (mkPol : (ℕ → ℕ → K) → (ℕ → ℕ → K) → PolGrid K) (f : MagField K)
    (ypar : List K) (Ly : K) (yperiodic : Bool) (maps : ODict (Cell → K)) (repr : K → String)
    (file : ODict (Val K)) (offset : ℤ) : ODict (Val K) × Option Err :=
  match parGrid mkPol ypar Ly yperiodic maps repr offset with
  | .error e => (file, some e)
  | .ok g =>
    match getMetric c.sqrt g f none with
    | .error e => (file, some e)
    | .ok (m, _) =>
      match sliceDict repr offset (if c.newNames then m else updateMetricNames m) with
      | .error e => (file, some e)
      | .ok d => writeDict (valOps c.finite) c.isOpen c.metric2d true d file

/-- The loop over slices (zoidberg.py:667-700); stops at the first exception. -/
def writeSlices (c : MwConf K) (mkPol : (ℕ → ℕ → K) → (ℕ → ℕ → K) → PolGrid K) (f : MagField K)
    (ypar : List K) (Ly : K) (yperiodic : Bool) (maps : ODict (Cell → K)) (repr : K → String) :
    List ℤ → ODict (Val K) → ODict (Val K) × Option Err
  | [], file => (file, none)
  | o :: t, file =>
    match writeSlice c mkPol f ypar Ly yperiodic maps repr file o with
    | (file, some e) => (file, some e)
    | (file, none) => writeSlices c mkPol f ypar Ly yperiodic maps repr t file

/-- `MapWriter._write_par_metric` (zoidberg.py:657-700), with the grid set. -/
def writeParMetric (c : MwConf K) (mkPol : (ℕ → ℕ → K) → (ℕ → ℕ → K) → PolGrid K) (f : MagField K)
    (ypar : List K) (Ly : K) (yperiodic : Bool) (maps : ODict (Cell → K)) (repr : K → String)
    (nslice : ℕ) (file : ODict (Val K)) : ODict (Val K) × Option Err :=
  match checkLy ypar Ly with
  | .error e => (file, some e)
  | .ok _ => writeSlices c mkPol f ypar Ly yperiodic maps repr (parOffsets nslice) file

end Zoidberg
