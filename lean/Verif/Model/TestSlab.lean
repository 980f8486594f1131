import Verif.Model.MakeMaps
import Verif.Model.ParMetric

/-!
# Model of `test_make_maps_slab` (`/repo/zoidberg/test_zoidberg.py:8-59`)
-/

namespace Zoidberg

variable {K : Type} [Field K] [LinearOrder K] [FloorRing K]

/-- `chain(range(1, nslice + 1), range(-1, -(nslice + 1), -1))` (test_zoidberg.py:32). -/
def slabTestOffsets (nslice : ℕ) : List ℤ :=
  ((List.range nslice).map fun i : ℕ => (i : ℤ) + 1) ++ (List.range nslice).map fun i : ℕ => -((i : ℤ) + 1)

/-- `interior_range` (test_zoidberg.py:44-46). -/
def slabTestInterior (ny : ℕ) (d : ℤ) : List ℕ :=
  if 0 < d then List.range (ny - d.natAbs) else (List.range ny).drop d.natAbs

/-- The planes of `end_slice` (test_zoidberg.py:48); the order does not matter. -/
def slabTestEnds (ny : ℕ) (d : ℤ) : List ℕ :=
  if 0 < d then (List.range ny).drop (ny - d.natAbs) else (List.range ny).take d.natAbs

/-- The assertions for one array (test_zoidberg.py:38-59); `ident` is `identity_map`.  The arrays of the model have no shape of their own. -/
def slabTestVar (nx ny nz : ℕ) (m : ODict (MapVal K)) (var : String) (ident : ℕ → ℕ → K) (d : ℤ) : Bool :=
  match m.get? var with
  | some (.f3 a) =>
    ((slabTestInterior ny d).all fun y => (List.range nx).all fun x => (List.range nz).all fun z => decide (isClose (a (x, y, z)) (ident x z))) &&
      (slabTestEnds ny d).all fun y => (List.range nx).all fun x => (List.range nz).all fun z => decide (isClose (a (x, y, z)) (-1))
  | _ => false

/-- The loop of `test_make_maps_slab` (test_zoidberg.py:25-59) for the maps `m`: whether all assertions hold.  The letter x is in the name of a map
exactly if the map is `xt_prime`. -/
def slabTest (repr : K → String) (nx ny nz nslice : ℕ) (m : ODict (MapVal K)) : Bool :=
  ([("xt_prime", fun x _ => (x : K)), ("zt_prime", fun _ z => (z : K))] : List (String × (ℕ → ℕ → K))).all fun f =>
    (slabTestOffsets nslice).all fun d =>
      match parallelSliceFieldName repr f.1 (.int d) with
      | .ok var => slabTestVar nx ny nz m var f.2 d
      | .error _ => false

end Zoidberg
