import Verif.Prelude.Basic
import Verif.Prelude.Numpy
import Mathlib.Algebra.BigOperators.Group.Finset.Basic
import Mathlib.Algebra.Order.Ring.Abs
import Mathlib.Analysis.SpecialFunctions.Log.Basic

/-!
# Model of the volume tests (`/repo/zoidberg/test_volume_dommaschk.py`, `/repo/zoidberg/test_volume_slab.py`)

The volume made of the cross sections, and what the tests make of the errors.  The grids and maps are those of the other files of the model.
-/

namespace Zoidberg

open Finset

section
variable {K : Type} [Field K] [LinearOrder K]

/-- Twice the area of the triangle of the origin and the edge from the point `i` of a polygon (`polygons[i].area`, test_volume_dommaschk.py:100-101, 120). -/
def edgeCross (p : List (K × K)) (i : ℕ) : K :=
  (p.getD i (0, 0)).1 * (p.getD ((i + 1) % p.length) (0, 0)).2 - (p.getD ((i + 1) % p.length) (0, 0)).1 * (p.getD i (0, 0)).2

/-- `polygon.area` of shapely (test_volume_dommaschk.py:100-101, 120). -/
def secArea (p : List (K × K)) : K := |∑ i ∈ range p.length, edgeCross p i| / 2

/-- `polygon.centroid.x` of shapely (test_volume_dommaschk.py:103-104, 118) for polygons with an area. -/
def secR (p : List (K × K)) : K :=
  (∑ i ∈ range p.length, ((p.getD i (0, 0)).1 + (p.getD ((i + 1) % p.length) (0, 0)).1) * edgeCross p i) / (3 * ∑ i ∈ range p.length, edgeCross p i)

/-- `dphi` of the mode 0 (test_volume_dommaschk.py:106-110). -/
def torusDphi (pi : K) (n : ℕ) (angles : List K) (symmetry : K) (i : ℕ) : K :=
  if (i + 1) % n = 0 then (2 * pi / symmetry - angles.getD i 0) + angles.getD 0 0 else angles.getD ((i + 1) % n) 0 - angles.getD i 0

/-- `np.mean(np.diff(angles))` (test_volume_dommaschk.py:116) of at least two angles. -/
def sectionStep (angles : List K) : K :=
  (∑ i ∈ range (angles.length - 1), (angles.getD (i + 1) 0 - angles.getD i 0)) / ((angles.length - 1 : ℕ) : K)

/-- `torus_volume_from_sections_periodic` (test_volume_dommaschk.py:93-121) for sections with their area and the radius of their centre; `None` for other modes.  The mean of no numbers is
`nan`, which is an error here. -/
def torusVolume (pi : K) (secs : List (K × K)) (angles : List K) (symmetry : K) (mode : ℤ) : Except Err (Option K) :=
  if mode = 0 then
    if secs.length = 0 then .ok (some 0)
    else if angles.length < secs.length then .error (.index "angles[j]")
    else if symmetry = 0 then .error (.runtime "ZeroDivisionError")
    else .ok (some (∑ i ∈ range secs.length,
      1 / 2 * ((secs.getD i (0, 0)).1 * (secs.getD i (0, 0)).2 + (secs.getD ((i + 1) % secs.length) (0, 0)).1 * (secs.getD ((i + 1) % secs.length) (0, 0)).2) *
        torusDphi pi secs.length angles symmetry i))
  else if mode = 1 then
    if secs.length = 0 then .ok (some 0)
    else if angles.length < 2 then .error (.runtime "nan")
    else .ok (some (∑ i ∈ range secs.length,
      2 * pi * (secs.getD i (0, 0)).2 * (sectionStep angles / (2 * pi)) * (secs.getD i (0, 0)).1))
  else .ok none

/-- The volume between two polygons (test_volume_dommaschk.py:223-229). -/
def shellVolume (pi : K) (outer inner : List (List (K × K))) (angles : List K) (symmetry : K) (mode : ℤ) : Except Err (Option K) :=
  (torusVolume pi (outer.map fun p => (secArea p, secR p)) angles symmetry mode).bind fun vo =>
    (torusVolume pi (inner.map fun p => (secArea p, secR p)) angles symmetry mode).bind fun vi =>
      match vo, vi with
      | some a, some b => .ok (some (a - b))
      | _, _ => .error (.type "unsupported operand")

/-- The slope `a` of `np.polyfit(x, y, 1)` (test_volume_dommaschk.py:266-267, test_volume_slab.py:148-149): that of the straight line with the least squares. -/
def fitSlope (x y : List K) : K :=
  ((x.length : K) * (∑ i ∈ range x.length, x.getD i 0 * y.getD i 0) - (∑ i ∈ range x.length, x.getD i 0) * ∑ i ∈ range x.length, y.getD i 0) /
    ((x.length : K) * (∑ i ∈ range x.length, x.getD i 0 ^ 2) - (∑ i ∈ range x.length, x.getD i 0) ^ 2)

end

/-- The slope of the errors (test_volume_dommaschk.py:266-267, test_volume_slab.py:148-149), for errors that are not zero. -/
noncomputable def errorSlope (n : List ℝ) (errors : List ℝ) : ℝ := fitSlope (n.map Real.log) (errors.map Real.log)

/-- The assertion of `test_run` (test_volume_dommaschk.py:252, 266-267, 285). -/
def dommaschkPasses (errors : List ℝ) : Prop := errorSlope [2, 4, 8] errors ≤ -0.9

/-- The assertion of `test_slab_volume` (test_volume_slab.py:70, 148-149, 163-168). -/
def slabPasses (errors : List ℝ) : Prop := ¬ |errorSlope [1, 5, 10, 20, 50] errors| < 1.8

end Zoidberg
