import Verif.Model.Volume
import Verif.Model.FieldCoils
import Mathlib.Data.List.Sort

/-!
# Model of the cross sections of `calculate_dommaschk_volume` (`/repo/zoidberg/test_volume_dommaschk.py`)

The angles and distances of the traced points of one plane, and the corners at equal angles made of them.  A result which is `nan` is an error.
-/

namespace Zoidberg

/-- `calc_divertortheta` (test_volume_dommaschk.py:16-19) for one point. -/
noncomputable def divertorTheta (x z x0 : ℝ) : ℝ :=
  if atan2R z (x - x0) < 0 then atan2R z (x - x0) + 2 * Real.pi else atan2R z (x - x0)

section
variable {K : Type} [Field K] [LinearOrder K]

/-- The order in which `interp1d` takes its points: that of the first number, and equal ones in the order given (test_volume_dommaschk.py:169-180). -/
def sortFirst (ps : List (K × K)) : List (K × K) := ps.insertionSort fun a b => a.1 ≤ b.1

/-- `interp1d(…, fill_value="extrapolate", kind="linear")(t)` (test_volume_dommaschk.py:169-183) of points with an argument and a value.  Between equal arguments the slope is `nan` or
infinite, an error here; so it is for a single point. -/
def interpExtrap (ps : List (K × K)) (t : K) : Except Err K :=
  let s := sortFirst ps
  let hi := min (max (s.countP fun a => decide (a.1 < t)) 1) (s.length - 1)
  let a := s.getD (hi - 1) (0, 0)
  let b := s.getD hi (0, 0)
  if b.1 = a.1 then .error (.runtime "nan")
  else .ok ((b.2 - a.2) / (b.1 - a.1) * (t - a.1) + a.2)

end

/-- The angle and the distance of a traced point (test_volume_dommaschk.py:152-155). -/
noncomputable def polarOf (R0 : ℝ) (p : ℝ × ℝ) : ℝ × ℝ := (divertorTheta p.1 p.2 R0, Real.sqrt ((p.1 - R0) ^ 2 + p.2 ^ 2))

/-- The corners made of the points of one plane (test_volume_dommaschk.py:163, 168-192): as many as points, at equal angles.  `Polygon` takes three or more of them; for no
points, of which it makes a polygon without corners, the model gives the same error as for one. -/
noncomputable def curveSection (R0 : ℝ) (pts : List (ℝ × ℝ)) : Except Err (List (ℝ × ℝ)) :=
  ((linspaceOpen 0 (2 * Real.pi) pts.length).mapM fun t =>
    (interpExtrap (pts.map (polarOf R0)) t).map fun r => (r * Real.cos t + R0, r * Real.sin t)).bind fun q =>
      if q.length < 3 then .error (.value "A linearring requires at least 4 coordinates.") else .ok q

end Zoidberg
