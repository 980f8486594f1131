import Verif.Model.RzLine
import Verif.Model.ParMetric

/-!
# The tests of distances (C299)

The tests of `distance` and `equallySpaced` in test_rzline.py, for any lines.
-/

namespace Zoidberg

variable {K : Type} [Field K] [LinearOrder K] [FloorRing K]

/-- `test_distance` (test_rzline.py:16-36) for two lines in place of the circles of radius 1 and 2, with `n` in place of 50; the result is whether all assertions hold. The second distance is found before the assertions of the first one. -/
def testDistance (e : RzEnv K) (inner outer : RZLine K) (n : ℕ) : Except Err Bool :=
  (inner.distance e 20 none).bind fun dist =>
    (outer.distance e 20 none).map fun dist_outer =>
      decide (dist.length = n + 1) && decide (isClose (dist.getD 0 0) 0) && decide (isClose (dist.getD (dist.length - 1) 0) (2 * e.pi)) &&
        ((List.range (dist.length - 1)).all fun i => decide (dist.getD (i + 1) 0 - dist.getD i 0 > 0)) &&
        decide (isClose (dist_outer.getD (dist_outer.length - 1) 0) (4 * e.pi))

/-- `test_order_by_distance` (test_rzline.py:39-45) for any line, with `n` in place of 10. -/
def testOrderByDistance (e : RzEnv K) (inner : RZLine K) (n : ℕ) : Except Err Bool :=
  (inner.equallySpaced e (some n) none).map fun new_inner => decide (new_inner.pts.length = n)

end Zoidberg
