import Verif.Prelude.Numpy
import Verif.Model.ParMetric

/-!
# The test of the web tracer (C300)

A result of `follow_field_lines` with `ny` values of `y` and `nl` lines is a function of the two indices; it has the R and the Z coordinate.
-/

namespace Zoidberg

variable {K : Type} [Field K] [LinearOrder K]

/-- `dist` (test_fieldtracer.py:83, 90, 97, 103): the differences are along axis 1, the lines. -/
def webDist (sqrt : K → K) (ny nl : ℕ) (res : ℕ → ℕ → K × K) : List K :=
  (List.range ny).flatMap fun i => (List.range (nl - 1)).map fun j =>
    sqrt (((res i (j + 1)).1 - (res i j).1) ^ 2 + ((res i (j + 1)).2 - (res i j).2) ^ 2)

/-- The three assertions about a result (test_fieldtracer.py:82-85, and again 89-93, 96-99, 102-105): whether they hold.  `up` is whether `res[1:, :, 1] > 0` is asserted, otherwise
`res[1:, :, 1] < 0` is.  `np.max` of nothing raises a `ValueError`. -/
def webBlock (sqrt : K → K) (ny nl : ℕ) (up : Bool) (res : ℕ → ℕ → K × K) : Except Err Bool :=
  match webDist sqrt ny nl res with
  | [] => .error (.value "zero-size array to reduction operation maximum which has no identity")
  | d :: ds =>
    .ok (((List.range (ny - 1)).all fun i => (List.range nl).all fun j => if up then decide (0 < (res (i + 1) j).2) else decide ((res (i + 1) j).2 < 0)) &&
      ((d :: ds).all fun x => decide (0 ≤ x)) && decide (ds.foldl max d < 5 / 100))

/-- `np.linspace(0, 0.1, n)`, with a sign, and moved (test_fieldtracer.py:81, 88, 95, 101). -/
def webYs (n : ℕ) (sign shift : K) : List K := (List.range n).map fun i : ℕ => sign * ((i : K) * (1 / 10 / ((n : K) - 1))) + shift

/-- `test_traceweb` (test_fieldtracer.py:75-111), with any numbers of `y` values and of lines in place of 10 and 10: whether all assertions hold.  `follow` is `follow_field_lines`
of the tracer without and with `chunk=2`, for the starting points of the test.  All calls are made before the assertions. -/
def testTraceWeb (pi : K) (sqrt : K → K) (ny nl : ℕ) (follow : Option ℕ → List K → Except Err (ℕ → ℕ → K × K)) : Except Err Bool :=
  (follow none (webYs ny 1 0)).bind fun r1 => (webBlock sqrt ny nl true r1).bind fun b1 =>
  (follow none (webYs ny (-1) 0)).bind fun r2 => (webBlock sqrt ny nl false r2).bind fun b2 =>
  (follow none (webYs ny 1 (pi * 4 / 5))).bind fun r3 => (webBlock sqrt ny nl true r3).bind fun b3 =>
  (follow none (webYs ny (-1) (pi * 6 / 5))).bind fun r4 => (webBlock sqrt ny nl false r4).bind fun b4 =>
  (follow (some 2) (webYs ny (-1) (pi * 6 / 5))).map fun rc =>
    b1 && b2 && b3 && b4 && (List.range ny).all fun i => (List.range nl).all fun j => decide (isClose (r4 i j).1 (rc i j).1) && decide (isClose (r4 i j).2 (rc i j).2)

end Zoidberg
