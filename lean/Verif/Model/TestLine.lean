import Verif.Model.LineFromPoints
import Verif.Model.ParMetric

/-!
# The tests of lines (C295)

The tests of test_rzline.py, for lines with any sizes and any numbers of points.
-/

namespace Zoidberg

variable {K : Type} [Field K] [LinearOrder K] [FloorRing K]

/-- `np.roll(a, i)` (test_rzline.py:68-69): the values go to higher places by `i`. -/
def rollPts (l : List (K × K)) (i : ℕ) : List (K × K) := l.rotate (l.length - i % l.length)

/-- `np.allclose` of `R` and of `Z` (test_rzline.py:68-70) for arrays of the same length. -/
def allClosePts (a b : List (K × K)) : Bool := (a.zip b).all fun q => decide (isClose q.1.1 q.2.1 ∧ isClose q.1.2 q.2.2)

/-- `match` (test_rzline.py:66-72).  Arrays of different lengths are an error (arrays of length one would be spread over the others); without points the loop is empty. -/
def lineMatch (orig rec : List (K × K)) : Except Err Bool :=
  if orig.length = 0 then .ok false
  else if rec.length ≠ orig.length then .error (.value "operands could not be broadcast together")
  else .ok ((List.range orig.length).any fun i => allClosePts orig (rollPts rec i))

/-- `test_line_from_points` (test_rzline.py:48-74) for the points `orig` and the same points in another order; the result is that of the assertion.  `line_from_points` without a line is `none`,
of which `reconstructed.R` is an error. -/
def testLineFromPoints (e : RzEnv K) (orig shuffled : List (K × K)) : Except Err Bool :=
  (lineFromPoints e shuffled none none false).bind fun l =>
    match l with
    | none => .error (.attribute "R")
    | some l => lineMatch orig l.pts

/-- `test_circular_boundaries` (test_rzline.py:6-13) for two lines: `np.amax` and `np.amin` of `R`, which are errors without points. -/
def testCircular (inner outer : List (K × K)) : Except Err Bool :=
  if inner = [] ∨ outer = [] then .error (.value "zero-size array to reduction operation")
  else .ok (inner.all (fun q => decide (q.1 ≤ 2)) && inner.all (fun q => decide (0 ≤ q.1)) && outer.all (fun q => decide (q.1 ≤ 3)) && outer.all fun q => decide (-1 ≤ q.1))

end Zoidberg
