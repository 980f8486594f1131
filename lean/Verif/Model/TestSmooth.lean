import Verif.Model.Smooth

/-!
# test_smooth.py

The points of a regular polygon and the test of `smooth`.  `np.interp` with a period is linear
interpolation between the corners; the corners are evenly spaced, so point `j` of `m` lies between the
corners `j n / m` and the next one.  `np.sin`, `np.cos`, `np.sqrt` and the solver are parameters.
-/

namespace Zoidberg

variable {K : Type} [Field K] [LinearOrder K]

/-- `linspace(0, 2 * np.pi, num=n, endpoint=False)[k]` (test_smooth.py:28, 31). -/
def polyAngle (pi : K) (n k : ℕ) : K := (k : K) * (2 * pi / (n : K))

/-- `np.interp(phi_z, phi_r, ends, period=np.pi * 2)` (test_smooth.py:33-34) for the values `f` at the angles of the corners. -/
def polyInterp (pi : K) (f : K → K) (n m : ℕ) : List K :=
  (List.range m).map fun j : ℕ =>
    let k := j * n / m
    let w := ((j * n % m : ℕ) : K) / (m : K)
    (1 - w) * f (polyAngle pi n (k % n)) + w * f (polyAngle pi n ((k + 1) % n))

/-- What `run_npolygons` returns (test_smooth.py:38). -/
structure PolyRun (K : Type) where
  outliers : List ℤ
  testr : List K
  testz : List K
  newr : List K
  newz : List K

/-- `run_npolygons` (test_smooth.py:25-38).  If `smooth` returns `None` it cannot be unpacked. -/
def runNpolygons (sqrt : K → K) (ls : CubicSolver K) (tol pi : K) (cos sin : K → K) (fuel n m : ℕ) : Except Err (PolyRun K) :=
  let testr := polyInterp pi cos n m
  let testz := polyInterp pi sin n m
  match smoothLine sqrt ls tol (96 / 100) 10 none false fuel testr testz with
  | .ok newr newz => (findOutliers sqrt newr newz (96 / 100) 30).map fun o => ⟨o, testr, testz, newr, newz⟩
  | .none => .error (.type "cannot unpack non-iterable NoneType object")
  | .raises e => .error e
  | .running => .error (.runtime "still running")

/-- `a.all()` of an array of floats: no entry is zero (test_smooth.py:45, 48, 51). -/
def npAllTrue (a : List K) : Bool := a.all fun x => decide (x ≠ 0)

/-- The condition of one assertion (test_smooth.py:45, 48, 51): whether outliers remain, and whether the two results of `all` differ. -/
def polyCheck (found differ : Bool) (p : PolyRun K) : Bool :=
  (found == !p.outliers.isEmpty) && (differ == (npAllTrue p.testz != npAllTrue p.newz))

/-- One of the three parts (test_smooth.py:44-45, 47-48, 50-51). -/
def polyPart (run : ℕ → ℕ → Except Err (PolyRun K)) (n m : ℕ) (found differ : Bool) : Except Err Unit :=
  (run n m).bind fun p => if polyCheck found differ p then .ok () else .error (.assertion "test_assert_npolygons")

/-- `test_assert_npolygons` (test_smooth.py:41-51). -/
def testAssertNpolygons (run : ℕ → ℕ → Except Err (PolyRun K)) : Except Err Unit :=
  (polyPart run 10 1000 false true).bind fun _ =>
    (polyPart run 1000 10000 false false).bind fun _ => polyPart run 5 1000 true true

end Zoidberg
