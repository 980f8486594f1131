import Verif.Model.Field
import Verif.Model.ParMetric

/-!
# Model of the tests of the tracers in slabs (`/repo/zoidberg/test_fieldtracer.py:9-61`)
-/

namespace Zoidberg

variable {K : Type} [Field K] [LinearOrder K] [FloorRing K]

/-- `np.allclose(a, v)` for the values of an array (test_fieldtracer.py:17-28). -/
def allCloseTo (l : List K) (v : K) : Bool := l.all fun a => decide (isClose a v)

/-- `coords[i, j, c]` of an array of shape `(m, n, 2)` (test_fieldtracer.py:17-28, 39-50). -/
def coord3 (a : FArr K) (i j c : ℕ) : K := a.data.getD ((i * a.shape.getD 1 0 + j) * 2 + c) 0

/-- The assertions about the first call (test_fieldtracer.py:16-20, 38-42). -/
def tracerTest1 (c : FArr K) : Bool :=
  decide (c.shape = [2, 1, 2]) && allCloseTo [coord3 c 0 0 0, coord3 c 1 0 0] (1 / 5) && allCloseTo [coord3 c 0 0 1] (3 / 10) &&
    allCloseTo [coord3 c 1 0 1] (3 / 10 + 1 / 10 / (1 / 2))

/-- The assertions about the second call (test_fieldtracer.py:24-28, 46-50). -/
def tracerTest2 (c : FArr K) : Bool :=
  decide (c.shape = [2, 3, 2]) && allCloseTo [coord3 c 0 0 0, coord3 c 1 0 0] (1 / 5) && allCloseTo [coord3 c 0 1 0, coord3 c 1 1 0] (3 / 10) &&
    allCloseTo [coord3 c 0 2 0, coord3 c 1 2 0] (2 / 5) &&
    allCloseTo [coord3 c 1 0 1, coord3 c 1 1 1, coord3 c 1 2 1] (1 / 2 + 3 / 2 * (1 / 10) / (1 / 2))

/-- `test_slab` and `test_FieldTracerReversible_slab` for a tracer (test_fieldtracer.py:9-50): whether all assertions hold. -/
def tracerTest (follow : FArr K → FArr K → FArr K → Except Err (FArr K)) : Except Err Bool := do
  let a ← follow ⟨[], [1 / 5]⟩ ⟨[], [3 / 10]⟩ ⟨[2], [3 / 2, 5 / 2]⟩
  let b ← follow ⟨[3], [1 / 5, 3 / 10, 2 / 5]⟩ ⟨[], [1 / 2]⟩ ⟨[2], [1, 5 / 2]⟩
  pure (tracerTest1 a && tracerTest2 b)

/-- `test_poincare` (test_fieldtracer.py:53-61): whether the assertions hold; the shape of the result is that of nested lists, whose innermost
lists have two values for every line. -/
def poincareTest (ode : List K → List K → Except Err (List (List K))) : Except Err Bool := do
  let r ← tracePoincare (poincareFollow ode ⟨[], [0]⟩ ⟨[], [0]⟩) (1 : K) (some 3) none 5 1
  pure (decide (r.2.length = 3) && decide (r.1.length = 5) && r.1.all fun q => decide (q.length = r.2.length) && q.all fun s => decide (s.length = 2))

end Zoidberg
