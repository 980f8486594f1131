import Verif.Model.Grid
import Verif.Model.Field
import Verif.Model.ParMetric

/-!
# The tests of grids and slabs (C296, C297)

The tests of test_grid.py and test_field.py, for any grid and any numbers of points.
-/

namespace Zoidberg

variable {K : Type} [Field K] [LinearOrder K] [FloorRing K]

/-- The assertions about one result of `getPoloidalGrid` (test_grid.py:14-28): the grid is `None`, if `outside`, and `y` is close to the value given. An exception is a failure. -/
def lookupIs {G : Type} (look : K → Except Err (Option G × K)) (yindex : K) (outside : Bool) (y : K) : Bool :=
  match look yindex with
  | .ok (p, y') => (!outside || p.isNone) && decide (isClose y' y)
  | .error _ => false

/-- The assertions of `test_getPoloidalGrid` (test_grid.py:6-28) for any number of planes and any `getPoloidalGrid`, with `n` and `L` in place of 10 planes and the length 10. -/
def testLookup {G : Type} (ny : ℕ) (look : K → Except Err (Option G × K)) (n : ℕ) (L : K) : Bool :=
  decide (ny = n) && lookupIs look (-1) true 0 && lookupIs look (n : K) true L && lookupIs look 0 false (L / (2 * n)) &&
    lookupIs look ((n : K) - 1) false (L - L / (2 * n))

/-- `test_getPoloidalGrid` (test_grid.py:6-28) for the grid `g`. -/
def testGetPoloidalGrid {G : Type} (g : Grid G K) (n : ℕ) (L : K) : Bool := testLookup g.ny g.getPoloidalGrid n L

/-- The assertions of `test_getPoloidalGrid_periodic` (test_grid.py:31-44) for any number of planes and any `getPoloidalGrid`, with `n` in place of 10. `is` is taken as equality of the poloidal grids. -/
def testPeriodicLookup {G : Type} [DecidableEq G] (ny : ℕ) (look : K → Except Err (Option G × K)) (n : ℕ) : Bool :=
  decide (ny = n) &&
    match look ((n : K) - 1), look (-1) with
    | .ok (some p, y_last), .ok (some q, y) => decide (q = p) && decide (y < y_last)
    | _, _ => false

/-- `test_getPoloidalGrid_periodic` (test_grid.py:31-44) for the grid `g`. -/
def testPeriodicGrid {G : Type} [DecidableEq G] (g : Grid G K) (n : ℕ) : Bool := testPeriodicLookup g.ny g.getPoloidalGrid n

/-- `test_slab` and `test_curved_slab` (test_field.py:6-45) for the field `f`, with `xs` in place of `np.arange(10)`, `by` and `bz` in place of 0.5 and 0.2. The functions of a field act on
every point, so that the assertions about shapes hold. -/
def testSlabField (f : FieldFns K) (xs : List K) (by' bz : K) : Bool :=
  (xs.all fun x => decide (isClose (f.Bx x x 0) 0)) && (xs.all fun x => decide (isClose (f.By x x 0) by')) &&
    xs.all fun x => decide (isClose (f.Bz x x 0) bz)

end Zoidberg
