import Verif.Model.ParMetric

/-!
# `MapWriter._write_par_metric` for arrays of integers (`/repo/zoidberg/zoidberg.py:657-700`)

`Grid.__init__` keeps `np.asarray(ycoords)` (grid.py:51), which is an array of integers if `ycoords` is a list of integers.
-/

namespace Zoidberg

variable {K : Type} [Field K] [LinearOrder K] [FloorRing K]

/-- The loop zoidberg.py:670-672 if `pypar` is an array of integers: `pypar[i] += shift` stores the integer part of the sum. -/
def unwrapInt (meandy shift : K) (p : List K) : List K :=
  (pyRange 1 p.length).foldl (fun p i =>
    if meandy * (p.getD i 0 - p.getD (i - 1) 0) < 0 then p.set i ((pyInt (p.getD i 0 + shift) : ℤ) : K) else p) p

/-- The y coordinates of one slice (zoidberg.py:668-676) if `ypar` is an array of integers. -/
def parCoordsInt (ypar : List K) (Ly : K) (yperiodic : Bool) (offset : ℤ) : Except Err (List K) :=
  let pypar := rollBack ypar offset
  if yperiodic then
    let meandy := meanDiff ypar
    let pypar := unwrapInt meandy (npSign meandy * Ly) pypar
    if 1 < pypar.length ∧ ¬ isClose (meanDiff pypar) meandy then
      .error (.assertion "Mean of dy changes")
    else .ok pypar
  else .ok pypar

end Zoidberg
