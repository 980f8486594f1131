import Verif.Model.Smooth

/-!
# smooth.py for arrays of integers

`newr` and `newz` are copies of the arguments (smooth.py:54-55).  Storing in an array of integers keeps the integer parts.  `cut` is what storing does to a
number: nothing for floating point numbers, `int` for integers.
-/

namespace Zoidberg

variable {K : Type} [Field K] [LinearOrder K]

/-- The rest of a run (smooth.py:206-260) with `cut`. -/
def smoothRunCut (cut : K → K) (s : SmoothState K) (run : List ℤ) (start : ℤ) (p0 : K × K) (x : Cubic K) (plot : Bool) : Except Err (SmoothState K) :=
  let S := linspaceClosed (0 : K) 1 run.length
  let X := S.map fun t => p0.1 + (x.at t).1
  let Y := S.map fun t => p0.2 + (x.at t).2
  (npGet X 0).bind fun X0 => (npGet s.r (start - 1)).bind fun ra => (npGet Y 0).bind fun Y0 => (npGet s.z (start - 1)).bind fun za =>
    (npGet X (-1)).bind fun X1 => (npGet s.r (start + run.length)).bind fun rb => (npGet Y (-1)).bind fun Y1 => (npGet s.z (start + run.length)).bind fun zb =>
      let dstart := (X0 - ra) ^ 2 + (Y0 - za) ^ 2
      let dend := (X1 - rb) ^ 2 + (Y1 - zb) ^ 2
      let good := dend ≠ 0 ∧ 1 / 9 < dstart / dend ∧ dstart / dend < 9
      (smoothStore s.r start (X.map cut)).bind fun r' => (smoothStore s.z start (Y.map cut)).bind fun z' =>
        if plot then .error (.runtime "NameError: name 'plt' is not defined")
        else .ok ⟨r', z', s.failed || !decide good, if good then s.deb else s.deb ++ [(dstart, dend)]⟩

/-- One run of points (smooth.py:58-260) with `cut`. -/
def smoothStepCut (cut : K → K) (sqrt : K → K) (ls : CubicSolver K) (tol : K) (r z : List K) (bounds : ℕ) (plot : Bool) (s : SmoothState K) (run : List ℤ) :
    Except Err (SmoothState K) :=
  if ¬ bounds ≤ run.length then .error (.assertion "len(alist) >= bounds")
  else if r.length ≤ 2 * run.length then .error (.value "Too many points to smooth")
  else match run.head?, run.getLast? with
    | some start, some stop =>
      (smoothSetup r z start stop).bind fun q =>
        (ls (smoothFun sqrt q.1 q.2.1 q.2.2.1)).bind fun res =>
          if tol < res.optimality then .ok ⟨s.r, s.z, true, s.deb ++ [(res.cost, res.optimality)]⟩
          else smoothRunCut cut s run start q.2.2.2 res.x plot
    | _, _ => .error (.index "list index out of range")

/-- `gen_newr` (smooth.py:53-283) with `cut`. -/
def genNewrCut (cut : K → K) (sqrt : K → K) (ls : CubicSolver K) (tol : K) (r z : List K) (runs : List (List ℤ)) (bounds : ℕ) (plot : Bool) : Except Err (SmoothState K) :=
  runs.foldl (fun (s : Except Err (SmoothState K)) run => s.bind fun s => smoothStepCut cut sqrt ls tol r z bounds plot s run) (.ok ⟨r, z, false, []⟩)

/-- One pass of the loop (smooth.py:317-329) with `cut`. -/
def smoothPassCut (cut : K → K) (sqrt : K → K) (ls : CubicSolver K) (tol cutoff : K) (boundsFind bounds : ℕ) (plot : Bool) (r z : List K) : Except Err (SmoothState K) :=
  (allOutliers sqrt r z cutoff boundsFind).bind fun outliers =>
    (pointsToSmooth bounds outliers r.length).bind fun runs => genNewrCut cut sqrt ls tol r z runs bounds plot

/-- The loop (smooth.py:316-340) with `cut`; see `smoothLoop`. -/
def smoothLoopCut (cut : K → K) (sqrt : K → K) (ls : CubicSolver K) (tol cutoff : K) (boundsFind bounds0 : ℕ) (plot : Bool) : ℕ → ℕ → List K → List K → SmoothEnd K
  | 0, _, _, _ => .running
  | fuel + 1, bounds, r, z =>
    match smoothPassCut cut sqrt ls tol cutoff boundsFind bounds plot r z with
    | .error e => .raises e
    | .ok s =>
      if s.failed = false then .ok s.r s.z
      else if s.deb = [] then .raises (.index "list index out of range")
      else if bounds0 * 5 < bounds + 1 then (if plot then .none else .raises (.runtime "UnboundLocalError: plt"))
      else smoothLoopCut cut sqrt ls tol cutoff boundsFind bounds0 plot fuel (bounds + 1) s.r s.z

/-- `smooth` (smooth.py:289-347) for arrays of integers. -/
def smoothLineInt [FloorRing K] (sqrt : K → K) (ls : CubicSolver K) (tol cutoff : K) (bounds : ℕ) (boundsFind : Option ℕ) (plot : Bool) (fuel : ℕ) (r z : List K) : SmoothEnd K :=
  let bf := match boundsFind with
    | none => bounds
    | some b => if b = 0 then bounds else b
  smoothLoopCut (fun v => ((pyInt v : ℤ) : K)) sqrt ls tol cutoff bf bounds plot fuel bounds r z

end Zoidberg
