import Verif.Prelude.Numpy
import Mathlib.Data.List.Sort
import Mathlib.Algebra.BigOperators.Group.List.Basic

/-!
# smooth.py

Lists stand for one-dimensional arrays of floats.  `np.sqrt` and `scipy.optimize.least_squares` are parameters.
`plt` is only known where it has been imported: the function `smooth` imports it if `plot` is set, the function `gen_newr` never does (the module imports it only if it is
run as a script).
-/

namespace Zoidberg

variable {K : Type} [Field K] [LinearOrder K]

/-- `a[i]` of an array (smooth.py:10-12). -/
def npGet (a : List K) (i : ℤ) : Except Err K :=
  match pyIndex a.length i with
  | some j => .ok (a.getD j 0)
  | none => .error (.index "index is out of bounds")

/-! ### find_outliers -/

/-- The test for one point (smooth.py:9-20).  If a length is zero the quotient is nan and the comparison false. -/
def outlierAt (sqrt : K → K) (r z : List K) (cutoff : K) (bounds item : ℕ) : Except Err Bool :=
  (npGet z item).bind fun z1 => (npGet r item).bind fun r1 =>
    (npGet z ((item : ℤ) - bounds)).bind fun z2 => (npGet r ((item : ℤ) - bounds)).bind fun r2 =>
      (npGet z ((item : ℤ) - bounds * 2)).bind fun z3 => (npGet r ((item : ℤ) - bounds * 2)).map fun r3 =>
        let a := (z1 - z2, r1 - r2)
        let b := (z1 - z3, r1 - r3)
        let product := a.1 * b.1 + a.2 * b.2
        let den := sqrt (a.1 * a.1 + a.2 * a.2) * sqrt (b.1 * b.1 + b.2 * b.2)
        if den = 0 then false else decide (product / den < cutoff)

/-- `find_outliers` (smooth.py:5-22). -/
def findOutliers (sqrt : K → K) (r z : List K) (cutoff : K) (bounds : ℕ) : Except Err (List ℤ) :=
  ((List.range z.length).mapM fun item => (outlierAt sqrt r z cutoff bounds item).map fun b => (item, b)).map fun l =>
    (l.filter fun p => p.2).map fun p => (p.1 : ℤ) - bounds

/-! ### generate_points_tosmooth -/

/-- `range(dup - bounds, dup + bounds + 1)` below `length` (smooth.py:31). -/
def smoothWindow (bounds length : ℕ) (dup : ℤ) : List ℤ :=
  ((List.range (2 * bounds + 1)).map fun i : ℕ => dup - bounds + i).filter fun x => x < length

/-- The sorted set of all points (smooth.py:29-33). -/
def smoothPoints (bounds length : ℕ) (outliers : List ℤ) : List ℤ :=
  (outliers.flatMap (smoothWindow bounds length)).dedup.insertionSort (· ≤ ·)

/-- State of the loop of `generate_points_tosmooth` (smooth.py:34-41). -/
structure SplitState where
  runs : List (List ℤ)
  first : ℕ
  last : ℤ

/-- `l[i:j]` (smooth.py:39, 42). -/
def intSlice (l : List ℤ) (i j : ℕ) : List ℤ := (l.take j).drop i

/-- One step (smooth.py:37-41). -/
def splitStep (todel : List ℤ) (s : SplitState) (p : ℤ × ℕ) : SplitState :=
  if s.last + 1 ≠ p.1 then ⟨s.runs ++ [intSlice todel s.first (p.2 + 1)], p.2 + 1, p.1⟩ else ⟨s.runs, s.first, p.1⟩

/-- The loop (smooth.py:34-43). -/
def splitRuns (todel : List ℤ) : List (List ℤ) :=
  let s := todel.tail.zipIdx.foldl (splitStep todel) ⟨[], 0, todel.headD 0⟩
  s.runs ++ [todel.drop s.first]

/-- `generate_points_tosmooth` (smooth.py:25-43).  `todel[0]` of nothing raises an `IndexError`. -/
def pointsToSmooth (bounds : ℕ) (outliers : List ℤ) (length : ℕ) : Except Err (List (List ℤ)) :=
  if outliers = [] then .ok []
  else
    let todel := smoothPoints bounds length outliers
    if todel = [] then .error (.index "list index out of range") else .ok (splitRuns todel)

/-! ### rollup -/

/-- `np.roll(a, k)` (smooth.py:47, 49). -/
def rollZ (a : List K) (k : ℤ) : List K := (List.range a.length).map fun i : ℕ => a.getD (((i : ℤ) - k) % (a.length : ℤ)).toNat 0

/-- `a[0:n] = rep`: the lengths must agree, or `rep` has one element (smooth.py:48). -/
def assignFirst (a : List K) (n : ℕ) (rep : List K) : Except Err (List K) :=
  let m := min n a.length
  if rep.length = m then .ok (rep ++ a.drop m)
  else match rep with
    | [v] => .ok (List.replicate m v ++ a.drop m)
    | _ => .error (.value "could not broadcast input array")

/-- `rollup` (smooth.py:46-50). -/
def rollup (a : List K) (start : ℤ) (length : ℕ) (rep : List K) : Except Err (List K) :=
  (assignFirst (rollZ a (-start)) length rep).map fun b => rollZ b start

/-- `a[start:start + length] = rep` for `start >= 0` (smooth.py:256-257). -/
def assignSlice (a : List K) (start length : ℕ) (rep : List K) : Except Err (List K) :=
  (assignFirst (a.drop start) length rep).map fun b => a.take start ++ b

/-! ### gen_newr -/

/-- The coefficients `x0` of the curve (smooth.py:206-222). -/
structure Cubic (K : Type) where
  r1 : K
  r2 : K
  r3 : K
  z1 : K
  z2 : K
  z3 : K

/-- `X` and `Y` without the first point (smooth.py:211-222), for `fac = 1`. -/
def Cubic.at (x : Cubic K) (s : K) : K × K := (x.r1 * s + x.r2 * s ^ 2 * (1 / 2) + x.r3 * s ^ 3 / 3, x.z1 * s + x.z2 * s ^ 2 * (1 / 2) + x.z3 * s ^ 3 / 3)

/-- `A @ x - b` (smooth.py:92-110, 186). -/
def smoothRes (dm dp end0 : K × K) (x : Cubic K) : List K :=
  [x.r1 + 1 / 2 * x.r2 + 1 / 3 * x.r3 - end0.1, x.z1 + 1 / 2 * x.z2 + 1 / 3 * x.z3 - end0.2, dm.2 * x.r1 + -dm.1 * x.z1,
    dp.2 * x.r1 + dp.2 * x.r2 + dp.2 * x.r3 + -dp.1 * x.z1 + -dp.1 * x.z2 + -dp.1 * x.z3]

/-- The integrand of `lenofs` before the root (smooth.py:114-130). -/
def lenSq (x : Cubic K) (s : K) : K :=
  (x.r1 * x.r1 + x.z1 * x.z1) + (x.r2 * x.r2 + x.z2 * x.z2) * s ^ 2 + (x.r3 * x.r3 + x.z3 * x.z3) * s ^ 4 +
    2 * ((x.r1 * x.r2 + x.z1 * x.z2) * s + (x.r1 * x.r3 + x.z1 * x.z3) * s ^ 2 + (x.r2 * x.r3 + x.z2 * x.z3) * s ^ 3)

/-- `lenofs` (smooth.py:112-131). -/
def lenOfS (sqrt : K → K) (x : Cubic K) : K := ((linspaceClosed (0 : K) 1 100).map fun s => sqrt (lenSq x s)).sum / 100

/-- `curv` (smooth.py:177-183). -/
def curvEnds (x : Cubic K) (f : K) : K × K :=
  let a := x.r1 * 0 + x.r2 * 1 + x.r3 * 2
  let c := x.z1 * 0 + x.z2 * 1 + x.z3 * 2
  ((a * a + c * c) * f, (x.r2 * x.r2 + x.z2 * x.z2) * f)

/-- `fun` (smooth.py:185-191). -/
def smoothFun (sqrt : K → K) (dm dp end0 : K × K) (x : Cubic K) : List K :=
  smoothRes dm dp end0 x ++ [lenOfS sqrt x / 100000, (curvEnds x (1 / 1000)).1, (curvEnds x (1 / 1000)).2]

/-- The result of `least_squares`: `x`, `optimality` and `cost` (smooth.py:194-206). -/
structure LsqResult (K : Type) where
  x : Cubic K
  optimality : K
  cost : K

/-- `least_squares` for the residual (smooth.py:194-201). -/
abbrev CubicSolver (K : Type) := (Cubic K → List K) → Except Err (LsqResult K)

/-- State of the loop of `gen_newr`: the new arrays, `have_failed` and `deb` (only its first two columns) (smooth.py:54-58, 202-205, 247-257). -/
structure SmoothState (K : Type) where
  r : List K
  z : List K
  failed : Bool
  deb : List (K × K)

/-- The first part of a run (smooth.py:63-71, 108-110, 194): the differences and the end. -/
def smoothSetup (r z : List K) (start stop : ℤ) : Except Err ((K × K) × (K × K) × (K × K) × (K × K)) :=
  (npGet r start).bind fun rs => (npGet r (start - 1)).bind fun rm => (npGet z start).bind fun zs => (npGet z (start - 1)).bind fun zm =>
    let seconds := if stop < (r.length : ℤ) - 1 then stop + 1 else 0
    (npGet r stop).bind fun re => (npGet r seconds).bind fun rp => (npGet z stop).bind fun ze => (npGet z seconds).map fun zp =>
      ((rs - rm, zs - zm), (re - rp, ze - zp), (re - rs, ze - zs), (rs, zs))

/-- `newr`, `newz` with the new points (smooth.py:252-257). -/
def smoothStore (a : List K) (start : ℤ) (X : List K) : Except Err (List K) :=
  if start < 0 then rollup a start X.length X else assignSlice a start.toNat X.length X

/-- The rest of a run (smooth.py:206-260). -/
def smoothRun (s : SmoothState K) (run : List ℤ) (start : ℤ) (p0 : K × K) (x : Cubic K) (plot : Bool) : Except Err (SmoothState K) :=
  let S := linspaceClosed (0 : K) 1 run.length
  let X := S.map fun t => p0.1 + (x.at t).1
  let Y := S.map fun t => p0.2 + (x.at t).2
  (npGet X 0).bind fun X0 => (npGet s.r (start - 1)).bind fun ra => (npGet Y 0).bind fun Y0 => (npGet s.z (start - 1)).bind fun za =>
    (npGet X (-1)).bind fun X1 => (npGet s.r (start + run.length)).bind fun rb => (npGet Y (-1)).bind fun Y1 => (npGet s.z (start + run.length)).bind fun zb =>
      let dstart := (X0 - ra) ^ 2 + (Y0 - za) ^ 2
      let dend := (X1 - rb) ^ 2 + (Y1 - zb) ^ 2
      let good := dend ≠ 0 ∧ 1 / 9 < dstart / dend ∧ dstart / dend < 9
      (smoothStore s.r start X).bind fun r' => (smoothStore s.z start Y).bind fun z' =>
        if plot then .error (.runtime "NameError: name 'plt' is not defined")
        else .ok ⟨r', z', s.failed || !decide good, if good then s.deb else s.deb ++ [(dstart, dend)]⟩

/-- One run of points (smooth.py:58-260).  `tol` is `1e-8`. -/
def smoothStep (sqrt : K → K) (ls : CubicSolver K) (tol : K) (r z : List K) (bounds : ℕ) (plot : Bool) (s : SmoothState K) (run : List ℤ) : Except Err (SmoothState K) :=
  if ¬ bounds ≤ run.length then .error (.assertion "len(alist) >= bounds")
  else if r.length ≤ 2 * run.length then .error (.value "Too many points to smooth")
  else match run.head?, run.getLast? with
    | some start, some stop =>
      (smoothSetup r z start stop).bind fun q =>
        (ls (smoothFun sqrt q.1 q.2.1 q.2.2.1)).bind fun res =>
          if tol < res.optimality then .ok ⟨s.r, s.z, true, s.deb ++ [(res.cost, res.optimality)]⟩
          else smoothRun s run start q.2.2.2 res.x plot
    | _, _ => .error (.index "list index out of range")

/-- `gen_newr` (smooth.py:53-283). -/
def genNewr (sqrt : K → K) (ls : CubicSolver K) (tol : K) (r z : List K) (runs : List (List ℤ)) (bounds : ℕ) (plot : Bool) : Except Err (SmoothState K) :=
  runs.foldl (fun (s : Except Err (SmoothState K)) run => s.bind fun s => smoothStep sqrt ls tol r z bounds plot s run) (.ok ⟨r, z, false, []⟩)

/-! ### smooth -/

/-- All outliers (smooth.py:317-319). -/
def allOutliers (sqrt : K → K) (r z : List K) (cutoff : K) (boundsFind : ℕ) : Except Err (List ℤ) :=
  ((List.range boundsFind).mapM fun b => findOutliers sqrt r z cutoff (b + 1)).map List.flatten

/-- One pass of the loop (smooth.py:317-329) without the plots. -/
def smoothPass (sqrt : K → K) (ls : CubicSolver K) (tol cutoff : K) (boundsFind bounds : ℕ) (plot : Bool) (r z : List K) : Except Err (SmoothState K) :=
  (allOutliers sqrt r z cutoff boundsFind).bind fun outliers =>
    (pointsToSmooth bounds outliers r.length).bind fun runs => genNewr sqrt ls tol r z runs bounds plot

/-- What `smooth` does in the end (smooth.py:329-347). -/
inductive SmoothEnd (K : Type) where
  | ok (r z : List K)
  | none
  | raises (e : Err)
  | running

/-- The loop (smooth.py:316-340); `fuel` is the number of passes that are followed, `running` says that they were not enough.  At the end without success, `plt.legend()`
raises an `UnboundLocalError` unless `plot` is set. -/
def smoothLoop (sqrt : K → K) (ls : CubicSolver K) (tol cutoff : K) (boundsFind bounds0 : ℕ) (plot : Bool) : ℕ → ℕ → List K → List K → SmoothEnd K
  | 0, _, _, _ => .running
  | fuel + 1, bounds, r, z =>
    match smoothPass sqrt ls tol cutoff boundsFind bounds plot r z with
    | .error e => .raises e
    | .ok s =>
      if s.failed = false then .ok s.r s.z
      else if s.deb = [] then .raises (.index "list index out of range")
      else if bounds0 * 5 < bounds + 1 then (if plot then .none else .raises (.runtime "UnboundLocalError: plt"))
      else smoothLoop sqrt ls tol cutoff boundsFind bounds0 plot fuel (bounds + 1) s.r s.z

/-- `smooth` (smooth.py:289-347). -/
def smoothLine (sqrt : K → K) (ls : CubicSolver K) (tol cutoff : K) (bounds : ℕ) (boundsFind : Option ℕ) (plot : Bool) (fuel : ℕ) (r z : List K) : SmoothEnd K :=
  let bf := match boundsFind with
    | none => bounds
    | some b => if b = 0 then bounds else b
  smoothLoop sqrt ls tol cutoff bf bounds plot fuel bounds r z

end Zoidberg
