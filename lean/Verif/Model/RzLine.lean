import Verif.Prelude.Numpy

/-!
# Model of `RZline` (`/repo/zoidberg/rzline.py:22-356`)

A line is a list of control points `(R, Z)`.
-/

namespace Zoidberg

variable {K : Type} [Field K] [LinearOrder K] [FloorRing K]

/-- What `rzline.py` takes from numpy and scipy.  `splrep order knots v` is the periodic spline
through the values `v` at equally spaced angles (the closing value is left out) as a function of
the order of the derivative and the angle (rzline.py:82-95, 97-140). -/
structure RzEnv (K : Type) where
  pi : K
  sqrt : K → K
  splrep : ℕ → Option (List K) → List K → Except Err (ℕ → K → K)

/-- `np.argmin`: the first index of the smallest entry (rzline.py:287, 300). -/
def argmin : List K → ℕ
  | [] => 0
  | a :: l => if l.all fun b => decide (a ≤ b) then 0 else argmin l + 1

/-- An `RZline`. `rspl` and `zspl` are the two splines: order of the derivative, angle (rzline.py:78-95). -/
structure RZLine (K : Type) where
  pts : List (K × K)
  order : ℕ
  rspl : ℕ → K → K
  zspl : ℕ → K → K

/-- Point `i` of a list, modulo its length (rzline.py:142-183). -/
def ptAt (p : List (K × K)) (i : ℕ) : K × K := p.getD (i % p.length) (0, 0)

/-- `np.sum((r - np.roll(r, 1)) * (z + np.roll(z, 1)))` (rzline.py:71). -/
def orient (p : List (K × K)) : K :=
  ((List.range p.length).map fun i =>
    ((ptAt p i).1 - (ptAt p (i + p.length - 1)).1) * ((ptAt p i).2 + (ptAt p (i + p.length - 1)).2)).sum

/-- `linspace(0, 2 * pi, n, endpoint=False)` (rzline.py:82). -/
def rzTheta (pi : K) (n : ℕ) : List K := linspaceOpen 0 (2 * pi) n

/-- The knots with `smooth` (rzline.py:89-93). -/
def rzKnots (pi : K) (n smooth : ℕ) : List K :=
  let num := n / smooth + 1
  (linspaceOpen 0 (pi * 2) num).map fun t => t + pi / (num : K)

/-- `spline_order or 3` (rzline.py:84). -/
def splineOrder : Option ℕ → ℕ
  | none => 3
  | some 0 => 3
  | some k => k

/-- The splines (rzline.py:79-95); `r[0]` does not exist for an empty line. -/
def RZLine.build (e : RzEnv K) (p : List (K × K)) (order smooth : Option ℕ) : Except Err (RZLine K) :=
  let kn := smooth.map (rzKnots e.pi p.length)
  if p = [] then .error (.index "r[0]")
  else (e.splrep (splineOrder order) kn (p.map Prod.fst)).bind fun rs =>
    (e.splrep (splineOrder order) kn (p.map Prod.snd)).bind fun zs => .ok ⟨p, splineOrder order, rs, zs⟩

/-- `__init__` (rzline.py:59-95) for arrays of the same length.  `smooth` is `none` for `False`
and `some 100` for `True`. -/
def RZLine.ofPts (e : RzEnv K) (p : List (K × K)) (anticlockwise : Bool) (order smooth : Option ℕ) :
    Except Err (RZLine K) :=
  if anticlockwise then
    if orient p = 0 then .error (.assertion "A != 0")
    else
      let q := if orient p > 0 then p.reverse else p
      if ¬ orient q < 0 then .error (.assertion "anticlockwise")
      else RZLine.build e q order smooth
  else RZLine.build e p order smooth

/-- `__init__` (rzline.py:59-95). -/
def RZLine.init (e : RzEnv K) (r z : List K) (anticlockwise : Bool) (order smooth : Option ℕ) :
    Except Err (RZLine K) :=
  if z.length ≠ r.length then .error (.assertion "len(z) == n")
  else RZLine.ofPts e (r.zip z) anticlockwise order smooth

/-- `Rvalue` and `Zvalue` (rzline.py:97-139) for a given angle. -/
def RZLine.value (l : RZLine K) (pi theta : K) (deriv : ℕ) : K × K :=
  (l.rspl deriv (npRem theta (2 * pi)), l.zspl deriv (npRem theta (2 * pi)))

/-- `positionPolygon` (rzline.py:158-183) for one given angle. -/
def RZLine.positionPolygon (l : RZLine K) (pi theta : K) : K × K :=
  let n := l.pts.length
  let dtheta := 2 * pi / (n : K)
  let ind := (pyMod (pyInt (theta / dtheta)) n).toNat
  let rem := npRem theta dtheta
  let a := ptAt l.pts ind
  let b := ptAt l.pts (ind + 1)
  (rem * b.1 + (1 - rem) * a.1, rem * b.2 + (1 - rem) * a.2)

/-! ## `distance` -/

/-- `interp1d(xs, ys, assume_sorted=True)(x)` for increasing `xs` (rzline.py:200-204, 262-265). -/
def interp1 (xs ys : List K) (x : K) : Except Err K :=
  if x < xs.getD 0 0 ∨ x > xs.getD (xs.length - 1) 0 then .error (.value "outside the interpolation range")
  else
    let hi := min (max (xs.countP fun a => decide (a < x)) 1) (xs.length - 1)
    let lo := hi - 1
    .ok ((ys.getD hi 0 - ys.getD lo 0) / (xs.getD hi 0 - xs.getD lo 0) * (x - xs.getD lo 0) + ys.getD lo 0)

/-- `interp` in `distance` (rzline.py:200-204): the weights at `n` points. -/
def interpClosed (w : List K) (n : ℕ) : Except Err (List K) :=
  if w = [] then .error (.index "dat[0]")
  else (linspaceOpen 0 1 n).mapM (interp1 (linspaceClosed 0 1 (w.length + 1)) (w ++ [w.getD 0 0]))

/-- The weights at `n` points; ones without weights (rzline.py:211-213, 232-233). -/
def lineWeights (w : Option (List K)) (n : ℕ) : Except Err (List K) :=
  match w with
  | none => .ok (List.replicate n 1)
  | some w => interpClosed w n

/-- The distance to the next point (rzline.py:207-210). -/
def segLen (sqrt : K → K) (p : List (K × K)) (i : ℕ) : K :=
  sqrt (((ptAt p i).1 - (ptAt p (i + 1)).1) ^ 2 + ((ptAt p i).2 - (ptAt p (i + 1)).2) ^ 2)

/-- The loop with `sum` (rzline.py:214-220): the sums before each entry, and that of all. -/
def cumSums : K → List K → List K
  | s, [] => [s]
  | s, a :: l => s :: cumSums (s + a) l

/-- `cumtrapz(y, x, initial=0.0)` (rzline.py:236). -/
def cumtrapz (y x : List K) : List K :=
  cumSums 0 ((List.range (x.length - 1)).map fun i =>
    (x.getD (i + 1) 0 - x.getD i 0) * (y.getD (i + 1) 0 + y.getD i 0) / 2)

/-- `a[::s]` (rzline.py:236). -/
def everyNth (a : List K) (s : ℕ) : List K :=
  (List.range ((a.length + s - 1) / s)).map fun i => a.getD (i * s) 0

/-- `distance` for straight segments (rzline.py:206-221). -/
def distancePoly (sqrt : K → K) (p : List (K × K)) (w : Option (List K)) : Except Err (List K) :=
  (lineWeights w p.length).map fun ws =>
    cumSums 0 (List.zipWith (· * ·) ((List.range p.length).map (segLen sqrt p)) ws)

/-- `dldtheta` at an angle (rzline.py:229-231). -/
def RZLine.speed (l : RZLine K) (e : RzEnv K) (t : K) : K :=
  let d := l.value e.pi t 1
  e.sqrt (d.1 ^ 2 + d.2 ^ 2)

/-- `distance` with the splines (rzline.py:223-236). -/
def RZLine.distanceSpl (l : RZLine K) (e : RzEnv K) (sample : ℕ) (w : Option (List K)) : Except Err (List K) :=
  if ¬ sample ≥ 1 then .error (.assertion "sample >= 1")
  else
    let ts := linspaceClosed 0 (2 * e.pi) (sample * l.pts.length + 1)
    (lineWeights w ts.length).map fun ws =>
      everyNth (cumtrapz (List.zipWith (· * ·) (ts.map (l.speed e)) ws) ts) sample

/-- `distance` (rzline.py:185-236); `sample` is a natural number. -/
def RZLine.distance (l : RZLine K) (e : RzEnv K) (sample : ℕ) (w : Option (List K)) : Except Err (List K) :=
  if l.order = 1 then distancePoly e.sqrt l.pts w else l.distanceSpl e sample w

/-- The angles of `equallySpaced` (rzline.py:253-265). -/
def RZLine.equalTheta (l : RZLine K) (e : RzEnv K) (n : Option ℕ) (w : Option (List K)) : Except Err (List K) :=
  (l.distance e 20 w).bind fun dist =>
    (linspaceOpen (dist.getD 0 0) (dist.getD (dist.length - 1) 0) (n.getD l.pts.length)).mapM
      (interp1 dist (rzTheta e.pi l.pts.length ++ [2 * e.pi]))

/-- `equallySpaced` (rzline.py:238-267). -/
def RZLine.equallySpaced (l : RZLine K) (e : RzEnv K) (n : Option ℕ) (w : Option (List K)) :
    Except Err (RZLine K) :=
  (l.equalTheta e n w).bind fun ts => RZLine.ofPts e (ts.map fun t => l.value e.pi t 0) true none none

/-! ## `closestPoint` -/

/-- The squared distance of two points (rzline.py:287, 300). -/
def dist2 (a b : K × K) : K := (a.1 - b.1) ^ 2 + (a.2 - b.2) ^ 2

/-- One refinement (rzline.py:292-302): the angle and the half width. -/
def RZLine.refine (l : RZLine K) (pi : K) (p : K × K) (subdivide : ℕ) (s : K × K) : Except Err (K × K) :=
  let thetas := linspaceOpen (s.1 - s.2) (s.1 + s.2) subdivide
  if subdivide = 0 then .error (.value "argmin of an empty sequence")
  else if subdivide = 1 then .error (.index "thetas[1]")
  else
    let ind := argmin (thetas.map fun t => dist2 (l.positionPolygon pi t) p)
    .ok (thetas.getD ind 0, thetas.getD 1 0 - thetas.getD 0 0)

/-- `for i in range(niter)` (rzline.py:292-302). -/
def RZLine.refineLoop (l : RZLine K) (pi : K) (p : K × K) (subdivide : ℕ) : ℕ → K × K → Except Err (K × K)
  | 0, s => .ok s
  | k + 1, s => (l.refine pi p subdivide s).bind (l.refineLoop pi p subdivide k)

/-- `closestPoint` (rzline.py:269-304); `theta[1]` does not exist for a single point. -/
def RZLine.closestPoint (l : RZLine K) (pi : K) (p : K × K) (niter subdivide : ℕ) : Except Err K :=
  let theta := rzTheta pi l.pts.length
  if l.pts.length ≤ 1 then .error (.index "theta[1]")
  else
    let ind := argmin (l.pts.map fun q => dist2 q p)
    (l.refineLoop pi p subdivide niter (theta.getD ind 0, theta.getD 1 0 - theta.getD 0 0)).map fun s =>
      npRem s.1 (2 * pi)

end Zoidberg
