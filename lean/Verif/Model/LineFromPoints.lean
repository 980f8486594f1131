import Verif.Model.RzLine

/-!
# Model of `circle`, `shaped_line` and the functions `line_from_points*` (`/repo/zoidberg/rzline.py:342-657`)
-/

namespace Zoidberg

variable {K : Type} [Field K] [LinearOrder K] [FloorRing K]

/-! ## `circle` and `shaped_line` -/

/-- The control points of `circle` (rzline.py:360-363). -/
def circlePts (pi : K) (cos sin : K → K) (R0 r : K) (n : ℕ) : List (K × K) :=
  (linspaceOpen 0 (2 * pi) n).map fun t => (R0 + r * cos t, r * sin t)

/-- `circle` (rzline.py:342-363). -/
def circle (e : RzEnv K) (cos sin : K → K) (R0 r : K) (n : ℕ) : Except Err (RZLine K) :=
  RZLine.ofPts e (circlePts e.pi cos sin R0 r n) true none none

/-- The control points of `shaped_line` (rzline.py:389-393). -/
def shapedPts (pi : K) (cos sin : K → K) (R0 a elong triang indent : K) (n : ℕ) : List (K × K) :=
  (linspaceOpen 0 (2 * pi) n).map fun t =>
    (R0 - indent + (a + indent * cos t) * cos (t + triang * sin t), (1 + elong) * a * sin t)

/-- `shaped_line` (rzline.py:366-393). -/
def shapedLine (e : RzEnv K) (cos sin : K → K) (R0 a elong triang indent : K) (n : ℕ) : Except Err (RZLine K) :=
  RZLine.ofPts e (shapedPts e.pi cos sin R0 a elong triang indent n) true none none

/-! ## `line_from_points` -/

/-- The loop `while rarr.size > 1` and the last point (rzline.py:630-646): `last` is the last point
of the line so far, the list are the points that are left.  The first argument bounds the
number of passes; the number of points is always enough. -/
def nnRest : ℕ → K × K → List (K × K) → List (K × K)
  | 0, _, rest => rest
  | k + 1, last, rest =>
    if rest.length > 1 then
      let ind := argmin (rest.map fun q => (last.1 - q.1) ^ 2 + (last.2 - q.2) ^ 2)
      let q := rest.getD ind (0, 0)
      q :: nnRest k q (rest.eraseIdx ind)
    else rest

/-- `np.roll(a, k)` for `k` at most the length (rzline.py:620-621). -/
def npRoll {α : Type} (a : List α) (k : ℕ) : List α := a.rotate (a.length - k)

/-- The candidate that starts after `start` shifts (rzline.py:617-646); `rarr[0]` does not exist for
a single point. -/
def nnTour (pts : List (K × K)) (start : ℕ) : Except Err (List (K × K)) :=
  match npRoll pts start with
  | [] => .error (.index "rarr[0]")
  | [_] => .error (.index "rarr[0]")
  | a :: b :: rest => .ok (a :: nnRest (b :: rest).length a (b :: rest))

/-- A candidate line and its length (rzline.py:648-649). -/
def lineCandidate (e : RzEnv K) (pts : List (K × K)) (order smooth : Option ℕ) (start : ℕ) :
    Except Err (RZLine K × K) :=
  (nnTour pts start).bind fun t =>
    (RZLine.ofPts e t true order smooth).bind fun l =>
      (l.distance e 20 none).bind fun d => .ok (l, d.getD (d.length - 1) 0)

/-- Keep the shorter one (rzline.py:651-655). -/
def keepBest (best : Option (RZLine K × K)) (c : RZLine K × K) : Option (RZLine K × K) :=
  match best with
  | none => some c
  | some b => if c.2 < b.2 then some c else some b

/-- The loop over the starting points (rzline.py:614-655). -/
def bestLine (e : RzEnv K) (pts : List (K × K)) (order smooth : Option ℕ) :
    List ℕ → Option (RZLine K × K) → Except Err (Option (RZLine K × K))
  | [], best => .ok best
  | s :: ss, best =>
    (lineCandidate e pts order smooth s).bind fun c => bestLine e pts order smooth ss (keepBest best c)

/-- `line_from_points` (rzline.py:571-657) for arrays of the same length.  Without points the
result is `None`. -/
def lineFromPoints (e : RzEnv K) (pts : List (K × K)) (order smooth : Option ℕ) (sorted : Bool) :
    Except Err (Option (RZLine K)) :=
  if sorted then (RZLine.ofPts e pts true order smooth).map some
  else (bestLine e pts order smooth (List.range pts.length) none).map fun b => b.map Prod.fst

/-! ## `line_from_points_poly` -/

/-- The insertion into the arrays (rzline.py:449-456): the points `ind + 1 .. i - 1` move by one
place, and the new point is at `ind + 1`. -/
def polyInsert (buf : List (K × K)) (i ind : ℕ) (p : K × K) : List (K × K) :=
  (List.range buf.length).map fun j =>
    if j = ind + 1 then p
    else if ind ≠ i - 1 ∧ ind + 2 ≤ j ∧ j < i + 1 then buf.getD (j - 1) (0, 0)
    else buf.getD j (0, 0)

/-- The index after which the point is inserted (rzline.py:447). -/
def polyIndex (pi : K) (i : ℕ) (theta : K) : ℕ := ⌊(i : K) * theta / (2 * pi)⌋.toNat

/-- One pass of the loop (rzline.py:433-456).  `closest` is `closestPoint`. -/
def polyStep (e : RzEnv K) (closest : RZLine K → K × K → Except Err K) (pts : List (K × K)) (order : Option ℕ)
    (buf : List (K × K)) (i : ℕ) : Except Err (List (K × K)) :=
  (RZLine.ofPts e (buf.take i) true order none).bind fun line =>
    (closest line (pts.getD i (0, 0))).bind fun theta =>
      .ok (polyInsert buf i (polyIndex e.pi i theta) (pts.getD i (0, 0)))

/-- The loop (rzline.py:435-456). -/
def polyLoop (e : RzEnv K) (closest : RZLine K → K × K → Except Err K) (pts : List (K × K)) (order : Option ℕ) :
    List ℕ → List (K × K) → Except Err (List (K × K))
  | [], buf => .ok buf
  | i :: is, buf => (polyStep e closest pts order buf i).bind (polyLoop e closest pts order is)

/-- `line_from_points_poly` (rzline.py:396-467) for arrays of the same length; plots are left out. -/
def lineFromPointsPoly (e : RzEnv K) (closest : RZLine K → K × K → Except Err K) (pts : List (K × K))
    (order : Option ℕ) : Except Err (RZLine K) :=
  if ¬ pts.length ≥ 3 then .error (.assertion "rarray.size >= 3")
  else (polyLoop e closest pts order (pyRange 3 pts.length) pts).bind fun buf => RZLine.ofPts e buf true order none

/-! ## Lines from sorting -/

/-- `x[ind]` for the points (rzline.py:482, 548, 568). -/
def takePts (pts : List (K × K)) (ind : List ℕ) : List (K × K) := ind.map fun i => pts.getD i (0, 0)

/-- `line_from_points_fast` (rzline.py:470-482); `argsort` is that of numpy, of which nothing is
said about equal values. -/
def lineFromPointsFast (e : RzEnv K) (atan2 : K → K → K) (argsort : List K → List ℕ) (pts : List (K × K))
    (order smooth : Option ℕ) : Except Err (RZLine K) :=
  let c : K × K := ((pts.map Prod.fst).sum / (pts.length : K), (pts.map Prod.snd).sum / (pts.length : K))
  let angle := pts.map fun p => atan2 (p.1 - c.1) (p.2 - c.2)
  RZLine.ofPts e (takePts pts (argsort angle)) true order smooth

/-- `line_from_points_convex_hull` and `line_from_points_alphashape` (rzline.py:533-568): `project` is
the position along the boundary of the shape.  The keyword arguments are not used. -/
def lineFromPointsHull (e : RzEnv K) (project : List (K × K) → K × K → K) (argsort : List K → List ℕ)
    (pts : List (K × K)) : Except Err (RZLine K) :=
  RZLine.ofPts e (takePts pts (argsort (pts.map (project pts)))) true none none

/-! ## `line_from_points_two_opt` -/

/-- `path_distance` (rzline.py:494-495). -/
def pathDist (sqrt : K → K) (c : List (K × K)) (r : List ℕ) : K :=
  ((List.range r.length).map fun p =>
    let a := c.getD (r.getD p 0) (0, 0)
    let b := c.getD (r.getD ((p + r.length - 1) % r.length) 0) (0, 0)
    sqrt ((a.1 - b.1) ^ 2 + (a.2 - b.2) ^ 2)).sum

/-- `two_opt_swap` (rzline.py:498-499) for `1 ≤ i ≤ k < len(r)`. -/
def twoOptSwap (r : List ℕ) (i k : ℕ) : List ℕ :=
  r.take i ++ ((r.take (k + 1)).drop i).reverse ++ r.drop (k + 1)

/-- The body of the inner loop (rzline.py:514-521). -/
def twoOptTry (sqrt : K → K) (c : List (K × K)) (i : ℕ) (s : List ℕ × K) (k : ℕ) : List ℕ × K :=
  let new := twoOptSwap s.1 i k
  if pathDist sqrt c new < s.2 then (new, pathDist sqrt c new) else s

/-- The inner loop (rzline.py:512-521). -/
def twoOptInner (sqrt : K → K) (c : List (K × K)) (s : List ℕ × K) (i : ℕ) : List ℕ × K :=
  (pyRange (i + 1) s.1.length).foldl (twoOptTry sqrt c i) s

/-- The two loops of one pass (rzline.py:510-521). -/
def twoOptPass (sqrt : K → K) (c : List (K × K)) (s : List ℕ × K) : List ℕ × K :=
  (pyRange 1 (s.1.length - 2)).foldl (twoOptInner sqrt c) s

/-- The loop (rzline.py:507-524).  The factor that ends the loop is that of the last pass of
the outer `for`; without any pass it stays 1.  If all cities are equal it is `nan`,
which ends the loop. The first argument bounds the number of passes. -/
def twoOptLoop (sqrt : K → K) (c : List (K × K)) (thr : K) : ℕ → K → List ℕ × K → Except Err (List ℕ)
  | 0, _, _ => .error (.runtime "does not terminate")
  | fuel + 1, factor, s =>
    if factor > thr then
      let s' := twoOptPass sqrt c s
      if s.1.length ≤ 3 then twoOptLoop sqrt c thr fuel factor s'
      else if s.2 = 0 then .ok s'.1
      else twoOptLoop sqrt c thr fuel (1 - s'.2 / s.2) s'
    else .ok s.1

/-- `two_opt` (rzline.py:502-525). -/
def twoOpt (sqrt : K → K) (c : List (K × K)) (thr : K) (fuel : ℕ) : Except Err (List ℕ) :=
  twoOptLoop sqrt c thr fuel 1 (List.range c.length, pathDist sqrt c (List.range c.length))

/-- `line_from_points_two_opt` (rzline.py:485-530). -/
def lineFromPointsTwoOpt (e : RzEnv K) (atan2 : K → K → K) (argsort : List K → List ℕ) (thr : K) (fuel : ℕ)
    (pts : List (K × K)) (order smooth : Option ℕ) : Except Err (RZLine K) :=
  (lineFromPointsFast e atan2 argsort pts order smooth).bind fun ln =>
    (twoOpt e.sqrt ln.pts thr fuel).bind fun route => RZLine.ofPts e (takePts ln.pts route) true order smooth

end Zoidberg
