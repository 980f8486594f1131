import Verif.Model.GridGen
import Verif.Model.RzLine
import Verif.Model.Progress

/-!
# Model of what `grid_elliptic` does with the lines

The alignment (`/repo/zoidberg/poloidal_grid.py:720-754`), the angles of the inner points
(`/repo/zoidberg/poloidal_grid.py:756-892`) and the whole function for `RZline` arguments.
-/

namespace Zoidberg

variable {K : Type} [Field K] [LinearOrder K] [FloorRing K]

/-- `np.argmax`: the first index of the largest entry (used at poloidal_grid.py:732, 735). -/
def argmax : List K → ℕ
  | [] => 0
  | a :: l => if l.all fun b => decide (b ≤ a) then 0 else argmax l + 1

/-- `np.roll(R, -k)` and `np.roll(Z, -k)` (poloidal_grid.py:733, 736, 748). -/
def rotPts (p : List (K × K)) (k : ℕ) : List (K × K) := (List.range p.length).map fun i => ptAt p (i + k)

/-- `rzline.RZline(np.roll(l.R, -k), np.roll(l.Z, -k))` (poloidal_grid.py:733, 736, 748).  The spline
order of `l` is not handed on. -/
def RZLine.roll (e : RzEnv K) (l : RZLine K) (k : ℕ) : Except Err (RZLine K) :=
  RZLine.ofPts e (rotPts l.pts k) true none none

/-- `delta[np.round(j * fac) - i, j]` summed over `j` (poloidal_grid.py:738-746) for the points `s` of
the shorter and `l` of the longer line.  A negative index counts from the end. -/
def alignSum (s l : List (K × K)) (i : ℕ) : K :=
  ((List.range s.length).map fun j : ℕ =>
    dist2 (ptAt s j)
      (ptAt l ((pyRound ((j : K) * ((l.length : K) / (s.length : K))) - (i : ℤ)) % (l.length : ℤ)).toNat)).sum

/-- How far the longer line is rolled (poloidal_grid.py:734-748). -/
def alignShift (legacy : Bool) (s l : List (K × K)) : ℕ :=
  if legacy then argmax (l.map Prod.fst)
  else l.length - argmin ((List.range l.length).map (alignSum s l))

/-- The two lines after the roll (poloidal_grid.py:732-748). -/
def alignPair (e : RzEnv K) (legacy : Bool) (shorter longer : RZLine K) :
    Except Err (RZLine K × RZLine K) :=
  (shorter.roll e (argmax (shorter.pts.map Prod.fst))).bind fun s =>
    (longer.roll e (alignShift legacy s.pts longer.pts)).bind fun l => .ok (s, l)

/-- The alignment (poloidal_grid.py:720-754): the inner and the outer line. -/
def alignLines (e : RzEnv K) (legacy : Bool) (inner outer : RZLine K) : Except Err (RZLine K × RZLine K) :=
  if inner.pts.length < outer.pts.length then alignPair e legacy inner outer
  else (alignPair e legacy outer inner).bind fun q => .ok (q.2, q.1)

/-- `Rvalue` and `Zvalue` of a line (rzline.py:97-140, used at poloidal_grid.py:883-895). -/
def RZLine.fn (e : RzEnv K) (l : RZLine K) : LineFn K :=
  ⟨fun t => (l.value e.pi t 0).1, fun t => (l.value e.pi t 0).2⟩

/-- `fac` and `steps` in `laplace` (poloidal_grid.py:762-766). -/
def lapNumbers (nz : ℕ) : K × ℕ :=
  let fac : K := 1 / 10 * (nz : K) / 192
  if fac > 1 / 10 then (1 / 10, (pyInt (10 * fac / (1 / 10))).toNat) else (fac, 10)

/-- What stays the same in `inner_ort` mode: `maxfac_inner`, the filter of `fft_smooth` for
`inner_maxmode` if that is set, and the largest number of passes of the while loops (poloidal_grid.py:620-622, 778-803). -/
structure OrtOpts (K : Type) where
  maxfac : Option K
  filter : Option (List K → List K)
  fuel : ℕ

/-- `closestPoint` for all outer points, then `laplace` and `fft_smooth`
(poloidal_grid.py:887-890, 903-906). -/
def innerAngles (e : RzEnv K) (t : OrtOpts K) (inner : RZLine K) (ps : List (K × K)) : Except Err (List K) :=
  (ps.mapM fun p => inner.closestPoint e.pi p 3 20).bind fun x =>
    (laplace e.pi (lapNumbers ps.length).1 (lapNumbers (K := K) ps.length).2 t.maxfac t.fuel x).bind fun x =>
      .ok (match t.filter with
        | none => x
        | some f => fftSmooth e.pi f x)

/-- The environment of `gridElliptic` for an inner line (poloidal_grid.py:835-906). -/
def ellEnvOf (e : RzEnv K) (spline : List K → List K → Arr2 K → K → K → K) (t : OrtOpts K)
    (inner : RZLine K) : EllEnv K :=
  ⟨e.pi, fun a b => (a, b), fun _ ps => innerAngles e t inner ps, spline⟩

/-- `grid_elliptic` (poloidal_grid.py:606-1046) with `return_coords` for two lines.  `spline` is
`RectBivariateSpline`. -/
def gridEllipticLines (e : RzEnv K) (spline : List K → List K → Arr2 K → K → K → K) (t : OrtOpts K)
    (o : EllOpts K) (align legacy : Bool) (fuel : ℕ) (inner outer : RZLine K) (nx nz nxOuter nxInner : ℤ) :
    Except Err (Arr2 K × Arr2 K) :=
  if nxOuter ≠ 0 ∧ ¬ nxOuter > 0 then .error (.assertion "nx_outer > 0")
  else if nxInner ≠ 0 ∧ ¬ nxInner > 0 then .error (.assertion "nx_inner > 0")
  else if ¬ nx - nxOuter - nxInner > 1 then .error (.assertion "nx > 1")
  else if ¬ nz > 1 then .error (.assertion "nz > 1")
  else
    (if align && !o.innerOrt then alignLines e legacy inner outer else .ok (inner, outer)).bind fun q =>
      gridElliptic (ellEnvOf e spline t q.1) o false fuel (q.1.fn e) (q.2.fn e) nx nz nxOuter nxInner

end Zoidberg
