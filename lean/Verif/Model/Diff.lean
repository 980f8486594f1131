import Verif.Prelude.Numpy

/-!
# Model of `/repo/zoidberg/diff.py`

`c2` and `c4` act on every line of the array along `axis` on its own; they are modelled for one line, of
floating point numbers.  The decimal constants stand for the fractions of which they are the rounded
values (for example 2.0833333333333333 is 25/12).
-/

namespace Zoidberg

variable {K : Type} [Field K]

/-- `f[i]` for a python index (diff.py:41-52). -/
def at' (f : List K) (i : ℤ) : K := f.getD (if i < 0 then (f.length : ℤ) + i else i).toNat 0

/-- `np.roll(f, -i)[j]` (diff.py:6, 36-37). -/
def rolled (f : List K) (i : ℤ) (j : ℕ) : K := f.getD (((j : ℤ) + i) % (f.length : ℤ)).toNat 0

/-- `c2` (diff.py:4-30).  With fewer than three points `f[2]` does not exist. -/
def c2 (f : List K) (periodic : Bool) : Except Err (List K) :=
  if periodic then .ok ((List.range f.length).map fun j => (rolled f 1 j - rolled f (-1) j) / 2)
  else if f.length < 3 then .error (.index "index 2 is out of bounds")
  else .ok ((List.range f.length).map fun j =>
    if j = f.length - 1 then (at' f (-1) - at' f (-3)) / 2
    else if j = 0 then (at' f 2 - at' f 0) / 2
    else (at' f (j + 1) - at' f (j - 1)) / 2)

/-- `c4` (diff.py:33-97).  With fewer than five points `f[4]` does not exist. -/
def c4 (f : List K) (periodic : Bool) : Except Err (List K) :=
  if periodic then .ok ((List.range f.length).map fun j =>
    (-rolled f 2 j + 8 * rolled f 1 j - 8 * rolled f (-1) j + rolled f (-2) j) / 12)
  else if f.length < 5 then .error (.index "index 4 is out of bounds")
  else .ok ((List.range f.length).map fun j =>
    if j = f.length - 1 then
      1 / 4 * at' f (-5) - 4 / 3 * at' f (-4) + 3 * at' f (-3) - 4 * at' f (-2) + 25 / 12 * at' f (-1)
    else if j = f.length - 2 then
      -(1 / 12) * at' f (-5) + 1 / 2 * at' f (-4) - 3 / 2 * at' f (-3) + 5 / 6 * at' f (-2) + 1 / 4 * at' f (-1)
    else if j = 1 then
      -(1 / 4) * at' f 0 - 5 / 6 * at' f 1 + 3 / 2 * at' f 2 - 1 / 2 * at' f 3 + 1 / 12 * at' f 4
    else if j = 0 then
      -(25 / 12) * at' f 0 + 4 * at' f 1 - 3 * at' f 2 + 4 / 3 * at' f 3 - 1 / 4 * at' f 4
    else (-at' f (j + 2) + 8 * at' f (j + 1) - 8 * at' f (j - 1) + at' f (j - 2)) / 12)

/-- `c2` for an array of integers (diff.py:4-30): `out` has their type (`np.empty_like`), and `out /= 2` would have to store floating point numbers in it, which
numpy refuses.  `np.roll(f, ..) / 2` makes a new array.  Overflow of the integers is not modelled. -/
def c2Int (f : List ℤ) (periodic : Bool) : Except Err (List ℚ) :=
  if periodic then c2 (f.map fun k : ℤ => (k : ℚ)) true
  else if f.length < 3 then .error (.index "index 2 is out of bounds")
  else .error (.type "Cannot cast ufunc 'divide' output from dtype('float64') to dtype('int64') with casting rule 'same_kind'")

/-- `c4` for an array of integers (diff.py:33-97): `out[..] = ..` cuts off the fraction. -/
def c4Int (f : List ℤ) (periodic : Bool) : Except Err (List ℚ) :=
  if periodic then c4 (f.map fun k : ℤ => (k : ℚ)) true
  else (c4 (f.map fun k : ℤ => (k : ℚ)) false).map fun r => r.map fun x => ((pyInt x : ℤ) : ℚ)

/-- What `field_line_length` needs from outside: square root, sine, cosine and `CubicSpline(x, y)`, which
may raise an exception (diff.py:109-128). -/
structure LenEnv (K : Type) where
  sqrt : K → K
  cos : K → K
  sin : K → K
  spline : List K → List K → Except Err (K → K)

/-- `y_fine` (diff.py:113-115). -/
def fineY (e : LenEnv K) (ys : List K) (refine : ℕ) : Except Err (List K) :=
  (e.spline (linspaceClosed 0 1 ys.length) ys).map fun yi =>
    (linspaceClosed 0 1 ((ys.length - 1) * refine + 1)).map yi

/-- `X_fine, Y_fine, Z_fine` at one `y` (diff.py:116-123). -/
def finePoint (e : LenEnv K) (R Z : K → K) (y : K) : K × K × K := (e.cos y * R y, e.sin y * R y, Z y)

/-- `ds` between two points (diff.py:125-127). -/
def stepLen (e : LenEnv K) (a b : K × K × K) : K :=
  e.sqrt ((b.1 - a.1) ^ 2 + (b.2.1 - a.2.1) ^ 2 + (b.2.2 - a.2.2) ^ 2)

/-- The sum of the distances along a list of points (diff.py:125-129). -/
def pathLen (e : LenEnv K) (p : List (K × K × K)) : K := (List.zipWith (stepLen e) p p.tail).sum

/-- The points along the line (diff.py:109-123), for one field line with the positions `rz` at the angles `ys`. -/
def finePath (e : LenEnv K) (rz : List (K × K)) (ys : List K) (refine : ℕ) : Except Err (List (K × K × K)) :=
  (fineY e ys refine).bind fun yf =>
    (e.spline ys (rz.map Prod.fst)).bind fun R =>
      (e.spline ys (rz.map Prod.snd)).bind fun Z => .ok (yf.map (finePoint e R Z))

/-- `field_line_length` (diff.py:100-129) for one field line with at least one point. -/
def fieldLineLength (e : LenEnv K) (rz : List (K × K)) (ys : List K) (refine : ℕ) : Except Err K :=
  (finePath e rz ys refine).map (pathLen e)

end Zoidberg
