import Verif.Prelude.NdArray
import Mathlib.Data.List.Sort

/-!
# Model of `FieldTracer` and `trace_poincare` (`/repo/zoidberg/fieldtracer.py:17-130, 320-406`)
-/

namespace Zoidberg

/-- A numpy array as its shape and its values in C order (fieldtracer.py:67-94). -/
structure FArr (K : Type) where
  shape : List ℕ
  data : List K
  deriving DecidableEq

/-- `np.atleast_1d` (fieldtracer.py:68-70). -/
def FArr.atleast1d {K : Type} (a : FArr K) : FArr K := if a.shape = [] then ⟨[1], a.data⟩ else a

/-- `len(a)`, for arrays that are not of dimension zero (fieldtracer.py:72, 99). -/
def FArr.len {K : Type} (a : FArr K) : ℕ := a.shape.headD 0

/-- `a.size` (fieldtracer.py:79, 81). -/
def FArr.size {K : Type} (a : FArr K) : ℕ := a.shape.prod

/-- `np.zeros(s) + a` for an array `a` with one element: the shape has as many axes as the longer one (fieldtracer.py:80, 82). -/
def FArr.spread {K : Type} [Zero K] (a : FArr K) (s : List ℕ) : FArr K :=
  ⟨List.replicate (a.shape.length - s.length) 1 ++ s, List.replicate s.prod (a.data.getD 0 0)⟩

/-- The checks of the tracers (fieldtracer.py:67-86, also 219-238 and 580-599): the three arrays. -/
def checkInputs {K : Type} [Zero K] (x z y : FArr K) : Except Err (FArr K × FArr K × FArr K) :=
  let x := x.atleast1d
  let y := y.atleast1d
  let z := z.atleast1d
  if y.len < 2 then .error (.value "There must be at least two elements in y_values")
  else if y.shape.length > 1 then .error (.value "y_values must be 1D")
  else if x.shape ≠ z.shape then
    if x.size = 1 then .ok (x.spread z.shape, z, y)
    else if z.size = 1 then .ok (x, z.spread x.shape, y)
    else .error (.value "x_values and z_values must be the same size, or one must be a scalar")
  else .ok (x, z, y)

/-- The lengths of the parts of `np.array_split(a, n)` (fieldtracer.py:112-113). -/
def splitSizes (len n : ℕ) : List ℕ :=
  List.replicate (len % n) (len / n + 1) ++ List.replicate (n - len % n) (len / n)

/-- The list cut into parts of the given lengths (fieldtracer.py:112-113). -/
def cutAt {α : Type} : List ℕ → List α → List (List α)
  | [], _ => []
  | k :: ks, l => l.take k :: cutAt ks (l.drop k)

/-- `np.array_split(a, n)` for `n > 0` (fieldtracer.py:112-113). -/
def splitParts {α : Type} (l : List α) (n : ℕ) : List (List α) := cutAt (splitSizes l.length n) l

/-- `np.column_stack((x, z)).flatten()` for one-dimensional arrays of the same length (fieldtracer.py:100, 117). -/
def interleave {K : Type} (p : List (K × K)) : List K := p.flatMap fun q => [q.1, q.2]

/-- `np.concatenate(results, axis=1)` for arrays with `n` rows (fieldtracer.py:128). -/
def concatRows {K : Type} (n : ℕ) (rs : List (List (List K))) : List (List K) :=
  (List.range n).map fun i => rs.flatMap fun r => r.getD i []

/-- The integration in pieces (fieldtracer.py:99-128). `ode` is `odeint` for the given field and
tolerance: from the positions and the values of `y` to one row of positions for each `y`. -/
def traceChunks {K : Type} (ode : List K → List K → Except Err (List (List K))) (p : List (K × K)) (ys : List K) :
    Except Err (List (List K)) :=
  if p.length < 1000 then ode (interleave p) ys
  else ((splitParts p (p.length / 1000)).mapM fun c => ode (interleave c) ys).map (concatRows ys.length)

/-- `FieldTracer.follow_field_lines` (fieldtracer.py:30-130).  Two flat arrays of the same length and
two one-dimensional arrays can be stacked.  If `x_values` is one-dimensional, `z_values` is
not flattened, and with more than one axis it cannot be stacked: its only row would have to
be a column. -/
def followFieldLines {K : Type} [Zero K] (ode : List K → List K → Except Err (List (List K))) (x z y : FArr K) :
    Except Err (FArr K) :=
  (checkInputs x z y).bind fun a =>
    let x := a.1
    let z := a.2.1
    let y := a.2.2
    if x.shape.length ≤ 1 ∧ z.shape.length > 1 then
      .error (.value "all the input array dimensions except for the concatenation axis must match exactly")
    else (traceChunks ode (x.data.zip z.data) y.data).bind fun rows =>
      let s := y.shape ++ x.shape ++ [2]
      if rows.flatten.length ≠ s.prod then .error (.value "cannot reshape array")
      else .ok ⟨s, rows.flatten⟩

/-! ## `trace_poincare` -/

variable {K : Type} [Field K] [LinearOrder K]

/-- The slices (fieldtracer.py:358-377): sorted, or equally spaced.  `y_slices.sort()` acts on the array of the
caller if it is an array. -/
def poincareSlices (yperiod : K) (nplot : Option ℕ) (slices : Option (List K)) : Except Err (List K) :=
  match slices, nplot with
  | none, none => .error (.value "nplot and y_slices cannot both be None")
  | some s, _ =>
    if s = [] then .error (.value "zero-size array to reduction operation minimum which has no identity")
    else if (s.any fun a => decide (a < 0)) || (s.any fun a => decide (a > yperiod)) then
      .error (.value "y_slices must all be between 0.0 and yperiod")
    else .ok (s.insertionSort (· ≤ ·))
  | none, some n => .ok (linspaceOpen 0 yperiod n)

/-- What `y_slices` of the caller holds after the call (fieldtracer.py:359, 368): `np.asarray` does not copy an array
(`isArray`), and `sort` works in place. -/
def slicesAfter (isArray : Bool) (yperiod : K) (s : List K) : List K :=
  match poincareSlices yperiod none (some s) with
  | .ok t => if isArray then t else s
  | .error _ => s

/-- `y_values` (fieldtracer.py:381-384); after the first pass `y_values[:nplot]` are still the slices. -/
def poincareYs (yperiod : K) (s : List K) (revs : ℕ) : List K :=
  (pyRange 1 revs).foldl (fun v (n : ℕ) => v ++ (v.take s.length).map fun a => (n : K) * yperiod + a) s

/-- `y_values_over` (fieldtracer.py:386-392) for at least one value.  Entry `k * nover` is `y_values[k]`, entry
`k * nover + i` is between `y_values[k]` and `y_values[k + 1]`. -/
def overSample (ys : List K) (nover : ℕ) : List K :=
  (List.range (ys.length * nover - (nover - 1))).map fun m : ℕ =>
    if m % nover = 0 then ys.getD (m / nover) 0
    else (((m % nover : ℕ) : K) / (nover : K)) * ys.getD (m / nover + 1) 0 +
      (((nover - m % nover : ℕ) : K) / (nover : K)) * ys.getD (m / nover) 0

/-- `a[::n]` for `n > 0` (fieldtracer.py:401). -/
def strided {α : Type} (l : List α) (n : ℕ) : List α := (List.range ((l.length + n - 1) / n)).filterMap fun i => l[i * n]?

/-- `trace_poincare` (fieldtracer.py:320-406); `follow` gives the rows `result[i]` of the tracer.  Without any
values of `y`, or with `nover = 0` or `revs = 0`, numpy or the tracer raise a `ValueError`: for a
slice with the step zero, a negative length, lengths that differ or too few values. -/
def tracePoincare {α : Type} (follow : List K → Except Err (List α)) (yperiod : K) (nplot : Option ℕ)
    (slices : Option (List K)) (revs nover : ℕ) : Except Err (List (List α) × List K) :=
  (poincareSlices yperiod nplot slices).bind fun s =>
    if nover = 0 ∨ revs = 0 ∨ s = [] then .error (.value "y_values")
    else (follow (overSample (poincareYs yperiod s revs) nover)).bind fun rows =>
      let r := strided rows nover
      if r.length ≠ revs * s.length then .error (.value "cannot reshape array")
      else .ok ((List.range revs).map fun i => (r.drop (i * s.length)).take s.length, s)

/-- The rows `result[i, ...]` of `field_tracer.follow_field_lines(xpos, zpos, y_values_over)` (fieldtracer.py:394-399). -/
def poincareFollow {K : Type} [Zero K] (ode : List K → List K → Except Err (List (List K))) (x z : FArr K) (ys : List K) :
    Except Err (List (List K)) :=
  (followFieldLines ode x z ⟨[ys.length], ys⟩).map fun r =>
    (List.range ys.length).map fun i => (r.data.drop (i * r.shape.tail.prod)).take r.shape.tail.prod

end Zoidberg
