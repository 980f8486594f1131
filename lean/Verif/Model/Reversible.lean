import Verif.Model.FieldTracer

/-!
# Model of `FieldTracerReversible` (`/repo/zoidberg/fieldtracer.py:133-317`)

The positions are a list of pairs, the flattened arrays `x_pos` and `z_pos`.  Both may be the
same array (`same`), then a change of one is a change of the other.
-/

namespace Zoidberg

variable {K : Type} [Field K] [LinearOrder K]

/-- `x_pos += d` (fieldtracer.py:271, 307). -/
def addX (same : Bool) (p : List (K × K)) (d : List K) : List (K × K) :=
  List.zipWith (fun q e => if same then (q.1 + e, q.1 + e) else (q.1 + e, q.2)) p d

/-- `z_pos += d` (fieldtracer.py:272, 308). -/
def addZ (same : Bool) (p : List (K × K)) (d : List K) : List (K × K) :=
  List.zipWith (fun q e => if same then (q.2 + e, q.2 + e) else (q.1, q.2 + e)) p d

/-- `dx, dz` at one point (fieldtracer.py:280-305): `q` is the position, `half` the half-step values, `d`, `dx` and `dz`
the directions at the position and beside it.  `none` if a division by zero occurs. -/
def newtonDelta (eps dy : K) (q half d dx dz : K × K) : Option (K × K) :=
  let dxdy_x := (dx.1 - d.1) / eps
  let dzdy_x := (dx.2 - d.2) / eps
  let dxdy_z := (dz.1 - d.1) / eps
  let dzdy_z := (dz.2 - d.2) / eps
  let fx := 1 / 2 * d.1 * dy - q.1 + half.1
  let fz := 1 / 2 * d.2 * dy - q.2 + half.2
  let dfxdx := 1 / 2 * dxdy_x * dy - 1
  let dfxdz := 1 / 2 * dxdy_z * dy
  let dfzdx := 1 / 2 * dzdy_x * dy
  let dfzdz := 1 / 2 * dzdy_z * dy - 1
  let determinant := dfxdx * dfzdz - dfxdz * dfzdx
  if eps = 0 ∨ determinant = 0 then none
  else some ((dfzdz * fx - dfxdz * fz) / determinant, (dfxdx * fz - dfzdx * fx) / determinant)

/-- The Newton iteration (fieldtracer.py:275-311), at most `fuel` times.  If it does not end, the result is
`runtime`.  It does not end after a division by zero either, because nan is never below `rtol`. -/
def newtonLoop (same : Bool) (dir : List (K × K) → K → Except Err (List (K × K))) (rtol eps dy y : K) (half : List (K × K)) :
    ℕ → List (K × K) → Except Err (List (K × K))
  | 0, _ => .error (.runtime "does not end")
  | fuel + 1, p =>
    (dir p y).bind fun d => (dir (p.map fun q => (q.1 + eps, q.2)) y).bind fun dx => (dir (p.map fun q => (q.1, q.2 + eps)) y).bind fun dz =>
      if p = [] then .error (.value "zero-size array to reduction operation maximum which has no identity")
      else
        let deltas := (List.range p.length).map fun i =>
          newtonDelta eps dy (p.getD i (0, 0)) (half.getD i (0, 0)) (d.getD i (0, 0)) (dx.getD i (0, 0)) (dz.getD i (0, 0))
        if deltas.any Option.isNone then .error (.runtime "does not end")
        else
          let ds := deltas.map fun o => o.getD (0, 0)
          let p' := addZ same (addX same p (ds.map fun e => -e.1)) (ds.map fun e => -e.2)
          if ds.all fun e => decide (e.1 ^ 2 + e.2 ^ 2 < rtol) then .ok p'
          else newtonLoop same dir rtol eps dy y half fuel p'

/-- What the in-place addition refuses (fieldtracer.py:271-272): integer arrays, and shapes that differ. -/
structure RevBad where
  xInt : Bool
  zInt : Bool
  odd : Bool

/-- The check of the in-place addition (fieldtracer.py:271-272). -/
def RevBad.check (b : RevBad) : Except Err Unit :=
  if b.xInt then .error (.type "Cannot cast ufunc 'add' output")
  else if b.odd then .error (.value "non-broadcastable output operand")
  else if b.zInt then .error (.type "Cannot cast ufunc 'add' output")
  else .ok ()

/-- One sub-step (fieldtracer.py:258-312). -/
def revStep (same : Bool) (bad : RevBad) (dir : List (K × K) → K → Except Err (List (K × K))) (rtol eps : K) (fuel : ℕ) (dy : K)
    (p : List (K × K)) (y : K) : Except Err (List (K × K)) :=
  (dir p y).bind fun d =>
    let half := List.zipWith (fun q e => (q.1 + 1 / 2 * e.1 * dy, q.2 + 1 / 2 * e.2 * dy)) p d
    bad.check.bind fun _ =>
      let p1 := addZ same (addX same p (d.map fun e => e.1 * dy)) (d.map fun e => e.2 * dy)
      newtonLoop same dir rtol eps dy (y + dy) half fuel p1

/-- The sub-steps (fieldtracer.py:257-312). -/
def revSteps (step : List (K × K) → K → Except Err (List (K × K))) (dy : K) : ℕ → List (K × K) → K → Except Err (List (K × K) × K)
  | 0, p, y => .ok (p, y)
  | n + 1, p, y => (step p y).bind fun p' => revSteps step dy n p' (y + dy)

/-- The loop over the values of `y` (fieldtracer.py:252-315): the positions at each of them. -/
def revRows (step : K → List (K × K) → K → Except Err (List (K × K))) (nsteps : ℕ) :
    List K → List (K × K) → K → Except Err (List (List (K × K)))
  | [], _, _ => .ok []
  | yn :: ys, p, y =>
    let dy := (yn - y) / (nsteps : K)
    (revSteps (step dy) dy nsteps p y).bind fun s => (revRows step nsteps ys s.1 s.2).map (s.1 :: ·)

/-- How an array was given: whether it is an array of the caller (then `np.atleast_1d` does not copy
it), and whether it holds integers (fieldtracer.py:220-234). -/
structure Given where
  isArray : Bool
  isInt : Bool

/-- `np.zeros(z_values.shape) + x_values` is used instead of `x_values` (fieldtracer.py:229-232). -/
def xSpread (x z : FArr K) : Bool := decide (x.atleast1d.shape ≠ z.atleast1d.shape) && decide (x.atleast1d.size = 1)

/-- `np.zeros(x_values.shape) + z_values` is used instead of `z_values` (fieldtracer.py:233-234). -/
def zSpread (x z : FArr K) : Bool :=
  decide (x.atleast1d.shape ≠ z.atleast1d.shape) && decide (x.atleast1d.size ≠ 1) && decide (z.atleast1d.size = 1)

/-- The result of `FieldTracerReversible.follow_field_lines`, and what the arrays of the caller hold after it (fieldtracer.py:242-317). -/
structure RevResult (K : Type) where
  result : FArr K
  xAfter : List K
  zAfter : List K

/-- `FieldTracerReversible.follow_field_lines` (fieldtracer.py:164-317).  `same` says that `x_values` and `z_values` are
the same array.  A negative `nsteps` is the same as zero. -/
def followReversible (dir : List (K × K) → K → Except Err (List (K × K))) (rtol eps : K) (nsteps fuel : ℕ)
    (x z y : FArr K) (gx gz : Given) (same : Bool) : Except Err (RevResult K) :=
  (checkInputs x z y).bind fun a =>
    let xs := a.1
    let zs := a.2.1
    let ys := a.2.2
    let bad : RevBad := ⟨gx.isInt && !xSpread x z, gz.isInt && !zSpread x z,
      decide (xs.shape.length ≤ 1) && decide (zs.shape.length > 1)⟩
    let p := xs.data.zip zs.data
    (revRows (fun dy => revStep same bad dir rtol eps fuel dy) nsteps ys.data.tail p (ys.data.getD 0 0)).map fun rows =>
      let last := (p :: rows).getLast (by simp)
      ⟨⟨ys.shape ++ xs.shape ++ [2], (p :: rows).flatMap interleave⟩,
        if gx.isArray && !xSpread x z then last.map Prod.fst else x.data,
        if gz.isArray && !zSpread x z then last.map Prod.snd else z.data⟩

end Zoidberg
