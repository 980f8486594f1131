import Verif.Model.Field

/-!
# Model of the field and the reference volume of `test_slab_volume` (`/repo/zoidberg/test_volume_slab.py`)
-/

namespace Zoidberg

variable {K : Type} [Field K]

/-- `polyfunc` (test_volume_slab.py:15-19) of a list that begins with `a`. -/
def polyFunc (sin : K → K) (a : K) (p : List K) (y : K) : K :=
  (List.range p.length).foldl (fun r i => r + p.getD i 0 * sin (((i + 1 : ℕ) : K) * y)) a

/-- `fld` (test_volume_slab.py:22-44) with the coefficients `a :: p`. -/
def polyField (sin : K → K) (a : K) (p : List K) : FieldFns K where
  Bx := fun _ _ _ => 0
  Bz := fun _ _ _ => 0
  By := fun _ _ phi => polyFunc sin a p phi
  R := none

/-- One turn of the loop for the reference volume (test_volume_slab.py:120-136): `result` and `arclength` between `t` and `u`. -/
def slabRefStep (B : K → K) (pi area R y0 : K) (acc : K × K) (t u : K) : K × K :=
  let field := 1 / 2 * (B t + B u)
  let dl := (u - t) / (2 * pi) * (R * 2 * pi)
  (acc.1 + area * B y0 / field * dl, acc.2 + dl)

/-- `result` and `arclength` of the cell in the plane `y0` between the angles `ya` and `yb` (test_volume_slab.py:112-136). -/
def slabReference (B : K → K) (pi area R y0 ya yb : K) (n : ℕ) : K × K :=
  let t := linspaceClosed ya yb n
  (List.range (n - 1)).foldl (fun acc i => slabRefStep B pi area R y0 acc (t.getD i 0) (t.getD (i + 1) 0)) (0, 0)

end Zoidberg
