import Verif.Model.FieldTracer
import Verif.Prelude.Basic
import Mathlib.Analysis.SpecialFunctions.Trigonometric.Basic
import Mathlib.Analysis.Real.Sqrt

/-!
# Model of `FusionSCTracer` (`/repo/zoidberg/fieldtracer.py:929-974`)
-/

namespace Zoidberg

/-- What is given to `fsc.flt.poincareInPhiPlanes` (fieldtracer.py:957-963). -/
structure FscCall (V : Type) where
  points : List (ℝ × ℝ × ℝ)
  planes : List ℝ
  ccw : Bool
  kwargs : Dict V

/-- `FusionSCTracer.follow_field_lines` (fieldtracer.py:949-974) for arrays.  `fsc` gives one row of points for every plane.
The copy of the keyword arguments that holds `rtol` is not used. -/
noncomputable def fusionFollow {V : Type} (fsc : FscCall V → Except Err (List (List (ℝ × ℝ × ℝ)))) (selfKwargs : Dict V)
    (x z : FArr ℝ) (ys : List ℝ) (rtol : Option V) : Except Err (FArr ℝ) :=
  let _kwargs := match rtol with
    | none => selfKwargs
    | some r => selfKwargs.set "targetError" r
  match ys with
  | y0 :: y1 :: _ =>
    let pts := (x.data.zip z.data).map fun q => (Real.cos y0 * q.1, Real.sin y0 * q.1, q.2)
    (fsc ⟨pts, ys.tail, decide (y0 < y1), selfKwargs⟩).map fun rows =>
      ⟨[ys.length] ++ x.shape ++ [2], interleave (x.data.zip z.data) ++
        rows.flatMap fun r => interleave (r.map fun p => (Real.sqrt (p.1 ^ 2 + p.2.1 ^ 2), p.2.2))⟩
  | _ => .error (.index "index out of range")

end Zoidberg
