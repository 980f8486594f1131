import Verif.Model.Dagp
import Verif.Prelude.ODict

/-!
# Model of `load`, `write` and the command line of `/repo/zoidberg/stencil_dagp_fv.py:50-66, 376-399`

Arrays are lists of rows along the first axis.
-/

namespace Zoidberg

/-- The coefficients of the faces in one direction: the two parts `d[..., 0]` and `d[..., 1]` (stencil_dagp_fv.py:57-62, 379-382). -/
abbrev DagpCoef (α : Type) := List α × List α

/-- `write` (stencil_dagp_fv.py:376-387); `nx` is the number of rows of `R`, `zero` a row of zeros. -/
def dagpWrite {α : Type} (zero : α) (nx : ℕ) (volume : List α) (cX cZ : DagpCoef α) : Except Err (ODict (List α)) :=
  (fixup zero nx cX.1).bind fun xx => (fixup zero nx cX.2).bind fun xz =>
    let ret := ODict.set (ODict.set (ODict.set [] "dagp_fv_XX" xx) "dagp_fv_XZ" xz) "dagp_fv_volume" volume
    (fixup zero nx cZ.1).bind fun zx => (fixup zero nx cZ.2).map fun zz =>
      ODict.set (ODict.set (ODict.set ret "dagp_fv_ZX" zx) "dagp_fv_ZZ" zz) "dagp_fv_volume" volume

/-- `fixup2(d[..., i], f[key])` (stencil_dagp_fv.py:60-62) for an array `d` of `m` rows. -/
def dagpRead {α : Type} (f : ODict (List α)) (m : ℕ) (key : String) : Except Err (List α) := (f.getE key).bind (fixup2 m)

/-- `load` (stencil_dagp_fv.py:50-66) without `R` and `Z`, which have `nx >= 2` rows. -/
def dagpLoad {α : Type} (nx : ℕ) (f : ODict (List α)) : Except Err (List α × DagpCoef α × DagpCoef α) :=
  (dagpRead f (nx - 1) "dagp_fv_XX").bind fun xx => (dagpRead f (nx - 1) "dagp_fv_XZ").bind fun xz =>
  (dagpRead f (nx - 2) "dagp_fv_ZX").bind fun zx => (dagpRead f (nx - 2) "dagp_fv_ZZ").bind fun zz =>
  (f.getE "dagp_fv_volume").map fun v => (v, (xx, xz), (zx, zz))

/-- The loop `while flag in sys.argv` (stencil_dagp_fv.py:391-393).  Every pass removes an entry, so `argv.length` passes are enough. -/
def flagLoop (flag : String) (step : ℤ) : ℕ → ℤ × List String → ℤ × List String
  | 0, s => s
  | n + 1, s => if flag ∈ s.2 then flagLoop flag step n (s.1 + step, s.2.erase flag) else s

/-- The command line (stencil_dagp_fv.py:390-399): `verbose`, `plot` and the files that are tested. -/
def dagpArgs (argv : List String) : ℤ × Bool × List String :=
  let s := flagLoop "-v" 1 argv.length (1, argv)
  let s := flagLoop "-q" (-1) s.2.length s
  let plot := decide ("-p" ∈ s.2)
  (s.1, plot, (if plot then s.2.erase "-p" else s.2).tail)

end Zoidberg
