import Verif.Model.Field
import Mathlib.Analysis.SpecialFunctions.Complex.Arg
import Mathlib.Analysis.SpecialFunctions.Log.Basic

/-!
# Model of `StraightStellarator`, `RotatingEllipse` and `Screwpinch` (`/repo/zoidberg/field.py:322-536, 882-905`)

The expressions of sympy are functions of real numbers.  On a coil, where the code divides by zero, they have the values that
Lean gives to such divisions; no theorem is about these points.
-/

namespace Zoidberg

open Real

/-- `atan2(z, x)` of sympy (field.py:413, 519, 893). -/
noncomputable def atan2R (z x : ℝ) : ℝ := Complex.arg ⟨x, z⟩

/-- A coil: its position and its current (field.py:340-363, 446-467). -/
structure Coil where
  x : ℝ
  z : ℝ
  I : ℝ

/-- `coil` (field.py:340-363, 446-467) at `phi`. -/
noncomputable def coilAt (xcentre zcentre radius angle iota current phi : ℝ) : Coil :=
  ⟨xcentre + radius * cos (angle + iota * phi), zcentre + radius * sin (angle + iota * phi), current⟩

/-- `coil_list` (field.py:393-404, 499-510): four coils with alternating currents. -/
noncomputable def coilList (xcentre zcentre radius yperiod I phi : ℝ) : List Coil :=
  (List.range 4).map fun i : ℕ => coilAt xcentre zcentre radius ((i : ℝ) / 2 * π) (2 * π / yperiod) ((-1) ^ (i % 2) * I) phi

/-- `r2` (field.py:412, 518). -/
def Coil.r2 (c : Coil) (x z : ℝ) : ℝ := (x - c.x) ^ 2 + (z - c.z) ^ 2

/-- `A` (field.py:406-415, 512-521). -/
noncomputable def coilA (cs : List Coil) (x z : ℝ) : ℝ := cs.foldl (fun A c => A - c.I * (1 / 10) * log (c.r2 x z)) 0

/-- `Bx` (field.py:407-419, 513-525). -/
noncomputable def coilBx (cs : List Coil) (x z : ℝ) : ℝ :=
  cs.foldl (fun B c => B + c.I * (1 / 5) / sqrt (c.r2 x z) * sin (atan2R (z - c.z) (x - c.x))) 0

/-- `Bz` (field.py:408-420, 514-526). -/
noncomputable def coilBz (cs : List Coil) (x z : ℝ) : ℝ :=
  cs.foldl (fun B c => B - c.I * (1 / 5) / sqrt (c.r2 x z) * cos (atan2R (z - c.z) (x - c.x))) 0

/-- `StraightStellarator` (field.py:322-425). -/
noncomputable def straightStellarator (xcentre zcentre radius yperiod I : ℝ) : FieldFns ℝ :=
  ⟨fun x z phi => coilBx (coilList xcentre zcentre radius yperiod I phi) x z, fun _ _ _ => 1,
    fun x z phi => coilBz (coilList xcentre zcentre radius yperiod I phi) x z, none⟩

/-- `RotatingEllipse` (field.py:428-536). -/
noncomputable def rotatingEllipse (xcentre zcentre radius yperiod I Btor : ℝ) : FieldFns ℝ :=
  ⟨fun x z phi => coilBx (coilList xcentre zcentre radius yperiod I phi) x z, fun x _ _ => Btor / x,
    fun x z phi => coilBz (coilList xcentre zcentre radius yperiod I phi) x z, some fun x _ _ => x⟩

/-- `self.r` of `Screwpinch` (field.py:888). -/
noncomputable def pinchR (xcentre zcentre x z : ℝ) : ℝ := sqrt ((x - xcentre) ^ 2 + (z - zcentre) ^ 2)

/-- `A` of `Screwpinch` (field.py:894). -/
noncomputable def pinchA (xcentre zcentre alpha x z : ℝ) : ℝ := alpha * pinchR xcentre zcentre x z ^ 2

/-- `Screwpinch` (field.py:882-905). -/
noncomputable def screwpinch (xcentre zcentre alpha Btor : ℝ) : FieldFns ℝ :=
  ⟨fun x z _ => -alpha * pinchR xcentre zcentre x z * pinchR xcentre zcentre x z * sin (atan2R (z - zcentre) (x - xcentre)),
    fun x _ _ => Btor / x,
    fun x z _ => alpha * pinchR xcentre zcentre x z * pinchR xcentre zcentre x z * cos (atan2R (z - zcentre) (x - xcentre)),
    some fun x _ _ => x⟩

end Zoidberg
