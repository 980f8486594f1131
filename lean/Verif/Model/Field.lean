import Verif.Model.FieldTracer
import Mathlib.Algebra.Order.Ring.Abs

/-!
# Model of `MagneticField` and the slabs (`/repo/zoidberg/field.py:21-319`)

The functions of a field act on every point of the arrays on its own.
-/

namespace Zoidberg

/-- The functions of a field (field.py:58-122): the components at `(x, z, phi)` and the major radius, or none for Cartesian coordinates. -/
structure FieldFns (K : Type) where
  Bx : K → K → K → K
  By : K → K → K → K
  Bz : K → K → K → K
  R : Option (K → K → K → K)

variable {K : Type} [Field K] [LinearOrder K]

/-- `MagneticField` itself (field.py:58-122). -/
def baseField : FieldFns K := ⟨fun _ _ _ => 0, fun _ _ _ => 1, fun _ _ _ => 0, none⟩

/-- `Rmaj` (field.py:206-208). -/
def FieldFns.Rmaj (f : FieldFns K) (x z y : K) : K :=
  match f.R with
  | none => 1
  | some r => r x z y

/-- `MagneticField.Bmag` (field.py:140-162); `sqrt` is that of numpy. -/
def FieldFns.Bmag (sqrt : K → K) (f : FieldFns K) (x z phi : K) : K := sqrt (f.Bx x z phi ^ 2 + f.By x z phi ^ 2 + f.Bz x z phi ^ 2)

/-- `dxdphi` and `dzdphi` at one point (field.py:216-220). -/
def FieldFns.slope (f : FieldFns K) (y : K) (p : K × K) : K × K :=
  let R_By := f.Rmaj p.1 p.2 y / f.By p.1 p.2 y
  (R_By * f.Bx p.1 p.2 y, R_By * f.Bz p.1 p.2 y)

/-- The directions at a list of points (field.py:199-220). `np.amin` of nothing raises a `ValueError`. -/
def FieldFns.slopes (f : FieldFns K) (y : K) (pts : List (K × K)) : Except Err (List (K × K)) :=
  if pts = [] then .error (.value "zero-size array to reduction operation minimum which has no identity")
  else if pts.any fun p => decide (|f.By p.1 p.2 y| < 1 / 100000000) then .error (.value "Small By")
  else .ok (pts.map (f.slope y))

/-- `pos.reshape((-1, 2))` for an even number of values (field.py:193-195). -/
def pairsOf {α : Type} : List α → List (α × α)
  | a :: b :: l => (a, b) :: pairsOf l
  | _ => []

/-- `field_direction(pos, ycoord, flatten=True)` (field.py:164-227). -/
def FieldFns.directionFlat (f : FieldFns K) (pos : List K) (y : K) : Except Err (List K) :=
  if pos.length % 2 ≠ 0 then .error (.assertion "len(pos) % 2 == 0") else (f.slopes y (pairsOf pos)).map interleave

/-- `field_direction([x, z], ycoord)` (field.py:164-227) for `x` and `z` of the same shape, as lists. -/
def FieldFns.direction (f : FieldFns K) (x z : List K) (y : K) : Except Err (List K × List K) :=
  (f.slopes y (x.zip z)).map fun l => (l.map Prod.fst, l.map Prod.snd)

/-- `Slab` (field.py:230-268). -/
def slab (By Bz xcentre Bzprime : K) : FieldFns K :=
  ⟨fun _ _ _ => 0, fun _ _ _ => By, fun x _ _ => Bz + (x - xcentre) * Bzprime, none⟩

/-- `CurvedSlab` (field.py:271-319). -/
def curvedSlab (By Bz xcentre Bzprime Rmaj : K) : FieldFns K :=
  ⟨fun _ _ _ => 0, fun _ _ _ => By, fun x _ _ => Bz + (x - xcentre) * Bzprime, some fun _ _ _ => Rmaj⟩

end Zoidberg
