import Verif.Model.Field
import Verif.Prelude.Numpy
import Mathlib.Analysis.SpecialFunctions.Trigonometric.Basic
import Mathlib.Analysis.Real.Sqrt

/-!
# Model of the fields from data: `VMEC`, `SmoothedMagneticField`, `GEQDSK`, `W7X_vacuum`, `W7X_vacuum_on_demand`, `W7X_VMEC`, `EMC3` and `FusionSCField`
(`/repo/zoidberg/field.py:908-1994`)

Interpolation by scipy and the web services are parameters.
-/

namespace Zoidberg

/-! ## `VMEC` -/

section
variable {K : Type} [Field K]

/-- `__rolling_average` (field.py:926-931) for one row, that is one mode on all surfaces.  With fewer than three surfaces `field[:, 2]` does not exist.
The first value is assigned first, the last one last. -/
def rollingAverage (f : List K) : Except Err (List K) :=
  if f.length < 3 then .error (.index "index 2 is out of bounds for axis 1")
  else .ok ((List.range f.length).map fun i =>
    if i + 1 = f.length then 2 * f.getD (f.length - 2) 0 - f.getD (f.length - 3) 0
    else if 2 ≤ i ∧ i + 2 < f.length then 1 / 2 * (f.getD i 0 + f.getD (i + 1) 0)
    else if i = 0 then f.getD 1 0 - 1 / 2 * f.getD 2 0
    else 0)

end

open Real

/-- One mode of a surface (field.py:985-1010): the mode numbers `xm`, `xn` and the coefficients on one surface; those of
the asymmetric part are only there if `iasym` is set.  `bu` and `bv` are the averaged `bsupumnc` and `bsupvmnc`. -/
structure VMode where
  m : ℝ
  n : ℝ
  rmnc : ℝ
  zmns : ℝ
  rmns : ℝ
  zmnc : ℝ
  bu : ℝ
  bv : ℝ

/-- `cfunct` (field.py:933-955) for one surface, at one pair of angles: `c` gives the coefficient of each mode.  The sums are those of `np.dot`. -/
noncomputable def cfunct (ms : List VMode) (c : VMode → ℝ) (theta zeta : ℝ) : ℝ :=
  (ms.map fun k => c k * cos (k.m * theta) * cos (k.n * zeta)).sum - (ms.map fun k => c k * sin (k.m * theta) * sin (k.n * zeta)).sum

/-- `sfunct` (field.py:957-979). -/
noncomputable def sfunct (ms : List VMode) (c : VMode → ℝ) (theta zeta : ℝ) : ℝ :=
  (ms.map fun k => c k * sin (k.m * theta) * cos (k.n * zeta)).sum + (ms.map fun k => c k * cos (k.m * theta) * sin (k.n * zeta)).sum

/-- What `read_vmec_file` makes for one surface and one pair of angles (field.py:1024-1046). -/
structure VPoint where
  r : ℝ
  z : ℝ
  br : ℝ
  bphi : ℝ
  bz : ℝ

/-- `read_vmec_file` (field.py:981-1046). -/
noncomputable def readVmec (ms : List VMode) (iasym : Bool) (theta zeta : ℝ) : VPoint :=
  let r := cfunct ms (·.rmnc) theta zeta
  let z := sfunct ms (·.zmns) theta zeta
  let bu := cfunct ms (·.bu) theta zeta
  let bv := cfunct ms (·.bv) theta zeta
  let drdu := sfunct ms (fun k => -k.rmnc * k.m) theta zeta
  let drdv := sfunct ms (fun k => -k.rmnc * k.n) theta zeta
  let dzdu := cfunct ms (fun k => k.zmns * k.m) theta zeta
  let dzdv := cfunct ms (fun k => k.zmns * k.n) theta zeta
  let r := if iasym then r + sfunct ms (·.rmnc) theta zeta else r
  let drdu := if iasym then drdu + cfunct ms (fun k => -k.rmns * k.m) theta zeta else drdu
  let drdv := if iasym then drdv + cfunct ms (fun k => -k.rmns * k.n) theta zeta else drdv
  let z := if iasym then z + cfunct ms (·.zmnc) theta zeta else z
  let dzdu := if iasym then dzdu + sfunct ms (fun k => k.zmnc * k.m) theta zeta else dzdu
  let dzdv := if iasym then dzdv + sfunct ms (fun k => k.zmnc * k.n) theta zeta else dzdv
  ⟨r, z, bu * drdu + bv * drdv, r * bv, bu * dzdu + bv * dzdv⟩

/-- `Bxfunc`, `Byfunc`, `Bzfunc` and `Rfunc` of `VMEC` (field.py:1107-1123), `W7X_vacuum` (field.py:1661-1676) and `W7X_VMEC` (field.py:1886-1901), where
the three functions are the interpolators, as functions of `x`, `z` and the angle. -/
noncomputable def interpField (br bphi bz : ℝ → ℝ → ℝ → ℝ) : FieldFns ℝ :=
  ⟨fun x z phi => br x z (npRem phi (2 * π)), fun x z phi => bphi x z (npRem phi (2 * π)), fun x z phi => bz x z (npRem phi (2 * π)), some fun x _ _ => x⟩

/-! ## `SmoothedMagneticField` -/

section
variable {K : Type} [Field K] [LinearOrder K]

/-- The limits that `smooth_field_line` reads (field.py:1179-1182). -/
structure Limits (K : Type) where
  xl_inner : K
  xl_outer : K
  xr_inner : K
  xr_outer : K
  zt_inner : K
  zt_outer : K
  zb_inner : K
  zb_outer : K

/-- `smooth_field_line` (field.py:1173-1207) with the limits in place, for differences that are not zero. -/
def Limits.smooth (l : Limits K) (xa za : K) : K :=
  let x_left := (xa - l.xl_inner) / (l.xl_inner - l.xl_outer) + 1
  let x_right := (xa - l.xr_inner) / (l.xr_inner - l.xr_outer) + 1
  let z_top := (za - l.zt_inner) / (l.zt_inner - l.zt_outer) + 1
  let z_bottom := (za - l.zb_inner) / (l.zb_inner - l.zb_outer) + 1
  let P :=
    if xa < l.xl_inner then
      if za < l.zb_inner then min x_left z_bottom
      else if za ≥ l.zt_inner then min x_left z_top
      else x_left
    else if xa ≥ l.xr_inner then
      if za < l.zb_inner then min x_right z_bottom
      else if za ≥ l.zt_inner then min x_right z_top
      else x_right
    else if za < l.zb_inner then z_bottom
    else if za > l.zt_inner then z_top
    else 1
  if P < 0 then 0 else P

/-- Reading attributes one after the other (field.py:1179-1182). -/
def readAttrs (attrs : Dict K) : List String → Except Err (List K)
  | [] => .ok []
  | n :: ns => match attrs n with
    | none => .error (.attribute n)
    | some v => (readAttrs attrs ns).map (v :: ·)

/-- `smooth_field_line` (field.py:1173-1207) of an object with these numbers as attributes. -/
def smoothFieldLine (attrs : Dict K) (xa za : K) : Except Err K :=
  (readAttrs attrs ["xl_inner", "xl_outer", "xr_inner", "xr_outer", "zt_inner", "zt_outer", "zb_inner", "zb_outer"]).map fun v =>
    (Limits.mk (v.getD 0 0) (v.getD 1 0) (v.getD 2 0) (v.getD 3 0) (v.getD 4 0) (v.getD 5 0) (v.getD 6 0) (v.getD 7 0)).smooth xa za

/-- The attributes that `SmoothedMagneticField.__init__` sets (field.py:1143-1149), of those that are numbers. -/
def smoothedAttrs (xboundary zboundary : Option K) : Dict K := fun n =>
  if n = "xboundary" then xboundary else if n = "zboundary" then zboundary else none

end

/-! ## `GEQDSK` -/

/-- `Bxfunc`, `Byfunc`, `Bzfunc`, `Rfunc` of `GEQDSK` (field.py:1300-1317): `psiR` and `psiZ` are the derivatives of the spline of psi,
`psinorm` and `fpol` are the splines of the normalised psi and of `f`. -/
noncomputable def geqdskField (psiR psiZ psinorm : ℝ → ℝ → ℝ) (fpol : ℝ → ℝ) : FieldFns ℝ :=
  ⟨fun x z _ => -psiZ x z / x, fun x z _ => fpol (psinorm x z) / x, fun x z _ => psiR x z / x, some fun x _ _ => x⟩

/-- `self.psinorm` (field.py:1266, 1277-1279) at one node, for `psi_bndry` different from `psi_axis`. -/
def psinormNode {K : Type} [Field K] (axis bndry psi : K) (outside : Bool) : K := if outside then 1 else (psi - axis) / (bndry - axis)

/-- What is constructed: a field which uses the dictionary of the class (field.py:56), a `GEQDSK` field with its psi (field.py:1262),
or a field with a dictionary of its own (field.py:1783, 1963). -/
inductive FieldNew (V : Type) where
  | plain
  | geqdsk (psi : V)
  | own

/-- The dictionary of the class, and that of each field that has one of its own (field.py:56, 1783, 1963). -/
structure FieldHeap (V : Type) where
  shared : Dict V
  fields : List (Option (Dict V))

/-- The construction of one field (field.py:56, 1262, 1783, 1963). -/
def FieldHeap.construct {V : Type} (h : FieldHeap V) : FieldNew V → FieldHeap V
  | .plain => ⟨h.shared, h.fields ++ [none]⟩
  | .geqdsk psi => ⟨h.shared.set "psi" psi, h.fields ++ [none]⟩
  | .own => ⟨h.shared, h.fields ++ [some fun _ => none]⟩

/-- `fields[i].attributes` (zoidberg.py:621-625). -/
def FieldHeap.attributes {V : Type} (h : FieldHeap V) (i : ℕ) : Dict V :=
  match h.fields.getD i none with
  | none => h.shared
  | some d => d

/-! ## `W7X_vacuum` -/

/-- The arguments on which the field on the grid depends (field.py:1410, 1432-1462): the configuration, the numbers of points and the
limits of the three coordinates. -/
structure W7Args (K : Type) where
  configuration : ℤ
  nx : ℕ
  ny : ℕ
  nz : ℕ
  r : K × K
  phi : K × K
  z : K × K

/-- The part of the file names without the configuration (field.py:1437-1462); `fmt` is `"{:.2f}".format`. -/
def W7Args.stem {K : Type} (fmt : K → String) (a : W7Args K) : String :=
  toString a.nx ++ "." ++ toString a.ny ++ "." ++ toString a.nz ++ "." ++ fmt a.r.1 ++ "-" ++ fmt a.r.2 ++ "." ++
    fmt a.phi.1 ++ "-" ++ fmt a.phi.2 ++ "." ++ fmt a.z.1 ++ "-" ++ fmt a.z.2

/-- Rounding to the nearest integer, to the even one of two (the rounding of `{:.2f}`, field.py:1438). -/
def nearestEven (q : ℚ) : ℤ :=
  if q - ⌊q⌋ < 1 / 2 then ⌊q⌋ else if 1 / 2 < q - ⌊q⌋ then ⌊q⌋ + 1 else if ⌊q⌋ % 2 = 0 then ⌊q⌋ else ⌊q⌋ + 1

/-- `"{:.2f}".format(v)` (field.py:1438, 1451) for a finite number other than minus zero. -/
def fixed2 (v : ℚ) : String :=
  let n := (nearestEven (100 * |v|)).toNat
  (if v < 0 then "-" else "") ++ toString (n / 100) ++ "." ++ toString (n / 10 % 10) ++ toString (n % 10)

/-- `fname_old` (field.py:1437-1449). -/
def W7Args.fnameOld {K : Type} (fmt : K → String) (a : W7Args K) : String := "B.w7x." ++ a.stem fmt ++ ".dat"

/-- `fname` (field.py:1451-1462). -/
def W7Args.fname {K : Type} (fmt : K → String) (a : W7Args K) : String := "B.w7x." ++ toString a.configuration ++ "." ++ a.stem fmt ++ ".nc"

/-- `W7X_vacuum.field_values` (field.py:1410-1538) without the plot: the files afterwards and the result.  `compute` is the field from the web service. -/
def fieldValues {K B : Type} (fmt : K → String) (compute : W7Args K → Except Err B) (files : Dict B) (a : W7Args K) : Dict B × Except Err B :=
  match files (a.fname fmt), files (a.fnameOld fmt) with
  | some b, _ => (files, .ok b)
  | none, some b => (files.set (a.fname fmt) b, .ok b)
  | none, none => match compute a with
    | .ok b => (files.set (a.fname fmt) b, .ok b)
    | .error e => (files, .error e)

/-- A history of calls, and the result of each (field.py:1410-1538). -/
def fieldValuesCalls {K B : Type} (fmt : K → String) (compute : W7Args K → Except Err B) : Dict B → List (W7Args K) → List (Except Err B)
  | _, [] => []
  | files, a :: l => (fieldValues fmt compute files a).2 :: fieldValuesCalls fmt compute (fieldValues fmt compute files a).1 l

/-- The loop of `_calc_chunk` (field.py:1704-1724): attempt `n` is made as long as `redo` is positive. -/
def calcChunk {α : Type} (attempt : ℕ → Except Err α) : ℕ → ℕ → Except Err α
  | 0, _ => .error (.runtime "res is not defined")
  | redo + 1, n => match attempt n with
    | .ok a => .ok a
    | .error e => if redo = 0 then .error e else calcChunk attempt redo (n + 1)

/-- The values of `z` with the default arguments of `W7X_vacuum` (field.py:1339, 1363) and `W7X_VMEC` (field.py:1822, 1832): the ends of `(-1.35, 1, 35)`. -/
def defaultZ {K : Type} [Field K] (nz : ℕ) : List K :=
  let z_range : List K := [-135 / 100, 1, 35]
  linspaceClosed (z_range.getD 0 0) (z_range.getD (z_range.length - 1) 0) nz

/-- A configuration: an integer or a string (field.py:1728-1737). -/
inductive W7Conf where
  | int (n : ℤ)
  | str (s : String)

/-- What `_set_config` sets (field.py:1731, 1774-1775). -/
inductive W7Set where
  | configIds (n : ℤ)
  | coils (ids : List ℤ) (currents : List ℤ)
  deriving DecidableEq

/-- `coils` (field.py:1740-1750). -/
def w7coils : List ℤ :=
  [160, 165, 170, 175, 180, 185, 190, 195, 200, 205] ++ [161, 166, 171, 176, 181, 186, 191, 196, 201, 206] ++
  [162, 167, 172, 177, 182, 187, 192, 197, 202, 207] ++ [163, 168, 173, 178, 183, 188, 193, 198, 203, 208] ++
  [164, 169, 174, 179, 184, 189, 194, 199, 204, 209] ++ [210, 212, 214, 216, 218, 220, 222, 224, 226, 228] ++
  [211, 213, 215, 217, 219, 221, 223, 225, 227, 229] ++ [230, 231, 232, 233, 234, 235, 236, 237, 238, 239] ++
  [350, 241, 351, 352, 353]

/-- `known` (field.py:1733-1736). -/
def w7known : W7Conf → Option (List ℤ)
  | .int (-1) => some [1, 1, 1, 1, 1, 1, 1]
  | .str "FMM002" => some [13423, 13423, 13423, 13423, 13423, -3544, -3544]
  | _ => none

/-- `_set_config` (field.py:1728-1776).  All known currents are seven numbers. -/
def setConfig (c : W7Conf) : Except Err W7Set :=
  let rest := match w7known c with
    | none => Except.error (.key "configuration")
    | some cur =>
      let currents := List.zipWith (· * ·) (List.replicate 5 108 ++ List.replicate 2 36) cur
      let currents := if currents.length = 7 then currents.flatMap fun x => List.replicate 10 x else currents
      Except.ok (W7Set.coils (if currents.length = 70 then w7coils.take 70 else w7coils) currents)
  match c with
  | .int n => if 0 ≤ n then .ok (.configIds n) else rest
  | .str _ => rest

/-! ## `W7X_vacuum_on_demand`, `FusionSCField` -/

/-- `Bxfunc`, `Byfunc`, `Bzfunc`, `Rfunc` of `W7X_vacuum_on_demand` and `FusionSCField` (field.py:1679-1683, 1785-1812, 1960-1994), where `B` is the field in
Cartesian coordinates.  `Bxyzfunc` gives the same values. -/
noncomputable def cartesianField (B : ℝ → ℝ → ℝ → ℝ × ℝ × ℝ) : FieldFns ℝ :=
  let getB := fun x z phi => B (x * cos phi) (x * sin phi) z
  ⟨fun x z phi => (getB x z phi).1 * cos phi + (getB x z phi).2.1 * sin phi,
    fun x z phi => -(getB x z phi).1 * sin phi + (getB x z phi).2.1 * cos phi,
    fun x z phi => (getB x z phi).2.2, some fun x _ _ => x⟩

/-- `Bmag` of these fields (field.py:1788-1789, 1968-1969). -/
noncomputable def cartesianBmag (B : ℝ → ℝ → ℝ → ℝ × ℝ × ℝ) (x z phi : ℝ) : ℝ :=
  let b := B (x * cos phi) (x * sin phi) z
  sqrt (b.1 ^ 2 + b.2.1 ^ 2 + b.2.2 ^ 2)

/-! ## `EMC3.Bmag` -/

section
variable {K : Type} [Field K]

/-- `si` (field.py:1941-1944). -/
def arcLength (sqrt : K → K) (p : List (K × K)) : List K :=
  (List.range p.length).map fun i => ((List.range i).map fun j =>
    sqrt (((p.getD (j + 1) (0, 0)).1 - (p.getD j (0, 0)).1) ^ 2 + ((p.getD (j + 1) (0, 0)).2 - (p.getD j (0, 0)).2) ^ 2)).sum

/-- The filling of one column (field.py:1930-1946); nan is `none`.  `spline` is `CubicSpline`, which may raise an exception. -/
def fillNans (sqrt : K → K) (spline : List K → List K → Except Err (K → K)) (p : List (K × K)) (v : List (Option K)) : Except Err (List (Option K)) :=
  if v.all Option.isSome then .ok v
  else
    let sv := (arcLength sqrt p).zip v
    (spline (sv.filterMap fun q => q.2.map fun _ => q.1) (sv.filterMap fun q => q.2)).map fun f => sv.map fun q => some (q.2.getD (f q.1))

end

end Zoidberg
