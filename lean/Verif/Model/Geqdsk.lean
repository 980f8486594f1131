import Verif.Model.Boundary
import Verif.Model.FieldMore

/-!
# Model of `GEQDSK.__init__` (`/repo/zoidberg/field.py:1222-1326`)

The splines of scipy are parameters.
-/

namespace Zoidberg

variable {K : Type} [Field K] [LinearOrder K]

/-- What is read from the file (field.py:1225-1226); `psi` is that of `np.transpose(data["psi"])`, of the shape `(nr, nz)` (field.py:1240-1241). -/
structure GFile (K : Type) where
  rleft : K
  rdim : K
  zmid : K
  zdim : K
  simagx : K
  sibdry : K
  nr : ℕ
  nz : ℕ
  psi : ℕ → ℕ → K
  fpol : List K
  pres : List K
  bdry : List (K × K)
  lim : List (K × K)

/-- `RectBivariateSpline(r, z, a)`, as a function of the orders of the derivatives and the position, and `InterpolatedUnivariateSpline(x, a)` on the range of `x`
(field.py:1259, 1281-1291). -/
structure GSplines (K : Type) where
  two : List K → List K → (ℕ → ℕ → K) → Except Err (ℕ → ℕ → K → K → K)
  one : List K → List K → Except Err (K → K)

/-- The attributes of a `GEQDSK` field.  `boundary` is `none` if it is the `NoBoundary` of the class (field.py:55). -/
structure GField (K : Type) where
  r : List K
  z : List K
  psi : ℕ → ℕ → K → K → K
  psinorm : ℕ → ℕ → K → K → K
  f : K → K
  p : K → K
  boundary : Option (PolyBoundary K)

/-- `self.r` (field.py:1229-1230, 1253). -/
def GFile.r (d : GFile K) : List K := linspaceClosed d.rleft (d.rdim + d.rleft) d.nr

/-- `self.z` (field.py:1233-1234, 1254). -/
def GFile.z (d : GFile K) : List K := linspaceClosed (d.zmid - 1 / 2 * d.zdim) (d.zmid + 1 / 2 * d.zdim) d.nz

/-- `self.psinorm` (field.py:1266, 1277-1279). -/
def GFile.psinorm (d : GFile K) (core : PolyBoundary K) (i j : ℕ) : K :=
  psinormNode d.simagx d.sibdry (d.psi i j) (core.outside (d.r.getD i 0) 0 (d.z.getD j 0))

/-- A spline of a profile (field.py:1286-1291): scipy raises a `ValueError` if the lengths differ. -/
def GFile.profile (d : GFile K) (s : GSplines K) (a : List K) : Except Err (K → K) :=
  if a.length ≠ d.nr then .error (.value "x and y should have a same length") else s.one (linspaceClosed 0 1 d.nr) a

/-- `GEQDSK.__init__` (field.py:1222-1298), for `psi_bndry` different from `psi_axis`. -/
def GFile.init (s : GSplines K) (d : GFile K) : Except Err (GField K) :=
  (s.two d.r d.z d.psi).bind fun psi =>
  (PolyBoundary.init d.bdry).bind fun core =>
  (s.two d.r d.z (d.psinorm core)).bind fun psinorm =>
  (d.profile s d.fpol).bind fun f =>
  (d.profile s d.pres).bind fun p =>
  (if d.lim = [] then .ok none else (PolyBoundary.init d.lim).map some).map fun b => ⟨d.r, d.z, psi, psinorm, f, p, b⟩

/-- `Byfunc` (field.py:1306-1314). -/
def GField.By (g : GField K) (x z : K) : K := clampSpline g.f (g.psinorm 0 0 x z) / x

/-- `Bxfunc` (field.py:1300-1301). -/
def GField.Bx (g : GField K) (x z : K) : K := -g.psi 0 1 x z / x

/-- `Bzfunc` (field.py:1303-1304). -/
def GField.Bz (g : GField K) (x z : K) : K := g.psi 1 0 x z / x

/-- `pressure` (field.py:1319-1326). -/
def GField.pressure (g : GField K) (x z : K) : K := geqdskPressure (g.psinorm 0 0) g.p x z

/-- `boundary.outside` of the field (boundary.py:9-22, 80-141). -/
def GField.outside (g : GField K) (x y z : K) : Bool := match g.boundary with
  | none => noBoundaryOutside x y z
  | some b => b.outside x y z

end Zoidberg
