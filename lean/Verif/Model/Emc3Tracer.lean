import Verif.Model.FieldTracer
import Verif.Prelude.Basic

/-!
# Model of `EMC3FieldTracer` (`/repo/zoidberg/fieldtracer.py:714-926`)

Points are pairs.  `find_cell` of eudist and the least squares of scipy are parameters.
-/

namespace Zoidberg

variable {K : Type} [Field K] [LinearOrder K]

/-- A mesh (fieldtracer.py:716-729): `nr` times `nz` nodes, and the number of its zone. -/
structure PMesh (K : Type) where
  nr : ℕ
  nz : ℕ
  node : ℕ → ℕ → K × K
  zid : ℕ

/-- `A`, `a`, `b` and `c` of a cell (fieldtracer.py:811-814, 847-850). -/
structure Bilinear (K : Type) where
  A : K × K
  a : K × K
  b : K × K
  c : K × K

/-- The cell with the corners `(i, j)` and `(i + 1, j + 1)` (fieldtracer.py:811-814, 847-850). -/
def PMesh.cell (m : PMesh K) (i j : ℕ) : Bilinear K :=
  let A := m.node i j
  let a := ((m.node i (j + 1)).1 - A.1, (m.node i (j + 1)).2 - A.2)
  let b := ((m.node (i + 1) j).1 - A.1, (m.node (i + 1) j).2 - A.2)
  ⟨A, a, b, ((m.node (i + 1) (j + 1)).1 - A.1 - a.1 - b.1, (m.node (i + 1) (j + 1)).2 - A.2 - a.2 - b.2)⟩

/-- `A + al * a + be * b + al * be * c` (fieldtracer.py:852). -/
def Bilinear.at (q : Bilinear K) (ab : K × K) : K × K :=
  (q.A.1 + ab.1 * q.a.1 + ab.2 * q.b.1 + ab.1 * ab.2 * q.c.1, q.A.2 + ab.1 * q.a.2 + ab.2 * q.b.2 + ab.1 * ab.2 * q.c.2)

/-- `_ab_to_rz` (fieldtracer.py:843-852); meshes with a single column of nodes are refused. -/
def abToRz (m : PMesh K) (ab : K × K) (ij : ℕ) : Except Err (K × K) :=
  let n := m.nz - 1
  if n = 0 ∨ m.nr ≤ ij / n + 1 then .error (.index "index out of range") else .ok ((m.cell (ij / n) (ij % n)).at ab)

/-- `fun` (fieldtracer.py:815-819): `rz0` is `rz - A`. -/
def Bilinear.res (q : Bilinear K) (rz ab : K × K) : K × K :=
  ((rz.1 - q.A.1) - q.a.1 * ab.1 - q.b.1 * ab.2 - q.c.1 * ab.1 * ab.2,
   (rz.2 - q.A.2) - q.a.2 * ab.1 - q.b.2 * ab.2 - q.c.2 * ab.1 * ab.2)

/-- `albe - np.linalg.inv(J(albe).T) @ fun(albe)` (fieldtracer.py:821-823, 830); a singular matrix raises a `LinAlgError`. -/
def Bilinear.newton (q : Bilinear K) (rz ab : K × K) : Except Err (K × K) :=
  let j11 := -q.a.1 - q.c.1 * ab.2
  let j21 := -q.a.2 - q.c.2 * ab.2
  let j12 := -q.b.1 - q.c.1 * ab.1
  let j22 := -q.b.2 - q.c.2 * ab.1
  let det := j11 * j22 - j12 * j21
  if det = 0 then .error (.value "Singular matrix")
  else
    let f := q.res rz ab
    .ok (ab.1 - (j22 / det * f.1 + -j12 / det * f.2), ab.2 - (-j21 / det * f.1 + j11 / det * f.2))

/-- The loop (fieldtracer.py:825-833). `none` if it comes to its end. -/
def Bilinear.solve (q : Bilinear K) (tol : K) (rz : K × K) : ℕ → K × K → Except Err (Option (K × K))
  | 0, _ => .ok none
  | n + 1, ab => (q.newton rz ab).bind fun ab' =>
    if (q.res rz ab').1 ^ 2 + (q.res rz ab').2 ^ 2 < tol then .ok (some ab') else q.solve tol rz n ab'

/-- `_rz_to_ab` (fieldtracer.py:790-841); `lsq` is `sopt.least_squares`. -/
def rzToAbCell (lsq : Bilinear K → K × K → K × K) (m : PMesh K) (rz : K × K) (ij : ℕ) : Except Err (K × K) :=
  let n := m.nz - 1
  if n = 0 ∨ m.nr ≤ ij / n + 1 then .error (.assertion "shape")
  else
    let q := m.cell (ij / n) (ij % n)
    (q.solve (1 / 10 ^ 13) rz 100 (1 / 2, 1 / 2)).map fun r => r.getD (lsq q rz)

/-- The first part of `rz_to_ab` (fieldtracer.py:855-858): `find_cell` for each mesh with the last cell as a hint. -/
def searchCells (find : PMesh K → K × K → ℤ → ℤ) (rz : K × K) : List (PMesh K) → ℤ → Option (PMesh K × ℕ)
  | [], _ => none
  | m :: ms, ij =>
    let ij' := find m rz ij
    if 0 ≤ ij' then some (m, ij'.toNat) else searchCells find rz ms ij'

/-- `np.argmin`: the first index of a smallest value (fieldtracer.py:864). -/
def argMin (l : List K) : ℕ := l.idxOf (l.foldl min (l.headD 0))

/-- The squares of the distances to the nodes, flattened (fieldtracer.py:863). -/
def PMesh.dists (m : PMesh K) (rz : K × K) : List K :=
  (List.range (m.nr * m.nz)).map fun k : ℕ => (rz.1 - (m.node (k / m.nz) (k % m.nz)).1) ^ 2 + (rz.2 - (m.node (k / m.nz) (k % m.nz)).2) ^ 2

/-- The number of the cell for a node (fieldtracer.py:866-868). -/
def nodeCell (m : PMesh K) (ij : ℕ) : ℕ := if (m.nr - 1) * m.nz ≤ ij then ij - m.nz else ij

/-- The nearest node, if it is close enough (fieldtracer.py:862-869). -/
def nearNode (rz : K × K) (mind : K) : List (PMesh K) → Option (PMesh K × ℕ)
  | [] => none
  | m :: ms =>
    let l2 := m.dists rz
    if l2.getD (argMin l2) 0 < mind then some (m, nodeCell m (argMin l2)) else nearNode rz mind ms

/-- `rz_to_ab` (fieldtracer.py:854-881): the coordinates in the cell, the cell and the zone. -/
def rzToAb (find : PMesh K → K × K → ℤ → ℤ) (lsq : Bilinear K → K × K → K × K) (rz : K × K) (meshes : List (PMesh K)) (ij : ℤ) (zid : ℕ) :
    Except Err ((K × K) × ℕ × ℕ) :=
  let ms := meshes.drop zid ++ meshes.take zid
  match (searchCells find rz ms ij) <|> (nearNode rz ((1 / 1000) ^ 2) ms) <|> (nearNode rz ((1 / 100) ^ 2) ms) <|> (nearNode rz (1 ^ 2) ms) with
  | some (m, c) => (rzToAbCell lsq m rz c).map fun ab => (ab, c, m.zid)
  | none => .error (.runtime "We left the domain")

/-- `while phi < pmin` (fieldtracer.py:912-914). -/
def raisePhi (pmin delta : K) : ℕ → K → ℤ → Except Err (K × ℤ)
  | 0, _, _ => .error (.runtime "does not end")
  | n + 1, phi, per => if phi < pmin then raisePhi pmin delta n (phi + delta) (per + 1) else .ok (phi, per)

/-- `while phi > pmax` (fieldtracer.py:915-917). -/
def lowerPhi (pmax delta : K) : ℕ → K → ℤ → Except Err (K × ℤ)
  | 0, _, _ => .error (.runtime "does not end")
  | n + 1, phi, per => if phi > pmax then lowerPhi pmax delta n (phi - delta) (per - 1) else .ok (phi, per)

/-- The angle and the number of periods of `makeMesh` (fieldtracer.py:905-926), with at most `fuel` passes in each loop. -/
def meshAngle (pmin pmax : K) (fuel : ℕ) (phi : K) : Except Err (K × ℤ) :=
  if ¬ (pmin < phi ∧ phi < pmax) then
    (raisePhi pmin (pmax - pmin) fuel phi 0).bind fun r => lowerPhi pmax (pmax - pmin) fuel r.1 r.2
  else .ok (phi, 0)

/-- The meshes of one value of `y`, and `perBC` of each zone (fieldtracer.py:888-889, 925). -/
structure Plane (K : Type) where
  meshes : List (PMesh K)
  perBC : ℕ → ℤ

/-- Where a line is: coordinates in the cell, cell and zone (fieldtracer.py:770, 782-786). -/
abbrev Spot (K : Type) := (K × K) × ℕ × ℕ

/-- `self._ab_to_rz(ab, meshes[zid].grid, ij)` for a list of meshes (fieldtracer.py:781, 787). -/
def spotToRz (ms : List (PMesh K)) (s : Spot K) : Except Err (K × K) :=
  match ms[s.2.2]? with
  | none => .error (.index "index out of range")
  | some m => abToRz m s.1 s.2.1

/-- The passes over the end of the period (fieldtracer.py:779-784): `src` and `dst` are `firstlast[last]` and `firstlast[first]`. -/
def crossPeriods (locate : K × K → List (PMesh K) → ℤ → ℕ → Except Err (Spot K)) (src dst : List (PMesh K)) : ℕ → Spot K → Except Err (Spot K)
  | 0, s => .ok s
  | n + 1, s => (spotToRz src s).bind fun rz1 => (locate rz1 dst s.2.1 s.2.2).bind fun s' => crossPeriods locate src dst n s'

/-- The loop over the planes for one line (fieldtracer.py:774-787): `start` is `(ab, ij, zid)` of the first plane. `cur` is
`(ab, ij1, zid1)`.  What the passes over the end of the period give is replaced at once. -/
def emc3Planes (locate : K × K → List (PMesh K) → ℤ → ℕ → Except Err (Spot K)) (firstlast : List (PMesh K) × List (PMesh K)) (p0 : Plane K)
    (rz : K × K) (start : Spot K) : List (Plane K) → Spot K → List (ℤ × Spot K) → Except Err (List (K × K))
  | [], _, _ => .ok []
  | p :: ps, cur, cache =>
    let per := p.perBC start.2.2 - p0.perBC start.2.2
    (match cache.lookup per with
      | some s => Except.ok (s, cache)
      | none =>
        let sd := if per > 0 then (firstlast.2, firstlast.1) else (firstlast.1, firstlast.2)
        (crossPeriods locate sd.1 sd.2 per.natAbs cur).bind fun _ =>
          (locate rz p0.meshes start.2.1 start.2.2).map fun s => (s, (per, s) :: cache)).bind fun sc =>
      (spotToRz p.meshes sc.1).bind fun out => (emc3Planes locate firstlast p0 rz start ps sc.1 sc.2).map (out :: ·)

/-- One line (fieldtracer.py:769-787): the positions, and the place of the start, which is the hint for the next line. -/
def emc3Line (locate : K × K → List (PMesh K) → ℤ → ℕ → Except Err (Spot K)) (firstlast : List (PMesh K) × List (PMesh K)) (p0 : Plane K)
    (ps : List (Plane K)) (rz : K × K) (ij : ℤ) (zid : ℕ) : Except Err (List (K × K) × Spot K) :=
  (locate rz p0.meshes ij zid).bind fun s =>
    (emc3Planes locate firstlast p0 rz s ps s [(0, s)]).map fun out => (rz :: out, s)

/-- The lines one after the other (fieldtracer.py:766-787). -/
def emc3Lines (locate : K × K → List (PMesh K) → ℤ → ℕ → Except Err (Spot K)) (firstlast : List (PMesh K) × List (PMesh K)) (p0 : Plane K)
    (ps : List (Plane K)) : List (K × K) → ℤ → ℕ → Except Err (List (List (K × K)))
  | [], _, _ => .ok []
  | rz :: l, ij, zid => (emc3Line locate firstlast p0 ps rz ij zid).bind fun r => (emc3Lines locate firstlast p0 ps l r.2.2.1 r.2.2.2).map (r.1 :: ·)

/-- `EMC3FieldTracer.follow_field_lines` (fieldtracer.py:762-788): for every point the positions on the planes.  A
scalar is refused, because `(0, *None)` raises a `TypeError`.  Without any `y` the first access raises an `IndexError`. -/
def emc3Follow (locate : K × K → List (PMesh K) → ℤ → ℕ → Except Err (Spot K)) (firstlast : List (PMesh K) × List (PMesh K))
    (planes : List (Plane K)) (x z : FArr K) : Except Err (List (List (K × K))) :=
  if x.shape ≠ z.shape then .error (.assertion "shape")
  else if x.data = [] then .ok []
  else match planes with
    | [] => .error (.index "index out of range")
    | p0 :: ps =>
      if x.shape = [] then .error (.type "Value after * must be an iterable, not NoneType")
      else emc3Lines locate firstlast p0 ps (x.data.zip z.data) (-1) 0

end Zoidberg
