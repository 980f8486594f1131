import Verif.Model.Weights
import Mathlib.Algebra.BigOperators.Group.Finset.Basic

/-!
# Specifications for the parallel operators (`weights.py`)

These definitions only mention the inputs and the exported arrays, not the
helper functions of the model.
-/

namespace Zoidberg.Weights

variable {K : Type} [Field K] [LinearOrder K] [FloorRing K]

/-- The content of a map dictionary as far as `weights.py` uses it. -/
structure Input (K : Type) where
  nx : ℕ
  ny : ℕ
  nz : ℕ
  mxg : ℕ
  /-- number of sub-samples per cell -/
  n : ℕ
  /-- mapped X / Z index of sub-sample `s` of a cell, forward and backward -/
  fx : Cell → ℕ → K
  fz : Cell → ℕ → K
  bx : Cell → ℕ → K
  bz : Cell → ℕ → K
  /-- quadrature weights -/
  w : List K

/-- A coordinate array is stored with sub-samples, or, failing that, as a single
sample under the fallback name. -/
def StoresCoord (maps : MapDict K) (i : Input K) (key fallback : String) (f : Cell → ℕ → K) :
    Prop :=
  maps key = some (.arr4 i.nx i.ny i.nz i.n f) ∨
    (maps key = none ∧ i.n = 1 ∧
      ∃ g, maps fallback = some (.arr3 i.nx i.ny i.nz g) ∧ f = fun c _ => g c)

/-- The dictionary `maps` holds the input `i`. -/
structure Represents (maps : MapDict K) (i : Input K) : Prop where
  shape : ∃ R, maps "R" = some (.arr3 i.nx i.ny i.nz R)
  mxg : maps "MXG" = some (.nat i.mxg)
  fx : StoresCoord maps i "forward_xt_primes" "forward_xt_prime" i.fx
  fz : StoresCoord maps i "forward_zt_primes" "forward_zt_prime" i.fz
  bx : StoresCoord maps i "backward_xt_primes" "backward_xt_prime" i.bx
  bz : StoresCoord maps i "backward_zt_primes" "backward_zt_prime" i.bz
  w : maps "subcell_weights" = some (.vec i.w) ∨
    (maps "subcell_weights" = none ∧ i.n = 1 ∧ i.w = [1])

/-- A cell of the grid. -/
def Input.InGrid (i : Input K) (c : Cell) : Prop := c.1 < i.nx ∧ c.2.1 < i.ny ∧ c.2.2 < i.nz

/-- A cell of the evolving region: `mxg` points away from both ends in X. -/
def Input.Interior (i : Input K) (c : Cell) : Prop :=
  i.mxg ≤ c.1 ∧ c.1 + i.mxg < i.nx ∧ c.2.1 < i.ny ∧ c.2.2 < i.nz

/-- A mapped X index lies in the radial boundary. -/
def Input.Escapes (i : Input K) (x : K) : Prop :=
  x < (i.mxg : K) ∨ (i.nx : K) - (i.mxg : K) - 1 < x

instance (i : Input K) (x : K) : Decidable (i.Escapes x) :=
  inferInstanceAs (Decidable (_ ∨ _))

/-- The number of evolving cells. -/
def Input.nEvolving (i : Input K) : ℕ := (i.nx - 2 * i.mxg) * i.ny * i.nz

/-- Mapped coordinates in one direction (`true` = forward). -/
def Input.xs (i : Input K) (fwd : Bool) : Cell → ℕ → K := if fwd then i.fx else i.bx
/-- See `Input.xs`. -/
def Input.zs (i : Input K) (fwd : Bool) : Cell → ℕ → K := if fwd then i.fz else i.bz

/-- Some sub-sample of the cell leaves through the radial boundary. -/
def Input.SomeEscape (i : Input K) (fwd : Bool) (c : Cell) : Prop :=
  ∃ s < i.n, i.Escapes (i.xs fwd c s)

/-- Some sub-sample of the cell stays inside. -/
def Input.SomeStay (i : Input K) (fwd : Bool) (c : Cell) : Prop :=
  ∃ s < i.n, ¬ i.Escapes (i.xs fwd c s)

/-- Quadrature weights as the code accepts them, all positive. -/
structure Input.GoodWeights (i : Input K) : Prop where
  len : i.w.length = i.n
  sum : |i.w.sum - 1| < 1 / 10 ^ 8
  pos : ∀ v ∈ i.w, 0 < v

/-- Things that carry a global cell number: grid cells, and parallel boundary
cells behind an interior cell (`true` = forward). -/
inductive Owner where
  | cell (c : Cell)
  | bnd (fwd : Bool) (c : Cell)
  deriving DecidableEq

/-- The exported number of an owner. -/
def Ops.number (o : Ops K) : Owner → ℤ
  | .cell c => o.cellNumber c
  | .bnd true c => o.forwardCell c
  | .bnd false c => o.backwardCell c

/-- The grid cell of an owner. -/
def Owner.pos : Owner → Cell
  | .cell c => c
  | .bnd _ c => c

/-- Operators of one direction (`true` = forward). -/
def Ops.legs (o : Ops K) (fwd : Bool) : LegOps K := if fwd then o.forward else o.backward

/-- Exported leg row of a cell (`true` = boundary leg), `-1` if it has none. -/
def LegOps.number (l : LegOps K) : Bool × Cell → ℤ
  | (true, c) => l.legBoundary c
  | (false, c) => l.legInterior c

/-- Row `i` of a CSR matrix as documented in weights.py:35-44:
`(columns, weights)[rows[i]:rows[i+1]]`. -/
def CSR.row (m : CSR K) (i : ℕ) : List (ℤ × K) :=
  let a := m.rows.getD i 0
  let b := m.rows.getD (i + 1) 0
  ((m.columns.zip m.weights).drop a).take (b - a)

/-- Matrix row times vector. -/
def applyRow (row : List (ℤ × K)) (v : ℤ → K) : K := (row.map fun e => e.2 * v e.1).sum

/-- Catmull-Rom spline through `p0, p1, p2, p3` at fraction `u` between `p1` and
`p2`, in the textbook (Horner) form. -/
def catmullRomSpline (p : ℤ → K) (u : K) : K :=
  let p0 := p (-1)
  let p1 := p 0
  let p2 := p 1
  let p3 := p 2
  p1 + u / 2 * ((p2 - p0) + u * ((2 * p0 - 5 * p1 + 4 * p2 - p3)
    + u * (3 * (p1 - p2) + p3 - p0)))

/-- Clamp an X index to the evolving rows. -/
def Input.clampX (i : Input K) (x : ℤ) : ℕ :=
  (max (i.mxg : ℤ) (min x ((i.nx : ℤ) - i.mxg - 1))).toNat

/-- The plane a leg starting at plane `y` ends on. -/
def Input.plane (i : Input K) (fwd : Bool) (y : ℕ) : ℕ :=
  (((y : ℤ) + (if fwd then 1 else -1)) % (i.ny : ℤ)).toNat

/-- The interpolated value of a cell field `v` at mapped position `(x, z)` in
plane `y`: tensor product Catmull-Rom, the field continued constantly across the
edge of the evolving region in X, periodically in Z. -/
def Input.interp (i : Input K) (v : Cell → K) (y : ℕ) (x z : K) : K :=
  let xb := ⌊x⌋
  let zb := ⌊z⌋
  catmullRomSpline (fun ox =>
    catmullRomSpline (fun oz =>
      v (i.clampX (xb + ox), y, ((zb + oz) % (i.nz : ℤ)).toNat)) (z - (zb : K))) (x - (xb : K))

/-- Sub-samples of a cell that stay inside. -/
def Input.staying (i : Input K) (fwd : Bool) (c : Cell) : Finset ℕ :=
  (Finset.range i.n).filter fun s => ¬ i.Escapes (i.xs fwd c s)

/-- The documented action of an interior leg row on a field: the quadrature
average of the interpolated values over the sub-samples that stay inside. -/
def Input.legAverage (i : Input K) (fwd : Bool) (c : Cell) (v : Cell → K) : K :=
  (∑ s ∈ i.staying fwd c,
      i.w.getD s 0 * i.interp v (i.plane fwd c.2.1) (i.xs fwd c s) (i.zs fwd c s)) /
    ∑ s ∈ i.staying fwd c, i.w.getD s 0

end Zoidberg.Weights
