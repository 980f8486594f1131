import Verif.Spec.Weights

/-! # Specifications for `modify_maps` -/

namespace Zoidberg.Weights

variable {K : Type} [Field K] [LinearOrder K] [FloorRing K]

/-- A map dictionary as `make_maps(..., samplesize > 0)` produces it: all
sub-sample arrays and the maps of the cell centres (`cx`, `cz`). -/
structure Full (maps : MapDict K) (i : Input K) (cx cz : Bool → Cell → K) : Prop where
  shape : ∃ R, maps "R" = some (.arr3 i.nx i.ny i.nz R)
  mxg : maps "MXG" = some (.nat i.mxg)
  fx : maps "forward_xt_primes" = some (.arr4 i.nx i.ny i.nz i.n i.fx)
  fz : maps "forward_zt_primes" = some (.arr4 i.nx i.ny i.nz i.n i.fz)
  bx : maps "backward_xt_primes" = some (.arr4 i.nx i.ny i.nz i.n i.bx)
  bz : maps "backward_zt_primes" = some (.arr4 i.nx i.ny i.nz i.n i.bz)
  cfx : maps "forward_xt_prime" = some (.arr3 i.nx i.ny i.nz (cx true))
  cfz : maps "forward_zt_prime" = some (.arr3 i.nx i.ny i.nz (cz true))
  cbx : maps "backward_xt_prime" = some (.arr3 i.nx i.ny i.nz (cx false))
  cbz : maps "backward_zt_prime" = some (.arr3 i.nx i.ny i.nz (cz false))
  w : maps "subcell_weights" = some (.vec i.w)

/-- Key of the centre map of a direction. -/
def xtPrimeKey (fwd : Bool) : String := if fwd then "forward_xt_prime" else "backward_xt_prime"

/-- The variables BOUT++ reads, in the documented layout. -/
structure Exports (m : MapDict K) (o : Ops K) : Prop where
  total : m "total_cells" = some (.nat o.totalCells)
  cell : m "cell_number" = some (.iarr3 o.cellNumber)
  fcell : m "forward_cell_number" = some (.iarr3 o.forwardCell)
  bcell : m "backward_cell_number" = some (.iarr3 o.backwardCell)
  fn : m "n_forward_legs" = some (.nat o.forward.nLegs)
  fint : m "forward_leg_interior_number" = some (.iarr3 o.forward.legInterior)
  fbnd : m "forward_leg_boundary_number" = some (.iarr3 o.forward.legBoundary)
  flw : m "forward_leg_weights" = some (.vec o.forward.legWeights)
  fw : m "forward_weights" = some (.vec o.forward.op.weights)
  fc : m "forward_columns" = some (.ivec o.forward.op.columns)
  fr : m "forward_rows" = some (.ivec (o.forward.op.rows.map Int.ofNat))
  bn : m "n_backward_legs" = some (.nat o.backward.nLegs)
  bint : m "backward_leg_interior_number" = some (.iarr3 o.backward.legInterior)
  bbnd : m "backward_leg_boundary_number" = some (.iarr3 o.backward.legBoundary)
  blw : m "backward_leg_weights" = some (.vec o.backward.legWeights)
  bw : m "backward_weights" = some (.vec o.backward.op.weights)
  bc : m "backward_columns" = some (.ivec o.backward.op.columns)
  br : m "backward_rows" = some (.ivec (o.backward.op.rows.map Int.ofNat))

/-- The names in `Exports`. -/
def exportedNames : List String :=
  ["total_cells", "cell_number", "forward_cell_number", "backward_cell_number",
   "n_forward_legs", "forward_leg_interior_number", "forward_leg_boundary_number",
   "forward_leg_weights", "forward_weights", "forward_columns", "forward_rows",
   "n_backward_legs", "backward_leg_interior_number", "backward_leg_boundary_number",
   "backward_leg_weights", "backward_weights", "backward_columns", "backward_rows"]

/-- The sub-sample variables. -/
def subsampleNames : List String :=
  ["forward_xt_primes", "forward_zt_primes", "backward_xt_primes", "backward_zt_primes",
   "subcell_weights"]

end Zoidberg.Weights
