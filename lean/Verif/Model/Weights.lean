import Verif.Prelude.Basic

/-!
# Model of `/repo/zoidberg/weights.py`

Floats are exact elements of an ordered field `K`.  Three dimensional arrays
are functions of the index triple; that all arrays in `maps` have the shape of
`maps["R"]` is implicit (numpy would raise `IndexError` if they were smaller).
-/

namespace Zoidberg.Weights

open Zoidberg

variable {K : Type} [Field K] [LinearOrder K] [FloorRing K]

/-- The two constant dictionaries `FORWARD_DIRECTION` and `BACKWARD_DIRECTION`
(weights.py:51-69). -/
structure Direction where
  name : String
  xtKey : String
  xtFallback : String
  ztKey : String
  ztFallback : String
  /-- `boundary_number_key == "forward_boundary_number"`; the key selects one
  of two arrays of the cell space. -/
  forwardBoundary : Bool
  yOffset : ℤ

/-- weights.py:51-59. -/
def forwardDirection : Direction where
  name := "forward"
  xtKey := "forward_xt_primes"
  xtFallback := "forward_xt_prime"
  ztKey := "forward_zt_primes"
  ztFallback := "forward_zt_prime"
  forwardBoundary := true
  yOffset := 1

/-- weights.py:61-69. -/
def backwardDirection : Direction where
  name := "backward"
  xtKey := "backward_xt_primes"
  xtFallback := "backward_xt_prime"
  ztKey := "backward_zt_primes"
  ztFallback := "backward_zt_prime"
  forwardBoundary := false
  yOffset := -1

/-- Values stored in the `maps` dictionary (zoidberg.py:152-170, 402-407 and
weights.py:570-594).  `arr3` has shape `(nx, ny, nz)`, `arr4` has shape
`(nx, ny, nz, n)` with `n` sub-samples. -/
inductive Val (K : Type) where
  | nat (n : ℕ)
  | arr3 (nx ny nz : ℕ) (f : Cell → K)
  | arr4 (nx ny nz n : ℕ) (f : Cell → ℕ → K)
  | vec (l : List K)
  | iarr3 (f : Cell → ℤ)
  | ivec (l : List ℤ)

/-- The field-line map dictionary (weights.py:72-83). -/
abbrev MapDict (K : Type) := Dict (Val K)

/-- `maps["R"].shape` (weights.py:178). -/
def shapeR (maps : MapDict K) : Except Err (ℕ × ℕ × ℕ) := do
  match (← maps.get "R") with
  | .arr3 nx ny nz _ => .ok (nx, ny, nz)
  | _ => .error (.value "R must be three dimensional")

/-- `maps["MXG"]` (weights.py:179, 333, 494).  Negative values are not
modelled. -/
def getMXG (maps : MapDict K) : Except Err ℕ := do
  match (← maps.get "MXG") with
  | .nat n => .ok n
  | _ => .error (.type "MXG")

/-- `_get_map_array` (weights.py:72-83), for the calls with a fallback key. -/
def getMapArray (maps : MapDict K) (primary fallback : String) : Except Err (Val K) :=
  match maps primary with
  | some v => .ok v
  | none =>
    match maps fallback with
    | some v => .ok v
    | none => .error (.key primary)

/-- A mapped coordinate array: number of sub-samples and entries (weights.py:86-95). -/
structure SubArr (K : Type) where
  n : ℕ
  f : Cell → ℕ → K

/-- `arr[x, y, z, :]` (weights.py:221, 226). -/
def SubArr.row (a : SubArr K) (c : Cell) : List K := (List.range a.n).map (a.f c)

/-- `_as_subsample_array` (weights.py:86-95). -/
def asSubsampleArray (v : Val K) : Except Err (SubArr K) :=
  match v with
  | .arr3 _ _ _ f => .ok ⟨1, fun c _ => f c⟩
  | .arr4 _ _ _ n f => .ok ⟨n, f⟩
  | _ => .error (.value "Expected mapped coordinate array with 3 or 4 dimensions")

/-- `_as_subsample_array(_get_map_array(maps, key, fallback))`
(weights.py:207-212, 335-337, 496-501). -/
def getSub (maps : MapDict K) (primary fallback : String) : Except Err (SubArr K) := do
  asSubsampleArray (← getMapArray maps primary fallback)

/-- First half of `_get_subcell_weights` (weights.py:100-110): fetch the array
and check its dimension. -/
def rawSubcellWeights (maps : MapDict K) (n : ℕ) : Except Err (List K) :=
  match maps "subcell_weights" with
  | some (.vec l) => .ok l
  | some _ => .error (.value "subcell_weights must be one-dimensional")
  | none => if n = 1 then .ok [1] else .error (.value "Missing subcell_weights")

/-- `_get_subcell_weights` (weights.py:98-117). -/
def getSubcellWeights (maps : MapDict K) (n : ℕ) : Except Err (List K) := do
  let w ← rawSubcellWeights maps n
  if w.length ≠ n then .error (.value "subcell_weights has wrong length")
  else if (1 : K) / 10 ^ 8 ≤ |w.sum - 1| then .error (.value "subcell_weights should sum to 1")
  else .ok w

/-- `hits_radial_boundary` (weights.py:120-122). -/
def hits (x : K) (nx mxg : ℕ) : Bool :=
  decide (x < (mxg : K)) || decide (x > (nx : K) - (mxg : K) - 1)

/-- Sum of `weights[mask]` for a boolean mask, `np.sum(w[m])`
(weights.py:153-154, 441). -/
def maskedSum (w : List K) (m : List Bool) : K :=
  (((w.zip m).filter (fun p => p.2)).map (fun p => p.1)).sum

/-- Result of `classify_leg_contributions` (weights.py:156-162). -/
structure Classification (K : Type) where
  hitsBoundary : List Bool
  hasBoundaryLeg : Bool
  hasInteriorLeg : Bool
  boundaryFraction : K
  interiorFraction : K

/-- `classify_leg_contributions` (weights.py:125-162). -/
def classify (xs w : List K) (nx mxg : ℕ) : Classification K :=
  let mask := xs.map (fun x => hits x nx mxg)
  { hitsBoundary := mask
    hasBoundaryLeg := mask.any id
    hasInteriorLeg := (mask.map not).any id
    boundaryFraction := maskedSum w mask
    interiorFraction := maskedSum w (mask.map not) }

/-- Result of `assign_cell_space_numbers` (weights.py:231-237). -/
structure CellSpace where
  nCells : ℕ
  nEvolving : ℤ
  cellNumber : Cell → ℤ
  forwardBoundary : Cell → ℤ
  backwardBoundary : Cell → ℤ

/-- One pass of the three loops that fill `cell_number`
(body of weights.py:187-205). -/
def numberCell (s : (Cell → ℤ) × ℕ) (c : Cell) : (Cell → ℤ) × ℕ :=
  (Function.update s.1 c (s.2 : ℤ), s.2 + 1)

/-- State of the boundary numbering loop: backward array, forward array, next
number (weights.py:214-229). -/
structure BndState where
  bwd : Cell → ℤ
  fwd : Cell → ℤ
  next : ℕ

/-- Body of the boundary numbering loop (weights.py:220-229). -/
def numberBoundary (nx mxg : ℕ) (bx fx : SubArr K) (s : BndState) (c : Cell) : BndState :=
  let s :=
    if ((bx.row c).map (fun v => hits v nx mxg)).any id then
      { s with bwd := Function.update s.bwd c (s.next : ℤ), next := s.next + 1 }
    else s
  if ((fx.row c).map (fun v => hits v nx mxg)).any id then
    { s with fwd := Function.update s.fwd c (s.next : ℤ), next := s.next + 1 }
  else s

/-- `assign_cell_space_numbers` (weights.py:181-237) after the look-ups, for `mxg ≤ nx` or loops
over no `y` or no `z` (see `assignCellSpaceNumbers` for the others). -/
def assignCore (nx ny nz mxg : ℕ) (fx bx : SubArr K) : CellSpace :=
  let s : (Cell → ℤ) × ℕ := (fun _ => -1, 0)
  let s := (loop3 mxg (nx - mxg) ny nz).foldl numberCell s
  let s := (loop3 0 mxg ny nz).foldl numberCell s
  let s := (loop3 (nx - mxg) nx ny nz).foldl numberCell s
  let b : BndState := ⟨fun _ => -1, fun _ => -1, s.2⟩
  let b := (loop3 mxg (nx - mxg) ny nz).foldl (numberBoundary nx mxg bx fx) b
  { nCells := b.next
    nEvolving := ((nx : ℤ) - 2 * mxg) * ny * nz
    cellNumber := s.1
    forwardBoundary := b.fwd
    backwardBoundary := b.bwd }

/-- `assign_cell_space_numbers` (weights.py:165-237).  For `mxg > nx` the loop over the inner guard
cells, which comes before the look-ups, writes to `cell_number[nx, 0, 0]` (weights.py:194-197). -/
def assignCellSpaceNumbers (maps : MapDict K) : Except Err CellSpace := do
  let (nx, ny, nz) ← shapeR maps
  let mxg ← getMXG maps
  if nx < mxg ∧ 0 < ny ∧ 0 < nz then .error (.index "cell_number") else
  let fx ← getSub maps "forward_xt_primes" "forward_xt_prime"
  let bx ← getSub maps "backward_xt_primes" "backward_xt_prime"
  .ok (assignCore nx ny nz mxg fx bx)

/-- `catmull_rom_weights` (weights.py:240-249). -/
def catmullRom (u : K) : List K :=
  [ 1 / 2 * (-(u ^ 3) + 2 * u ^ 2 - u)
  , 1 / 2 * (3 * u ^ 3 - 5 * u ^ 2 + 2)
  , 1 / 2 * (-3 * u ^ 3 + 4 * u ^ 2 + u)
  , 1 / 2 * (u ^ 3 - u ^ 2) ]

/-- `a[i] += a[j]; a[j] = 0.0` with Python index rules
(weights.py:258-259, 264-265). -/
def moveWeight (a : List K) (i : ℤ) (j : ℕ) : Except Err (List K) :=
  match pyIndex a.length i, a[j]? with
  | some i, some wj => .ok ((a.set i (a.getD i 0 + wj)).set j 0)
  | _, _ => .error (.index "weights")

/-- First loop of `shift_weights_out_of_x_boundaries` (weights.py:256-259). -/
def shiftLow (xBase : ℤ) (mxg : ℕ) : List (ℕ × ℤ) → List K → Except Err (List K)
  | [], a => .ok a
  | (wi, off) :: rest, a =>
    if xBase + off < mxg then
      match moveWeight a (wi + 1) wi with
      | .ok a => shiftLow xBase mxg rest a
      | .error e => .error e
    else shiftLow xBase mxg rest a

/-- Second loop of `shift_weights_out_of_x_boundaries` (weights.py:261-265). -/
def shiftHigh (xBase : ℤ) (nx mxg : ℕ) : List (ℕ × ℤ) → List K → Except Err (List K)
  | [], a => .ok a
  | (wi, off) :: rest, a =>
    if xBase + off ≥ (nx : ℤ) - mxg then
      match moveWeight a ((wi : ℤ) - 1) wi with
      | .ok a => shiftHigh xBase nx mxg rest a
      | .error e => .error e
    else shiftHigh xBase nx mxg rest a

/-- `x_offsets` (weights.py:439). -/
def xOffsets : List ℤ := [-1, 0, 1, 2]

/-- `enumerate(xs)` (weights.py:256, 287, 305-309). -/
def enumerate {α : Type} (l : List α) : List (ℕ × α) := (List.range l.length).zip l

/-- `shift_weights_out_of_x_boundaries` (weights.py:252-270). -/
def shiftWeights (w : List K) (xBase : ℤ) (offs : List ℤ) (nx mxg : ℕ) :
    Except Err (List K) := do
  let a ← shiftLow xBase mxg (enumerate offs) w
  let a ← shiftHigh xBase nx mxg (enumerate offs).reverse a
  if (1 : K) / 10 ^ 8 ≤ |a.sum - 1| then .error (.value "Adjusted X weights should sum to 1")
  else .ok a

/-- `SparseRowMatrixBuilder` (weights.py:273-277): the list of rows, each a
list of `(column, weight)`. -/
abbrev Builder (K : Type) := List (List (ℤ × K))

/-- `SparseRowMatrixBuilder.__init__` (weights.py:276-277). -/
def Builder.init (K : Type) (n : ℕ) : Builder K := List.replicate n []

/-- `SparseRowMatrixBuilder.set_row` (weights.py:279-283). -/
def Builder.setRow (b : Builder K) (row : ℤ) (entries : List (ℤ × K)) :
    Except Err (Builder K) :=
  match pyIndex b.length row with
  | none => .error (.index "row")
  | some r =>
    if b.getD r [] ≠ [] then .error (.value "Row assigned more than once")
    else .ok (b.set r entries)

/-- The loop inside `add_to_entry` on one row (weights.py:287-291). -/
def addEntry (col : ℤ) (w : K) : List (ℤ × K) → List (ℤ × K)
  | [] => [(col, w)]
  | (c, v) :: rest => if c = col then (col, v + w) :: rest else (c, v) :: addEntry col w rest

/-- `SparseRowMatrixBuilder.add_to_entry` (weights.py:285-291). -/
def Builder.addToEntry (b : Builder K) (row col : ℤ) (w : K) : Except Err (Builder K) :=
  match pyIndex b.length row with
  | none => .error (.index "row")
  | some r => .ok (b.set r (addEntry col w (b.getD r [])))

/-- CSR arrays (weights.py:311). -/
structure CSR (K : Type) where
  weights : List K
  columns : List ℤ
  rows : List ℕ

/-- `np.cumsum` written behind a leading 0 (weights.py:297-299). -/
def cumsum0 (l : List ℕ) : List ℕ := l.foldl (fun acc n => acc ++ [acc.getLastD 0 + n]) [0]

/-- The writes of one row, `columns[start + i] = col; weights[start + i] = weight`
(weights.py:306-309). -/
def writeRow (start : ℕ) (entries : List (ℤ × K)) (s : List ℤ × List K) : List ℤ × List K :=
  (enumerate entries).foldl
    (fun s e => (s.1.set (start + e.1) e.2.1, s.2.set (start + e.1) e.2.2)) s

/-- `SparseRowMatrixBuilder.to_csr` (weights.py:293-311).  `junkC`, `junkW` are
the uninitialised contents of the two `np.empty` arrays. -/
def Builder.toCsr (junkC : ℕ → ℤ) (junkW : ℕ → K) (b : Builder K) : CSR K :=
  let ptr := cumsum0 (b.map List.length)
  let nnz := ptr.getLastD 0
  let s : List ℤ × List K := ((List.range nnz).map junkC, (List.range nnz).map junkW)
  let s := (enumerate b).foldl (fun s e => writeRow (ptr.getD e.1 0) e.2 s) s
  { weights := s.2, columns := s.1, rows := ptr }

/-- Result of `build_leg_space_metadata` (weights.py:368-377), also the state of
its loop (`nLegs` is `next_leg`). -/
structure LegSpace (K : Type) where
  nLegs : ℕ
  interiorLeg : Cell → ℤ
  boundaryLeg : Cell → ℤ
  interiorFraction : Cell → K
  boundaryFraction : Cell → K
  hasInterior : Cell → Bool
  hasBoundary : Cell → Bool

/-- Initial values (weights.py:341-348). -/
def LegSpace.init (K : Type) [Field K] : LegSpace K where
  nLegs := 0
  interiorLeg := fun _ => -1
  boundaryLeg := fun _ => -1
  interiorFraction := fun _ => 0
  boundaryFraction := fun _ => 0
  hasInterior := fun _ => false
  hasBoundary := fun _ => false

/-- Loop body of `build_leg_space_metadata` (weights.py:352-366). -/
def legStep (nx mxg : ℕ) (xt : SubArr K) (w : List K) (s : LegSpace K) (c : Cell) :
    LegSpace K :=
  let cl := classify (xt.row c) w nx mxg
  let s := { s with
    hasInterior := Function.update s.hasInterior c cl.hasInteriorLeg
    hasBoundary := Function.update s.hasBoundary c cl.hasBoundaryLeg
    interiorFraction := Function.update s.interiorFraction c cl.interiorFraction
    boundaryFraction := Function.update s.boundaryFraction c cl.boundaryFraction }
  let s :=
    if cl.hasInteriorLeg then
      { s with
        interiorLeg := Function.update s.interiorLeg c (s.nLegs : ℤ)
        nLegs := s.nLegs + 1 }
    else s
  if cl.hasBoundaryLeg then
    { s with
      boundaryLeg := Function.update s.boundaryLeg c (s.nLegs : ℤ)
      nLegs := s.nLegs + 1 }
  else s

/-- `build_leg_space_metadata` (weights.py:341-377) after the look-ups. -/
def legCore (nx ny nz mxg : ℕ) (xt : SubArr K) (w : List K) : LegSpace K :=
  (loop3 mxg (nx - mxg) ny nz).foldl (legStep nx mxg xt w) (LegSpace.init K)

/-- `build_leg_space_metadata` (weights.py:314-377).  The shape, which the code
takes from `cell_number`, is that of `maps["R"]`. -/
def buildLegSpace (shape : ℕ × ℕ × ℕ) (maps : MapDict K) (d : Direction) :
    Except Err (LegSpace K) := do
  let (nx, ny, nz) := shape
  let mxg ← getMXG maps
  let xt ← getSub maps d.xtKey d.xtFallback
  let w ← getSubcellWeights maps xt.n
  .ok (legCore nx ny nz mxg xt w)

/-- `weights[row] = v` with the check of weights.py:413-414 / 418-419. -/
def putWeight (ws : List K) (row : ℤ) (v : K) : Except Err (List K) :=
  if row < 0 then .error (.index "leg number < 0")
  else if row < ws.length then .ok (ws.set row.toNat v)
  else .error (.index "leg number too large")

/-- Loop body of `build_leg_weight_vector` (weights.py:406-420). -/
def legWeightStep (ls : LegSpace K) (ws : List K) (c : Cell) : Except Err (List K) :=
  if !(ls.hasInterior c || ls.hasBoundary c) then .ok ws
  else do
    let split := ls.hasInterior c && ls.hasBoundary c
    let ws ← if ls.hasInterior c then
        putWeight ws (ls.interiorLeg c) (if split then ls.interiorFraction c else 1)
      else Except.ok ws
    if ls.hasBoundary c then
      putWeight ws (ls.boundaryLeg c) (if split then ls.boundaryFraction c else 1)
    else Except.ok ws

/-- `build_leg_weight_vector` (weights.py:380-422). -/
def buildLegWeights (shape : ℕ × ℕ × ℕ) (ls : LegSpace K) : Except Err (List K) :=
  let (nx, ny, nz) := shape
  (loop3 0 nx ny nz).foldlM (legWeightStep ls) (List.replicate ls.nLegs 0)

/-- Innermost loop body of `accumulate_interior_stencil` (weights.py:469-480).
`np.clip` guarantees a non-negative x index, the two remainders non-negative y
and z indices, hence `toNat`. -/
def stencilEntry (shape : ℕ × ℕ × ℕ) (cellNumber : Cell → ℤ) (row : ℤ) (xBase zBase y yOff : ℤ)
    (scale xw : K) (xo : ℤ) (b : Builder K) (p : ℤ × K) : Except Err (Builder K) :=
  let (nx, ny, nz) := shape
  let col := cellNumber
    ( (npClip (xBase + xo) 0 ((nx : ℤ) - 1)).toNat
    , (pyMod (y + yOff + ny) ny).toNat
    , (pyMod (zBase + p.1 + nz) nz).toNat )
  if col < 0 then .error (.value "Invalid column index")
  else b.addToEntry row col (scale * xw * p.2)

/-- Middle loop body (weights.py:465-480). -/
def stencilX (shape : ℕ × ℕ × ℕ) (cellNumber : Cell → ℤ) (row : ℤ) (xBase zBase y yOff : ℤ)
    (scale : K) (wz : List K) (b : Builder K) (p : ℤ × K) : Except Err (Builder K) :=
  if |p.2| < 1 / 10 ^ 10 then .ok b
  else (xOffsets.zip wz).foldlM
    (stencilEntry shape cellNumber row xBase zBase y yOff scale p.2 p.1) b

/-- Outer loop body of `accumulate_interior_stencil` (weights.py:448-480). -/
def stencilSample (shape : ℕ × ℕ × ℕ) (cellNumber : Cell → ℤ) (row : ℤ) (y yOff : ℤ) (mxg : ℕ)
    (interiorWeight : K) (b : Builder K) (s : K × K × K × Bool) : Except Err (Builder K) :=
  let (mx, mz, sw, hit) := s
  if hit then .ok b
  else do
    let xBase := pyInt mx
    let zBase := pyInt mz
    let wx := catmullRom (mx - (xBase : K))
    let wz := catmullRom (mz - (zBase : K))
    let wx ← shiftWeights wx xBase xOffsets shape.1 mxg
    if (1 : K) / 10 ^ 8 ≤ |wz.sum - 1| then .error (.value "Z weights should sum to 1")
    else
      (xOffsets.zip wx).foldlM
        (stencilX shape cellNumber row xBase zBase y yOff (sw / interiorWeight) wz) b

/-- `accumulate_interior_stencil` (weights.py:425-480). -/
def accumulateStencil (shape : ℕ × ℕ × ℕ) (b : Builder K) (row : ℤ) (xs zs w : List K)
    (mask : List Bool) (y yOff : ℤ) (cellNumber : Cell → ℤ) (mxg : ℕ) :
    Except Err (Builder K) :=
  let interiorWeight := maskedSum w (mask.map not)
  if interiorWeight ≤ 0 then .error (.value "zero interior weight")
  else (xs.zip (zs.zip (w.zip mask))).foldlM
    (stencilSample shape cellNumber row y yOff mxg interiorWeight) b

/-- Loop body of `build_leg_destination_operator` (weights.py:509-537). -/
def destStep (shape : ℕ × ℕ × ℕ) (mxg : ℕ) (cellNumber boundaryNumber : Cell → ℤ)
    (ls : LegSpace K) (xt zt : SubArr K) (w : List K) (yOff : ℤ) (b : Builder K) (c : Cell) :
    Except Err (Builder K) := do
  let xs := xt.row c
  let zs := zt.row c
  let cl := classify xs w shape.1 mxg
  let b ← if ls.hasBoundary c then
      (if boundaryNumber c < 0 then Except.error (.value "Expected valid boundary number")
       else b.setRow (ls.boundaryLeg c) [(boundaryNumber c, 1)])
    else Except.ok b
  if ls.hasInterior c then
    accumulateStencil shape b (ls.interiorLeg c) xs zs w cl.hitsBoundary c.2.1 yOff cellNumber mxg
  else .ok b

/-- `build_leg_destination_operator` (weights.py:504-537), after the look-ups
and before the CSR export. -/
def destCore (shape : ℕ × ℕ × ℕ) (mxg : ℕ) (cellNumber boundaryNumber : Cell → ℤ)
    (ls : LegSpace K) (xt zt : SubArr K) (w : List K) (yOff : ℤ) : Except Err (Builder K) :=
  (loop3 mxg (shape.1 - mxg) shape.2.1 shape.2.2).foldlM
    (destStep shape mxg cellNumber boundaryNumber ls xt zt w yOff) (Builder.init K ls.nLegs)

/-- `build_leg_destination_operator` (weights.py:483-539); `junkC`, `junkW` as
in `Builder.toCsr`. -/
def buildDestOperator (junkC : ℕ → ℤ) (junkW : ℕ → K) (shape : ℕ × ℕ × ℕ) (cs : CellSpace)
    (ls : LegSpace K) (maps : MapDict K) (d : Direction) : Except Err (CSR K) := do
  let mxg ← getMXG maps
  let xt ← getSub maps d.xtKey d.xtFallback
  let zt ← getSub maps d.ztKey d.ztFallback
  let w ← getSubcellWeights maps xt.n
  let bn := if d.forwardBoundary then cs.forwardBoundary else cs.backwardBoundary
  let b ← destCore shape mxg cs.cellNumber bn ls xt zt w d.yOffset
  .ok (b.toCsr junkC junkW)

/-- The part of the result of `calculate_parallel_map_operators` that belongs to
one direction (weights.py:577-584, 586-593). -/
structure LegOps (K : Type) where
  nLegs : ℕ
  legInterior : Cell → ℤ
  legBoundary : Cell → ℤ
  legWeights : List K
  op : CSR K

/-- Result of `calculate_parallel_map_operators` (weights.py:570-594). -/
structure Ops (K : Type) where
  totalCells : ℕ
  cellNumber : Cell → ℤ
  forwardCell : Cell → ℤ
  backwardCell : Cell → ℤ
  forward : LegOps K
  backward : LegOps K

/-- `calculate_parallel_map_operators` (weights.py:542-594). -/
def calculateOps (junkC : ℕ → ℤ) (junkW : ℕ → K) (maps : MapDict K) : Except Err (Ops K) := do
  let shape ← shapeR maps
  let cs ← assignCellSpaceNumbers maps
  let fl ← buildLegSpace shape maps forwardDirection
  let bl ← buildLegSpace shape maps backwardDirection
  let fo ← buildDestOperator junkC junkW shape cs fl maps forwardDirection
  let bo ← buildDestOperator junkC junkW shape cs bl maps backwardDirection
  let fw ← buildLegWeights shape fl
  let bw ← buildLegWeights shape bl
  .ok
    { totalCells := cs.nCells
      cellNumber := cs.cellNumber
      forwardCell := cs.forwardBoundary
      backwardCell := cs.backwardBoundary
      forward := ⟨fl.nLegs, fl.interiorLeg, fl.boundaryLeg, fw, fo⟩
      backward := ⟨bl.nLegs, bl.interiorLeg, bl.boundaryLeg, bw, bo⟩ }

/-! ## `modify_maps` -/

/-- Body of the marking loop for `partial_boundaries=True`
(weights.py:619-625). -/
def markStep (nx mxg : ℕ) (xts : SubArr K) (xt : Cell → K) (c : Cell) : Cell → K :=
  if (xts.row c).any (fun v => hits v nx mxg) then Function.update xt c (-1) else xt

/-- Body of the filter loop for `partial_boundaries=False` (weights.py:640-656):
`xts` and `zts` are the state, `xt`, `zt` the centre maps. -/
def filterStep (nx mxg : ℕ) (n : ℕ) (xt zt : Cell → K) (s : (Cell → ℕ → K) × (Cell → ℕ → K))
    (c : Cell) : (Cell → ℕ → K) × (Cell → ℕ → K) :=
  let hit := (List.range n).map (fun w => hits (s.1 c w) nx mxg)
  if hit.any id && !(hit.all id) then
    if hits (xt c) nx mxg then
      (Function.update s.1 c (fun _ => xt c), Function.update s.2 c (fun _ => zt c))
    else
      (Function.update s.1 c (fun w => if hits (s.1 c w) nx mxg then xt c else s.1 c w),
       Function.update s.2 c (fun w => if hits (s.1 c w) nx mxg then zt c else s.2 c w))
  else s

/-- `maps[key]`, which has to be a three dimensional float array
(weights.py:616, 632, 634). -/
def get3 (maps : MapDict K) (key : String) : Except Err ((ℕ × ℕ × ℕ) × (Cell → K)) := do
  match (← maps.get key) with
  | .arr3 nx ny nz f => .ok ((nx, ny, nz), f)
  | _ => .error (.value key)

/-- `maps[key]`, which has to be a four dimensional float array
(weights.py:615, 631, 633). -/
def get4 (maps : MapDict K) (key : String) : Except Err ((ℕ × ℕ × ℕ) × ℕ × (Cell → ℕ → K)) := do
  match (← maps.get key) with
  | .arr4 nx ny nz n f => .ok ((nx, ny, nz), n, f)
  | _ => .error (.value key)

/-- One pass of the loop over directions for `partial_boundaries=True`
(weights.py:614-626). -/
def markDir (mxg : ℕ) (maps : MapDict K) (dir : String) : Except Err (MapDict K) := do
  let ((nx, ny, nz), n, xts) ← get4 maps (dir ++ "_xt_primes")
  let (_, xt) ← get3 maps (dir ++ "_xt_prime")
  let xt' := (loop3 0 nx ny nz).foldl (markStep nx mxg ⟨n, xts⟩) xt
  .ok (maps.set (dir ++ "_xt_prime") (.arr3 nx ny nz xt'))

/-- One pass of the loop over directions for `partial_boundaries=False`
(weights.py:630-658). -/
def filterDir (mxg : ℕ) (maps : MapDict K) (dir : String) : Except Err (MapDict K) := do
  let ((nx, ny, nz), n, xts) ← get4 maps (dir ++ "_xt_primes")
  let (_, xt) ← get3 maps (dir ++ "_xt_prime")
  let (_, _, zts) ← get4 maps (dir ++ "_zt_primes")
  let (_, zt) ← get3 maps (dir ++ "_zt_prime")
  let s := (loop3 0 nx ny nz).foldl (filterStep nx mxg n xt zt) (xts, zts)
  .ok ((maps.set (dir ++ "_xt_primes") (.arr4 nx ny nz n s.1)).set (dir ++ "_zt_primes")
    (.arr4 nx ny nz n s.2))

/-- The dictionary returned by `calculate_parallel_map_operators`
(weights.py:570-594), as key/value pairs. -/
def opsEntries (o : Ops K) : List (String × Val K) :=
  [ ("total_cells", .nat o.totalCells)
  , ("cell_number", .iarr3 o.cellNumber)
  , ("forward_cell_number", .iarr3 o.forwardCell)
  , ("backward_cell_number", .iarr3 o.backwardCell)
  , ("n_forward_legs", .nat o.forward.nLegs)
  , ("forward_leg_interior_number", .iarr3 o.forward.legInterior)
  , ("forward_leg_boundary_number", .iarr3 o.forward.legBoundary)
  , ("forward_leg_weights", .vec o.forward.legWeights)
  , ("forward_weights", .vec o.forward.op.weights)
  , ("forward_columns", .ivec o.forward.op.columns)
  , ("forward_rows", .ivec (o.forward.op.rows.map Int.ofNat))
  , ("n_backward_legs", .nat o.backward.nLegs)
  , ("backward_leg_interior_number", .iarr3 o.backward.legInterior)
  , ("backward_leg_boundary_number", .iarr3 o.backward.legBoundary)
  , ("backward_leg_weights", .vec o.backward.legWeights)
  , ("backward_weights", .vec o.backward.op.weights)
  , ("backward_columns", .ivec o.backward.op.columns)
  , ("backward_rows", .ivec (o.backward.op.rows.map Int.ofNat)) ]

/-- The variables removed at the end of `modify_maps` (weights.py:663-669). -/
def removedKeys : List String :=
  ["forward_xt_primes", "forward_zt_primes", "backward_xt_primes", "backward_zt_primes",
   "subcell_weights"]

/-- `modify_maps` (weights.py:597-672).  The code mutates and returns the
dictionary it is given; the model returns the final content. -/
def modifyMaps (junkC : ℕ → ℤ) (junkW : ℕ → K) (maps : MapDict K) (partialBoundaries : Bool) :
    Except Err (MapDict K) := do
  let mxg ← getMXG maps
  let maps ← ["forward", "backward"].foldlM
    (if partialBoundaries then markDir mxg else filterDir mxg) maps
  let o ← calculateOps junkC junkW maps
  let maps := (opsEntries o).foldl (fun d e => d.set e.1 e.2) maps
  .ok (removedKeys.foldl (fun d k => d.pop k) maps)

end Zoidberg.Weights
