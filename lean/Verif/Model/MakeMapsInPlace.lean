import Verif.Model.MakeMaps

/-!
# `make_maps` with tracers that change the arrays they are given

`FieldTracerReversible.follow_field_lines` moves its arguments in place (fieldtracer.py:245-246, 271-272, 307-308, C71), and `make_maps` passes
it the arrays `pol.R` and `pol.Z` of the poloidal grids (zoidberg.py:220).  Here the grids are a state of the loops.  Only `R` and `Z` change:
`findIndex` and `metric` use what was made in the constructors (poloidal_grid.py:112-254, 277-540).
-/

namespace Zoidberg

variable {K : Type} [Field K] [LinearOrder K] [IsStrictOrderedRing K] [FloorRing K]

/-- What a tracer leaves in the arrays of starting positions: from their sizes, contents and the values of `y` to their contents after the call
(zoidberg.py:220, 285-290, 349-351). -/
abbrev After (K : Type) := ℕ → ℕ → (ℕ → ℕ → K) → (ℕ → ℕ → K) → List K → (ℕ → ℕ → K) × (ℕ → ℕ → K)

/-- A tracer that leaves its arguments as they are (fieldtracer.py:67-128). -/
def keepsArrays : After K := fun _ _ R Z _ => (R, Z)

/-- A tracer that moves its arguments to the last positions (fieldtracer.py:245-246, 271-272, 307-308). -/
def movesArrays (follow : ℕ → ℕ → (ℕ → ℕ → K) → (ℕ → ℕ → K) → List K → List (ℕ → ℕ → K × K)) : After K := fun n m R Z ys =>
  let last := (follow n m R Z ys).getLastD fun x z => (R x z, Z x z)
  (fun x z => (last x z).1, fun x z => (last x z).2)

/-- The arrays of the poloidal grid of plane `j` are overwritten.  Planes with the same value of `share` are the same object, as they are for
a `Grid` made from one poloidal grid (grid.py:41-42). -/
def Grid.overwrite (g : Grid (MapPol K) K) (share : ℕ → ℕ) (j : ℕ) (R Z : ℕ → ℕ → K) : Grid (MapPol K) K :=
  { g with polGrids := g.polGrids.zipIdx.map fun p => if share p.2 = share j then { p.1 with R := R, Z := Z } else p.1 }

/-- Body of the loop over planes (zoidberg.py:207-302), as `tracePlane`, with the grid as it is at that time.  The samples are interpolated from the arrays
after the first call of the tracer; they are new arrays. -/
def tracePlaneS (e : MmEnv K) (after : After K) (share : ℕ → ℕ) (nx nz : ℕ) (smp : Option (List (K × K × K))) (nsamples : ℕ)
    (s : List (PSlice K) × Grid (MapPol K) K) (j : ℕ) : Except Err (List (PSlice K) × Grid (MapPol K) K) :=
  let e := { e with grid := s.2 }
  match e.plane j with
  | .error err => .error err
  | .ok (pol, ycoord) =>
    match s.1.mapM fun ps => e.grid.getPoloidalGrid ((j : K) + ps.offset.val) with
    | .error err => .error err
    | .ok targets =>
      let ys := targets.map (·.2)
      let yslice := ys.getLastD ycoord
      let coords := (e.follow nx nz pol.R pol.Z (ycoord :: ys)).drop 1
      let new := after nx nz pol.R pol.Z (ycoord :: ys)
      match storeAll e j yslice s.1 coords (targets.map (·.1)) with
      | none => .error (.runtime "NameError: xind")
      | some (a, (ps, ind, t), b) =>
        (storeSamples e nx nz smp nsamples j { pol with R := new.1, Z := new.2 } ycoord yslice ps ind t).map fun ps =>
          (a ++ ps :: b, s.2.overwrite share j new.1 new.2)

/-- The loop over planes of one direction (zoidberg.py:206-302). -/
def traceDirS (e : MmEnv K) (after : After K) (share : ℕ → ℕ) (nx nz : ℕ) (smp : Option (List (K × K × K))) (nsamples : ℕ)
    (pss : List (PSlice K)) (g : Grid (MapPol K) K) : Except Err (List (PSlice K) × Grid (MapPol K) K) :=
  (List.range e.grid.ny).foldlM (tracePlaneS e after share nx nz smp nsamples) (pss, g)

/-- `make_maps` (zoidberg.py:57-408), as `makeMaps`.  The arrays `R`, `Z` of the maps are copied before the loops (zoidberg.py:112-118).  The last loop passes
copies of rows to the tracer (`pol.R[chunk]`, zoidberg.py:350-352).  The second component is the grid afterwards. -/
def makeMapsS (e : MmEnv K) (after : After K) (share : ℕ → ℕ) (nslice mxg n r nChunks : ℕ) (empty : JState K) :
    Except Err (ODict (MapVal K) × Grid (MapPol K) K) :=
  (e.plane 0).bind fun p =>
  (gridArray e (·.R)).bind fun R =>
  (gridArray e (·.Z)).bind fun Z =>
  (samples e n).bind fun smp =>
  (traceDirS e after share p.1.nx p.1.nz smp (n ^ 2) ((offsetsOf nslice 1).map PSlice.zero) e.grid).bind fun A =>
  (traceDirS e after share p.1.nx p.1.nz smp (n ^ 2) ((offsetsOf nslice (-1)).map PSlice.zero) A.2).bind fun B =>
  ([A.1, B.1].flatten.mapM (sliceEntries e)).bind fun entries =>
  (jacAll { e with grid := B.2 } p.1.nx r nChunks empty).map fun s =>
    ((finalEntries e s).foldl (fun d p => d.set p.1 p.2)
      ((ODict.ofList ([("R", MapVal.f3 R), ("Z", .f3 Z), ("MXG", .num mxg), ("MYG", .num nslice),
        ("subcell_weights", .arr (sampleWeights smp))] ++ entries.flatten)).filter fun p => !isHalfIndex p.1), B.2)

end Zoidberg
