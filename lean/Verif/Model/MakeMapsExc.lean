import Verif.Model.MakeMaps

/-!
# `make_maps` with exceptions of the functions it calls (`/repo/zoidberg/zoidberg.py:57-408`)

`Model/MakeMaps.lean` takes the tracer, `findIndex` and the other functions that `make_maps` calls to be total.  Here they may
raise exceptions, which `make_maps` does not catch, and the sizes of the poloidal grids are compared.
-/

namespace Zoidberg

variable {K : Type} [Field K] [LinearOrder K] [FloorRing K]

/-- A poloidal grid as in `MapPol`; `findIndex` gets the shape of the arrays (poloidal_grid.py:201, 348), and may raise an
exception as `metric` may (poloidal_grid.py:421-431, 521-528). -/
structure MapPolX (K : Type) where
  nx : ℕ
  nz : ℕ
  R : ℕ → ℕ → K
  Z : ℕ → ℕ → K
  metric : Except Err (Dict (ℕ → ℕ → K))
  findIndex : ℕ → ℕ → (ℕ → ℕ → K) → (ℕ → ℕ → K) → Except Err (ℕ → ℕ → K × K)

/-- The objects passed to `make_maps`, as in `MmEnv`.  `Byfunc` raises an exception always or never (one that
does for some positions only, as field.py:1917-1946 may, is not modelled), `field_line_length` depending on the values of `y` (diff.py:113-116: the spline needs increasing values).
`boundary.outside` does not raise exceptions (boundary.py). -/
structure MmEnvX (K : Type) where
  grid : Grid (MapPolX K) K
  follow : ℕ → ℕ → (ℕ → ℕ → K) → (ℕ → ℕ → K) → List K → Except Err (List (ℕ → ℕ → K × K))
  outside : K → K → K → Bool
  byfunc : Except Err (K → K → K → K)
  isSlab : Bool
  lineLength : List K → Except Err (List (K × K) → K)
  gauss : ℕ → List (K × K)
  sqrt : K → K
  repr : K → String

/-- `grid.getPoloidalGrid(j)` where attributes of the grid are used (zoidberg.py:116-118). -/
def MmEnvX.plane (e : MmEnvX K) (j : ℕ) : Except Err (MapPolX K × K) :=
  match e.grid.getPoloidalGrid (j : K) with
  | .error err => .error err
  | .ok (none, _) => .error (.type "NoneType has no attribute R")
  | .ok (some p, y) => .ok (p, y)

/-- `R[:, j, :] = pol.R` (zoidberg.py:115-118).  A size of one would be broadcast, which is not modelled: also an error here. -/
def planeArray (e : MmEnvX K) (nx nz : ℕ) (f : MapPolX K → ℕ → ℕ → K) (a : Cell → K) (j : ℕ) : Except Err (Cell → K) :=
  (e.plane j).bind fun p =>
    if p.1.nx = nx ∧ p.1.nz = nz then .ok (setSlice a j (f p.1)) else .error (.value "could not broadcast input array")

/-- Coordinates of the grid points (zoidberg.py:112-118). -/
def gridArrayX (e : MmEnvX K) (nx nz : ℕ) (f : MapPolX K → ℕ → ℕ → K) : Except Err (Cell → K) :=
  (List.range e.grid.ny).foldlM (planeArray e nx nz f) (fun _ => 0)

/-- The samples of one cell (zoidberg.py:127-150), as in `samples`. -/
def samplesX (e : MmEnvX K) (n : ℕ) : Except Err (Option (List (K × K × K))) :=
  if n > 1 then
    let g := (e.gauss n).map fun p => (p.1 * (1 / 2), p.2 * (1 / 2))
    if |(g.map (·.2)).sum - 1| ≤ 1 / 10 ^ 8 + 1 / 10 ^ 5 * |(1 : K)| then
      .ok (some (g.flatMap fun p => g.map fun q => (p.1, q.1, p.2 * q.2)))
    else .error (.assertion "np.isclose(np.sum(ws), 1.0)")
  else .ok none

/-- `xind, zind` from traced positions (zoidberg.py:235-243, 289-297). -/
def indicesX (e : MmEnvX K) (nx nz : ℕ) (pol : MapPolX K) (yslice : K) (coord : ℕ → ℕ → K × K) : Except Err (ℕ → ℕ → K × K) :=
  (pol.findIndex nx nz (fun x z => (coord x z).1) (fun x z => (coord x z).2)).map fun f x z =>
    if e.outside (coord x z).1 yslice (coord x z).2 then (-1, -1) else f x z

/-- Body of the loop over the slices of one direction (zoidberg.py:223-246). -/
def storeSliceX (e : MmEnvX K) (nx nz j : ℕ) (yslice : K) (ps : PSlice K) (coord : ℕ → ℕ → K × K)
    (pol : Option (MapPolX K)) : Except Err (PSlice K × (ℕ → ℕ → K × K)) :=
  let index : Except Err (ℕ → ℕ → K × K) := match pol with
    | none => .ok fun _ _ => (-1, -1)
    | some p => indicesX e nx nz p yslice coord
  index.map fun ind => ({ ps with
      R := setSlice ps.R j fun x z => (coord x z).1
      Z := setSlice ps.Z j fun x z => (coord x z).2
      xt := setSlice ps.xt j fun x z => (ind x z).1
      zt := setSlice ps.zt j fun x z => (ind x z).2 }, ind)

/-- The loop over the slices of one direction (zoidberg.py:223-246), as in `storeAll`. -/
def storeAllX (e : MmEnvX K) (nx nz j : ℕ) (yslice : K) :
    List (PSlice K) → List (ℕ → ℕ → K × K) → List (Option (MapPolX K)) →
    Except Err (Option (List (PSlice K) × (PSlice K × (ℕ → ℕ → K × K) × Option (MapPolX K)) × List (PSlice K)))
  | ps :: pss, c :: cs, t :: ts =>
    (storeSliceX e nx nz j yslice ps c t).bind fun r =>
      (storeAllX e nx nz j yslice pss cs ts).map fun o =>
        match o with
        | none => some ([], (r.1, r.2, t), pss)
        | some (a, l, b) => some (r.1 :: a, l, b)
  | _, _, _ => .ok none

/-- Start position of a sample (zoidberg.py:285-287), as in `sampleStart`. -/
def sampleStartX (pol : MapPolX K) (nx nz : ℕ) (xo zo : K) : (ℕ → ℕ → K) × (ℕ → ℕ → K) :=
  (fun x z => rgInterp nx nz pol.R ((x : K) + xo) (z : K),
    fun x z => rgInterp nx nz pol.Z ((x : K) + zo) (z : K))

/-- One sample (zoidberg.py:284-302). -/
def storeSample (e : MmEnvX K) (nx nz j : ℕ) (pol tp : MapPolX K) (ycoord yslice : K) (ps : PSlice K) (p : (K × K × K) × ℕ) :
    Except Err (PSlice K) :=
  let start := sampleStartX pol nx nz p.1.1 p.1.2.1
  (e.follow nx nz start.1 start.2 [ycoord, yslice]).bind fun cs =>
    match cs[1]? with
    | none => .error (.index "coord[1, ...]")
    | some coord => (indicesX e nx nz tp yslice coord).map fun ind =>
      { ps with
        xts := setPlane4 ps.xts j p.2 fun x z => (ind x z).1
        zts := setPlane4 ps.zts j p.2 fun x z => (ind x z).2 }

/-- The sub-sampled maps of one plane (zoidberg.py:248-302). -/
def storeSamplesX (e : MmEnvX K) (nx nz : ℕ) (smp : Option (List (K × K × K))) (nsamples j : ℕ)
    (pol : MapPolX K) (ycoord yslice : K) (ps : PSlice K) (ind : ℕ → ℕ → K × K)
    (target : Option (MapPolX K)) : Except Err (PSlice K) :=
  if nsamples = 1 then
    .ok { ps with
      xts := setPlane4 ps.xts j 0 fun x z => (ind x z).1
      zts := setPlane4 ps.zts j 0 fun x z => (ind x z).2 }
  else match target with
    | none => .ok { ps with
        xts := fun c t => if c.2.1 = j then -1 else ps.xts c t
        zts := fun c t => if c.2.1 = j then -1 else ps.zts c t }
    | some tp =>
      match smp with
      | none => .error (.runtime "NameError: xoffsets")
      | some l => l.zipIdx.foldlM (storeSample e nx nz j pol tp ycoord yslice) ps

/-- Body of the loop over planes (zoidberg.py:207-302). -/
def tracePlaneX (e : MmEnvX K) (nx nz : ℕ) (smp : Option (List (K × K × K))) (nsamples : ℕ)
    (pss : List (PSlice K)) (j : ℕ) : Except Err (List (PSlice K)) :=
  (e.plane j).bind fun a =>
    (pss.mapM fun ps => e.grid.getPoloidalGrid ((j : K) + ps.offset.val)).bind fun targets =>
      let ys := targets.map (·.2)
      let yslice := ys.getLastD a.2
      (e.follow nx nz a.1.R a.1.Z (a.2 :: ys)).bind fun coords =>
        (storeAllX e nx nz j yslice pss (coords.drop 1) (targets.map (·.1))).bind fun o =>
          match o with
          | none => .error (.runtime "NameError: xind")
          | some (l, (ps, ind, t), b) =>
            (storeSamplesX e nx nz smp nsamples j a.1 a.2 yslice ps ind t).map fun ps => l ++ ps :: b

/-- The loops over directions and planes (zoidberg.py:205-302). -/
def traceAllX (e : MmEnvX K) (nx nz : ℕ) (smp : Option (List (K × K × K))) (nsamples : ℕ)
    (lists : List (List (PSlice K))) : Except Err (List (List (PSlice K))) :=
  lists.mapM fun pss => (List.range e.grid.ny).foldlM (tracePlaneX e nx nz smp nsamples) pss

/-- `Jperp0` (zoidberg.py:382-389) at one point, from the result of `metric()`. -/
def jPerpX (e : MmEnvX K) (metric : Dict (ℕ → ℕ → K)) (x z : ℕ) : Except Err K :=
  match metric.get "g_xx", metric.get "g_zz", metric.get "g_xz" with
  | .ok a, .ok b, .ok c => .ok (e.sqrt (a x z * b x z - c x z ^ 2))
  | .error err, _, _ => .error err
  | _, .error err, _ => .error err
  | _, _, .error err => .error err

/-- One chunk of one plane (zoidberg.py:330-398), as in `jacChunk`, with the calls in the order of the code: the tracer in both
directions, the three lengths, `Byfunc` for every value of `y` and `metric`. -/
def jacChunkX (e : MmEnvX K) (r j : ℕ) (pol : MapPolX K) (y ylow yhigh : K) (s : JState K)
    (chunk : List ℕ) : Except Err (JState K) :=
  let R := fun i z => pol.R (chunk.getD i 0) z
  let Z := fun i z => pol.Z (chunk.getD i 0) z
  let yb := linspaceClosed y ylow (r * 2 + 1)
  let yf := linspaceClosed y yhigh (r * 2 + 1)
  (e.follow chunk.length pol.nz R Z yb).bind fun back =>
  (e.follow chunk.length pol.nz R Z yf).bind fun forth =>
  let line := (back.reverse ++ forth.drop 1, yb.reverse ++ yf.drop 1)
  (e.lineLength (lengthWindow r 0 line.2)).bind fun len0 =>
  (e.lineLength (lengthWindow r 1 line.2)).bind fun len1 =>
  (e.lineLength (lengthWindow r 2 line.2)).bind fun len2 =>
  let length := fun k => if k = 0 then len0 else if k = 1 then len1 else len2
  let sg := fun k => if k < 3 then
      setRows (s.sg k) chunk j fun i z => length k ((lengthWindow r k line.1).map fun c => c i z)
    else s.sg k
  let coords := pySlice line.1 r (some (-(r : ℤ)))
  let ys := pySlice line.2 r (some (-(r : ℤ)))
  let len := min coords.length ys.length
  if len = 0 then .error (.index "Bs")
  else e.byfunc.bind fun byfunc =>
    let Bs : ℕ → ℕ → List K := fun i z =>
      (coords.zip ys).map fun p => byfunc (p.1 i z).1 (p.1 i z).2 p.2
    if len ≤ r then .error (.index "Bs")
    else if ys.length ≠ r * 2 + 1 then .error (.assertion "len(y_all) == len(facs)")
    else
      let B := fun k => if k = 0 then setRows (s.B 0) chunk j fun i z => (Bs i z).getD 0 0
        else if k = 1 then setRows (s.B 1) chunk j fun i z => (Bs i z).getD r 0
        else if k = 2 then setRows (s.B 2) chunk j fun i z => (Bs i z).getD (len - 1) 0
        else s.B k
      pol.metric.bind fun metric =>
        match jPerpX e metric 0 0 with
        | .error err => .error err
        | .ok _ =>
          if len ≠ r * 2 + 1 then .error (.assertion "len(vols) == len(facs)")
          else .ok ⟨setRows s.jac chunk j fun i z =>
              jacobianOf (match jPerpX e metric (chunk.getD i 0) z with
                | .ok v => v
                | .error _ => 0) r (Bs i z) (coords.map fun c => (c i z).1), sg, B⟩

/-- One plane (zoidberg.py:326-400). -/
def jacPlaneX (e : MmEnvX K) (nx r nChunks : ℕ) (s : JState K) (j : ℕ) : Except Err (JState K) :=
  (arraySplit (List.range nx) nChunks).bind fun chunks =>
    (e.plane j).bind fun a =>
      (e.grid.getPoloidalGrid ((j : K) + -1)).bind fun low =>
        (e.grid.getPoloidalGrid ((j : K) + 1)).bind fun high =>
          chunks.foldlM (jacChunkX e r j a.1 a.2 low.2 high.2) s

/-- All planes (zoidberg.py:326-400). -/
def jacAllX (e : MmEnvX K) (nx r nChunks : ℕ) (empty : JState K) : Except Err (JState K) :=
  (List.range e.grid.ny).foldlM (jacPlaneX e nx r nChunks) empty

/-- The six arrays of a slice with their names (zoidberg.py:177-195). -/
def sliceEntriesX (repr : K → String) (ps : PSlice K) : Except Err (List (String × MapVal K)) :=
  [("R", MapVal.f3 ps.R), ("Z", .f3 ps.Z), ("xt_prime", .f3 ps.xt), ("zt_prime", .f3 ps.zt),
    ("xt_primes", .f4 ps.xts), ("zt_primes", .f4 ps.zts)].mapM fun p =>
    (parallelSliceFieldName repr p.1 ps.offset).map fun n => (n, p.2)

/-- Entries added at the end (zoidberg.py:402-407). -/
def finalEntriesX (isSlab : Bool) (s : JState K) : List (String × MapVal K) :=
  (if isSlab then [] else [("J", MapVal.f3 s.jac), ("Ly_cell_ylow", .f3 (s.sg 0)),
      ("Ly", .f3 (s.sg 1)), ("Ly_cell_yhigh", .f3 (s.sg 2))]) ++
    [("By_cell_ylow", .f3 (s.B 0)), ("By", .f3 (s.B 1)), ("By_cell_yhigh", .f3 (s.B 2))]

/-- `make_maps` (zoidberg.py:57-408) with exceptions, as in `makeMaps`. -/
def makeMapsX (e : MmEnvX K) (nslice mxg n r nChunks : ℕ) (empty : JState K) : Except Err (ODict (MapVal K)) :=
  (e.plane 0).bind fun a =>
  let nx := a.1.nx
  let nz := a.1.nz
  (gridArrayX e nx nz (·.R)).bind fun R =>
  (gridArrayX e nx nz (·.Z)).bind fun Z =>
  (samplesX e n).bind fun smp =>
  (traceAllX e nx nz smp (n ^ 2)
    [(offsetsOf nslice 1).map PSlice.zero, (offsetsOf nslice (-1)).map PSlice.zero]).bind fun traced =>
  (traced.flatten.mapM (sliceEntriesX e.repr)).bind fun entries =>
  let maps : ODict (MapVal K) := ODict.ofList ([("R", MapVal.f3 R), ("Z", .f3 Z), ("MXG", .num mxg),
    ("MYG", .num nslice), ("subcell_weights", .arr (sampleWeights smp))] ++ entries.flatten)
  let maps : ODict (MapVal K) := maps.filter fun p => !isHalfIndex p.1
  (jacAllX e nx r nChunks empty).bind fun s =>
  .ok ((finalEntriesX e.isSlab s).foldl (fun d p => d.set p.1 p.2) maps)

end Zoidberg
