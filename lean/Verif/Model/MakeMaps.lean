import Verif.Model.Grid

/-!
# Model of `make_maps` (`/repo/zoidberg/zoidberg.py:34-408`)
-/

namespace Zoidberg

variable {K : Type} [Field K] [LinearOrder K] [FloorRing K]

/-! ## Names of parallel slices -/

/-- A Python number that is an `int` or a `float`; only their text differs (zoidberg.py:34-54, 174-175). -/
inductive PyNum (K : Type) where
  | int (n : ℤ)
  | float (v : K)

/-- The value of a number (zoidberg.py:45-52). -/
def PyNum.val : PyNum K → K
  | .int n => (n : K)
  | .float v => v

/-- `f"{abs(v)}"`; `repr` is the text of a float (zoidberg.py:45, 53). -/
def PyNum.absText (repr : K → String) : PyNum K → String
  | .int n => toString n.natAbs
  | .float v => repr |v|

/-- `parallel_slice_field_name` (zoidberg.py:34-54). -/
def parallelSliceFieldName (repr : K → String) (field : String) (offset : PyNum K) :
    Except Err String :=
  if |offset.val| < 1 then
    if |(|offset.val| - 1 / 2)| < 1 / 10 ^ 6 then
      .ok (field ++ "_cell_y" ++ if offset.val < 0 then "low" else "high")
    else .error (.assertion "Expected an offset of +- 0.5")
  else
    .ok ((if offset.val > 0 then "forward" else "backward") ++ "_" ++ field ++
      if |offset.val| > 1 then "_" ++ offset.absText repr else "")

/-! ## The environment -/

/-- What `make_maps` uses of a poloidal grid: the arrays, the metric and
`findIndex`, which acts on two-dimensional arrays (zoidberg.py:104-120, 240, 381). -/
structure MapPol (K : Type) extends PolGrid K where
  findIndex : (ℕ → ℕ → K) → (ℕ → ℕ → K) → ℕ → ℕ → K × K

/-- The objects passed to `make_maps` (zoidberg.py:57-67).  `follow n m R Z ys` is
`field_tracer.follow_field_lines` for arrays of shape `(n, m)`: the positions at
all `ys`.  `outside x y z` is `magnetic_field.boundary.outside`, `byfunc` is
`magnetic_field.Byfunc`, `isSlab` the test `isinstance(magnetic_field, Slab)`,
`lineLength` is `field_line_length` (diff.py:100-129) for one field line,
`gauss n` gives the nodes and weights of `roots_jacobi(n, 0, 0)`, `repr` is the
text of a float.  `Model/MakeMapsExc.lean` has the exceptions of these functions. -/
structure MmEnv (K : Type) where
  grid : Grid (MapPol K) K
  follow : ℕ → ℕ → (ℕ → ℕ → K) → (ℕ → ℕ → K) → List K → List (ℕ → ℕ → K × K)
  outside : K → K → K → Bool
  byfunc : K → K → K → K
  isSlab : Bool
  lineLength : List (K × K) → List K → K
  gauss : ℕ → List (K × K)
  sqrt : K → K
  repr : K → String

/-- `grid.getPoloidalGrid(j)` where attributes of the grid are used (zoidberg.py:104, 118, 209, 328). -/
def MmEnv.plane (e : MmEnv K) (j : ℕ) : Except Err (MapPol K × K) :=
  match e.grid.getPoloidalGrid (j : K) with
  | .error err => .error err
  | .ok (none, _) => .error (.type "NoneType has no attribute R")
  | .ok (some p, y) => .ok (p, y)

/-! ## Sub-sampling -/

/-- The samples of one cell: x offset, z offset, weight (zoidberg.py:127-150).
`none` stands for `samples_per_dim <= 1`, where no offsets are defined. -/
def samples (e : MmEnv K) (n : ℕ) : Except Err (Option (List (K × K × K))) :=
  if n > 1 then
    let g := (e.gauss n).map fun p => (p.1 * (1 / 2), p.2 * (1 / 2))
    if |(g.map (·.2)).sum - 1| ≤ 1 / 10 ^ 8 + 1 / 10 ^ 5 * |(1 : K)| then
      .ok (some (g.flatMap fun p => g.map fun q => (p.1, q.1, p.2 * q.2)))
    else .error (.assertion "np.isclose(np.sum(ws), 1.0)")
  else .ok none

/-- `maps["subcell_weights"]` (zoidberg.py:148-159). -/
def sampleWeights (s : Option (List (K × K × K))) : List K :=
  match s with
  | some l => l.map fun p => p.2.2
  | none => [1]

/-- The interval of `RegularGridInterpolator` for the coordinates `0, .., n-1`:
the index of the left end, clipped to the grid so that it extrapolates (zoidberg.py:268-279). -/
def interval (n : ℕ) (x : K) : ℕ := (npClip ⌊x⌋ 0 ((n : ℤ) - 2)).toNat

/-- `RegularGridInterpolator((arange(nx), arange(nz + 2) - 1), concatenate((A[:,
-1:], A, A[:, 0:1])))` with extrapolation (zoidberg.py:266-280), at one point. -/
def rgInterp (nx nz : ℕ) (A : ℕ → ℕ → K) (x z : K) : K :=
  let B : ℕ → ℕ → K := fun i k => A i (if k = 0 then nz - 1 else if k = nz + 1 then 0 else k - 1)
  let i := interval nx x
  let k := interval (nz + 2) (z + 1)
  let fx := x - (i : K)
  let fz := z + 1 - (k : K)
  (1 - fx) * ((1 - fz) * B i k + fz * B i (k + 1)) +
    fx * ((1 - fz) * B (i + 1) k + fz * B (i + 1) (k + 1))

/-! ## Tracing -/

/-- `ParallelSlice` (zoidberg.py:164-167). -/
structure PSlice (K : Type) where
  offset : PyNum K
  R : Cell → K
  Z : Cell → K
  xt : Cell → K
  zt : Cell → K
  xts : Cell → ℕ → K
  zts : Cell → ℕ → K

/-- A slice with the arrays of zeros made in zoidberg.py:183-192. -/
def PSlice.zero (offset : PyNum K) : PSlice K :=
  ⟨offset, fun _ => 0, fun _ => 0, fun _ => 0, fun _ => 0, fun _ _ => 0, fun _ _ => 0⟩

/-- The offsets of one direction, `[0.5, *range(1, nslice + 1)]` times `dir`
(zoidberg.py:172-175). -/
def offsetsOf (nslice : ℕ) (dir : ℤ) : List (PyNum K) :=
  .float ((dir : K) * (1 / 2)) :: (List.range nslice).map fun i : ℕ => .int (dir * ((i : ℤ) + 1))

/-- `a[:, j, :, s] = v` (zoidberg.py:252-258, 301-302). -/
def setPlane4 (a : Cell → ℕ → K) (j s : ℕ) (v : ℕ → ℕ → K) : Cell → ℕ → K :=
  fun c t => if c.2.1 = j ∧ t = s then v c.1 c.2.2 else a c t

/-- `xind, zind` from traced positions: `findIndex`, then `-1` outside the
boundary (zoidberg.py:239-243, 291-297). -/
def indicesOf (e : MmEnv K) (pol : MapPol K) (yslice : K) (coord : ℕ → ℕ → K × K) :
    ℕ → ℕ → K × K := fun x z =>
  if e.outside (coord x z).1 yslice (coord x z).2 then (-1, -1)
  else pol.findIndex (fun x z => (coord x z).1) (fun x z => (coord x z).2) x z

/-- Body of the loop over the slices of one direction (zoidberg.py:223-246).
`yslice` is the variable left over from the loop in line 213. -/
def storeSlice (e : MmEnv K) (j : ℕ) (yslice : K) (ps : PSlice K) (coord : ℕ → ℕ → K × K)
    (pol : Option (MapPol K)) : PSlice K × (ℕ → ℕ → K × K) :=
  let ind : ℕ → ℕ → K × K := match pol with
    | none => fun _ _ => (-1, -1)
    | some p => indicesOf e p yslice coord
  ({ ps with
      R := setSlice ps.R j fun x z => (coord x z).1
      Z := setSlice ps.Z j fun x z => (coord x z).2
      xt := setSlice ps.xt j fun x z => (ind x z).1
      zt := setSlice ps.zt j fun x z => (ind x z).2 }, ind)

/-- Start position of a sample as the code computes it (zoidberg.py:285-287). -/
def sampleStart (pol : MapPol K) (nx nz : ℕ) (xo zo : K) : (ℕ → ℕ → K) × (ℕ → ℕ → K) :=
  (fun x z => rgInterp nx nz pol.R ((x : K) + xo) (z : K),
    fun x z => rgInterp nx nz pol.Z ((x : K) + zo) (z : K))

/-- The sub-sampled maps of one plane (zoidberg.py:248-302).  `ps` is the last
slice of the loop before, `ind` and `target` its indices and poloidal grid. -/
def storeSamples (e : MmEnv K) (nx nz : ℕ) (smp : Option (List (K × K × K))) (nsamples j : ℕ)
    (pol : MapPol K) (ycoord yslice : K) (ps : PSlice K) (ind : ℕ → ℕ → K × K)
    (target : Option (MapPol K)) : Except Err (PSlice K) :=
  if nsamples = 1 then
    .ok { ps with
      xts := setPlane4 ps.xts j 0 fun x z => (ind x z).1
      zts := setPlane4 ps.zts j 0 fun x z => (ind x z).2 }
  else match target with
    | none => .ok { ps with
        xts := fun c t => if c.2.1 = j then -1 else ps.xts c t
        zts := fun c t => if c.2.1 = j then -1 else ps.zts c t }
    | some tp =>
      match smp with
      | none => .error (.runtime "NameError: xoffsets")
      | some l =>
        l.zipIdx.foldlM (fun (ps : PSlice K) (p : (K × K × K) × ℕ) =>
          let start := sampleStart pol nx nz p.1.1 p.1.2.1
          match (e.follow nx nz start.1 start.2 [ycoord, yslice])[1]? with
          | none => .error (.index "coord[1, ...]")
          | some coord =>
            let ind := indicesOf e tp yslice coord
            .ok { ps with
              xts := setPlane4 ps.xts j p.2 fun x z => (ind x z).1
              zts := setPlane4 ps.zts j p.2 fun x z => (ind x z).2 }) ps

/-- The loop over the slices of one direction, keeping the last slice apart
(zoidberg.py:223-246).  `zip` ends with the shortest of its arguments; slices
beyond are left as they are. -/
def storeAll (e : MmEnv K) (j : ℕ) (yslice : K) :
    List (PSlice K) → List (ℕ → ℕ → K × K) → List (Option (MapPol K)) →
    Option (List (PSlice K) × (PSlice K × (ℕ → ℕ → K × K) × Option (MapPol K)) × List (PSlice K))
  | ps :: pss, c :: cs, t :: ts =>
    let r := storeSlice e j yslice ps c t
    match storeAll e j yslice pss cs ts with
    | none => some ([], (r.1, r.2, t), pss)
    | some (a, l, b) => some (r.1 :: a, l, b)
  | _, _, _ => none

/-- Body of the loop over planes (zoidberg.py:207-302). -/
def tracePlane (e : MmEnv K) (nx nz : ℕ) (smp : Option (List (K × K × K))) (nsamples : ℕ)
    (pss : List (PSlice K)) (j : ℕ) : Except Err (List (PSlice K)) :=
  match e.plane j with
  | .error err => .error err
  | .ok (pol, ycoord) =>
    match pss.mapM fun ps => e.grid.getPoloidalGrid ((j : K) + ps.offset.val) with
    | .error err => .error err
    | .ok targets =>
      let ys := targets.map (·.2)
      let yslice := ys.getLastD ycoord
      let coords := (e.follow nx nz pol.R pol.Z (ycoord :: ys)).drop 1
      match storeAll e j yslice pss coords (targets.map (·.1)) with
      | none => .error (.runtime "NameError: xind")
      | some (a, (ps, ind, t), b) =>
        (storeSamples e nx nz smp nsamples j pol ycoord yslice ps ind t).map fun ps => a ++ ps :: b

/-- The loops over directions and planes (zoidberg.py:205-302). -/
def traceAll (e : MmEnv K) (nx nz : ℕ) (smp : Option (List (K × K × K))) (nsamples : ℕ)
    (lists : List (List (PSlice K))) : Except Err (List (List (PSlice K))) :=
  lists.mapM fun pss => (List.range e.grid.ny).foldlM (tracePlane e nx nz smp nsamples) pss

/-! ## Parallel integrals -/

/-- `np.array_split(l, n)`: `n` parts, the first `len(l) % n` of which have one
element more than the others (zoidberg.py:327). -/
def arraySplit {A : Type} (l : List A) (n : ℕ) : Except Err (List (List A)) :=
  if n = 0 then .error (.value "number sections must be larger than 0.")
  else .ok ((List.range n).map fun i =>
    let size := l.length / n
    let extra := l.length % n
    let start := i * size + min i extra
    let stop := (i + 1) * size + min (i + 1) extra
    (l.drop start).take (stop - start))

/-- `l[a:b]` for `a >= 0`; `b` may be negative or absent (zoidberg.py:359-365). -/
def pySlice {A : Type} (l : List A) (a : ℕ) (b : Option ℤ) : List A :=
  let stop : ℕ := match b with
    | none => l.length
    | some b => if 0 ≤ b then min b.toNat l.length else ((l.length : ℤ) + b).toNat
  (l.drop a).take (stop - a)

/-- `a[chunk, j, :] = v` (zoidberg.py:363, 372-374, 397). -/
def setRows (a : Cell → K) (chunk : List ℕ) (j : ℕ) (v : ℕ → ℕ → K) : Cell → K :=
  fun c => if c.2.1 = j then
      (if c.1 ∈ chunk then v (chunk.idxOf c.1) c.2.2 else a c)
    else a c

/-- The arrays filled in zoidberg.py:322-324: `jacobian`, `sg_22`, `B_cell`. -/
structure JState (K : Type) where
  jac : Cell → K
  sg : ℕ → Cell → K
  B : ℕ → Cell → K

/-- Positions and y values along the field lines through one chunk of a plane
(zoidberg.py:331-356), backward end first. -/
def lineAround (e : MmEnv K) (r : ℕ) (pol : MapPol K) (chunk : List ℕ) (y ylow yhigh : K) :
    List (ℕ → ℕ → K × K) × List K :=
  let R := fun i z => pol.R (chunk.getD i 0) z
  let Z := fun i z => pol.Z (chunk.getD i 0) z
  let yb := linspaceClosed y ylow (r * 2 + 1)
  let yf := linspaceClosed y yhigh (r * 2 + 1)
  ((e.follow chunk.length pol.nz R Z yb).reverse ++ (e.follow chunk.length pol.nz R Z yf).drop 1,
    yb.reverse ++ yf.drop 1)

/-- The slices used for the three lengths (zoidberg.py:358-362). -/
def lengthWindow {A : Type} (r k : ℕ) (l : List A) : List A :=
  pySlice l (r * k) (if k < 2 then some (-((r * (2 - k) : ℕ) : ℤ)) else none)

/-- The weights of the trapezoidal rule (zoidberg.py:377-380). -/
def trapezoid (r : ℕ) : List K :=
  (List.range (r * 2 + 1)).map fun i => if i = 0 ∨ i = r * 2 then 1 / 2 else 1

/-- `Jperp0` (zoidberg.py:382-389) at one point of the plane. -/
def jPerp (e : MmEnv K) (pol : MapPol K) (x z : ℕ) : Except Err K :=
  match pol.metric.get "g_xx", pol.metric.get "g_zz", pol.metric.get "g_xz" with
  | .ok a, .ok b, .ok c => .ok (e.sqrt (a x z * b x z - c x z ^ 2))
  | .error err, _, _ => .error err
  | _, .error err, _ => .error err
  | _, _, .error err => .error err

/-- `J` (zoidberg.py:391-397) for one field line: `Bs`, and `Rs` along it. -/
def jacobianOf (jperp : K) (r : ℕ) (Bs Rs : List K) : K :=
  let B0 := Bs.getD (Bs.length / 2) 0
  let vols := (Bs.zip (((trapezoid r : List K)).zip Rs)).map fun p => jperp * B0 / p.1 * p.2.1 * p.2.2
  vols.sum / ((Bs.length : K) - 1)

/-- One chunk of one plane (zoidberg.py:330-398).  The lists along the field line
are taken point by point.  A missing metric entry is an error for all points at
once, tested at the first. -/
def jacChunk (e : MmEnv K) (r j : ℕ) (pol : MapPol K) (y ylow yhigh : K) (s : JState K)
    (chunk : List ℕ) : Except Err (JState K) :=
  let line := lineAround e r pol chunk y ylow yhigh
  let sg := fun k => if k < 3 then
      setRows (s.sg k) chunk j fun i z =>
        e.lineLength ((lengthWindow r k line.1).map fun c => c i z) (lengthWindow r k line.2)
    else s.sg k
  let coords := pySlice line.1 r (some (-(r : ℤ)))
  let ys := pySlice line.2 r (some (-(r : ℤ)))
  let Bs : ℕ → ℕ → List K := fun i z =>
    (coords.zip ys).map fun p => e.byfunc (p.1 i z).1 (p.1 i z).2 p.2
  let len := min coords.length ys.length
  if len = 0 ∨ len ≤ r then .error (.index "Bs")
  else if ys.length ≠ r * 2 + 1 then .error (.assertion "len(y_all) == len(facs)")
  else
    let B := fun k => if k = 0 then setRows (s.B 0) chunk j fun i z => (Bs i z).getD 0 0
      else if k = 1 then setRows (s.B 1) chunk j fun i z => (Bs i z).getD r 0
      else if k = 2 then setRows (s.B 2) chunk j fun i z => (Bs i z).getD (len - 1) 0
      else s.B k
    match jPerp e pol 0 0 with
    | .error err => .error err
    | .ok _ =>
      if len ≠ r * 2 + 1 then .error (.assertion "len(vols) == len(facs)")
      else .ok ⟨setRows s.jac chunk j fun i z =>
          jacobianOf (match jPerp e pol (chunk.getD i 0) z with
            | .ok v => v
            | .error _ => 0) r (Bs i z) (coords.map fun c => (c i z).1), sg, B⟩

/-- One plane (zoidberg.py:326-400). -/
def jacPlane (e : MmEnv K) (nx r nChunks : ℕ) (s : JState K) (j : ℕ) : Except Err (JState K) :=
  match arraySplit (List.range nx) nChunks with
  | .error err => .error err
  | .ok chunks =>
    match e.plane j with
    | .error err => .error err
    | .ok (pol, y) =>
      match e.grid.getPoloidalGrid ((j : K) + -1), e.grid.getPoloidalGrid ((j : K) + 1) with
      | .ok (_, ylow), .ok (_, yhigh) => chunks.foldlM (jacChunk e r j pol y ylow yhigh) s
      | .error err, _ => .error err
      | _, .error err => .error err

/-- All planes (zoidberg.py:326-400), from the arrays made by `np.empty`. -/
def jacAll (e : MmEnv K) (nx r nChunks : ℕ) (empty : JState K) : Except Err (JState K) :=
  (List.range e.grid.ny).foldlM (jacPlane e nx r nChunks) empty

/-! ## `make_maps` -/

/-- Values of the dictionary of maps (zoidberg.py:153-159, 184-190, 402-407). -/
inductive MapVal (K : Type) where
  | f3 (a : Cell → K)
  | f4 (a : Cell → ℕ → K)
  | arr (l : List K)
  | num (n : ℕ)

/-- The six arrays of a slice with their names (zoidberg.py:177-195). -/
def sliceEntries (e : MmEnv K) (ps : PSlice K) : Except Err (List (String × MapVal K)) :=
  [("R", MapVal.f3 ps.R), ("Z", .f3 ps.Z), ("xt_prime", .f3 ps.xt), ("zt_prime", .f3 ps.zt),
    ("xt_primes", .f4 ps.xts), ("zt_primes", .f4 ps.zts)].mapM fun p =>
    (parallelSliceFieldName e.repr p.1 ps.offset).map fun n => (n, p.2)

/-- `sub in s` for strings (zoidberg.py:310). -/
def contains (s sub : String) : Bool := decide (sub.toList <:+: s.toList)

/-- `"_cell_y" in k and "t_prime" in k` (zoidberg.py:310). -/
def isHalfIndex (k : String) : Bool := contains k "_cell_y" && contains k "t_prime"

/-- Coordinates of the grid points (zoidberg.py:112-118). -/
def gridArray (e : MmEnv K) (f : MapPol K → ℕ → ℕ → K) : Except Err (Cell → K) :=
  (List.range e.grid.ny).foldlM (fun a j => (e.plane j).map fun p => setSlice a j (f p.1))
    (fun _ => 0)

/-- Entries added at the end (zoidberg.py:402-407). -/
def finalEntries (e : MmEnv K) (s : JState K) : List (String × MapVal K) :=
  (if e.isSlab then [] else [("J", MapVal.f3 s.jac), ("Ly_cell_ylow", .f3 (s.sg 0)),
      ("Ly", .f3 (s.sg 1)), ("Ly_cell_yhigh", .f3 (s.sg 2))]) ++
    [("By_cell_ylow", .f3 (s.B 0)), ("By", .f3 (s.B 1)), ("By_cell_yhigh", .f3 (s.B 2))]

/-- `make_maps` (zoidberg.py:57-408).  `n` is `samples_per_dim` (`>= 0`), `r` is
`refine_parallel_integral`, `empty` the content of the `np.empty` arrays.  The
arrays in the dictionary are the ones the loops fill, so the dictionary is built
here after the loops.  Progress output is left out. -/
def makeMaps (e : MmEnv K) (nslice mxg n r nChunks : ℕ) (empty : JState K) :
    Except Err (ODict (MapVal K)) := do
  let (pol, _) ← e.plane 0
  let nx := pol.nx
  let nz := pol.nz
  let R ← gridArray e (·.R)
  let Z ← gridArray e (·.Z)
  let smp ← samples e n
  let traced ← traceAll e nx nz smp (n ^ 2)
    [(offsetsOf nslice 1).map PSlice.zero, (offsetsOf nslice (-1)).map PSlice.zero]
  let entries ← traced.flatten.mapM (sliceEntries e)
  let maps : ODict (MapVal K) := ODict.ofList ([("R", MapVal.f3 R), ("Z", .f3 Z), ("MXG", .num mxg),
    ("MYG", .num nslice), ("subcell_weights", .arr (sampleWeights smp))] ++ entries.flatten)
  let maps : ODict (MapVal K) := maps.filter fun p => !isHalfIndex p.1
  let s ← jacAll e nx r nChunks empty
  .ok ((finalEntries e s).foldl (fun d p => d.set p.1 p.2) maps)

end Zoidberg
