import Verif.Props.MakeMaps

/-! # Properties C34 and C97: the sub-sampling of `make_maps` -/

set_option linter.unusedSectionVars false

namespace Zoidberg

variable {K : Type} [Field K] [LinearOrder K] [IsStrictOrderedRing K] [FloorRing K]

/-! ## C34: start points of the samples -/

/-- The quadrature points of a cell in units of the cell: all pairs of nodes of the
one-dimensional rule, scaled from `[-1, 1]` to `[-1/2, 1/2]`. -/
def cellNodes (e : MmEnv K) (n : ℕ) : List (K × K) :=
  (e.gauss n).flatMap fun p => (e.gauss n).map fun q => (p.1 * (1 / 2), q.1 * (1 / 2))

/-- `(xt, zt)` is the index, in the plane `target` at `yt`, of the field line that
starts at `(R0, Z0)` in the plane at `y`; -1 if it is outside the boundary. -/
def IndexOfLine (e : MmEnv K) (φ : K → K → K → K → K × K) (target : MapPol K) (y yt R0 Z0 : K)
    (xt zt : K) : Prop :=
  (xt, zt) = if e.outside (φ R0 Z0 y yt).1 yt (φ R0 Z0 y yt).2 then (-1, -1)
    else target.findIndex (fun _ _ => (φ R0 Z0 y yt).1) (fun _ _ => (φ R0 Z0 y yt).2) 0 0

/-- `findIndex` treats every point on its own. -/
def PointIndex (p : MapPol K) : Prop :=
  ∀ R Z x z, p.findIndex R Z x z = p.findIndex (fun _ _ => R x z) (fun _ _ => Z x z) 0 0

/-- Sample `s` of the maps for offset `d` starts, for cell `(x, z)` of a plane with
arrays `R` and `Z`, at `start pol s x z`. -/
def SamplesStartAt (e : MmEnv K) (φ : K → K → K → K → K × K) (m : ODict (MapVal K)) (d : ℤ) (s : ℕ)
    (start : MapPol K → ℕ → ℕ → K × K) (ok : MapPol K → ℕ → ℕ → Prop) : Prop :=
  ∃ xts zts, m.get? (sliceName "xt_primes" d) = some (.f4 xts) ∧
    m.get? (sliceName "zt_primes" d) = some (.f4 zts) ∧
    ∀ j < e.grid.ny, ∀ pol y target yt, e.grid.getPoloidalGrid (j : K) = .ok (some pol, y) →
      e.grid.getPoloidalGrid ((j : K) + (d : K)) = .ok (some target, yt) → PointIndex target →
      ∀ x z, ok pol x z → IndexOfLine e φ target y yt (start pol x z).1 (start pol x z).2
        (xts (x, j, z) s) (zts (x, j, z) s)

/-- The full claim of C34: sample `s` starts at the grid position `(x+xo, z+zo)` where
`(xo, zo)` is quadrature point `s`. -/
def StartsAtNodes (e : MmEnv K) (φ : K → K → K → K → K × K) (nslice n : ℕ) (m : ODict (MapVal K)) :
    Prop :=
  ∀ d : ℤ, d ≠ 0 → d.natAbs = nslice → ∀ (s : ℕ) (xo zo : K), (cellNodes e n)[s]? = some (xo, zo) →
    SamplesStartAt e φ m d s (fun pol x z =>
      (rgInterp pol.nx pol.nz pol.R ((x : K) + xo) ((z : K) + zo),
        rgInterp pol.nx pol.nz pol.Z ((x : K) + xo) ((z : K) + zo)))
      fun pol x z => x < pol.nx ∧ z < pol.nz

/-- The nodes and the list of samples. -/
theorem samples_nodes (e : MmEnv K) (n : ℕ) (hn : 1 < n) (smp : Option (List (K × K × K)))
    (h : samples e n = .ok smp) : ∃ l, smp = some l ∧
      l.map (fun p => (p.1, p.2.1)) = cellNodes e n ∧
      l = ((e.gauss n).map fun p => (p.1 * (1 / 2), p.2 * (1 / 2))).flatMap fun p =>
        ((e.gauss n).map fun p => (p.1 * (1 / 2), p.2 * (1 / 2))).map fun q =>
          (p.1, q.1, p.2 * q.2) := by
  unfold samples at h
  rw [if_pos hn] at h
  simp only at h
  split at h
  · injection h with h
    refine ⟨_, h.symm, ?_, rfl⟩
    unfold cellNodes
    rw [List.map_flatMap, List.flatMap_map]
    simp only [List.map_map, Function.comp_def]
  · simp at h

/-- What the code does: `R` is taken at `(x+xo, z)` and `Z` at `(x+zo, z)`. -/
theorem C34_actual_start (e : MmEnv K) (hf : FollowOk e) (φ : K → K → K → K → K × K)
    (hφ : PointTracer e φ) (nslice mxg n r nc : ℕ) (hn : 1 < n) (empty : JState K)
    (m : ODict (MapVal K)) (h : makeMaps e nslice mxg n r nc empty = .ok m) (first : MapPol K) (y0 : K)
    (h0 : e.grid.getPoloidalGrid ((0 : ℕ) : K) = .ok (some first, y0))
    (d : ℤ) (hd0 : d ≠ 0) (hd : d.natAbs = nslice) (s : ℕ) (xo zo : K)
    (hs : (cellNodes e n)[s]? = some (xo, zo)) :
    SamplesStartAt e φ m d s (fun pol x z =>
      (rgInterp first.nx first.nz pol.R ((x : K) + xo) (z : K),
        rgInterp first.nx first.nz pol.Z ((x : K) + zo) (z : K))) fun _ _ _ => True := by
  obtain ⟨first', y0', smp, ps, h1, h2, h3, h4, h5, h6, h7⟩ := sub_arrays h hf hd0 hd.le
  have hfirst := (plane_eq h1).symm.trans h0
  injection hfirst with hfirst
  injection hfirst with hfirst _
  injection hfirst with hfirst
  subst hfirst
  refine ⟨ps.xts, ps.zts, h5, h6, ?_⟩
  intro j hj pol y target yt hp ht hpt x z _
  obtain ⟨pol', y', targets, coord, t, g1, g2, g3, g4, g5, _, g7⟩ := h7 j hj
  have hpe := (plane_eq g1).symm.trans hp
  injection hpe with hpe
  injection hpe with hpe hye
  injection hpe with hpe
  subst hpe hye
  obtain ⟨ho, _⟩ := offsetsOf_int (K := K) nslice d hd0 hd.le
  obtain ⟨b, hb1, hb2⟩ := mapM_getElem? g2 _ _ ho
  rw [g4] at hb1
  injection hb1 with hb1
  subst hb1
  have hte := hb2.symm.trans ht
  injection hte with hte
  have ht1 : t.1 = some target := by rw [hte]
  have ht2 : t.2 = yt := by rw [hte]
  have hl : (targets.map (·.2)).length = d.natAbs + 1 := by
    rw [List.length_map, mapM_length g2, length_offsetsOf, hd]
  have hgl : (targets.map (·.2)).getLastD y' = yt := by
    have hg : (targets.map (·.2))[d.natAbs]? = some t.2 := by rw [List.getElem?_map, g4]; rfl
    rw [List.getLastD_eq_getLast?, List.getLast?_eq_getElem?, hl, Nat.add_sub_cancel, hg, ht2]
    rfl
  obtain ⟨l, hl1, hl2⟩ := (g7 (by rw [length_offsetsOf, hd])).many (by
    have : 1 < n ^ 2 := Nat.one_lt_pow (by norm_num) hn
    omega) target ht1
  obtain ⟨l', hl1', hl3, _⟩ := samples_nodes e n hn smp h2
  rw [hl1] at hl1'
  injection hl1' with hl1'
  subst hl1'
  rw [← hl3, List.getElem?_map] at hs
  obtain ⟨p, hp1, hp2⟩ := Option.map_eq_some_iff.1 hs
  injection hp2 with hpx hpz
  obtain ⟨c, hc1, hc2⟩ := hl2 s p hp1
  rw [hgl, hφ, List.map_cons, List.map_cons, List.map_nil] at hc1
  simp only [List.getElem?_cons_succ, List.getElem?_cons_zero] at hc1
  injection hc1 with hc1
  obtain ⟨q1, q2⟩ := hc2 x z
  rw [hgl] at q1 q2
  unfold IndexOfLine
  rw [q1, q2]
  unfold indicesOf
  rw [hpt, ← hc1]
  simp only [sampleStart, hpx, hpz]

/-- Interpolation at a grid point gives the value there. -/
theorem rgInterp_grid (nx nz : ℕ) (A : ℕ → ℕ → K) (x z : ℕ) (hx : x < nx) (hx2 : 2 ≤ nx) (hz : z < nz) :
    rgInterp nx nz A (x : K) (z : K) = A x z := by
  have hzc : ((z : K) + 1) = ((z + 1 : ℕ) : K) := by push_cast; rfl
  have hk : interval (nz + 2) ((z : K) + 1) = z + 1 := by
    unfold interval npClip
    rw [hzc, Int.floor_natCast]
    push_cast
    omega
  unfold rgInterp
  simp only [hk]
  have fz : (z : K) + 1 - ((z + 1 : ℕ) : K) = 0 := by push_cast; ring
  rw [fz]
  have b1 : ∀ i, A i (if z + 1 = 0 then nz - 1 else if z + 1 = nz + 1 then 0 else z + 1 - 1) = A i z := by
    intro i
    rw [if_neg (by omega), if_neg (by omega), Nat.add_sub_cancel]
  rw [b1, b1]
  by_cases h : x + 1 < nx
  · have hi : interval nx (x : K) = x := by
      unfold interval npClip
      rw [Int.floor_natCast]
      omega
    rw [hi]
    ring
  · have hi : interval nx (x : K) = x - 1 := by
      unfold interval npClip
      rw [Int.floor_natCast]
      omega
    rw [hi]
    have e1 : x - 1 + 1 = x := by omega
    have e2 : ((x - 1 : ℕ) : K) = (x : K) - 1 := by
      have : 1 ≤ x := by omega
      push_cast [this]
      ring
    rw [e1, e2]
    ring

/-- **C34** for the sample in the centre of the cell (odd rules have one), on grids
whose planes all have the same shape.  Missing: all
other samples, for which it is false, see `C34_fails`. -/
theorem C34_centre_partial (e : MmEnv K) (hf : FollowOk e) (φ : K → K → K → K → K × K)
    (hφ : PointTracer e φ) (nslice mxg n r nc : ℕ) (hn : 1 < n) (empty : JState K)
    (m : ODict (MapVal K)) (h : makeMaps e nslice mxg n r nc empty = .ok m)
    (nx nz : ℕ) (hsh : ∀ (y : K) (pol : MapPol K) (y' : K),
      e.grid.getPoloidalGrid y = .ok (some pol, y') → pol.nx = nx ∧ pol.nz = nz)
    (d : ℤ) (hd0 : d ≠ 0) (hd : d.natAbs = nslice) (s : ℕ)
    (hs : (cellNodes e n)[s]? = some (0, 0)) :
    SamplesStartAt e φ m d s (fun pol x z =>
      (rgInterp pol.nx pol.nz pol.R ((x : K) + 0) ((z : K) + 0),
        rgInterp pol.nx pol.nz pol.Z ((x : K) + 0) ((z : K) + 0)))
      fun pol x z => x < pol.nx ∧ z < pol.nz := by
  obtain ⟨first, y0, _, _, h1, _⟩ := sub_arrays h hf hd0 hd.le
  obtain ⟨xts, zts, g1, g2, g3⟩ := C34_actual_start e hf φ hφ nslice mxg n r nc hn empty m h first y0
    (plane_eq h1) d hd0 hd s 0 0 hs
  refine ⟨xts, zts, g1, g2, ?_⟩
  intro j hj pol y target yt hp ht hpt x z hxz
  have := g3 j hj pol y target yt hp ht hpt x z trivial
  obtain ⟨e1, e2⟩ := hsh _ _ _ hp
  obtain ⟨e3, e4⟩ := hsh _ _ _ (plane_eq h1)
  simp only [add_zero] at this ⊢
  rw [e1, e2]
  rw [e3, e4] at this
  exact this

/-- Planes returned by the grid are among its poloidal grids. -/
theorem getPoloidalGrid_mem {G : Type} (g : Grid G K) (y : K) (p : G) (y' : K)
    (h : g.getPoloidalGrid y = .ok (some p, y')) : p ∈ g.polGrids := by
  have hat : ∀ i q, g.at i = .ok q → q.1 ∈ g.polGrids := by
    intro i q hq
    unfold Grid.at at hq
    split at hq
    · rename_i a b ha hb
      injection hq with hq
      subst hq
      obtain ⟨k, _, hk⟩ := Option.bind_eq_some_iff.1 ha
      exact List.mem_of_getElem? hk
    · simp at hq
  have hmap : ∀ i (f : G × K → K), ((g.at i).map fun p => (some p.1, f p)) = .ok (some p, y') →
      p ∈ g.polGrids := by
    intro i f hi
    cases hgi : g.at i with
    | error err => rw [hgi] at hi; simp [Except.map] at hi
    | ok q =>
      rw [hgi] at hi
      simp only [Except.map] at hi
      injection hi with hi
      injection hi with hi _
      injection hi with hi
      rw [← hi]
      exact hat i q hgi
  have hint : ∀ v, g.getInt v = .ok (some p, y') → p ∈ g.polGrids := by
    intro v hv
    unfold Grid.getInt at hv
    simp only at hv
    split at hv
    · exact hmap _ (fun q => q.2) hv
    · split at hv
      · exact hmap _ (fun q => q.2 + _) hv
      · split at hv
        · simp at hv
        · simp at hv
  unfold Grid.getPoloidalGrid at h
  simp only at h
  split at h
  · split at h
    · simp at h
    · simp at h
    · simp at h
  · exact hint y h

example (empty : JState ℚ) : ∃ m, makeMaps (exMm [0, 1] true false) 1 0 3 1 1 empty = .ok m ∧
    SamplesStartAt (exMm [0, 1] true false) (fun R Z y y' => (R, Z + (y' - y) / 2)) m (-1) 4
      (fun pol x z => (rgInterp pol.nx pol.nz pol.R ((x : ℚ) + 0) ((z : ℚ) + 0),
        rgInterp pol.nx pol.nz pol.Z ((x : ℚ) + 0) ((z : ℚ) + 0)))
      fun pol x z => x < pol.nx ∧ z < pol.nz := by
  obtain ⟨m, h⟩ := exMm_succeeds [0, 1] true false (by simp) 1 0 3 1 1 (by norm_num) (by norm_num)
    (by norm_num) empty
  refine ⟨m, h, C34_centre_partial _ (exMm_follow _ _ _) _ (exMm_point _ _ _) 1 0 3 1 1 (by norm_num)
    empty m h 3 4 ?_ (-1) (by norm_num) (by norm_num) 4 (by decide +kernel)⟩
  intro y pol y' hy
  have := getPoloidalGrid_mem _ y pol y' hy
  obtain ⟨_, _, rfl⟩ := List.mem_map.1 this
  exact ⟨rfl, rfl⟩

/-- At a grid point the position is the grid point: the centre sample starts at the
centre of the cell. -/
theorem C34_centre_is_grid_point (pol : MapPol K) (x z : ℕ) (hx : x < pol.nx) (hx2 : 2 ≤ pol.nx)
    (hz : z < pol.nz) :
    rgInterp pol.nx pol.nz pol.R ((x : K) + 0) ((z : K) + 0) = pol.R x z ∧
      rgInterp pol.nx pol.nz pol.Z ((x : K) + 0) ((z : K) + 0) = pol.Z x z := by
  simp only [add_zero]
  exact ⟨rgInterp_grid _ _ _ _ _ hx hx2 hz, rgInterp_grid _ _ _ _ _ hx hx2 hz⟩

/-- **C34** is false: on a unit grid with two samples per dimension, the second
sample of cell `(0, 0)` has offset `zo = 1/4`, but starts at `Z = 0`. -/
theorem C34_fails (empty : JState ℚ) :
    ∃ m, makeMaps (exMm [0, 1] true false) 1 0 2 1 1 empty = .ok m ∧
      ¬ StartsAtNodes (exMm [0, 1] true false) (fun R Z y y' => (R, Z + (y' - y) / 2)) 1 2 m := by
  obtain ⟨m, h⟩ := exMm_succeeds [0, 1] true false (by simp) 1 0 2 1 1 (by norm_num) (by norm_num)
    (by norm_num) empty
  refine ⟨m, h, ?_⟩
  intro hc
  have hs : (cellNodes (exMm [0, 1] true false) 2)[1]? = some ((-1 / 4 : ℚ), (1 / 4 : ℚ)) := by
    decide +kernel
  have g0 : (exMm [0, 1] true false).grid.getPoloidalGrid ((0 : ℕ) : ℚ) = .ok (some exMapPol, 0) := by
    have := Grid.getPoloidalGrid_int (exMm [0, 1] true false).grid 0
    rw [Int.cast_zero] at this
    rw [Nat.cast_zero, this]
    rfl
  have g1 : (exMm [0, 1] true false).grid.getPoloidalGrid (((0 : ℕ) : ℚ) + ((1 : ℤ) : ℚ)) =
      .ok (some exMapPol, 1) := by
    have e1 : (((0 : ℕ) : ℚ) + ((1 : ℤ) : ℚ)) = ((1 : ℤ) : ℚ) := by norm_num
    rw [e1, Grid.getPoloidalGrid_int]
    rfl
  obtain ⟨xts, zts, a1, a2, a3⟩ := hc 1 (by norm_num) (by norm_num) 1 (-1 / 4) (1 / 4) hs
  obtain ⟨xts', zts', b1, b2, b3⟩ := C34_actual_start _ (exMm_follow _ _ _) _ (exMm_point _ _ _) 1 0 2 1 1
    (by norm_num) empty m h exMapPol 0 g0 1 (by norm_num) (by norm_num) 1 (-1 / 4) (1 / 4) hs
  have e2 : zts = zts' := by
    have := a2.symm.trans b2
    injection this with this
    injection this
  subst e2
  have hny : 0 < (exMm [0, 1] true false).grid.ny := by
    change 0 < ([0, 1] : List ℚ).length
    simp
  have hpt : PointIndex exMapPol := fun _ _ _ _ => rfl
  have c1 := a3 0 hny exMapPol 0 exMapPol 1 g0 g1 hpt 0 0 ⟨by decide, by decide⟩
  have c2 := b3 0 hny exMapPol 0 exMapPol 1 g0 g1 hpt 0 0 trivial
  unfold IndexOfLine at c1 c2
  have v1 : rgInterp exMapPol.nx exMapPol.nz exMapPol.Z (((0 : ℕ) : ℚ) + -1 / 4) (((0 : ℕ) : ℚ) + 1 / 4) =
      1 / 4 := by decide +kernel
  have v2 : rgInterp exMapPol.nx exMapPol.nz exMapPol.Z (((0 : ℕ) : ℚ) + 1 / 4) ((0 : ℕ) : ℚ) = 0 := by
    decide +kernel
  simp only [v1] at c1
  simp only [v2] at c2
  have o1 : ∀ a b : ℚ, (exMm [0, 1] true false).outside a 1 b = decide (7 / 2 < b) := fun _ _ => rfl
  rw [o1, if_neg (by norm_num)] at c1 c2
  have d1 := congrArg Prod.snd c1
  have d2 := congrArg Prod.snd c2
  change zts (0, 0, 0) 1 = 1 / 4 + (1 - 0) / 2 at d1
  change zts (0, 0, 0) 1 = 0 + (1 - 0) / 2 at d2
  rw [d1] at d2
  norm_num at d2

/-! ## C97: the weights of the samples -/

theorem sum_flatMap_mul : ∀ (l l' : List K),
    (l.flatMap fun a => l'.map fun b => a * b).sum = l.sum * l'.sum := by
  intro l l'
  induction l with
  | nil => simp
  | cons a t ih =>
    have e1 : ∀ l : List K, (l.map fun b => a * b).sum = a * l.sum := by
      intro l
      induction l with
      | nil => simp
      | cons b u ihu => rw [List.map_cons, List.sum_cons, ihu, List.sum_cons]; ring
    rw [List.flatMap_cons, List.sum_append, ih, List.sum_cons, e1]
    ring

/-- **C97.** `subcell_weights` has one entry per sample; they sum to one if the
weights of the quadrature rule sum to 2, and are positive if those are. -/
theorem C97_weights_sum (e : MmEnv K) (hf : FollowOk e) (nslice mxg n r nc : ℕ) (hn : 1 ≤ n)
    (hgs : GaussOk e n) (hlen : (e.gauss n).length = n) (hpos : ∀ p ∈ e.gauss n, 0 < p.2)
    (empty : JState K) (m : ODict (MapVal K)) (h : makeMaps e nslice mxg n r nc empty = .ok m) :
    ∃ w, m.get? "subcell_weights" = some (.arr w) ∧ w.length = n ^ 2 ∧ w.sum = 1 ∧ ∀ a ∈ w, 0 < a := by
  obtain ⟨pol, y, R, Z, smp, A, B, s, h1, h2, h3, h4, h5, h6, h7, h8, h9, h10⟩ := makeMaps_parts h hf
  refine ⟨sampleWeights smp, ?_, ?_⟩
  · rw [h10]
    refine lookup_kept _ _ h9 _ _ (List.mem_append_left _ (by simp [baseEntries]))
      (base_kept _ (by decide)) ?_
    rw [finalEntries_keys]
    exact base_not_final _ _ (by decide)
  · by_cases h1n : 1 < n
    · obtain ⟨l, rfl, _, hl⟩ := samples_nodes e n h1n smp h4
      have hw : sampleWeights (some l) =
          ((e.gauss n).map fun p => p.2 * (1 / 2)).flatMap fun a =>
            ((e.gauss n).map fun p => p.2 * (1 / 2)).map fun b => a * b := by
        unfold sampleWeights
        simp only
        rw [hl, List.map_flatMap, List.flatMap_map, List.flatMap_map]
        simp only [List.map_map, Function.comp_def]
      have hsum : ((e.gauss n).map fun p => p.2 * (1 / 2)).sum = 1 := by
        have := sum_map_half (e.gauss n)
        rw [List.map_map, hgs h1n] at this
        simp only [Function.comp_def] at this
        rw [this]
        norm_num
      rw [hw]
      refine ⟨?_, ?_, ?_⟩
      · simp only [List.length_flatMap, List.length_map, hlen, List.map_map, Function.comp_def,
          List.map_const', List.sum_replicate, smul_eq_mul]
        ring
      · rw [sum_flatMap_mul, hsum, mul_one]
      · intro a ha
        obtain ⟨b, hb, ha⟩ := List.mem_flatMap.1 ha
        obtain ⟨c, hc, rfl⟩ := List.mem_map.1 ha
        obtain ⟨p, hp, rfl⟩ := List.mem_map.1 hb
        obtain ⟨q, hq, rfl⟩ := List.mem_map.1 hc
        have := hpos p hp
        have := hpos q hq
        positivity
    · have : n = 1 := by omega
      subst this
      unfold samples at h4
      rw [if_neg h1n] at h4
      injection h4 with h4
      subst h4
      simp [sampleWeights]

example (empty : JState ℚ) : ∃ m w, makeMaps (exMm [0, 1] true false) 1 0 3 1 1 empty = .ok m ∧
    m.get? "subcell_weights" = some (.arr w) ∧ w.sum = 1 := by
  obtain ⟨m, h⟩ := exMm_succeeds [0, 1] true false (by simp) 1 0 3 1 1 (by norm_num) (by norm_num)
    (by norm_num) empty
  obtain ⟨w, h1, _, h2, _⟩ := C97_weights_sum _ (exMm_follow _ _ _) 1 0 3 1 1 (by norm_num)
    (exMm_gauss _ _ _ 3) (by simp [exMm]) (by
      intro p hp
      obtain ⟨i, _, rfl⟩ := List.mem_map.1 hp
      norm_num) empty m h
  exact ⟨m, w, h, h1, h2⟩

/-- The centre sample of a rule with three nodes. -/
example : (cellNodes (exMm [0, 1] true false) 3)[4]? = some ((0 : ℚ), (0 : ℚ)) := by decide +kernel

end Zoidberg
