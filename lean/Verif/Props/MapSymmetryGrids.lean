import Verif.Props.MapSymmetry
import Verif.Props.SubSamples

/-! # C237-C239: symmetric grids, grids numbered from another plane, mirrored grids -/

set_option linter.unusedSectionVars false

namespace Zoidberg

variable {K : Type} [Field K] [LinearOrder K] [IsStrictOrderedRing K] [FloorRing K]

/-- All arrays of the maps `m` in plane `j` and of `m'` in plane `j'` agree: slices at the offset `d` with those at `ε d`, positions
at the upper faces with those at the upper (`ε = 1`) or lower (`ε = -1`) faces, and so on; `By` is multiplied by `c`.  `nx` is the size
in `x`. -/
structure PlanesAgree (m m' : ODict (MapVal K)) (ε : ℤ) (c : K) (slab : Bool) (nx nslice j j' : ℕ) : Prop where
  slices : ∃ w, m.get? "subcell_weights" = some (.arr w) ∧ m'.get? "subcell_weights" = some (.arr w) ∧
    ∀ d : ℤ, d ≠ 0 → d.natAbs ≤ nslice → ∀ f ∈ ["R", "Z", "xt_prime", "zt_prime", "xt_primes", "zt_primes"],
    ∃ v v', m.get? (sliceName f d) = some v ∧ m'.get? (sliceName f (ε * d)) = some v' ∧
      ∀ x z, ∀ t < w.length, v'.at (x, j', z) t = v.at (x, j, z) t ∧ v.at (x, j, z) t ≠ none
  halves : ∀ dir : ℤ, dir = 1 ∨ dir = -1 → ∀ f ∈ ["R", "Z"],
    ∃ a a', m.get? (f ++ if dir = 1 then "_cell_yhigh" else "_cell_ylow") = some (.f3 a) ∧
      m'.get? (f ++ if ε * dir = 1 then "_cell_yhigh" else "_cell_ylow") = some (.f3 a') ∧
      ∀ x z, a' (x, j', z) = a (x, j, z)
  lines : ∀ (q : ℕ) (k k' : String), lineNames[q]? = some k → lineNames[turnLine ε q]? = some k' → (slab = false ∨ 4 ≤ q) →
    ∃ a a', m.get? k = some (.f3 a) ∧ m'.get? k' = some (.f3 a') ∧
      ∀ x z, x < nx → a' (x, j', z) = (if 4 ≤ q then c else 1) * a (x, j, z)
  points : ∃ R Z R' Z', m.get? "R" = some (.f3 R) ∧ m.get? "Z" = some (.f3 Z) ∧ m'.get? "R" = some (.f3 R') ∧
      m'.get? "Z" = some (.f3 Z') ∧ ∀ x z, R' (x, j', z) = R (x, j, z) ∧ Z' (x, j', z) = Z (x, j, z)

theorem weights_entry {e : MmEnv K} (hf : FollowOk e) {nslice mxg n r nc : ℕ} {empty : JState K} {m : ODict (MapVal K)}
    (h : makeMaps e nslice mxg n r nc empty = .ok m) {smp : Option (List (K × K × K))} (hs : samples e n = .ok smp) :
    m.get? "subcell_weights" = some (.arr (sampleWeights smp)) := by
  obtain ⟨pol, y, R, Z, smp', A, B, s, h1, h2, h3, h4, h5, h6, h7, h8, h9, h10⟩ := makeMaps_parts h hf
  rw [hs] at h4
  injection h4 with h4
  subst h4
  rw [h10]
  refine lookup_kept _ _ h9 _ _ (List.mem_append_left _ (by simp [baseEntries]))
    (base_kept _ (by decide)) ?_
  rw [finalEntries_keys]
  exact base_not_final _ _ (by decide)

/-- Planes that see the same grids and the same field have the same maps. -/
theorem planes_agree {e e' : MmEnv K} {φ φ' : K → K → K → K → K × K} {ε : ℤ} {s c : K} {j j' : ℕ}
    (hf : Same e e' φ φ' ε s c j j') (hg : GridOk e) (hg' : GridOk e') {nslice mxg n r nc mxg' nc' : ℕ}
    (hr : 1 ≤ r) (hc : 1 ≤ nc) (hc' : 1 ≤ nc') {empty empty' : JState K} {m m' : ODict (MapVal K)}
    (h : makeMaps e nslice mxg n r nc empty = .ok m) (h' : makeMaps e' nslice mxg' n r nc' empty' = .ok m')
    {first : MapPol K} {y0 : K} (h0 : e.grid.getPoloidalGrid ((0 : ℕ) : K) = .ok (some first, y0)) :
    PlanesAgree m m' ε c e.isSlab first.nx nslice j j' := by
  refine ⟨?_, fun dir hd f hfm => maps_halves hf h h' dir hd f hfm,
    fun q k k' hk hk' hs => maps_lines hf hg hg' hr hc hc' h h' h0 q k k' hk hk' hs, maps_points hf hg hg' h h'⟩
  obtain ⟨pol, y, R, Z, smp, A, B, s, h1, h2, h3, h4, _⟩ := makeMaps_parts h hf.ok
  refine ⟨sampleWeights smp, weights_entry hf.ok h h4, weights_entry hf.ok' h' (by rw [samples_turn hf.field]; exact h4), ?_⟩
  intro d hd0 hd f hfm
  obtain ⟨smp', v, v', g1, g2, g3, g4⟩ := maps_slices hf h h' d hd0 hd f hfm
  rw [h4] at g1
  injection g1 with g1
  subst g1
  exact ⟨v, v', g2, g3, g4⟩

/-- All poloidal grids have the same number of points. -/
def SameSizes (e : MmEnv K) (nx nz : ℕ) : Prop := ∀ p ∈ e.grid.polGrids, p.nx = nx ∧ p.nz = nz

theorem look_int {G : Type} (g : Grid G K) (hl : g.polGrids.length = g.ycoords.length) (h0 : 0 < g.ycoords.length)
    (hp : g.yperiodic = true) (i : ℤ) :
    ∃ (r : ℕ) (k : ℤ) (hr : r < g.ycoords.length), i = (r : ℤ) + k * (g.ycoords.length : ℤ) ∧
      g.getPoloidalGrid (i : K) = .ok (some (g.polGrids[r]'(by omega)), g.ycoords[r] + (k : K) * g.Ly) := by
  have hn : (0 : ℤ) < (g.ycoords.length : ℤ) := by exact_mod_cast h0
  obtain ⟨r, hr⟩ := Int.eq_ofNat_of_zero_le (Int.emod_nonneg i hn.ne')
  have hlt := Int.emod_lt_of_pos i hn
  have hr' : r < g.ycoords.length := by
    rw [hr] at hlt
    exact_mod_cast hlt
  have hi : i = (r : ℤ) + (i / (g.ycoords.length : ℤ)) * (g.ycoords.length : ℤ) := by
    have := Int.emod_add_mul_ediv i (g.ycoords.length : ℤ)
    rw [hr] at this
    linarith
  refine ⟨r, i / (g.ycoords.length : ℤ), hr', hi, ?_⟩
  have := g.getInt_periodic hl h0 hp r hr' (i / (g.ycoords.length : ℤ))
  rw [← hi] at this
  exact this

theorem first_size {e : MmEnv K} (hg : GridOk e) {nx nz : ℕ} (hs : SameSizes e nx nz) {p : MapPol K} {y : K}
    (h : e.grid.getPoloidalGrid ((0 : ℕ) : K) = .ok (some p, y)) : p.nx = nx ∧ p.nz = nz := by
  obtain ⟨pol, y', g1, g2, _⟩ := plane_ok e hg 0 hg.pos
  have := plane_eq g1
  rw [h] at this
  injection this with this
  injection this with this _
  injection this with this
  subst this
  exact hs _ (List.mem_of_getElem? g2)

/-! ## C237: symmetric machines -/

/-- The grid repeats itself after `p` planes, at a distance `s` in `y`. -/
def Repeats (g : Grid (MapPol K) K) (p : ℕ) (s : K) : Prop :=
  ∀ i < g.ny, g.polGrids[(i + p) % g.ny]? = g.polGrids[i]? ∧
    g.ycoords.getD ((i + p) % g.ny) 0 + (((i + p) / g.ny : ℕ) : K) * g.Ly = g.ycoords.getD i 0 + s

/-- The field repeats itself after the distance `s`. -/
structure Invariant (e : MmEnv K) (φ : K → K → K → K → K × K) (s : K) : Prop where
  point : PointTracer e φ
  lines : ∀ R Z y y1, φ R Z (s + y) (s + y1) = φ R Z y y1
  outside : ∀ x y z, e.outside x (s + y) z = e.outside x y z
  byfunc : ∀ x z y, e.byfunc x z (s + y) = e.byfunc x z y
  lengths : ∀ (pts : List (K × K)) (ys : List K), pts.length = ys.length →
    e.lineLength pts (ys.map fun y => s + y) = e.lineLength pts ys

theorem Invariant.same {e : MmEnv K} {φ : K → K → K → K → K × K} {s : K} (h : Invariant e φ s) : SameField e e φ φ 1 s 1 := by
  refine ⟨Or.inl rfl, h.point, h.point, one_ne_zero, ?_, ?_, ?_, ?_, rfl, rfl, rfl⟩
  · intro R Z y y1
    simpa using h.lines R Z y y1
  · intro x y z
    simpa using h.outside x y z
  · intro x z y
    simpa using h.byfunc x z y
  · intro pts ys hl
    simpa using h.lengths pts ys hl

theorem repeats_plane {e e' : MmEnv K} (hl : e.grid.polGrids.length = e.grid.ycoords.length) (h0 : 0 < e.grid.ycoords.length)
    (hp : e.grid.yperiodic = true) (he : e'.grid = e.grid) {p : ℕ} {s : K} (hr : Repeats e.grid p s) (i : ℤ) :
    SamePlane e e' 1 s i (i + p) := by
  obtain ⟨r, k, hr1, hi, hg⟩ := look_int e.grid hl h0 hp i
  obtain ⟨q1, q2⟩ := hr r hr1
  unfold Grid.ny at q1 q2
  have hm : (r + p) % e.grid.ycoords.length < e.grid.ycoords.length := Nat.mod_lt _ h0
  have hg' := e.grid.getInt_periodic hl h0 hp _ hm (k + ((r + p) / e.grid.ycoords.length : ℕ))
  have hi' : (((r + p) % e.grid.ycoords.length : ℕ) : ℤ) + (k + ((r + p) / e.grid.ycoords.length : ℕ)) * (e.grid.ycoords.length : ℤ) = i + p := by
    have := Nat.mod_add_div (r + p) e.grid.ycoords.length
    have : (((r + p) % e.grid.ycoords.length : ℕ) : ℤ) + (e.grid.ycoords.length : ℤ) * ((r + p) / e.grid.ycoords.length : ℕ) = r + p := by
      exact_mod_cast this
    rw [hi]
    linarith
  rw [hi'] at hg'
  refine ⟨_, _, hg, ?_⟩
  rw [he, hg']
  rw [List.getElem?_eq_getElem (by omega), List.getElem?_eq_getElem (by omega)] at q1
  rw [List.getD_eq_getElem _ _ hm, List.getD_eq_getElem _ _ hr1] at q2
  injection q1 with q1
  rw [q1]
  congr 2
  rw [Int.cast_add, Int.cast_natCast]
  push_cast
  linear_combination q2

/-- **C237.** In a periodic grid that repeats itself after `p` planes, in a field that does so, every array that `make_maps` returns repeats
itself after `p` planes.  With `p = 1`, that is an axisymmetric machine, all planes have the same maps. -/
theorem C237_symmetric (e : MmEnv K) (hf : FollowOk e) (hg : GridOk e) (hper : e.grid.yperiodic = true) {nx nz : ℕ}
    (hsz : SameSizes e nx nz) (φ : K → K → K → K → K × K) {p : ℕ} {s : K} (hr : Repeats e.grid p s) (hi : Invariant e φ s)
    {nslice mxg n r nc : ℕ} (hr1 : 1 ≤ r) (hc : 1 ≤ nc) {empty : JState K} {m : ODict (MapVal K)}
    (h : makeMaps e nslice mxg n r nc empty = .ok m) (j : ℕ) (hj : j + p < e.grid.ny) :
    PlanesAgree m m 1 1 e.isSlab nx nslice j (j + p) := by
  have hsame : Same e e φ φ 1 s 1 j (j + p) := by
    refine ⟨hi.same, hf, hf, ?_, by omega, hj, ?_⟩
    · intro k
      have := repeats_plane (e' := e) hg.length hg.pos hper rfl hr ((j : ℤ) + k)
      push_cast
      rwa [one_mul, show (j : ℤ) + (p : ℤ) + k = (j : ℤ) + k + p by ring]
    · intro q y q' y' h1 h2
      rw [h1] at h2
      injection h2 with h2
      injection h2 with h2 _
      injection h2 with h2
      subst h2
      exact ⟨rfl, rfl⟩
  obtain ⟨first, y0, _, h1, _⟩ := lookup_line h hf
  have := planes_agree hsame hg hg hr1 hc hc h h (plane_eq h1)
  rwa [(first_size hg hsz (plane_eq h1)).1] at this

/-- Planes at equal distances around the machine with one poloidal grid repeat themselves after any number of planes. -/
theorem repeats_equal (pol : MapPol K) (ny : ℕ) (h0 : 0 < ny) (y0 dy : K) (per : Bool) (nx nz p : ℕ) :
    Repeats (⟨(List.range ny).map fun _ => pol, (List.range ny).map fun i : ℕ => y0 + i * dy, ny * dy, per, nx, nz⟩ : Grid (MapPol K) K) p (p * dy) := by
  intro i hi
  simp only [Grid.ny, List.length_map, List.length_range] at hi ⊢
  have hm : (i + p) % ny < ny := Nat.mod_lt _ h0
  constructor
  · rw [List.getElem?_map, List.getElem?_map, List.getElem?_range hi, List.getElem?_range hm]
    rfl
  · have e1 := Nat.mod_add_div (i + p) ny
    have e1 : (((i + p) % ny : ℕ) : K) + (ny : K) * (((i + p) / ny : ℕ) : K) = (i : K) + p := by exact_mod_cast e1
    rw [List.getD_eq_getElem _ _ (by simpa using hm), List.getD_eq_getElem _ _ (by simpa using hi)]
    simp only [List.getElem_map, List.getElem_range]
    linear_combination dy * e1

theorem Invariant.mul {e : MmEnv K} {φ : K → K → K → K → K × K} {s : K} (h : Invariant e φ s) (k : ℕ) : Invariant e φ (k * s) := by
  induction k with
  | zero =>
    refine ⟨h.point, ?_, ?_, ?_, ?_⟩ <;> simp
  | succ k ih =>
    have e1 : ∀ y : K, ((k + 1 : ℕ) : K) * s + y = s + (k * s + y) := by intro y; push_cast; ring
    refine ⟨h.point, ?_, ?_, ?_, ?_⟩
    · intro R Z y y1
      rw [e1, e1, h.lines, ih.lines]
    · intro x y z
      rw [e1, h.outside, ih.outside]
    · intro x z y
      rw [e1, h.byfunc, ih.byfunc]
    · intro pts ys hl
      have := h.lengths pts (ys.map fun y => k * s + y) (by simpa using hl)
      rw [ih.lengths pts ys hl, List.map_map] at this
      rw [← this]
      congr 1
      refine List.map_congr_left fun y _ => ?_
      rw [e1]
      rfl

/-- **C237.** Axisymmetric: one poloidal grid, planes at equal distances, a field that does not change by turning it by this distance.  All planes
have the maps of the first, so tracing from one plane would be enough. -/
theorem C237_axisymmetric (e : MmEnv K) (hf : FollowOk e) (hg : GridOk e) (pol : MapPol K) (ny : ℕ) (y0 dy : K) {gx gz : ℕ}
    (hgrid : e.grid = ⟨(List.range ny).map fun _ => pol, (List.range ny).map fun i : ℕ => y0 + i * dy, ny * dy, true, gx, gz⟩)
    (φ : K → K → K → K → K × K) (hi : Invariant e φ dy)
    {nslice mxg n r nc : ℕ} (hr1 : 1 ≤ r) (hc : 1 ≤ nc) {empty : JState K} {m : ODict (MapVal K)}
    (h : makeMaps e nslice mxg n r nc empty = .ok m) (j : ℕ) (hj : j < ny) :
    PlanesAgree m m 1 1 e.isSlab pol.nx nslice 0 j := by
  have hny : e.grid.ny = ny := by rw [hgrid]; simp [Grid.ny]
  have hsz : SameSizes e pol.nx pol.nz := by
    intro p hp
    rw [hgrid] at hp
    simp only [List.mem_map] at hp
    obtain ⟨_, _, rfl⟩ := hp
    exact ⟨rfl, rfl⟩
  have hrep : Repeats e.grid j (j * dy) := by
    rw [hgrid]
    exact repeats_equal pol ny (by omega) y0 dy true gx gz j
  have := C237_symmetric e hf hg (by rw [hgrid]) hsz φ hrep (hi.mul j) hr1 hc h 0 (by rw [hny]; omega)
  rwa [zero_add] at this

/-- The example: field lines that climb by half the distance, on three planes. -/
example (empty : JState ℚ) : ∃ m, makeMaps (exMm [0, 1, 2] true false) 2 1 2 1 2 empty = .ok m ∧
    PlanesAgree m m 1 1 false 3 2 0 2 := by
  obtain ⟨m, h⟩ := exMm_succeeds [0, 1, 2] true false (by simp) 2 1 2 1 2 (by norm_num) (by norm_num) (by norm_num) empty
  refine ⟨m, h, ?_⟩
  refine C237_axisymmetric (exMm [0, 1, 2] true false) (exMm_follow _ _ _) (exMm_grid _ _ _ (by simp)) exMapPol 3 0 1 (gx := 3) (gz := 4)
    ?_ (fun R Z y y' => (R, Z + (y' - y) / 2)) ?_ (by norm_num) (by norm_num) h 2 (by norm_num)
  · simp [exMm, List.range_succ]
  · refine ⟨exMm_point _ _ _, ?_, ?_, ?_, ?_⟩
    · intro R Z y y1
      simp
    · intro x y z
      rfl
    · intro x z y
      rfl
    · intro pts ys _
      simp only [exMm]
      cases ys with
      | nil => rfl
      | cons a l =>
        simp only [List.map_cons, List.headD_cons, List.getLastD_cons]
        rw [getLastD_map' (fun y => (1 : ℚ) + y) l a]
        congr 1
        ring

/-! ## C238: the plane from which the planes are numbered -/

/-- The periodic grid with plane `p` of the old one as its plane 0. -/
def Grid.startAt {G : Type} (g : Grid G K) (p : ℕ) : Grid G K :=
  { g with
    polGrids := g.polGrids.drop p ++ g.polGrids.take p
    ycoords := g.ycoords.drop p ++ (g.ycoords.take p).map fun y => y + g.Ly }

theorem startAt_plane {e e' : MmEnv K} (hl : e.grid.polGrids.length = e.grid.ycoords.length) (h0 : 0 < e.grid.ycoords.length)
    (hp : e.grid.yperiodic = true) {p : ℕ} (hpl : p ≤ e.grid.ycoords.length) (he : e'.grid = e.grid.startAt p) (i : ℤ) :
    SamePlane e e' 1 0 (i + p) i := by
  have l1 : e'.grid.polGrids.length = e.grid.polGrids.length := by
    rw [he]; simp [Grid.startAt]; omega
  have l2 : e'.grid.ycoords.length = e.grid.ycoords.length := by
    rw [he]; simp [Grid.startAt]; omega
  have hp' : e'.grid.yperiodic = true := by rw [he]; exact hp
  have hL : e'.grid.Ly = e.grid.Ly := by rw [he]; rfl
  obtain ⟨r, k, hr, hi, hg⟩ := look_int e'.grid (by omega) (by omega) hp' i
  have hr0 : r < e.grid.ycoords.length := by omega
  by_cases hrp : r + p < e.grid.ycoords.length
  · have hg' := e.grid.getInt_periodic hl h0 hp (r + p) hrp k
    rw [show (((r + p : ℕ) : ℤ) + k * (e.grid.ycoords.length : ℤ)) = i + p by rw [hi, l2]; push_cast; ring] at hg'
    refine ⟨_, _, hg', ?_⟩
    rw [hg]
    have a1 : e'.grid.polGrids[r]? = e.grid.polGrids[r + p]? := by
      rw [he]
      simp only [Grid.startAt]
      rw [List.getElem?_append_left (by rw [List.length_drop]; omega), List.getElem?_drop, Nat.add_comm]
    have a2 : e'.grid.ycoords[r]? = e.grid.ycoords[r + p]? := by
      rw [he]
      simp only [Grid.startAt]
      rw [List.getElem?_append_left (by rw [List.length_drop]; omega), List.getElem?_drop, Nat.add_comm]
    rw [List.getElem?_eq_getElem (by omega), List.getElem?_eq_getElem (by omega)] at a1
    rw [List.getElem?_eq_getElem (by omega), List.getElem?_eq_getElem (by omega)] at a2
    injection a1 with a1
    injection a2 with a2
    rw [a1, a2, hL]
    congr 2
    push_cast
    ring
  · have hlt : r + p - e.grid.ycoords.length < e.grid.ycoords.length := by omega
    have hg' := e.grid.getInt_periodic hl h0 hp (r + p - e.grid.ycoords.length) hlt (k + 1)
    rw [show (((r + p - e.grid.ycoords.length : ℕ) : ℤ) + (k + 1) * (e.grid.ycoords.length : ℤ)) = i + p by
      rw [hi, l2]; push_cast [Nat.cast_sub (show e.grid.ycoords.length ≤ r + p by omega)]; ring] at hg'
    refine ⟨_, _, hg', ?_⟩
    rw [hg]
    have a1 : e'.grid.polGrids[r]? = e.grid.polGrids[r + p - e.grid.ycoords.length]? := by
      rw [he]
      simp only [Grid.startAt]
      rw [List.getElem?_append_right (by rw [List.length_drop]; omega), List.length_drop,
        show r - (e.grid.polGrids.length - p) = r + p - e.grid.ycoords.length by omega, List.getElem?_take, if_pos (by omega)]
    have a2 : e'.grid.ycoords[r]? = (e.grid.ycoords[r + p - e.grid.ycoords.length]?).map fun y => y + e.grid.Ly := by
      rw [he]
      simp only [Grid.startAt]
      rw [List.getElem?_append_right (by rw [List.length_drop]; omega), List.length_drop,
        show r - (e.grid.ycoords.length - p) = r + p - e.grid.ycoords.length by omega, List.getElem?_map, List.getElem?_take, if_pos (by omega)]
    rw [List.getElem?_eq_getElem (by omega), List.getElem?_eq_getElem (by omega)] at a1
    rw [List.getElem?_eq_getElem (by omega), List.getElem?_eq_getElem (by omega), Option.map_some] at a2
    injection a1 with a1
    injection a2 with a2
    rw [a1, a2, hL]
    congr 2
    push_cast
    ring

theorem zero_invariant {e : MmEnv K} {φ : K → K → K → K → K × K} (h : PointTracer e φ) : Invariant e φ 0 := by
  refine ⟨h, ?_, ?_, ?_, ?_⟩ <;> simp

/-- **C238.** The maps do not depend on the plane with which the numbering starts: with plane `p` of a periodic grid as plane 0, every array in
plane `j` is what it was in plane `j + p`, and for `j + p ≥ ny` in plane `j + p - ny`; for the latter the field must be periodic. -/
theorem C238_start (e : MmEnv K) (hf : FollowOk e) (hg : GridOk e) (hper : e.grid.yperiodic = true) {nx nz : ℕ}
    (hsz : SameSizes e nx nz) (φ : K → K → K → K → K × K) (hi : Invariant e φ e.grid.Ly) (p : ℕ) (hp : p ≤ e.grid.ny)
    {nslice mxg n r nc mxg' nc' : ℕ} (hr1 : 1 ≤ r) (hc : 1 ≤ nc) (hc' : 1 ≤ nc') {empty empty' : JState K} {m m' : ODict (MapVal K)}
    (h : makeMaps e nslice mxg n r nc empty = .ok m)
    (h' : makeMaps { e with grid := e.grid.startAt p } nslice mxg' n r nc' empty' = .ok m') (j : ℕ) (hj : j < e.grid.ny) :
    PlanesAgree m m' 1 1 e.isSlab nx nslice ((j + p) % e.grid.ny) j := by
  set e' : MmEnv K := { e with grid := e.grid.startAt p } with he'
  have l2 : e'.grid.ycoords.length = e.grid.ycoords.length := by
    unfold Grid.ny at hp
    simp [he', Grid.startAt]; omega
  have l1 : e'.grid.polGrids.length = e.grid.polGrids.length := by
    have := hg.length
    unfold Grid.ny at hp
    simp [he', Grid.startAt]; omega
  have hmem : ∀ q ∈ e'.grid.polGrids, q ∈ e.grid.polGrids := by
    intro q hq
    simp only [he', Grid.startAt, List.mem_append] at hq
    rcases hq with hq | hq
    · exact List.mem_of_mem_drop hq
    · exact List.mem_of_mem_take hq
  have hg' : GridOk e' := ⟨by rw [l1, l2]; exact hg.length, by rw [l2]; exact hg.pos, fun q hq => hg.perp q (hmem q hq)⟩
  have hf' : FollowOk e' := hf
  have hsz' : SameSizes e' nx nz := fun q hq => hsz q (hmem q hq)
  have hfirst : ∀ p y p' y', e.grid.getPoloidalGrid ((0 : ℕ) : K) = .ok (some p, y) →
      e'.grid.getPoloidalGrid ((0 : ℕ) : K) = .ok (some p', y') → p'.nx = p.nx ∧ p'.nz = p.nz := by
    intro q y q' y' h1 h2
    obtain ⟨u1, u2⟩ := first_size hg hsz h1
    obtain ⟨v1, v2⟩ := first_size hg' hsz' h2
    exact ⟨by rw [u1, v1], by rw [u2, v2]⟩
  have toE' : ∀ s, Invariant e φ s → SameField e e' φ φ 1 s 1 := by
    intro s hs
    have := hs.same
    exact ⟨this.sign, this.point, this.point, this.factor, this.lines, this.outside, this.byfunc, this.lengths, rfl, rfl, rfl⟩
  have hplane := startAt_plane (e := e) (e' := e') hg.length hg.pos hper hp rfl
  obtain ⟨first, y0, _, h1, _⟩ := lookup_line h hf
  have hny : e'.grid.ny = e.grid.ny := l2
  have hpos : 0 < e.grid.ny := hg.pos
  have main : ∃ s, Same e e' φ φ 1 s 1 ((j + p) % e.grid.ny) j := by
    by_cases hw : j + p < e.grid.ny
    · refine ⟨0, toE' 0 (zero_invariant hi.point), hf, hf', ?_, Nat.mod_lt _ hpos, by rw [hny]; exact hj, hfirst⟩
      intro k
      have := hplane ((j : ℤ) + k)
      rw [Nat.mod_eq_of_lt hw]
      push_cast
      rwa [one_mul, show (j : ℤ) + p + k = (j : ℤ) + k + p by ring]
    · have hm : (j + p) % e.grid.ny = j + p - e.grid.ny := by
        rcases Nat.lt_or_ge (j + p) (2 * e.grid.ny) with h2 | h2
        · rw [Nat.mod_eq_sub_mod (by omega), Nat.mod_eq_of_lt (by omega)]
        · omega
      refine ⟨e.grid.Ly, toE' _ hi, hf, hf', ?_, Nat.mod_lt _ hpos, by rw [hny]; exact hj, hfirst⟩
      intro k
      obtain ⟨q, y, g1, g2⟩ := hplane ((j : ℤ) + k)
      obtain ⟨r', k', hr', hi', g3⟩ := look_int e.grid hg.length hg.pos hper ((j : ℤ) + k + p)
      have g4 := e.grid.getInt_periodic hg.length hg.pos hper r' hr' (k' - 1)
      rw [g1] at g3
      injection g3 with g3
      injection g3 with g3 g3'
      subst g3 g3'
      refine ⟨some (e.grid.polGrids[r']'(by rw [hg.length]; exact hr')), e.grid.ycoords[r'] + ((k' - 1 : ℤ) : K) * e.grid.Ly, ?_, ?_⟩
      · rw [← g4]
        congr 2
        rw [hm]
        unfold Grid.ny at hw ⊢
        push_cast [Nat.cast_sub (show e.grid.ycoords.length ≤ j + p by omega)]
        linarith
      · rw [one_mul, g2]
        congr 2
        push_cast
        ring
  obtain ⟨s, hs⟩ := main
  have := planes_agree hs hg hg' hr1 hc hc' h h' (plane_eq h1)
  rwa [(first_size hg hsz (plane_eq h1)).1] at this

/-- The example, numbered from its second plane. -/
example (empty : JState ℚ) : ∃ m m', makeMaps (exMm [0, 1, 2] true false) 1 1 1 1 2 empty = .ok m ∧
    makeMaps (exMm [1, 2, 3] true false) 1 1 1 1 2 empty = .ok m' ∧ PlanesAgree m m' 1 1 false 3 1 0 2 := by
  obtain ⟨m, h⟩ := exMm_succeeds [0, 1, 2] true false (by simp) 1 1 1 1 2 (by norm_num) (by norm_num) (by norm_num) empty
  obtain ⟨m', h'⟩ := exMm_succeeds [1, 2, 3] true false (by simp) 1 1 1 1 2 (by norm_num) (by norm_num) (by norm_num) empty
  refine ⟨m, m', h, h', ?_⟩
  have he : ({ exMm [0, 1, 2] true false with grid := (exMm [0, 1, 2] true false).grid.startAt 1 } : MmEnv ℚ) = exMm [1, 2, 3] true false := by
    simp [exMm, Grid.startAt]
  refine C238_start (exMm [0, 1, 2] true false) (exMm_follow _ _ _) (exMm_grid _ _ _ (by simp)) rfl (nx := 3) (nz := 4) ?_
    (fun R Z y y' => (R, Z + (y' - y) / 2)) ?_ 1 (by decide) (nc' := 2) (by norm_num) (by norm_num) (by norm_num) h (he ▸ h') 2 (by decide)
  · intro p hp
    simp only [exMm, List.mem_map] at hp
    obtain ⟨_, _, rfl⟩ := hp
    exact ⟨rfl, rfl⟩
  · refine ⟨exMm_point _ _ _, ?_, fun _ _ _ => rfl, fun _ _ _ => rfl, ?_⟩
    · intro R Z y y1
      simp
    · intro pts ys _
      simp only [exMm]
      cases ys with
      | nil => rfl
      | cons a l =>
        simp only [List.map_cons, List.headD_cons, List.getLastD_cons]
        rw [getLastD_map' (fun y => (([0, 1, 2] : List ℚ).length : ℚ) + y) l a]
        congr 1
        ring

/-! ## C239: mirrored machines -/

/-- The grid seen in a mirror: the planes in the opposite order, at `s - y`. -/
def Grid.mirror {G : Type} (g : Grid G K) (s : K) : Grid G K :=
  { g with polGrids := g.polGrids.reverse, ycoords := (g.ycoords.map fun y => s - y).reverse }

theorem mirror_plane {e e' : MmEnv K} (hl : e.grid.polGrids.length = e.grid.ycoords.length) (h0 : 0 < e.grid.ycoords.length)
    {s : K} (hs : e.grid.yperiodic = false → s = e.grid.Ly) (he : e'.grid = e.grid.mirror s) (i : ℤ) :
    SamePlane e e' (-1) s i ((e.grid.ny : ℤ) - 1 - i) := by
  have l1 : e'.grid.polGrids.length = e.grid.polGrids.length := by
    rw [he]; simp [Grid.mirror]
  have l2 : e'.grid.ycoords.length = e.grid.ycoords.length := by
    rw [he]; simp [Grid.mirror]
  have hL : e'.grid.Ly = e.grid.Ly := by rw [he]; rfl
  have hp' : e'.grid.yperiodic = e.grid.yperiodic := by rw [he]; rfl
  have at1 : ∀ r (hr : r < e.grid.ycoords.length), e'.grid.polGrids[e.grid.ycoords.length - 1 - r]'(by omega) = e.grid.polGrids[r]'(by omega) := by
    intro r hr
    have : e'.grid.polGrids[e.grid.ycoords.length - 1 - r]? = e.grid.polGrids[r]? := by
      rw [he]
      simp only [Grid.mirror]
      rw [List.getElem?_reverse (by omega)]
      congr 1
      omega
    rw [List.getElem?_eq_getElem (by omega), List.getElem?_eq_getElem (by omega)] at this
    injection this
  have at2 : ∀ r (hr : r < e.grid.ycoords.length), e'.grid.ycoords[e.grid.ycoords.length - 1 - r]'(by omega) = s - e.grid.ycoords[r] := by
    intro r hr
    have : e'.grid.ycoords[e.grid.ycoords.length - 1 - r]? = (e.grid.ycoords[r]?).map fun y => s - y := by
      rw [he]
      simp only [Grid.mirror]
      rw [List.getElem?_reverse (by rw [List.length_map]; omega), List.getElem?_map]
      congr 2
      rw [List.length_map]
      omega
    rw [List.getElem?_eq_getElem (by omega), List.getElem?_eq_getElem (by omega), Option.map_some] at this
    injection this
  unfold Grid.ny
  cases hp : e.grid.yperiodic with
  | true =>
    obtain ⟨r, k, hr, hi, hg⟩ := look_int e.grid hl h0 hp i
    have hg' := e'.grid.getInt_periodic (by omega) (by omega) (by rw [hp', hp]) (e.grid.ycoords.length - 1 - r) (by omega) (-k)
    rw [show (((e.grid.ycoords.length - 1 - r : ℕ) : ℤ) + -k * (e'.grid.ycoords.length : ℤ)) = (e.grid.ycoords.length : ℤ) - 1 - i by
      rw [hi, l2]; push_cast [Nat.sub_sub, Nat.cast_sub (show 1 + r ≤ e.grid.ycoords.length by omega)]; ring] at hg'
    refine ⟨_, _, hg, ?_⟩
    rw [hg', at1 r hr, at2 r hr, hL]
    congr 2
    push_cast
    ring
  | false =>
    have hsL := hs hp
    unfold SamePlane
    rw [Grid.getPoloidalGrid_int, Grid.getPoloidalGrid_int]
    unfold Grid.getInt Grid.ny
    simp only [hp', hp, l2, hL, Bool.false_eq_true, if_false, pyInt_intCast]
    by_cases h1 : 0 ≤ i
    · by_cases h2 : i < (e.grid.ycoords.length : ℤ)
      · obtain ⟨r, rfl⟩ := Int.eq_ofNat_of_zero_le h1
        have hr : r < e.grid.ycoords.length := by exact_mod_cast h2
        have hi' : (e.grid.ycoords.length : ℤ) - 1 - (r : ℤ) = ((e.grid.ycoords.length - 1 - r : ℕ) : ℤ) := by
          push_cast [Nat.sub_sub, Nat.cast_sub (show 1 + r ≤ e.grid.ycoords.length by omega)]; ring
        rw [hi', if_pos ⟨by positivity, by exact_mod_cast hr⟩, if_pos ⟨by positivity, by
          have : e.grid.ycoords.length - 1 - r < e.grid.ycoords.length := by omega
          exact_mod_cast this⟩, Grid.at_lt _ hl r hr, Grid.at_lt _ (by omega) _ (by omega)]
        refine ⟨_, _, rfl, ?_⟩
        simp only [Except.map, at1 r hr, at2 r hr]
        congr 2
        push_cast
        ring
      · have g1 : ¬ (0 ≤ (i : K) ∧ (i : K) < (e.grid.ycoords.length : K)) := by
          rintro ⟨_, h⟩
          exact h2 (by exact_mod_cast h)
        have g2 : ¬ (i : K) < 0 := by
          intro h
          have : i < 0 := by exact_mod_cast h
          omega
        have g3 : ((((e.grid.ycoords.length : ℤ) - 1 - i : ℤ) : K)) < 0 := by
          have : (e.grid.ycoords.length : ℤ) - 1 - i < 0 := by omega
          exact_mod_cast this
        have g4 : ¬ (0 ≤ ((((e.grid.ycoords.length : ℤ) - 1 - i : ℤ) : K)) ∧
            ((((e.grid.ycoords.length : ℤ) - 1 - i : ℤ) : K)) < (e.grid.ycoords.length : K)) := fun h => absurd g3 (not_lt.2 h.1)
        rw [if_neg g1, if_neg g2, if_neg g4, if_pos g3]
        refine ⟨_, _, rfl, ?_⟩
        rw [hsL]
        congr 2
        push_cast
        ring
    · have g0 : (i : K) < 0 := by
        have : i < 0 := by omega
        exact_mod_cast this
      have g1 : ¬ (0 ≤ (i : K) ∧ (i : K) < (e.grid.ycoords.length : K)) := fun h => absurd g0 (not_lt.2 h.1)
      have g3 : ¬ ((((e.grid.ycoords.length : ℤ) - 1 - i : ℤ) : K)) < 0 := by
        intro h
        have : (e.grid.ycoords.length : ℤ) - 1 - i < 0 := by exact_mod_cast h
        omega
      have g4 : ¬ (0 ≤ ((((e.grid.ycoords.length : ℤ) - 1 - i : ℤ) : K)) ∧
          ((((e.grid.ycoords.length : ℤ) - 1 - i : ℤ) : K)) < (e.grid.ycoords.length : K)) := by
        rintro ⟨_, h⟩
        have : (e.grid.ycoords.length : ℤ) - 1 - i < (e.grid.ycoords.length : ℤ) := by exact_mod_cast h
        omega
      rw [if_neg g1, if_pos g0, if_neg g4, if_neg g3]
      refine ⟨_, _, rfl, ?_⟩
      rw [hsL]
      congr 2
      push_cast
      ring

/-- **C239.** In a mirror the directions change places: for the mirrored grid (planes in the opposite order, at `s - y`) and the mirrored field the maps
forward in plane `ny - 1 - j` are those backward in plane `j` and the other way round, the upper faces change places with the lower ones, and `J`
and the lengths stay; `By` is multiplied by the factor `c` with which it is mirrored.  Without periodicity `s` is the length of the domain. -/
theorem C239_mirror (e e' : MmEnv K) (hf : FollowOk e) (hf' : FollowOk e') (hg : GridOk e) {nx nz : ℕ} (hsz : SameSizes e nx nz)
    (φ φ' : K → K → K → K → K × K) {s c : K} (hs : e.grid.yperiodic = false → s = e.grid.Ly) (he : e'.grid = e.grid.mirror s)
    (hi : SameField e e' φ φ' (-1) s c) {nslice mxg n r nc mxg' nc' : ℕ} (hr1 : 1 ≤ r) (hc : 1 ≤ nc) (hc' : 1 ≤ nc')
    {empty empty' : JState K} {m m' : ODict (MapVal K)} (h : makeMaps e nslice mxg n r nc empty = .ok m)
    (h' : makeMaps e' nslice mxg' n r nc' empty' = .ok m') (j : ℕ) (hj : j < e.grid.ny) :
    PlanesAgree m m' (-1) c e.isSlab nx nslice j (e.grid.ny - 1 - j) := by
  have hmem : ∀ q ∈ e'.grid.polGrids, q ∈ e.grid.polGrids := by
    intro q hq
    rw [he] at hq
    simpa [Grid.mirror] using hq
  have l2 : e'.grid.ny = e.grid.ny := by
    rw [he]; simp [Grid.mirror, Grid.ny]
  have hg' : GridOk e' := by
    refine ⟨?_, ?_, fun q hq => hg.perp q (hmem q hq)⟩
    · rw [he]
      simpa [Grid.mirror] using hg.length
    · have := hg.pos
      rw [he]
      simpa [Grid.mirror] using this
  have hsz' : SameSizes e' nx nz := fun q hq => hsz q (hmem q hq)
  have hsame : Same e e' φ φ' (-1) s c j (e.grid.ny - 1 - j) := by
    refine ⟨hi, hf, hf', ?_, hj, by rw [l2]; omega, ?_⟩
    · intro k
      have := mirror_plane hg.length hg.pos hs he ((j : ℤ) + k)
      rwa [show ((e.grid.ny - 1 - j : ℕ) : ℤ) + -1 * k = (e.grid.ny : ℤ) - 1 - ((j : ℤ) + k) by
        push_cast [Nat.sub_sub, Nat.cast_sub (show 1 + j ≤ e.grid.ny by omega)]; ring]
    · intro q y q' y' h1 h2
      obtain ⟨u1, u2⟩ := first_size hg hsz h1
      obtain ⟨v1, v2⟩ := first_size hg' hsz' h2
      exact ⟨by rw [u1, v1], by rw [u2, v2]⟩
  obtain ⟨first, y0, _, h1, _⟩ := lookup_line h hf
  have := planes_agree hsame hg hg' hr1 hc hc' h h' (plane_eq h1)
  rwa [(first_size hg hsz (plane_eq h1)).1] at this

/-- The mirror of the example: field lines that descend, with the field in the opposite direction. -/
def exMirror (ys : List ℚ) (per slab : Bool) : MmEnv ℚ :=
  { exMm ys per slab with
    follow := fun _ _ R Z ys => ys.map fun y x z => (R x z, Z x z - (y - ys.headD 0) / 2)
    byfunc := fun x _ _ => -(2 + x) }

/-- Without periodicity, on two planes in a domain of length 2. -/
example (empty : JState ℚ) : ∃ m m', makeMaps (exMm [1 / 2, 1] false false) 1 1 1 1 2 empty = .ok m ∧
    makeMaps (exMirror [1, 3 / 2] false false) 1 1 1 1 2 empty = .ok m' ∧ PlanesAgree m m' (-1) (-1) false 3 1 0 1 := by
  obtain ⟨m, h⟩ := exMm_succeeds [1 / 2, 1] false false (by simp) 1 1 1 1 2 (by norm_num) (by norm_num) (by norm_num) empty
  have hg' : GridOk (exMirror [1, 3 / 2] false false) :=
    ⟨(exMm_grid [1, 3 / 2] false false (by simp)).length, (exMm_grid [1, 3 / 2] false false (by simp)).pos,
      (exMm_grid [1, 3 / 2] false false (by simp)).perp⟩
  have hf' : FollowOk (exMirror [1, 3 / 2] false false) := by
    intro n m R Z ys
    simp [exMirror]
  obtain ⟨m', h'⟩ := makeMaps_succeeds (exMirror [1, 3 / 2] false false) hf' hg' 1 1 1 1 2 (by norm_num)
    (exMm_gauss [1, 3 / 2] false false 1) (by norm_num) (by norm_num) empty
  refine ⟨m, m', h, h', ?_⟩
  refine C239_mirror (exMm [1 / 2, 1] false false) (exMirror [1, 3 / 2] false false) (exMm_follow _ _ _) hf' (exMm_grid _ _ _ (by simp))
    (nx := 3) (nz := 4) ?_ (fun R Z y y' => (R, Z + (y' - y) / 2)) (fun R Z y y' => (R, Z - (y' - y) / 2)) (s := 2) (c := -1) ?_ ?_ ?_
    (by norm_num) (by norm_num) (by norm_num) h h' 0 (by decide)
  · intro p hp
    simp only [exMm, List.mem_map] at hp
    obtain ⟨_, _, rfl⟩ := hp
    exact ⟨rfl, rfl⟩
  · intro _
    rfl
  · simp [exMirror, exMm, Grid.mirror]
    norm_num
  · refine ⟨Or.inr rfl, exMm_point _ _ _, ?_, by norm_num, ?_, fun _ _ _ => rfl, ?_, ?_, rfl, rfl, rfl⟩
    · intro n m R Z y ys
      rfl
    · intro R Z y y1
      simp only [Prod.mk.injEq, true_and]
      push_cast
      ring
    · intro x z y
      simp [exMirror, exMm]
    · intro pts ys _
      simp only [exMirror, exMm]
      rcases List.eq_nil_or_concat ys with rfl | ⟨l, b, rfl⟩
      · rfl
      · cases l with
        | nil => simp
        | cons a l =>
          simp only [List.concat_eq_append, List.cons_append, List.map_cons, List.map_append, List.map_nil, List.reverse_cons,
            List.reverse_append, List.reverse_nil, List.nil_append, List.headD_cons, List.getLastD_eq_getLast?]
          simp [List.getLast?_cons]
          congr 1
          ring

end Zoidberg
