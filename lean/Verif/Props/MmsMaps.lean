import Verif.Props.MapsConsistent

/-!
# C290: fields along y on structured grids, as those of the convergence tests
-/

set_option linter.unusedSectionVars false

namespace Zoidberg

variable {K : Type} [Field K] [LinearOrder K] [IsStrictOrderedRing K] [FloorRing K]

/-- One structured poloidal grid for all planes, a field without components in the plane, and no boundary but the grid. -/
structure StraightOn (e : MmEnvX K) (g : StrPol K) (nearest : K → K → ℕ) (tol : K) : Prop where
  lines : ∀ n m R Z ys, e.follow n m R Z ys = .ok (ys.map fun _ x z => (R x z, Z x z))
  inside : ∀ x y z, e.outside x y z = false
  pols : ∀ (k : ℤ) (p : MapPolX K) (y : K), e.grid.getPoloidalGrid (k : K) = .ok (some p, y) → p = g.mapPolX nearest tol

/-- **C290.**  The maps of a field along y on a structured grid: the positions are those of the grid points; the indices are those of the grid points in all rows but the first and
the last, where the x index is -1 and `nx`; planes that do not exist have the index -1. -/
theorem C290_maps (mk : MkSpline K) (hmk : mk.Exact) (area : List (K × K) → K) (nx nz : ℕ) (R Z : ℕ → ℕ → K) (g : StrPol K) (h : StrPol.init mk area nx nz R Z = .ok g)
    (nearest : K → K → ℕ) (hn : ∀ i < nx, ∀ j < nz, nearest (R i j) (Z i j) = i * nz + j) (tol : K) (ht : 0 < tol)
    (hreg : ∀ i < nx, ∀ j < nz, g.Regular (i : K) (j : K)) (e : MmEnvX K) (s : StraightOn e g nearest tol) (nslice mxg n r nc : ℕ) (empty : JState K) (m : ODict (MapVal K))
    (hm : makeMapsX e nslice mxg n r nc empty = .ok m) (d : ℤ) (hd0 : d ≠ 0) (hd : d.natAbs ≤ nslice) :
    ∃ R' Z' xt zt, m.get? (sliceName "R" d) = some (.f3 R') ∧ m.get? (sliceName "Z" d) = some (.f3 Z') ∧
      m.get? (sliceName "xt_prime" d) = some (.f3 xt) ∧ m.get? (sliceName "zt_prime" d) = some (.f3 zt) ∧
      ∀ j < e.grid.ny, ∀ x < nx, ∀ z < nz, R' (x, j, z) = R x z ∧ Z' (x, j, z) = Z x z ∧ ∀ t yt, e.grid.getPoloidalGrid ((j : K) + (d : K)) = .ok (t, yt) →
        xt (x, j, z) = (if t.isNone ∨ x = 0 then -1 else if x = nx - 1 then (nx : K) else x) ∧ zt (x, j, z) = if t.isNone then -1 else (z : K) := by
  have eg := StrPol.init_ok h
  have g1 : g.nx = nx := by rw [eg]
  have g2 : g.nz = nz := by rw [eg]
  have g3 : g.R = R := by rw [eg]
  have g4 : g.Z = Z := by rw [eg]
  obtain ⟨first, y0, h0, hall⟩ := C252_values e nslice mxg n r nc empty m hm
  have hm' := hall markerDefault
  have hfirst : first = g.mapPolX nearest tol := s.pols 0 first y0 (by simpa using h0)
  have hfx : first.nx = nx := by rw [hfirst]; exact g1
  have hfz : first.nz = nz := by rw [hfirst]; exact g2
  set e' := e.total markerDefault first.nx first.nz with he'
  have hpt : PointTracer e' fun x z _ _ => (x, z) := by
    intro n m R Z y ys
    change orDefault _ (e.follow n m R Z (y :: ys)) = _
    rw [s.lines]
    rfl
  have hf' : FollowOk e' := by
    intro n m R Z ys
    change (orDefault _ (e.follow n m R Z ys)).length = _
    rw [s.lines]
    simp [orDefault]
  obtain ⟨ho, hs⟩ := offsetsOf_int (K := K) nslice d hd0 hd
  obtain ⟨first', y0', smp, ps, h1, _, h3, h4, h5⟩ := makeMaps_slice hm' hf' hs ho
  have names : ∀ f ∈ sixFields, isHalfIndex (nm e' f (.int d)) = false := fun f hfm =>
    not_half_int e' f (six_no_l f hfm) d hd0
  refine ⟨ps.R, ps.Z, ps.xt, ps.zt, ?_, ?_, ?_, ?_, ?_⟩
  · rw [← nm_sliceName e' _ d hd0]
    exact h5 _ _ (by rw [← h3]; simp [entryList]) (names _ (by decide))
  · rw [← nm_sliceName e' _ d hd0]
    exact h5 _ _ (by rw [← h3]; simp [entryList]) (names _ (by decide))
  · rw [← nm_sliceName e' _ d hd0]
    exact h5 _ _ (by rw [← h3]; simp [entryList]) (names _ (by decide))
  · rw [← nm_sliceName e' _ d hd0]
    exact h5 _ _ (by rw [← h3]; simp [entryList]) (names _ (by decide))
  · intro j hj x hx z hz
    obtain ⟨coord, t, yt', yl, k1, k2, _, k4⟩ := filled_traced h1 ho (h4 j hj)
    have hov : (offsetValues nslice d.sign : List K)[d.natAbs]? = some (d : K) := by
      rw [← offsetValues_eq, List.getElem?_map, ho]; rfl
    obtain ⟨pol, y, t', yt2, q1, q2, q3⟩ := traced_point hpt k1 hov
    have hpol : pol.R = R ∧ pol.Z = Z := by
      change (e.grid.mapPol _).getPoloidalGrid _ = _ at q1
      rw [mapPol_get] at q1
      cases hq : e.grid.getPoloidalGrid (j : K) with
      | error er => rw [hq] at q1; cases q1
      | ok p =>
        obtain ⟨p1, p2⟩ := p
        rw [hq] at q1
        cases p1 with
        | none => injection q1 with q1; injection q1 with q1; cases q1
        | some p1 =>
          injection q1 with q1
          injection q1 with q1 _
          injection q1 with q1
          have := s.pols (j : ℤ) p1 p2 (by rw [Int.cast_natCast]; exact hq)
          rw [← q1, this]
          exact ⟨g3, g4⟩
    have hcoord : ∀ x z, coord x z = (R x z, Z x z) := fun x z => by rw [q3, hpol.1, hpol.2]
    obtain ⟨a1, a2, a3, a4⟩ := k4 x z
    refine ⟨by rw [a1, hcoord], by rw [a2, hcoord], fun t0 yt0 ht0 => ?_⟩
    have hv : (PyNum.int d : PyNum K).val = (d : K) := rfl
    change (e.grid.mapPol _).getPoloidalGrid _ = _ at k2
    rw [mapPol_get, hv, ht0] at k2
    injection k2 with k2
    injection k2 with k2 _
    rw [a3, a4]
    cases t0 with
    | none =>
      subst k2
      simp [indexOf]
    | some p =>
      have hp : p = g.mapPolX nearest tol := s.pols ((j : ℤ) + d) p yt0 (by push_cast; exact ht0)
      subst k2
      have hout : e'.outside (coord x z).1 yl (coord x z).2 = false := s.inside _ _ _
      have hfi : (p.total markerDefault first.nx first.nz).findIndex (fun x z => (coord x z).1) (fun x z => (coord x z).2) x z =
          (if x = 0 then -1 else if x = nx - 1 then (nx : K) else (x : K), (z : K)) := by
        change orDefault _ (p.findIndex first.nx first.nz _ _) x z = _
        have hR : (fun x z => (coord x z).1) = R := by funext x z; rw [hcoord]
        have hZ : (fun x z => (coord x z).2) = Z := by funext x z; rw [hcoord]
        rw [hR, hZ, hp, hfx, hfz]
        change orDefault _ (g.findArray nearest tol nx nz R Z) x z = _
        unfold StrPol.findArray
        have hnodes := nodes_found mk hmk area nx nz R Z g h nearest hn tol ht ((List.range nx).flatMap fun x => (List.range nz).map fun z => (x, z))
          (by
            intro hnil
            have := flat_getElem (fun x z => (x, z)) nx nz x z hx hz
            rw [hnil] at this
            cases this)
          (by
            intro q hq
            simp only [List.mem_flatMap, List.mem_map, List.mem_range] at hq
            obtain ⟨a, ha, b, hb, rfl⟩ := hq
            exact ⟨ha, hb⟩)
          (by
            intro q hq
            simp only [List.mem_flatMap, List.mem_map, List.mem_range] at hq
            obtain ⟨a, ha, b, hb, rfl⟩ := hq
            exact hreg a ha b hb)
        simp only [List.map_flatMap, List.map_map, Function.comp_def] at hnodes
        rw [g3, g4] at hnodes
        rw [hnodes]
        change (((List.range nx).flatMap fun x : ℕ => (List.range nz).map fun z : ℕ => ((if x = 0 then -1 else if x = nx - 1 then (nx : K) else (x : K)), (z : K))).getD (x * nz + z) (0, 0)) = _
        rw [List.getD_eq_getElem?_getD, flat_getElem (fun x z : ℕ => ((if x = 0 then -1 else if x = nx - 1 then (nx : K) else (x : K)), (z : K))) nx nz x z hx hz]
        rfl
      simp only [indexOf, indicesOf, Option.map_some, hout, hfi]
      simp

/-- **C290.**  A `Grid` that is given one poloidal grid, as in the convergence tests, has this grid on all its planes. -/
theorem C290_one_grid {G : Type} (size : G → ℕ × ℕ) (p : G) (ys : List K) (Ly : K) (per : Bool) (g : Grid G K) (hg : Grid.init size (.one p) ys Ly per = .ok g)
    (k : ℤ) (q : G) (y : K) (h : g.getPoloidalGrid (k : K) = .ok (some q, y)) : q = p := by
  have hg' : Grid.init size (.many (ys.map fun _ => p)) ys Ly per = .ok g := hg
  have hmem : ∀ (i : ℕ) (r : G), (ys.map fun _ => p)[i]? = some r → r = p := by
    intro i r hr
    obtain ⟨a, -, ha⟩ := List.mem_map.1 (List.mem_of_getElem? hr)
    exact ha.symm
  cases per with
  | true =>
    obtain ⟨_, _, _, _, _, h0⟩ := Grid.init_many hg'
    have hn : (0 : ℤ) < (ys.length : ℤ) := by exact_mod_cast h0
    obtain ⟨r, hr⟩ := Int.eq_ofNat_of_zero_le (Int.emod_nonneg k hn.ne')
    have hm1 := Int.emod_lt_of_pos k hn
    have hj : k = (r : ℤ) + (k / (ys.length : ℤ)) * (ys.length : ℤ) := by
      have := Int.emod_add_mul_ediv k (ys.length : ℤ)
      rw [hr] at this
      rw [mul_comm (k / _)]; exact this.symm
    obtain ⟨p', h1, h2⟩ := C19_periodic_lookup size _ _ Ly g hg' r (by omega) (k / (ys.length : ℤ))
    have hjK : (k : K) = (r : K) + ((k / (ys.length : ℤ) : ℤ) : K) * (ys.length : K) := by
      exact_mod_cast congrArg (Int.cast (R := K)) hj
    rw [← hjK, h] at h2
    injection h2 with h2
    injection h2 with h2 _
    injection h2 with h2
    rw [h2]
    exact hmem r p' h1
  | false =>
    obtain ⟨a1, a2, a3⟩ := C21_ends size _ _ Ly g hg'
    rcases lt_trichotomy k 0 with hk | hk | hk
    · rw [a2 k hk] at h; injection h with h; injection h with h; cases h
    all_goals
      rcases le_or_gt (ys.length : ℤ) k with hl | hl
      · rw [a3 k hl] at h; injection h with h; injection h with h; cases h
      · obtain ⟨i, rfl⟩ := Int.eq_ofNat_of_zero_le (by omega : 0 ≤ k)
        obtain ⟨p', b1, b2⟩ := a1 i (by exact_mod_cast hl)
        rw [Int.cast_natCast, b2] at h
        injection h with h
        injection h with h _
        injection h with h
        rw [← h]
        exact hmem i p' b1

theorem exConsistent_straight : StraightOn exConsistent exStr exNear (1 / 1000) where
  lines := fun _ _ _ _ _ => rfl
  inside := fun _ _ _ => rfl
  pols := by
    intro k p y h
    obtain ⟨q, h1, h2⟩ := C19_periodic_lookup (fun _ => (4, 3)) [exStr.mapPolX exNear (1 / 1000)] [0] (1 : ℚ) exConsistent.grid rfl 0 (by decide) k
    have hq : q = exStr.mapPolX exNear (1 / 1000) := by simpa using h1.symm
    have hk : ((0 : ℕ) : ℚ) + (k : ℚ) * (([0] : List ℚ).length : ℚ) = (k : ℚ) := by simp
    rw [hk, h] at h2
    injection h2 with h2
    injection h2 with h2 _
    injection h2 with h2
    rw [h2, hq]

/-- C290 for the grid `exStr` with one plane, for which `make_maps` returns (`exConsistent_returns`). -/
example (m : ODict (MapVal ℚ)) (hm : makeMapsX exConsistent 1 1 1 1 1 ⟨fun _ => 0, fun _ _ => 0, fun _ _ => 0⟩ = .ok m) := C290_maps exMk exMk_exact _ 4 3 _ _ exStr exStr_init exNear exNear_nodes (1 / 1000) (by norm_num)
  (fun i hi j hj => exStr_regular i hi j hj) exConsistent exConsistent_straight 1 1 1 1 1 _ m hm 1 (by decide) (by decide)

end Zoidberg
