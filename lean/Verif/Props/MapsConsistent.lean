import Verif.Model.PolMaps
import Verif.Props.MakeMapsExc
import Verif.Props.MakeMaps
import Verif.Props.FindIndex

/-!
# C256: the maps agree with the grids
-/

set_option linter.unusedSectionVars false

namespace Zoidberg

variable {K : Type} [Field K] [LinearOrder K] [IsStrictOrderedRing K] [FloorRing K]

/-- The poloidal grid `p` is one of `poloidal_grid.py`, with the coordinates `coordinate` at an index. -/
inductive KnownGrid (tol : K) : MapPolX K → (K → K → Except Err (K × K)) → Prop
  | rect (g : RectPol K) (hR : g.dR ≠ 0) (hZ : g.dZ ≠ 0) : KnownGrid tol g.mapPolX fun x z => g.getCoordinate x z 0 0
  | structured (g : StrPol K) (nearest : K → K → ℕ) (hn : ∀ R Z, nearest R Z < g.nx * g.nz) :
      KnownGrid tol (g.mapPolX nearest tol) fun x z => g.getCoordinate x z 0 0

theorem flat_getElem {A : Type} (f : ℕ → ℕ → A) (n m x z : ℕ) (hx : x < n) (hz : z < m) :
    ((List.range n).flatMap fun x => (List.range m).map fun z => f x z)[x * m + z]? = some (f x z) := by
  induction n generalizing x f with
  | zero => omega
  | succ n ih =>
    rw [List.range_succ_eq_map, List.flatMap_cons]
    cases x with
    | zero =>
      rw [Nat.zero_mul, Nat.zero_add, List.getElem?_append_left (by simpa using hz)]
      simp [hz]
    | succ x =>
      have hl : (x + 1) * m + z = m + (x * m + z) := by rw [Nat.succ_mul]; omega
      rw [hl, List.getElem?_append_right (by simp), List.length_map, List.length_range, Nat.add_sub_cancel_left, List.flatMap_map]
      exact ih (fun x z => f (x + 1) z) x (by omega)

/-- What is found is a marker or the index of the position. -/
theorem known_find (tol : K) (ht : 0 < tol) (p : MapPolX K) (coordinate : K → K → Except Err (K × K)) (hp : KnownGrid tol p coordinate) (n m : ℕ)
    (R Z : ℕ → ℕ → K) (f : ℕ → ℕ → K × K) (h : p.findIndex n m R Z = .ok f) (x z : ℕ) (hx : x < n) (hz : z < m) :
    (f x z).1 = -1 ∨ (f x z).1 = p.nx ∨
      ∃ R' Z', coordinate (f x z).1 (f x z).2 = .ok (R', Z') ∧ (R' - R x z) ^ 2 + (Z' - Z x z) ^ 2 < tol := by
  cases hp with
  | rect g hR hZ =>
    refine Or.inr (Or.inr ⟨R x z, Z x z, ?_, ?_⟩)
    · injection h with h
      rw [← h]
      have e1 : g.Rmin + (R x z - g.Rmin) / g.dR * g.dR = R x z := by field_simp; ring
      have e2 : g.Zmin + (Z x z - g.Zmin) / g.dZ * g.dZ = Z x z := by field_simp; ring
      simp [RectPol.getCoordinate, RectPol.findIndex, e1, e2]
    · simpa using ht
  | structured g nearest hn =>
    have h' : g.findArray nearest tol n m R Z = .ok f := h
    unfold StrPol.findArray at h'
    obtain ⟨l, h1, h2⟩ := map_ok h'
    obtain ⟨k1, k2⟩ := C47_converged g nearest hn tol 1000 _ l h1
    have hg := flat_getElem (fun x z => (R x z, Z x z)) n m x z hx hz
    obtain ⟨hi', he⟩ := List.getElem?_eq_some_iff.1 hg
    have hi : x * m + z < l.length := by rw [k1]; exact hi'
    obtain ⟨k3, k4⟩ := k2 _ hi hi'
    have hf : f x z = l[x * m + z] := by
      rw [← h2]
      simp [List.getD_eq_getElem?_getD, List.getElem?_eq_getElem hi]
    rw [hf]
    rcases k3 with k3 | k3 | k3
    · exact Or.inl k3
    · exact Or.inr (Or.inl k3)
    · right; right
      obtain ⟨R', Z', k5, k6⟩ := k4 k3.1 k3.2
      rw [he] at k6
      exact ⟨R', Z', k5, k6⟩

/-- Functions to use where the given ones raise exceptions: the index is the marker. -/
def markerDefault : MmDefault K :=
  ⟨fun _ _ _ _ ys => ys.map fun _ _ _ => (0, 0), fun _ _ _ _ => (-1, -1), fun _ _ _ => 0, fun _ _ => 0, fun _ => none⟩

/-- **C256.** If `make_maps` returns: for every slice, plane and grid point, the coordinates of the plane the slice leads to, at the index in
`xt_prime`, `zt_prime`, are those in `R`, `Z` of the slice, up to the tolerance of `findIndex`, unless the index is a marker for positions outside. -/
theorem C256_consistent (tol : K) (ht : 0 < tol) (e : MmEnvX K) (hf : ∀ n m R Z ys l, e.follow n m R Z ys = .ok l → l.length = ys.length)
    (nslice mxg n r nc : ℕ) (empty : JState K) (m : ODict (MapVal K)) (h : makeMapsX e nslice mxg n r nc empty = .ok m)
    (d : ℤ) (hd0 : d ≠ 0) (hd : d.natAbs ≤ nslice) :
    ∃ R Z xt zt first y0, m.get? (sliceName "R" d) = some (.f3 R) ∧ m.get? (sliceName "Z" d) = some (.f3 Z) ∧
      m.get? (sliceName "xt_prime" d) = some (.f3 xt) ∧ m.get? (sliceName "zt_prime" d) = some (.f3 zt) ∧
      e.grid.getPoloidalGrid ((0 : ℕ) : K) = .ok (some first, y0) ∧
      ∀ j < e.grid.ny, ∀ x < first.nx, ∀ z < first.nz, ∀ p yt, e.grid.getPoloidalGrid ((j : K) + (d : K)) = .ok (some p, yt) →
        ∀ coordinate, KnownGrid tol p coordinate →
          xt (x, j, z) = -1 ∨ xt (x, j, z) = p.nx ∨
            ∃ R' Z', coordinate (xt (x, j, z)) (zt (x, j, z)) = .ok (R', Z') ∧ (R' - R (x, j, z)) ^ 2 + (Z' - Z (x, j, z)) ^ 2 < tol := by
  obtain ⟨first, y0, h0, hall⟩ := C252_values e nslice mxg n r nc empty m h
  have hm := hall markerDefault
  set e' := e.total markerDefault first.nx first.nz with he'
  have hf' : FollowOk e' := by
    intro n m R Z ys
    change (orDefault _ (e.follow n m R Z ys)).length = _
    cases hc : e.follow n m R Z ys with
    | error err => simp [orDefault, markerDefault]
    | ok l => exact hf _ _ _ _ _ _ hc
  obtain ⟨ho, hs⟩ := offsetsOf_int (K := K) nslice d hd0 hd
  obtain ⟨first', y0', smp, ps, h1, _, h3, h4, h5⟩ := makeMaps_slice hm hf' hs ho
  have names : ∀ f ∈ sixFields, isHalfIndex (nm e' f (.int d)) = false := fun f hfm =>
    not_half_int e' f (six_no_l f hfm) d hd0
  refine ⟨ps.R, ps.Z, ps.xt, ps.zt, first, y0, ?_, ?_, ?_, ?_, h0, ?_⟩
  · rw [← nm_sliceName e' _ d hd0]
    exact h5 _ _ (by rw [← h3]; simp [entryList]) (names _ (by decide))
  · rw [← nm_sliceName e' _ d hd0]
    exact h5 _ _ (by rw [← h3]; simp [entryList]) (names _ (by decide))
  · rw [← nm_sliceName e' _ d hd0]
    exact h5 _ _ (by rw [← h3]; simp [entryList]) (names _ (by decide))
  · rw [← nm_sliceName e' _ d hd0]
    exact h5 _ _ (by rw [← h3]; simp [entryList]) (names _ (by decide))
  · intro j hj x hx z hz p yt hp coordinate hk
    obtain ⟨coord, t, yt', yl, _, k2, _, k4⟩ := filled_traced h1 ho (h4 j hj)
    obtain ⟨a1, a2, a3, a4⟩ := k4 x z
    have hg : e'.grid.getPoloidalGrid ((j : K) + (d : K)) = .ok (some (p.total markerDefault first.nx first.nz), yt) := by
      change (e.grid.mapPol _).getPoloidalGrid _ = _
      rw [mapPol_get, hp]
      rfl
    have hv : (PyNum.int d : PyNum K).val = (d : K) := rfl
    rw [hv, hg] at k2
    injection k2 with k2
    injection k2 with k2 _
    subst k2
    rw [a1, a2, a3, a4]
    unfold indexOf indicesOf
    simp only
    by_cases hout : e'.outside (coord x z).1 yl (coord x z).2 = true
    · rw [if_pos hout]; exact Or.inl rfl
    · rw [if_neg hout]
      change (orDefault _ (p.findIndex first.nx first.nz _ _) x z).1 = -1 ∨ _
      have hfi : (p.total markerDefault first.nx first.nz).findIndex (fun x z => (coord x z).1) (fun x z => (coord x z).2) x z =
        orDefault (fun _ _ => (-1, -1)) (p.findIndex first.nx first.nz (fun x z => (coord x z).1) fun x z => (coord x z).2) x z := rfl
      rw [hfi]
      cases hc : p.findIndex first.nx first.nz (fun x z => (coord x z).1) (fun x z => (coord x z).2) with
      | error err => exact Or.inl rfl
      | ok f => exact known_find tol ht p coordinate hk first.nx first.nz _ _ f hc x z hx hz

/-- One plane with a structured grid of four by three points on a torus; the tracer gives the start points. -/
def exConsistent : MmEnvX ℚ where
  grid := ⟨[exStr.mapPolX exNear (1 / 1000)], [0], 1, true, 4, 3⟩
  follow := fun _ _ R Z ys => .ok (ys.map fun _ x z => (R x z, Z x z))
  outside := fun _ _ _ => false
  byfunc := .ok fun _ _ _ => 1
  isSlab := true
  lineLength := fun _ => .ok fun _ => 1
  gauss := fun _ => []
  sqrt := id
  repr := fun _ => ""

/-- `make_maps` returns for it, so that C256 says something. -/
theorem exConsistent_returns : (makeMapsX exConsistent 1 1 1 1 1 ⟨fun _ => 0, fun _ _ => 0, fun _ _ => 0⟩).toBool = true := by
  decide +kernel

/-- The indices of a point of an inner row and of one of the last row. -/
example : (match makeMapsX exConsistent 1 1 1 1 1 ⟨fun _ => 0, fun _ _ => 0, fun _ _ => 0⟩ with
    | .ok m => match m.get? "forward_xt_prime", m.get? "forward_zt_prime" with
      | some (.f3 x), some (.f3 z) => decide (x (1, 0, 2) = 1 ∧ z (1, 0, 2) = 2 ∧ x (3, 0, 1) = 4)
      | _, _ => false
    | .error _ => false) = true := by
  decide +kernel

/-- C256 for this grid. -/
example : ∃ m R Z xt zt, makeMapsX exConsistent 1 1 1 1 1 ⟨fun _ => 0, fun _ _ => 0, fun _ _ => 0⟩ = .ok m ∧
    m.get? (sliceName "R" 1) = some (.f3 R) ∧ m.get? (sliceName "Z" 1) = some (.f3 Z) ∧
    m.get? (sliceName "xt_prime" 1) = some (.f3 xt) ∧ m.get? (sliceName "zt_prime" 1) = some (.f3 zt) ∧
    ∀ x < 4, ∀ z < 3, xt (x, 0, z) = -1 ∨ xt (x, 0, z) = 4 ∨
      ∃ R' Z', exStr.getCoordinate (xt (x, 0, z)) (zt (x, 0, z)) 0 0 = .ok (R', Z') ∧ (R' - R (x, 0, z)) ^ 2 + (Z' - Z (x, 0, z)) ^ 2 < 1 / 1000 := by
  have hr := exConsistent_returns
  cases hm : makeMapsX exConsistent 1 1 1 1 1 ⟨fun _ => 0, fun _ _ => 0, fun _ _ => 0⟩ with
  | error err => rw [hm] at hr; cases hr
  | ok m =>
    obtain ⟨R, Z, xt, zt, first, y0, h1, h2, h3, h4, h5, h6⟩ := C256_consistent (1 / 1000) (by norm_num) exConsistent
      (by
        intro n m R Z ys l h
        injection h with h
        rw [← h, List.length_map]) 1 1 1 1 1 _ m hm 1 (by decide) (by decide)
    refine ⟨m, R, Z, xt, zt, rfl, h1, h2, h3, h4, fun x hx z hz => ?_⟩
    have g0 := Grid.getInt_periodic exConsistent.grid rfl (by decide) rfl 0 (by decide) 0
    have g1 := Grid.getInt_periodic exConsistent.grid rfl (by decide) rfl 0 (by decide) 1
    have g0' : exConsistent.grid.getPoloidalGrid ((0 : ℕ) : ℚ) = .ok (some (exStr.mapPolX exNear (1 / 1000)), (0 : ℚ) + ((0 : ℤ) : ℚ) * 1) := by
      rw [show ((0 : ℕ) : ℚ) = ((((0 : ℕ) : ℤ) + 0 * (exConsistent.grid.ycoords.length : ℤ) : ℤ) : ℚ) from by simp]
      exact g0
    rw [g0'] at h5
    injection h5 with h5
    injection h5 with h5 _
    injection h5 with h5
    subst h5
    refine h6 0 (by decide) x hx z hz _ ((0 : ℚ) + ((1 : ℤ) : ℚ) * 1) ?_ _ (.structured exStr exNear exNear_lt)
    rw [show ((0 : ℕ) : ℚ) + ((1 : ℤ) : ℚ) = ((((0 : ℕ) : ℤ) + 1 * (exConsistent.grid.ycoords.length : ℤ) : ℤ) : ℚ) from by simp [exConsistent]]
    exact g1

end Zoidberg
