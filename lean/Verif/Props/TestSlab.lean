import Verif.Model.TestSlab
import Verif.Props.EndToEnd
import Verif.Props.GridMetric

/-!
# C286: the maps of a slab on a rectangular grid, for all slices, and what `test_make_maps_slab` accepts
-/

set_option linter.unusedSectionVars false

namespace Zoidberg

variable {K : Type} [Field K] [LinearOrder K] [IsStrictOrderedRing K] [FloorRing K]

/-- A slab on the grid made by `rectangular_grid`, with exact field lines and without boundary. -/
structure RectSlab (e : MmEnv K) (g : RectPol K) (ny : ℕ) (Ly : K) (per : Bool) (By Bz xcentre Bzprime : K) : Prop where
  grid : ∃ size, rectangularGrid size g.mapPol ny Ly per = .ok e.grid
  follow : FollowOk e
  lines : PointTracer e (slabLine By Bz xcentre Bzprime)
  inside : ∀ x y z, e.outside x y z = false
  dR : g.dR ≠ 0
  dZ : g.dZ ≠ 0

variable {e : MmEnv K} {g : RectPol K} {ny : ℕ} {Ly : K} {per : Bool} {By Bz xc Bzp : K}

/-- All planes of a rectangular grid: every whole number if it is periodic, otherwise those from 0 to `ny - 1`. -/
theorem RectSlab.planes (s : RectSlab e g ny Ly per By Bz xc Bzp) (k : ℤ) :
    (per = true ∨ 0 ≤ k ∧ k < ny → e.grid.getPoloidalGrid (k : K) = .ok (some g.mapPol, (if per then 0 else Ly / (2 * ny)) + k * (Ly / ny))) ∧
    (¬ (per = true ∨ 0 ≤ k ∧ k < ny) → ∃ y, e.grid.getPoloidalGrid (k : K) = .ok (none, y)) := by
  obtain ⟨size, hg⟩ := s.grid
  have hg' := rectangularGrid_many size g.mapPol ny Ly per e.grid hg
  have hlen := rectangularY_length ny Ly per
  cases per with
  | true =>
    refine ⟨fun _ => ?_, fun h => absurd (Or.inl rfl) h⟩
    obtain ⟨_, _, _, _, _, h0⟩ := Grid.init_many hg'
    rw [hlen] at h0
    have hny : (ny : K) ≠ 0 := by exact_mod_cast (by omega : ny ≠ 0)
    have hn : (0 : ℤ) < (ny : ℤ) := by exact_mod_cast h0
    obtain ⟨r, hr⟩ := Int.eq_ofNat_of_zero_le (Int.emod_nonneg k hn.ne')
    have hm1 := Int.emod_lt_of_pos k hn
    have hj : k = (r : ℤ) + (k / (ny : ℤ)) * (ny : ℤ) := by
      have := Int.emod_add_mul_ediv k (ny : ℤ)
      rw [hr] at this
      rw [mul_comm (k / _)]; exact this.symm
    have hrl : r < ny := by omega
    obtain ⟨p, h1, h2⟩ := C19_periodic_lookup size _ _ Ly e.grid hg' r (by omega) (k / (ny : ℤ))
    have : p = g.mapPol := by
      rw [List.getElem?_replicate, if_pos hrl] at h1; exact (Option.some.inj h1).symm
    subst this
    have hjK : (k : K) = (r : K) + ((k / (ny : ℤ) : ℤ) : K) * (ny : K) := by
      exact_mod_cast congrArg (Int.cast (R := K)) hj
    rw [hlen, ← hjK, rectangularY_getD ny Ly true r hrl] at h2
    rw [h2]
    congr 2
    rw [hjK]
    simp
    field_simp
  | false =>
    obtain ⟨a1, a2, a3⟩ := C21_ends size _ _ Ly e.grid hg'
    rw [hlen] at a1 a3
    refine ⟨fun h => ?_, fun h => ?_⟩
    · obtain ⟨h1, h2⟩ : 0 ≤ k ∧ k < ny := by simpa using h
      obtain ⟨i, rfl⟩ := Int.eq_ofNat_of_zero_le h1
      have hi : i < ny := by exact_mod_cast h2
      obtain ⟨p, b1, b2⟩ := a1 i hi
      have : p = g.mapPol := by
        rw [List.getElem?_replicate, if_pos hi] at b1; exact (Option.some.inj b1).symm
      subst this
      rw [Int.cast_natCast, b2, rectangularY_getD ny Ly false i hi]
    · have : k < 0 ∨ (ny : ℤ) ≤ k := by
        simp only [Bool.false_eq_true, false_or, not_and, not_lt] at h
        by_cases hk : k < 0
        · exact Or.inl hk
        · exact Or.inr (h (by omega))
      rcases this with h | h
      · exact ⟨0, a2 k h⟩
      · exact ⟨Ly, a3 k h⟩

/-- **C286.** The maps of a slab on a rectangular grid: where the plane `j + d` exists, x is the same and z is shifted by slope times distance, in
cells; elsewhere both indices are -1. -/
theorem C286_maps (s : RectSlab e g ny Ly per By Bz xc Bzp) (hny : e.grid.ny = ny) (nslice mxg n r nc : ℕ) (empty : JState K) (m : ODict (MapVal K))
    (h : makeMaps e nslice mxg n r nc empty = .ok m) (d : ℤ) (hd0 : d ≠ 0) (hd : d.natAbs ≤ nslice) :
    ∃ xt zt, m.get? (sliceName "xt_prime" d) = some (.f3 xt) ∧ m.get? (sliceName "zt_prime" d) = some (.f3 zt) ∧ ∀ x j z, j < ny →
      (per = true ∨ 0 ≤ (j : ℤ) + d ∧ (j : ℤ) + d < ny → xt (x, j, z) = x ∧ zt (x, j, z) = z + slabShift g By Bz xc Bzp x (d * (Ly / ny))) ∧
      (¬ (per = true ∨ 0 ≤ (j : ℤ) + d ∧ (j : ℤ) + d < ny) → xt (x, j, z) = -1 ∧ zt (x, j, z) = -1) := by
  obtain ⟨R, Z, xt, zt, _, _, i3, i4, i5⟩ := C32_slice_index e s.follow (fun x y y' z => by rw [s.inside, s.inside]) nslice mxg n r nc empty m h d hd0 hd
  refine ⟨xt, zt, i3, i4, fun x j z hj => ?_⟩
  obtain ⟨coord, target, yt, k1, k2, k3⟩ := i5 j (by rw [hny]; exact hj)
  obtain ⟨ho, hs⟩ := offsetsOf_int (K := K) nslice d hd0 hd
  have hov : (offsetValues nslice d.sign : List K)[d.natAbs]? = some (d : K) := by
    rw [← offsetValues_eq, List.getElem?_map, ho]; rfl
  obtain ⟨pol, y, t, yt', q1, q2, q3⟩ := traced_point s.lines k1 hov
  have hq := q2.symm.trans k2
  injection hq with hq
  injection hq with ha hb
  subst ha hb
  have p1 := (s.planes (j : ℤ)).1 (Or.inr ⟨by omega, by exact_mod_cast hj⟩)
  rw [Int.cast_natCast, q1] at p1
  injection p1 with p1
  injection p1 with p1 p2
  injection p1 with p1
  subst p1 p2
  have p3 := s.planes ((j : ℤ) + d)
  push_cast at p3
  rw [q2] at p3
  obtain ⟨_, _, c1, c2, c3⟩ := k3 x z
  constructor
  · intro hin
    have p4 := p3.1 hin
    injection p4 with p4
    injection p4 with p4 p5
    subst p4 p5
    have h3 := c3 g.mapPol rfl (s.inside _ _ _)
    have h1 := congrArg Prod.fst h3
    have h2 := congrArg Prod.snd h3
    simp only [q3, slabLine, RectPol.mapPol, RectPol.pol, RectPol.findIndex] at h1 h2
    have hR := s.dR
    have hZ := s.dZ
    rw [h1, h2]
    constructor
    · field_simp
      ring
    · unfold slabShift
      field_simp
      ring
  · intro hout
    obtain ⟨y', p4⟩ := p3.2 hout
    injection p4 with p4
    injection p4 with p4 p5
    exact c1 p4

/-- **C286.** All maps of a slab are the identity exactly if the field has no z component on any x of the grid (or there is no pair of planes). -/
theorem C286_identity (s : RectSlab e g ny Ly per By Bz xc Bzp) (hny : e.grid.ny = ny) (hLy : Ly ≠ 0) (hBy : By ≠ 0) (nslice mxg n r nc : ℕ) (hs : 1 ≤ nslice) (h2 : 2 ≤ ny)
    (empty : JState K) (m : ODict (MapVal K)) (h : makeMaps e nslice mxg n r nc empty = .ok m) (x : ℕ) :
    (∀ d : ℤ, d ≠ 0 → d.natAbs ≤ nslice → ∀ xt zt, m.get? (sliceName "xt_prime" d) = some (.f3 xt) → m.get? (sliceName "zt_prime" d) = some (.f3 zt) →
      ∀ j z, j < ny → (per = true ∨ 0 ≤ (j : ℤ) + d ∧ (j : ℤ) + d < ny) → xt (x, j, z) = x ∧ zt (x, j, z) = z) ↔
    Bz + (g.Rmin + (x : K) * g.dR - xc) * Bzp = 0 := by
  have hnyK : (ny : K) ≠ 0 := by exact_mod_cast (by omega : ny ≠ 0)
  constructor
  · intro hall
    obtain ⟨xt, zt, a1, a2, a3⟩ := C286_maps s hny nslice mxg n r nc empty m h 1 (by norm_num) (by simpa using hs)
    have b1 := (a3 x 0 0 (by omega)).1 (Or.inr ⟨by norm_num, by push_cast; omega⟩)
    have b2 := hall 1 (by norm_num) (by simpa using hs) xt zt a1 a2 0 0 (by omega) (Or.inr ⟨by norm_num, by push_cast; omega⟩)
    have b3 : slabShift g By Bz xc Bzp x ((1 : ℤ) * (Ly / ny)) = 0 := by
      have := b1.2.symm.trans b2.2
      simpa using this
    unfold slabShift at b3
    have hZ := s.dZ
    simp only [div_eq_zero_iff, mul_eq_zero, hZ, hBy, hLy, hnyK, or_false, Int.cast_one, one_ne_zero] at b3
    exact b3
  · intro h0 d hd0 hd xt zt a1 a2 j z hj hp
    obtain ⟨xt', zt', b1, b2, b3⟩ := C286_maps s hny nslice mxg n r nc empty m h d hd0 hd
    have e1 : xt' = xt := by
      have := b1.symm.trans a1
      injection this with this
      injection this
    have e2 : zt' = zt := by
      have := b2.symm.trans a2
      injection this with this
      injection this
    subst e1 e2
    obtain ⟨c1, c2⟩ := (b3 x j z hj).1 hp
    refine ⟨c1, ?_⟩
    rw [c2]
    unfold slabShift
    rw [h0]
    simp

theorem slab_isClose_self (a : K) : isClose a a := by
  unfold isClose
  rw [sub_self, abs_zero]
  positivity

theorem slabTest_interior (d : ℤ) (j : ℕ) : j ∈ slabTestInterior ny d ↔ j < ny ∧ 0 ≤ (j : ℤ) + d ∧ (j : ℤ) + d < ny := by
  unfold slabTestInterior
  split
  · rw [List.mem_range]
    omega
  · rw [List.mem_drop_iff_getElem]
    constructor
    · rintro ⟨i, hi, rfl⟩
      rw [List.getElem_range]
      simp at hi
      omega
    · rintro ⟨h1, h2, h3⟩
      exact ⟨j - d.natAbs, by simp; omega, by rw [List.getElem_range]; omega⟩

theorem slabTest_ends (d : ℤ) (j : ℕ) : j ∈ slabTestEnds ny d ↔ j < ny ∧ ¬ (0 ≤ (j : ℤ) + d ∧ (j : ℤ) + d < ny) := by
  unfold slabTestEnds
  split
  · rw [List.mem_drop_iff_getElem]
    constructor
    · rintro ⟨i, hi, rfl⟩
      rw [List.getElem_range]
      simp at hi
      omega
    · rintro ⟨h1, h2⟩
      exact ⟨j - (ny - d.natAbs), by simp; omega, by rw [List.getElem_range]; omega⟩
  · rw [List.mem_take_iff_getElem]
    constructor
    · rintro ⟨i, hi, rfl⟩
      rw [List.getElem_range]
      simp at hi
      omega
    · rintro ⟨h1, h2⟩
      exact ⟨j, by simp; omega, by rw [List.getElem_range]⟩

theorem mem_slabTestOffsets (nslice : ℕ) (d : ℤ) : d ∈ slabTestOffsets nslice ↔ d ≠ 0 ∧ d.natAbs ≤ nslice := by
  unfold slabTestOffsets
  rw [List.mem_append, List.mem_map, List.mem_map]
  constructor
  · rintro (⟨i, hi, rfl⟩ | ⟨i, hi, rfl⟩) <;> rw [List.mem_range] at hi <;> omega
  · rintro ⟨h1, h2⟩
    rcases lt_or_gt_of_ne h1 with h | h
    · exact Or.inr ⟨d.natAbs - 1, List.mem_range.2 (by omega), by omega⟩
    · exact Or.inl ⟨d.natAbs - 1, List.mem_range.2 (by omega), by omega⟩

theorem slabShift_mul (x : ℕ) (a b : K) : slabShift g By Bz xc Bzp x (a * b) = a * slabShift g By Bz xc Bzp x b := by
  unfold slabShift
  ring

/-- **C286.** `test_make_maps_slab`, for the maps that `make_maps` returns for a slab on an open rectangular grid: the assertions hold exactly if the field
lines move by at most 1e-8 cells in z over the planes of every slice. -/
theorem C286_test (s : RectSlab e g ny Ly false By Bz xc Bzp) (hny : e.grid.ny = ny) (nx nz nslice mxg n r nc : ℕ) (hz : 0 < nz)
    (empty : JState K) (m : ODict (MapVal K)) (h : makeMaps e nslice mxg n r nc empty = .ok m) :
    slabTest e.repr nx ny nz nslice m = true ↔
      ∀ x < nx, ∀ k, 1 ≤ k → k ≤ nslice → k < ny → |slabShift g By Bz xc Bzp x (k * (Ly / ny))| ≤ 1 / 10 ^ 8 := by
  have name : ∀ (f : String) (d : ℤ), d ≠ 0 → parallelSliceFieldName e.repr f (.int d) = .ok (sliceName f d) := by
    intro f d hd
    rw [← nm_sliceName e f d hd]
    exact nm_eq e f _ (Or.inl ⟨d, hd, rfl⟩)
  have close : ∀ a b : K, 0 ≤ b → (isClose (b + a) b ↔ |a| ≤ 1 / 10 ^ 8 + 1 / 10 ^ 5 * b) := by
    intro a b hb
    unfold isClose
    rw [add_sub_cancel_left, abs_of_nonneg hb]
  have abs_eq : ∀ (x : ℕ) (d : ℤ), |slabShift g By Bz xc Bzp x (d * (Ly / ny))| = |slabShift g By Bz xc Bzp x ((d.natAbs : ℕ) * (Ly / ny))| := by
    intro x d
    rw [slabShift_mul, slabShift_mul, abs_mul, abs_mul, Nat.abs_cast]
    congr 1
    rw [← Int.cast_abs, Int.abs_eq_natAbs, Int.cast_natCast]
  unfold slabTest
  simp only [List.all_cons, List.all_nil, Bool.and_true, Bool.and_eq_true, List.all_eq_true]
  constructor
  · rintro ⟨_, h2⟩ x hx k hk1 hk2 hk3
    have h3 := h2 (k : ℤ) ((mem_slabTestOffsets nslice _).2 ⟨by omega, by simpa using hk2⟩)
    rw [name _ _ (by omega)] at h3
    obtain ⟨xt, zt, a1, a2, a3⟩ := C286_maps s hny nslice mxg n r nc empty m h (k : ℤ) (by omega) (by simpa using hk2)
    simp only [slabTestVar, a2, Bool.and_eq_true, List.all_eq_true, List.mem_range, decide_eq_true_eq] at h3
    have h4 := h3.1 0 ((slabTest_interior (k : ℤ) 0).2 ⟨by omega, by omega, by push_cast; omega⟩) x hx 0 hz
    rw [((a3 x 0 0 (by omega)).1 (Or.inr ⟨by omega, by push_cast; omega⟩)).2, close _ _ (by simp)] at h4
    simpa using h4
  · intro hall
    refine ⟨fun d hd => ?_, fun d hd => ?_⟩
    all_goals
      obtain ⟨hd0, hd1⟩ := (mem_slabTestOffsets nslice d).1 hd
      rw [name _ _ hd0]
      obtain ⟨xt, zt, a1, a2, a3⟩ := C286_maps s hny nslice mxg n r nc empty m h d hd0 hd1
      simp only [slabTestVar, a1, a2, Bool.and_eq_true, List.all_eq_true, List.mem_range, decide_eq_true_eq]
      refine ⟨fun j hj x hx z hz => ?_, fun j hj x hx z hz => ?_⟩
    · have hj' := (slabTest_interior d j).1 hj
      rw [((a3 x j z hj'.1).1 (Or.inr hj'.2)).1]
      exact slab_isClose_self _
    · have hj' := (slabTest_ends d j).1 hj
      rw [((a3 x j z hj'.1).2 (by simpa using hj'.2)).1]
      exact slab_isClose_self _
    · have hj' := (slabTest_interior d j).1 hj
      rw [((a3 x j z hj'.1).1 (Or.inr hj'.2)).2, close _ _ (by positivity), abs_eq]
      have := hall x hx d.natAbs (by omega) hd1 (by omega)
      have hz0 : (0 : K) ≤ 1 / 10 ^ 5 * (z : K) := by positivity
      linarith
    · have hj' := (slabTest_ends d j).1 hj
      rw [((a3 x j z hj'.1).2 (by simpa using hj'.2)).2]
      exact slab_isClose_self _

/-! ### Examples -/

/-- One point in x, four in z, two planes in an open grid of length 2; field lines go up by `b` cells per unit of y. -/
def openMm (b : ℚ) : MmEnv ℚ := { slabMm b with grid := ⟨[slabPol.mapPol, slabPol.mapPol], [1 / 2, 3 / 2], 2, false, 1, 4⟩ }

theorem openMm_slab (b : ℚ) : RectSlab (openMm b) slabPol 2 2 false 1 b 0 0 where
  grid := by
    refine ⟨fun p => (p.nx, p.nz), ?_⟩
    simp only [rectangularGrid, Grid.init, rectangularY, List.range, List.range.loop, openMm]
    norm_num [slabPol, RectPol.mapPol, RectPol.pol]
  follow := by intro n m R Z ys; simp [openMm, slabMm]
  lines := by intro n m R Z y ys; rfl
  inside := fun _ _ _ => rfl
  dR := by norm_num [slabPol]
  dZ := by norm_num [slabPol]

theorem openMm_maps (b : ℚ) (nslice : ℕ) : ∃ m, makeMaps (openMm b) nslice 0 1 1 1 ⟨fun _ => 0, fun _ _ => 0, fun _ _ => 0⟩ = .ok m := by
  refine makeMaps_succeeds (openMm b) (openMm_slab b).follow ⟨rfl, by simp [openMm], ?_⟩ nslice 0 1 1 1 le_rfl (fun h => absurd h (by norm_num)) le_rfl le_rfl _
  intro p hp
  have : p = slabPol.mapPol := by simpa [openMm] using hp
  subst this
  exact ⟨fun _ _ => 1, fun _ _ => 1, fun _ _ => 0, rfl, rfl, rfl⟩

/-- The test passes for a straight field, and not for one that goes up by one cell in a thousand metres. -/
example : (∃ m, makeMaps (openMm 0) 2 0 1 1 1 ⟨fun _ => 0, fun _ _ => 0, fun _ _ => 0⟩ = .ok m ∧ slabTest (openMm 0).repr 1 2 4 2 m = true) ∧
    ∃ m, makeMaps (openMm (1 / 1000)) 2 0 1 1 1 ⟨fun _ => 0, fun _ _ => 0, fun _ _ => 0⟩ = .ok m ∧ slabTest (openMm (1 / 1000)).repr 1 2 4 2 m = false := by
  constructor
  · obtain ⟨m, h⟩ := openMm_maps 0 2
    refine ⟨m, h, (C286_test (openMm_slab 0) rfl 1 4 2 0 1 1 1 (by norm_num) _ m h).2 ?_⟩
    intro x _ k _ _ _
    simp [slabShift]
  · obtain ⟨m, h⟩ := openMm_maps (1 / 1000) 2
    refine ⟨m, h, ?_⟩
    rw [← Bool.not_eq_true, C286_test (openMm_slab (1 / 1000)) rfl 1 4 2 0 1 1 1 (by norm_num) _ m h]
    intro hall
    have := hall 0 (by norm_num) 1 le_rfl (by norm_num) (by norm_num)
    norm_num [slabShift, slabPol] at this

end Zoidberg
