import Verif.Props.MakeMaps
import Verif.Props.MakeMapsExample
import Verif.Props.Grid

/-!
# C248, C249: the y at which the boundary is asked, and y indices that are whole up to rounding
-/

set_option linter.unusedSectionVars false

namespace Zoidberg

variable {K : Type} [Field K] [LinearOrder K] [IsStrictOrderedRing K] [FloorRing K]

/-! ### C248 -/

/-- The y that is left over when the targets of a plane have been looked up is that of the farthest one. -/
theorem filled_last {e : MmEnv K} {first : MapPol K} {y0 : K}
    (h0 : e.plane 0 = .ok (first, y0)) {smp : Option (List (K × K × K))} {ns nslice : ℕ} {dir : ℤ}
    {j i : ℕ} {ps : PSlice K} {o o' : PyNum K} (ho : (offsetsOf nslice dir)[i]? = some o) (ho' : (offsetsOf nslice dir)[nslice]? = some o')
    (h : Filled e first.nx first.nz smp ns (offsetsOf nslice dir) j i ps) :
    ∃ coord t yt t' yl, TracedTo e (offsetValues nslice dir) j i coord ∧
      e.grid.getPoloidalGrid ((j : K) + o.val) = .ok (t, yt) ∧
      e.grid.getPoloidalGrid ((j : K) + o'.val) = .ok (t', yl) ∧
      ∀ x z, ps.R (x, j, z) = (coord x z).1 ∧ ps.Z (x, j, z) = (coord x z).2 ∧
        ps.xt (x, j, z) = (indexOf e yl t coord x z).1 ∧
        ps.zt (x, j, z) = (indexOf e yl t coord x z).2 := by
  obtain ⟨pol, y, targets, coord, t, g1, g2, g3, g4, g5, _, _⟩ := h
  obtain ⟨b, hb1, hb2⟩ := mapM_getElem? g2 i o ho
  rw [g4] at hb1
  injection hb1 with hb1
  subst hb1
  obtain ⟨l, hl1, hl2⟩ := mapM_getElem? g2 nslice o' ho'
  have hlen := mapM_length g2
  have hlast : (targets.map (·.2)).getLastD y = l.2 := by
    have hl : (targets.map (·.2)).length = nslice + 1 := by
      rw [List.length_map, hlen, length_offsetsOf]
    have hg : (targets.map (·.2))[nslice]? = some l.2 := by rw [List.getElem?_map, hl1]; rfl
    rw [List.getLastD_eq_getLast?, List.getLast?_eq_getElem?, hl, Nat.add_sub_cancel, hg]
    rfl
  rw [hlast] at g5
  refine ⟨coord, t.1, t.2, l.1, l.2, ?_, hb2, hl2, g5⟩
  refine ⟨first, y0, pol, y, targets.map (·.2), plane_eq h0, plane_eq g1, ?_, ?_, g3⟩
  · rw [← offsetValues_eq]; simp [hlen]
  · intro k o' hk
    rw [← offsetValues_eq, List.getElem?_map] at hk
    obtain ⟨o'', ho1, ho2⟩ := Option.map_eq_some_iff.1 hk
    subst ho2
    obtain ⟨b, hb1, hb2⟩ := mapM_getElem? g2 k o'' ho1
    exact ⟨b.1, b.2, hb2, by rw [List.getElem?_map, hb1]; rfl⟩

/-- The indices of slice `d` in plane `j` are those of the ends `coord` of the field lines in the plane `target`, where those outside the boundary at `yb`
are -1. -/
def IndexedAt (e : MmEnv K) (xt zt : Cell → K) (j : ℕ) (coord : ℕ → ℕ → K × K) (target : Option (MapPol K)) (yb : K) : Prop :=
  ∀ x z, (xt (x, j, z), zt (x, j, z)) = match target with
    | none => (-1, -1)
    | some p => if e.outside (coord x z).1 yb (coord x z).2 then (-1, -1)
      else p.findIndex (fun x z => (coord x z).1) (fun x z => (coord x z).2) x z

/-- **C248**, what the code does: all slices of a direction are compared with the boundary at the y of the farthest of them. -/
theorem C248_actual (e : MmEnv K) (hf : FollowOk e) (nslice mxg n r nc : ℕ) (empty : JState K)
    (m : ODict (MapVal K)) (h : makeMaps e nslice mxg n r nc empty = .ok m)
    (d : ℤ) (hd0 : d ≠ 0) (hd : d.natAbs ≤ nslice) :
    ∃ xt zt, m.get? (sliceName "xt_prime" d) = some (.f3 xt) ∧ m.get? (sliceName "zt_prime" d) = some (.f3 zt) ∧
      ∀ j < e.grid.ny, ∃ coord target yt far yfar,
        TracedTo e (offsetValues nslice d.sign) j d.natAbs coord ∧
        e.grid.getPoloidalGrid ((j : K) + (d : K)) = .ok (target, yt) ∧
        e.grid.getPoloidalGrid ((j : K) + ((d.sign * (nslice : ℤ) : ℤ) : K)) = .ok (far, yfar) ∧ IndexedAt e xt zt j coord target yfar := by
  obtain ⟨ho, hs⟩ := offsetsOf_int (K := K) nslice d hd0 hd
  have hn0 : 0 < nslice := by omega
  have hfar0 : d.sign * (nslice : ℤ) ≠ 0 := by
    rcases hs with hs | hs <;> rw [hs] <;> omega
  have hfarn : (d.sign * (nslice : ℤ)).natAbs = nslice := by
    rcases hs with hs | hs <;> rw [hs] <;> omega
  have hfars : (d.sign * (nslice : ℤ)).sign = d.sign := by
    have : ((nslice : ℤ)).sign = 1 := Int.sign_eq_one_of_pos (by omega)
    rw [Int.sign_mul, this, mul_one]
    rcases hs with hs | hs <;> rw [hs] <;> rfl
  obtain ⟨ho', -⟩ := offsetsOf_int (K := K) nslice (d.sign * (nslice : ℤ)) hfar0 hfarn.le
  rw [hfars, hfarn] at ho'
  obtain ⟨first, y0, smp, ps, h1, _, h3, h4, h5⟩ := makeMaps_slice h hf hs ho
  have names : ∀ f ∈ sixFields, isHalfIndex (nm e f (.int d)) = false := fun f hfm =>
    not_half_int e f (six_no_l f hfm) d hd0
  refine ⟨ps.xt, ps.zt, ?_, ?_, ?_⟩
  · rw [← nm_sliceName e _ d hd0]
    exact h5 _ _ (by rw [← h3]; simp [entryList]) (names _ (by decide))
  · rw [← nm_sliceName e _ d hd0]
    exact h5 _ _ (by rw [← h3]; simp [entryList]) (names _ (by decide))
  · intro j hj
    obtain ⟨coord, t, yt, t', yl, k1, k2, k3, k4⟩ := filled_last h1 ho ho' (h4 j hj)
    refine ⟨coord, t, yt, t', yl, k1, k2, k3, ?_⟩
    intro x z
    obtain ⟨_, _, a3, a4⟩ := k4 x z
    rw [a3, a4]
    cases t with
    | none => rfl
    | some p => rfl

/-- All slices are compared with the boundary at their own y. -/
def OwnY (e : MmEnv K) (nslice : ℕ) (m : ODict (MapVal K)) : Prop :=
  ∀ d : ℤ, d ≠ 0 → d.natAbs ≤ nslice → ∃ xt zt, m.get? (sliceName "xt_prime" d) = some (.f3 xt) ∧ m.get? (sliceName "zt_prime" d) = some (.f3 zt) ∧
      ∀ j < e.grid.ny, ∃ coord target yt, TracedTo e (offsetValues nslice d.sign) j d.natAbs coord ∧
        e.grid.getPoloidalGrid ((j : K) + (d : K)) = .ok (target, yt) ∧ IndexedAt e xt zt j coord target yt

/-- **C248 (partial).** It is so with one slice in each direction, or if the boundary does not depend on y.  Missing: the others (`C248_fails`). -/
theorem C248_own_partial (e : MmEnv K) (hf : FollowOk e) (nslice mxg n r nc : ℕ) (empty : JState K)
    (m : ODict (MapVal K)) (h : makeMaps e nslice mxg n r nc empty = .ok m)
    (hc : nslice ≤ 1 ∨ ∀ x y y' z, e.outside x y z = e.outside x y' z) : OwnY e nslice m := by
  intro d hd0 hd
  obtain ⟨xt, zt, h1, h2, h3⟩ := C248_actual e hf nslice mxg n r nc empty m h d hd0 hd
  refine ⟨xt, zt, h1, h2, fun j hj => ?_⟩
  obtain ⟨coord, target, yt, far, yfar, k1, k2, k3, k4⟩ := h3 j hj
  refine ⟨coord, target, yt, k1, k2, ?_⟩
  rcases hc with hc | hc
  · have : d.sign * (nslice : ℤ) = d := by
      have h5 := Int.sign_mul_natAbs d
      have : d.natAbs = nslice := by omega
      rw [this] at h5
      exact h5
    rw [this, k2] at k3
    injection k3 with k3
    injection k3 with _ k3
    rw [k3]
    exact k4
  · intro x z
    rw [k4 x z]
    cases target with
    | none => rfl
    | some p => rw [hc _ yfar yt]

/-- The example of `exMm` with a wall across the field lines at `y = 3/2`. -/
def wallMm : MmEnv ℚ := { exMm [0, 1, 2] false false with outside := fun _ y _ => decide (3 / 2 < y) }

theorem wallMm_plane (j : ℕ) (hj : j < 3) : wallMm.grid.getPoloidalGrid (j : ℚ) = .ok (some exMapPol, (j : ℚ)) := by
  have hny : wallMm.grid.ny = 3 := rfl
  have h := Grid.getPoloidalGrid_int wallMm.grid (j : ℤ)
  push_cast at h
  rw [h]
  unfold Grid.getInt
  have hp : pyInt (j : ℚ) = (j : ℤ) := by
    have := pyInt_intCast (K := ℚ) (j : ℤ)
    push_cast at this
    exact this
  rw [if_pos ⟨Nat.cast_nonneg _, by rw [hny]; exact_mod_cast hj⟩, hp,
    Grid.at_lt wallMm.grid rfl j hj]
  interval_cases j <;> rfl

/-- **C248 (refutation).** For every number of slices above one there is a boundary for which the adjacent slice is wrong. -/
theorem C248_fails (nslice : ℕ) (hn : 2 ≤ nslice) (mxg n r nc : ℕ) (empty : JState ℚ) (m : ODict (MapVal ℚ))
    (h : makeMaps wallMm nslice mxg n r nc empty = .ok m) : ¬ OwnY wallMm nslice m := by
  intro hown
  have hf : FollowOk wallMm := exMm_follow [0, 1, 2] false false
  obtain ⟨xt, zt, h1, h2, h3⟩ := C248_actual wallMm hf nslice mxg n r nc empty m h 1 (by decide) (by simp; omega)
  obtain ⟨xt', zt', h1', h2', h3'⟩ := hown 1 (by decide) (by simp; omega)
  rw [h1] at h1'
  injection h1' with h1'
  injection h1' with h1'
  rw [h2] at h2'
  injection h2' with h2'
  injection h2' with h2'
  subst h1' h2'
  obtain ⟨coord, target, yt, far, yfar, -, k2, k3, k4⟩ := h3 0 (by decide)
  obtain ⟨coord', target', yt', t1, t2, t3⟩ := h3' 0 (by decide)
  have hpl : wallMm.grid.getPoloidalGrid (((0 : ℕ) : ℚ) + ((1 : ℤ) : ℚ)) = .ok (some exMapPol, 1) := by
    have := wallMm_plane 1 (by norm_num)
    simpa using this
  rw [hpl] at k2 t2
  injection k2 with k2
  injection k2 with k2 k2'
  injection t2 with t2
  injection t2 with t2 t2'
  subst k2 t2 k2' t2'
  have hy : 3 / 2 < yfar := by
    have e : (((0 : ℕ) : ℚ) + (((1 : ℤ).sign * (nslice : ℤ) : ℤ) : ℚ)) = (nslice : ℚ) := by simp
    rw [e] at k3
    rcases Nat.lt_or_ge nslice 3 with hlt | hge
    · have : nslice = 2 := by omega
      subst this
      rw [wallMm_plane 2 (by norm_num)] at k3
      injection k3 with k3
      injection k3 with _ k3
      rw [← k3]; norm_num
    · have hint := Grid.getPoloidalGrid_int wallMm.grid (nslice : ℤ)
      push_cast at hint
      rw [hint] at k3
      unfold Grid.getInt at k3
      have c1 : ¬ (0 ≤ (nslice : ℚ) ∧ (nslice : ℚ) < ((wallMm.grid.ny : ℕ) : ℚ)) := by
        have : wallMm.grid.ny = 3 := rfl
        rw [this]
        rintro ⟨-, h⟩
        have : nslice < 3 := by exact_mod_cast h
        omega
      have c2 : ¬ ((nslice : ℚ) < 0) := by
        have : (0 : ℚ) ≤ nslice := Nat.cast_nonneg _
        linarith
      have c3 : wallMm.grid.yperiodic = false := rfl
      simp only [c1, c2, c3, if_false, Bool.false_eq_true] at k3
      injection k3 with k3
      injection k3 with _ k3
      rw [← k3]
      have : wallMm.grid.Ly = 3 := by norm_num [wallMm, exMm]
      rw [this]; norm_num
  have e1 := k4 0 0
  have e2 := t3 0 0
  have o1 : wallMm.outside (coord 0 0).1 yfar (coord 0 0).2 = true := by simp [wallMm, hy]
  have o2 : wallMm.outside (coord' 0 0).1 1 (coord' 0 0).2 = false := by
    simp only [wallMm, decide_eq_false_iff_not]; norm_num
  simp only [o1, if_true] at e1
  simp only [o2, Bool.false_eq_true, if_false] at e2
  rw [e1] at e2
  obtain ⟨pol, y, t, yt, g1, g2, g3⟩ := traced_point (φ := fun R Z y y' => (R, Z + (y' - y) / 2)) (e := wallMm) (by
    intro n m R Z y ys
    simp [wallMm, exMm]) t1 (o := 1) (by
    obtain ⟨k, rfl⟩ : ∃ k, nslice = k + 1 := ⟨nslice - 1, by omega⟩
    simp [offsetValues, List.range_succ_eq_map])
  rw [wallMm_plane 0 (by norm_num)] at g1
  injection g1 with g1
  injection g1 with g1 _
  injection g1 with g1
  subst g1
  have e3 := congrArg Prod.fst e2
  simp only [exMapPol, g3] at e3
  norm_num at e3

/-- `make_maps` succeeds for this boundary. -/
theorem wallMm_succeeds (nslice mxg n r nc : ℕ) (hn : 1 ≤ n) (hr : 1 ≤ r) (hc : 1 ≤ nc) (empty : JState ℚ) :
    ∃ m, makeMaps wallMm nslice mxg n r nc empty = .ok m := by
  have hg : GridOk wallMm := by
    obtain ⟨g1, g2, g3⟩ := exMm_grid [0, 1, 2] false false (by decide)
    exact ⟨g1, g2, g3⟩
  have hq := exMm_gauss [0, 1, 2] false false n
  exact makeMaps_succeeds wallMm (exMm_follow [0, 1, 2] false false) hg nslice mxg n r nc hn hq hr hc empty

example (empty : JState ℚ) : ∃ m, makeMaps wallMm 2 1 2 1 3 empty = .ok m ∧ ¬ OwnY wallMm 2 m := by
  obtain ⟨m, h⟩ := wallMm_succeeds 2 1 2 1 3 (by norm_num) (by norm_num) (by norm_num) empty
  exact ⟨m, h, C248_fails 2 le_rfl 1 2 1 3 empty m h⟩

example (empty : JState ℚ) : ∃ m, makeMaps wallMm 1 1 2 1 3 empty = .ok m ∧ OwnY wallMm 1 m := by
  obtain ⟨m, h⟩ := wallMm_succeeds 1 1 2 1 3 (by norm_num) (by norm_num) (by norm_num) empty
  exact ⟨m, h, C248_own_partial wallMm (exMm_follow [0, 1, 2] false false) 1 1 2 1 3 empty m h (Or.inl le_rfl)⟩

/-! ### C249 -/

theorem pyInt_near_up {j : ℤ} {ε : K} (h0 : 0 < ε) (h1 : ε ≤ 1 / 10 ^ 6) : pyInt ((j : K) + ε) = if 0 ≤ j then j else j + 1 := by
  have hb : (1 : K) / 10 ^ 6 < 1 := by norm_num
  unfold pyInt
  by_cases hj : 0 ≤ j
  · have : (0 : K) ≤ (j : K) := by exact_mod_cast hj
    rw [if_pos hj, if_pos (by linarith), Int.floor_eq_iff]
    constructor <;> linarith
  · have : (j : K) ≤ -1 := by
      have : j ≤ -1 := by omega
      exact_mod_cast this
    rw [if_neg hj, if_neg (by linarith), Int.ceil_eq_iff]
    push_cast
    constructor <;> linarith

theorem pyInt_near_down {j : ℤ} {ε : K} (h0 : ε < 0) (h1 : -(1 / 10 ^ 6) ≤ ε) : pyInt ((j : K) + ε) = if 0 < j then j - 1 else j := by
  have hb : (1 : K) / 10 ^ 6 < 1 := by norm_num
  unfold pyInt
  by_cases hj : 0 < j
  · have : (1 : K) ≤ (j : K) := by
      have : 1 ≤ j := by omega
      exact_mod_cast this
    rw [if_pos hj, if_pos (by linarith), Int.floor_eq_iff]
    push_cast
    constructor <;> linarith
  · have : (j : K) ≤ 0 := by
      have : j ≤ 0 := by omega
      exact_mod_cast this
    rw [if_neg hj, if_neg (by linarith), Int.ceil_eq_iff]
    constructor <;> linarith

/-- The lookup of an index that is not taken to be whole returns no grid. -/
theorem fractional_none {G : Type} (g : Grid G K) (y : K) (h : |((pyInt y : ℤ) : K) - y| > 1 / 10 ^ 6) (p : G) (v : K) :
    g.getPoloidalGrid y ≠ .ok (some p, v) := by
  unfold Grid.getPoloidalGrid
  rw [if_pos h]
  dsimp only
  split <;> simp

/-- The number of periods of an index just below or above a whole number. -/
theorem floor_near (j : ℤ) (ε : K) (ny : ℕ) :
    (0 ≤ ε → ε < 1 → ⌊((j : K) + ε) / (ny : K)⌋ = j / (ny : ℤ)) ∧
    (ε < 0 → -1 ≤ ε → ⌊((j : K) + ε) / (ny : K)⌋ = (j - 1) / (ny : ℤ)) := by
  rw [Int.floor_div_natCast]
  constructor
  · intro h0 h1
    have : ⌊(j : K) + ε⌋ = j := by rw [Int.floor_eq_iff]; constructor <;> linarith
    rw [this]
  · intro h0 h1
    have : ⌊(j : K) + ε⌋ = j - 1 := by rw [Int.floor_eq_iff]; push_cast; constructor <;> linarith
    rw [this]

theorem ediv_pred (j : ℤ) (ny : ℕ) (hn : 0 < ny) : (j - 1) / (ny : ℤ) = if (ny : ℤ) ∣ j then j / (ny : ℤ) - 1 else j / (ny : ℤ) := by
  have hn' : (0 : ℤ) < (ny : ℤ) := by exact_mod_cast hn
  have h1 := Int.emod_add_mul_ediv j (ny : ℤ)
  have h2 := Int.emod_nonneg j hn'.ne'
  have h3 := Int.emod_lt_of_pos j hn'
  split_ifs with hd
  · have : j % (ny : ℤ) = 0 := Int.emod_eq_zero_of_dvd hd
    rw [Int.ediv_eq_iff_of_pos hn']
    constructor <;> nlinarith
  · have : j % (ny : ℤ) ≠ 0 := fun h => hd (Int.dvd_of_emod_eq_zero h)
    rw [Int.ediv_eq_iff_of_pos hn']
    constructor <;> nlinarith [lt_of_le_of_ne h2 (Ne.symm this)]

/-- **C249**, exactly when: an index that differs from a whole number by at most `1e-6`, which is taken to be whole, gives what this number gives. -/
theorem C249_iff {G : Type} (size : G → ℕ × ℕ) (l : List G) (ys : List K) (Ly : K) (g : Grid G K)
    (hg : Grid.init size (.many l) ys Ly true = .ok g) (hLy : Ly ≠ 0) (j : ℤ) (ε : K) (hε : |ε| ≤ 1 / 10 ^ 6) :
    g.getPoloidalGrid ((j : K) + ε) = g.getPoloidalGrid (j : K) ↔
      ε = 0 ∨ (0 < ε ∧ 0 ≤ j) ∨ (ε < 0 ∧ j < 0 ∧ ¬ (ys.length : ℤ) ∣ j) := by
  obtain ⟨rfl, rfl, rfl, hp, hl, h0⟩ := Grid.init_many hg
  have hn : (0 : ℤ) < (g.ycoords.length : ℤ) := by exact_mod_cast h0
  have hb : (1 : K) / 10 ^ 6 < 1 / 2 := by norm_num
  obtain ⟨hε1, hε2⟩ := abs_le.1 hε
  -- the lookup at a whole index
  have whole : ∃ p y, g.at (pyMod j g.ycoords.length) = .ok (p, y) ∧ g.getPoloidalGrid (j : K) = .ok (some p, y + ((j / (g.ycoords.length : ℤ) : ℤ) : K) * g.Ly) := by
    have hm0 := Int.emod_nonneg j hn.ne'
    have hm1 := Int.emod_lt_of_pos j hn
    obtain ⟨r, hr⟩ := Int.eq_ofNat_of_zero_le hm0
    have hrl : r < g.ycoords.length := by omega
    have h1 := Grid.getInt_periodic g hl h0 hp r hrl (j / (g.ycoords.length : ℤ))
    have h2 : (r : ℤ) + j / (g.ycoords.length : ℤ) * (g.ycoords.length : ℤ) = j := by
      have := Int.emod_add_mul_ediv j (g.ycoords.length : ℤ)
      rw [hr] at this
      rw [mul_comm (j / _)]; exact this
    rw [h2] at h1
    refine ⟨_, _, ?_, h1⟩
    unfold pyMod
    rw [hr]
    exact Grid.at_lt g hl r hrl
  obtain ⟨p, y, hat, hw⟩ := whole
  -- the lookup at an index that is taken to be whole
  have near : ∀ q : ℤ, |((pyInt ((j : K) + ε) : ℤ) : K) - ((j : K) + ε)| ≤ 1 / 10 ^ 6 → pyInt ((j : K) + ε) = j →
      ⌊((j : K) + ε) / (g.ycoords.length : K)⌋ = q → (0 ≤ (j : K) + ε ∧ (j : K) + ε < (g.ycoords.length : K) → q = 0 ∧ j % (g.ycoords.length : ℤ) = j) →
      g.getPoloidalGrid ((j : K) + ε) = .ok (some p, y + (q : K) * g.Ly) := by
    intro q h1 h2 h3 h4
    unfold Grid.getPoloidalGrid
    rw [if_neg (not_lt.2 h1)]
    unfold Grid.getInt
    rw [h2]
    simp only [Grid.ny, hp, if_true]
    rw [h3]
    split_ifs with hc
    · obtain ⟨h5, h6⟩ := h4 hc
      unfold pyMod at hat
      rw [h6] at hat
      rw [hat, h5]
      simp [Except.map]
    · rw [hat]
      simp [Except.map]
  rcases lt_trichotomy ε 0 with hneg | hzero | hpos
  · have hi := pyInt_near_down (j := j) hneg hε1
    have hfl := (floor_near j ε g.ycoords.length).2 hneg (by linarith)
    rw [ediv_pred j _ h0] at hfl
    by_cases hj : 0 < j
    · rw [if_pos hj] at hi
      have : g.getPoloidalGrid ((j : K) + ε) ≠ g.getPoloidalGrid (j : K) := by
        rw [hw]
        apply fractional_none
        rw [hi]
        push_cast
        rw [show (j : K) - 1 - ((j : K) + ε) = -(1 + ε) by ring, abs_neg, abs_of_pos (by linarith)]
        linarith
      simp only [this, false_iff]
      rintro (h | h | h)
      · linarith
      · linarith [h.1]
      · omega
    · rw [if_neg hj] at hi
      have hval := near _ (by
        rw [hi, show (j : K) - ((j : K) + ε) = -ε by ring, abs_neg]; exact hε) hi hfl (by
          rintro ⟨h1, _⟩
          have : (j : K) ≤ 0 := by
            have : j ≤ 0 := by omega
            exact_mod_cast this
          linarith)
      rw [hval, hw]
      split_ifs with hd
      · constructor
        · intro h
          injection h with h
          injection h with _ h
          push_cast at h
          exfalso
          apply hLy
          linear_combination -h
        · rintro (h | h | h)
          · linarith
          · linarith [h.1]
          · exact absurd hd h.2.2
      · simp only [true_iff]
        refine Or.inr (Or.inr ⟨hneg, ?_, hd⟩)
        rcases lt_or_eq_of_le (not_lt.1 hj) with h | h
        · exact h
        · exact absurd (h ▸ dvd_zero _) hd
  · simp [hzero]
  · have hi := pyInt_near_up (j := j) hpos hε2
    have hfl := (floor_near j ε g.ycoords.length).1 hpos.le (by linarith)
    by_cases hj : 0 ≤ j
    · rw [if_pos hj] at hi
      have hval := near _ (by
        rw [hi, show (j : K) - ((j : K) + ε) = -ε by ring, abs_neg]; exact hε) hi hfl (by
          rintro ⟨_, h2⟩
          have hlt : j < (g.ycoords.length : ℤ) := by
            have : (j : K) < ((g.ycoords.length : ℤ) : K) := by push_cast; linarith
            exact_mod_cast this
          exact ⟨Int.ediv_eq_zero_of_lt hj hlt, Int.emod_eq_of_lt hj hlt⟩)
      rw [hval, hw]
      simp only [true_iff]
      exact Or.inr (Or.inl ⟨hpos, hj⟩)
    · rw [if_neg hj] at hi
      have : g.getPoloidalGrid ((j : K) + ε) ≠ g.getPoloidalGrid (j : K) := by
        rw [hw]
        apply fractional_none
        rw [hi]
        push_cast
        rw [show (j : K) + 1 - ((j : K) + ε) = 1 - ε by ring, abs_of_pos (by linarith)]
        linarith
      simp only [this, false_iff]
      rintro (h | h | h)
      · linarith
      · exact hj h.2
      · linarith [h.1]

/-- **C249 (partial).** Indices that are a little too large and not negative are those of the plane below.  Missing: the others (`C249_iff`, `C249_fails`). -/
theorem C249_above_partial {G : Type} (size : G → ℕ × ℕ) (l : List G) (ys : List K) (Ly : K) (g : Grid G K)
    (hg : Grid.init size (.many l) ys Ly true = .ok g) (hLy : Ly ≠ 0) (j : ℕ) (ε : K) (h0 : 0 ≤ ε) (h1 : ε ≤ 1 / 10 ^ 6) :
    g.getPoloidalGrid ((j : K) + ε) = g.getPoloidalGrid (j : K) := by
  have h := (C249_iff size l ys Ly g hg hLy (j : ℤ) ε (abs_le.2 ⟨by linarith, h1⟩)).2 (by
    rcases h0.lt_or_eq with h | h
    · exact Or.inr (Or.inl ⟨h, by omega⟩)
    · exact Or.inl h.symm)
  push_cast at h
  exact h

/-- **C249 (refutation).** On every periodic grid, indices just below any plane number from zero on are wrong, and so are those just above any that is negative. -/
theorem C249_fails {G : Type} (size : G → ℕ × ℕ) (l : List G) (ys : List K) (Ly : K) (g : Grid G K)
    (hg : Grid.init size (.many l) ys Ly true = .ok g) (hLy : Ly ≠ 0) (ε : K) (h0 : 0 < ε) (h1 : ε ≤ 1 / 10 ^ 6) :
    (∀ j : ℤ, 0 ≤ j → g.getPoloidalGrid ((j : K) - ε) ≠ g.getPoloidalGrid (j : K)) ∧
    (∀ j : ℤ, j < 0 → g.getPoloidalGrid ((j : K) + ε) ≠ g.getPoloidalGrid (j : K)) := by
  constructor
  · intro j hj h
    rw [sub_eq_add_neg] at h
    rcases (C249_iff size l ys Ly g hg hLy j (-ε) (by rw [abs_neg]; exact abs_le.2 ⟨by linarith, h1⟩)).1 h with h | h | h
    · linarith
    · linarith [h.1]
    · omega
  · intro j hj h
    rcases (C249_iff size l ys Ly g hg hLy j ε (abs_le.2 ⟨by linarith, h1⟩)).1 h with h | h | h
    · linarith
    · omega
    · linarith [h.1]

/-- A periodic grid of three planes. -/
example : ∃ g : Grid ℕ ℚ, Grid.init (fun _ => (2, 4)) (.many [7, 8, 9]) [0, 1, 2] 3 true = .ok g ∧
    g.getPoloidalGrid ((2 : ℕ) : ℚ) = g.getPoloidalGrid (((2 : ℕ) : ℚ) + 1 / 10 ^ 7) ∧
    g.getPoloidalGrid (((0 : ℤ) : ℚ) - 1 / 10 ^ 7) ≠ g.getPoloidalGrid ((0 : ℤ) : ℚ) := by
  have hg : Grid.init (fun _ : ℕ => (2, 4)) (.many [7, 8, 9]) [(0 : ℚ), 1, 2] 3 true =
      .ok ⟨[7, 8, 9], [0, 1, 2], 3, true, 2, 4⟩ := by rfl
  exact ⟨_, hg, (C249_above_partial _ _ _ _ _ hg (by norm_num) 2 (1 / 10 ^ 7) (by norm_num) (by norm_num)).symm,
    (C249_fails _ _ _ _ _ hg (by norm_num) (1 / 10 ^ 7) (by norm_num) (by norm_num)).1 0 le_rfl⟩

end Zoidberg
