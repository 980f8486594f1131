import Verif.Model.EndToEnd
import Verif.Props.MakeMaps
import Verif.Props.SubSamples
import Verif.Props.WeightsAnyZ

/-!
# C205-C208: the operators made from the maps of `make_maps`
-/

set_option linter.unusedSectionVars false

namespace Zoidberg

open Weights

variable {K : Type} [Field K] [LinearOrder K] [IsStrictOrderedRing K] [FloorRing K]

/-- The offset of the adjacent plane in one direction. -/
def stepOf (fwd : Bool) : ℤ := if fwd then 1 else -1

/-! ### C205 -/

/-- `i` is what `weights.py` reads from the maps `m`. -/
structure ReadFrom (e : MmEnv K) (mxg n : ℕ) (m : ODict (MapVal K)) (first : MapPol K) (i : Input K) : Prop where
  plane : ∃ y0, e.grid.getPoloidalGrid ((0 : ℕ) : K) = .ok (some first, y0)
  enx : i.nx = first.nx
  eny : i.ny = e.grid.ny
  enz : i.nz = first.nz
  emxg : i.mxg = mxg
  en : i.n = n ^ 2
  repr : Represents (asMapDict first.nx e.grid.ny first.nz (n ^ 2) m) i
  good : i.GoodWeights
  xs : ∀ fwd, m.get? (sliceName "xt_primes" (stepOf fwd)) = some (.f4 (i.xs fwd))
  zs : ∀ fwd, m.get? (sliceName "zt_primes" (stepOf fwd)) = some (.f4 (i.zs fwd))

theorem name_fx : sliceName "xt_primes" 1 = "forward_xt_primes" := by decide +kernel
theorem name_fz : sliceName "zt_primes" 1 = "forward_zt_primes" := by decide +kernel
theorem name_bx : sliceName "xt_primes" (-1) = "backward_xt_primes" := by decide +kernel
theorem name_bz : sliceName "zt_primes" (-1) = "backward_zt_primes" := by decide +kernel

/-- **C205.** What `make_maps` returns has everything that `weights.py` reads, with fitting shapes and accepted weights. -/
theorem C205_read (e : MmEnv K) (hf : FollowOk e) (hg : GridOk e) (nslice mxg n r nc : ℕ) (hs : 1 ≤ nslice) (hn : 1 ≤ n)
    (hgs : GaussOk e n) (hlen : (e.gauss n).length = n) (hpos : ∀ p ∈ e.gauss n, 0 < p.2)
    (empty : JState K) (m : ODict (MapVal K)) (h : makeMaps e nslice mxg n r nc empty = .ok m) :
    ∃ first i, ReadFrom e mxg n m first i := by
  obtain ⟨first, y0, smp, pf, h1, h2, h3, h4, h5, h6, h7⟩ := sub_arrays h hf (d := 1) (by norm_num) (by simpa using hs)
  obtain ⟨_, _, _, pb, _, _, b3, b4, b5, b6, b7⟩ := sub_arrays h hf (d := -1) (by norm_num) (by simpa using hs)
  obtain ⟨w, w1, w2, w3, w4⟩ := C97_weights_sum e hf nslice mxg n r nc hn hgs hlen hpos empty m h
  obtain ⟨g1, _, R, Z, g2, _, _⟩ := C31_grid_points e hf hg nslice mxg n r nc empty m h
  refine ⟨first, ⟨first.nx, e.grid.ny, first.nz, mxg, n ^ 2, pf.xts, pf.zts, pb.xts, pb.zts, w⟩, ⟨y0, plane_eq h1⟩, rfl, rfl, rfl, rfl, rfl, ?_, ?_, ?_, ?_⟩
  · rw [name_fx] at h5
    rw [name_fz] at h6
    rw [name_bx] at b5
    rw [name_bz] at b6
    refine ⟨⟨R, ?_⟩, ?_, Or.inl ?_, Or.inl ?_, Or.inl ?_, Or.inl ?_, Or.inl ?_⟩
    all_goals unfold asMapDict
    · rw [g2]; rfl
    · rw [g1]; rfl
    · rw [h5]; rfl
    · rw [h6]; rfl
    · rw [b5]; rfl
    · rw [b6]; rfl
    · rw [w1]; rfl
  · exact ⟨w2, by rw [w3]; norm_num, w4⟩
  · intro fwd
    cases fwd
    · exact b5
    · exact h5
  · intro fwd
    cases fwd
    · exact b6
    · exact h6

/-- **C205.** So the operators can be computed. -/
theorem C205_operators (jc : ℕ → ℤ) (jw : ℕ → K) (e : MmEnv K) (hf : FollowOk e) (hg : GridOk e) (nslice mxg n r nc : ℕ) (hs : 1 ≤ nslice) (hn : 1 ≤ n)
    (hgs : GaussOk e n) (hlen : (e.gauss n).length = n) (hpos : ∀ p ∈ e.gauss n, 0 < p.2)
    (empty : JState K) (m : ODict (MapVal K)) (h : makeMaps e nslice mxg n r nc empty = .ok m)
    (first : MapPol K) (y0 : K) (h0 : e.grid.getPoloidalGrid ((0 : ℕ) : K) = .ok (some first, y0)) (hm : 2 * mxg ≤ first.nx) :
    ∃ o, calculateOps jc jw (asMapDict first.nx e.grid.ny first.nz (n ^ 2) m) = .ok o := by
  obtain ⟨first', i, hi⟩ := C205_read e hf hg nslice mxg n r nc hs hn hgs hlen hpos empty m h
  obtain ⟨y', h'⟩ := hi.plane
  have : first' = first := by
    rw [h0] at h'
    injection h' with h'
    injection h' with h' _
    injection h' with h'
    exact h'.symm
  subst this
  exact C10_assembly_succeeds jc jw _ i hi.repr (by rw [hi.emxg, hi.enx]; exact hm) hi.good

/-! ### C206 -/

/-- **C206.** What the code does with more than one slice: the maps of the adjacent planes that `weights.py` reads are zero
(`C33_zero_between`).  With guard cells in x every cell loses its field lines to the boundary, in both directions: it has a row
with the boundary value and no other. -/
theorem C206_all_lost (jc : ℕ → ℤ) (jw : ℕ → K) (e : MmEnv K) (hf : FollowOk e) (nslice mxg n r nc : ℕ) (hs : 2 ≤ nslice) (hn : 1 ≤ n) (hx : 1 ≤ mxg)
    (empty : JState K) (m : ODict (MapVal K)) (h : makeMaps e nslice mxg n r nc empty = .ok m) (first : MapPol K) (i : Input K)
    (hi : ReadFrom e mxg n m first i) (hm : 2 * mxg ≤ first.nx) (o : Ops K)
    (ho : calculateOps jc jw (asMapDict first.nx e.grid.ny first.nz (n ^ 2) m) = .ok o) (fwd : Bool) (c : Cell) (hc : i.Interior c) :
    (o.legs fwd).legInterior c = -1 ∧ 0 ≤ (o.legs fwd).legBoundary c ∧
      (o.legs fwd).op.row ((o.legs fwd).legBoundary c).toNat = [(o.number (.bnd fwd c), 1)] := by
  obtain ⟨xts, zts, z1, z2, z3⟩ := C33_zero_between e hf nslice mxg n r nc empty m h (stepOf fwd) (by cases fwd <;> simp [stepOf])
    (by cases fwd <;> simp [stepOf] <;> omega)
  have hxs : i.xs fwd = xts := by
    have := (hi.xs fwd).symm.trans z1
    injection this with this
    injection this
  have hz : ∀ s, i.xs fwd c s = 0 := by
    intro s
    rw [hxs]
    exact (z3 c.2.1 (by rw [← hi.eny]; exact hc.2.2.1) c.1 c.2.2 s).1
  have hesc : ∀ s, i.Escapes (i.xs fwd c s) := by
    intro s
    rw [hz]
    left
    rw [hi.emxg]
    exact_mod_cast hx
  have hsome : i.SomeEscape fwd c := ⟨0, by rw [hi.en]; positivity, hesc 0⟩
  have hno : ¬ i.SomeStay fwd c := fun ⟨s, _, h⟩ => h (hesc s)
  obtain ⟨_, l1, l2, l3⟩ := C04_leg_numbers_bijective jc jw _ i hi.repr o ho fwd
  have hm' : 2 * i.mxg ≤ i.nx := by rw [hi.emxg, hi.enx]; exact hm
  refine ⟨?_, (l1 c).2 ⟨hc, hsome⟩, (C11_row_columns jc jw _ i hi.repr hm' hi.good o ho fwd c hc).1 hsome⟩
  exact l3 (false, c) fun h => hno ((l2 c).1 h).2

/-- **C206.** Without guard cells in x all cells take the value of the corner of the adjacent plane. -/
theorem C206_corner (jc : ℕ → ℤ) (jw : ℕ → K) (e : MmEnv K) (hf : FollowOk e) (nslice n r nc : ℕ) (hs : 2 ≤ nslice) (hn : 1 ≤ n)
    (empty : JState K) (m : ODict (MapVal K)) (h : makeMaps e nslice 0 n r nc empty = .ok m) (first : MapPol K) (i : Input K)
    (hi : ReadFrom e 0 n m first i) (o : Ops K)
    (ho : calculateOps jc jw (asMapDict first.nx e.grid.ny first.nz (n ^ 2) m) = .ok o) (fwd : Bool) (c : Cell) (hc : i.Interior c) (v : ℤ → K) :
    applyRow ((o.legs fwd).op.row ((o.legs fwd).legInterior c).toNat) v = v (o.cellNumber (0, i.plane fwd c.2.1, 0)) := by
  obtain ⟨xts, zts, z1, z2, z3⟩ := C33_zero_between e hf nslice 0 n r nc empty m h (stepOf fwd) (by cases fwd <;> simp [stepOf])
    (by cases fwd <;> simp [stepOf] <;> omega)
  have hxs : i.xs fwd = xts := by
    have := (hi.xs fwd).symm.trans z1
    injection this with this
    injection this
  have hzs : i.zs fwd = zts := by
    have := (hi.zs fwd).symm.trans z2
    injection this with this
    injection this
  have hz : ∀ s, i.xs fwd c s = 0 ∧ i.zs fwd c s = 0 := by
    intro s
    rw [hxs, hzs]
    exact z3 c.2.1 (by rw [← hi.eny]; exact hc.2.2.1) c.1 c.2.2 s
  have hm0 : i.mxg = 0 := hi.emxg
  have hnx : 0 < i.nx := by have := hc.2.1; omega
  have hstay : ∀ s, ¬ i.Escapes (i.xs fwd c s) := by
    intro s
    rw [(hz s).1]
    unfold Input.Escapes
    rw [hm0]
    have : (1 : K) ≤ i.nx := by exact_mod_cast hnx
    push Not
    constructor
    · simp
    · push_cast; linarith
  have hst : i.SomeStay fwd c := ⟨0, by rw [hi.en]; positivity, hstay 0⟩
  have hclear : ∀ s ∈ i.staying fwd c, i.NoneSkipped (i.xs fwd c s) := by
    intro s _
    apply noneSkipped_of_clear
    left
    rw [(hz s).1]
    simp
  rw [C13_row_any_z jc jw _ i hi.repr (by omega) hi.good o ho fwd c hc hst hclear v]
  have hin : ∀ s, i.interpFrom (fun d => v (o.cellNumber d)) (i.plane fwd c.2.1) (i.xs fwd c s) (pyInt (i.zs fwd c s))
      (i.zs fwd c s - (pyInt (i.zs fwd c s) : K)) = v (o.cellNumber (0, i.plane fwd c.2.1, 0)) := by
    intro s
    rw [(hz s).1, (hz s).2]
    have p0 : pyInt (0 : K) = 0 := by simp [pyInt]
    have hcl : i.clampX 0 = 0 := by unfold Input.clampX; omega
    simp [Input.interpFrom, catmullRomSpline, p0, hcl]
  simp only [hin]
  rw [← Finset.sum_mul]
  have hpos : 0 < ∑ s ∈ i.staying fwd c, i.w.getD s 0 := by
    apply Finset.sum_pos
    · intro s hs'
      have : s < i.w.length := by rw [hi.good.len]; exact Finset.mem_range.1 (Finset.mem_filter.1 hs').1
      rw [List.getD_eq_getElem _ _ this]
      exact hi.good.pos _ (List.getElem_mem this)
    · obtain ⟨s, h1, h2⟩ := hst
      exact ⟨s, Finset.mem_filter.2 ⟨Finset.mem_range.2 h1, h2⟩⟩
  field_simp

/-- The full claim of C206 for two results: the operators of the adjacent planes are the same for any numbers of slices. -/
def SliceFree (e : MmEnv K) : Prop :=
  ∀ (nslice nslice' mxg n r nc : ℕ) (empty : JState K) (m m' : ODict (MapVal K)) (first : MapPol K) (o o' : Ops K), 1 ≤ nslice → 1 ≤ nslice' →
    1 ≤ n → makeMaps e nslice mxg n r nc empty = .ok m → makeMaps e nslice' mxg n r nc empty = .ok m' →
    (∃ y0, e.grid.getPoloidalGrid ((0 : ℕ) : K) = .ok (some first, y0)) → 2 * mxg ≤ first.nx →
    calculateOps (fun _ => 0) (fun _ => 0) (asMapDict first.nx e.grid.ny first.nz (n ^ 2) m) = .ok o →
    calculateOps (fun _ => 0) (fun _ => 0) (asMapDict first.nx e.grid.ny first.nz (n ^ 2) m') = .ok o' →
    ∀ fwd, (o.legs fwd).legInterior = (o'.legs fwd).legInterior

theorem cells_same (jc : ℕ → ℤ) (jw : ℕ → K) (e : MmEnv K) (mxg n : ℕ) (m m' : ODict (MapVal K)) (first : MapPol K)
    (i i' : Input K) (hi : ReadFrom e mxg n m first i) (hi' : ReadFrom e mxg n m' first i') (hm : 2 * mxg ≤ first.nx) (o o' : Ops K)
    (ho : calculateOps jc jw (asMapDict first.nx e.grid.ny first.nz (n ^ 2) m) = .ok o)
    (ho' : calculateOps jc jw (asMapDict first.nx e.grid.ny first.nz (n ^ 2) m') = .ok o') (x y z : ℕ) (h1 : mxg ≤ x)
    (h2 : x + mxg < first.nx) (h3 : y < e.grid.ny) (h4 : z < first.nz) : o.cellNumber (x, y, z) = o'.cellNumber (x, y, z) := by
  rw [(C02_numbering_order jc jw _ i hi.repr (by rw [hi.emxg, hi.enx]; exact hm) o ho).1 x y z (by rw [hi.emxg]; exact h1)
      (by rw [hi.emxg, hi.enx]; exact h2) (by rw [hi.eny]; exact h3) (by rw [hi.enz]; exact h4),
    (C02_numbering_order jc jw _ i' hi'.repr (by rw [hi'.emxg, hi'.enx]; exact hm) o' ho').1 x y z (by rw [hi'.emxg]; exact h1)
      (by rw [hi'.emxg, hi'.enx]; exact h2) (by rw [hi'.eny]; exact h3) (by rw [hi'.enz]; exact h4), hi.emxg, hi'.emxg, hi.eny, hi'.eny,
    hi.enz, hi'.enz]

theorem ReadFrom.first_eq {e : MmEnv K} {mxg n : ℕ} {m : ODict (MapVal K)} {first first' : MapPol K} {i : Input K} (hi : ReadFrom e mxg n m first i)
    {y0 : K} (h : e.grid.getPoloidalGrid ((0 : ℕ) : K) = .ok (some first', y0)) : first = first' := by
  obtain ⟨y', h'⟩ := hi.plane
  rw [h] at h'
  injection h' with h'
  injection h' with h' _
  injection h' with h'
  exact h'.symm

/-- **C206 (partial).** The numbers of the evolving cells do not depend on the number of slices.  Missing: everything else (`C206_fails`). -/
theorem C206_cells_partial (jc : ℕ → ℤ) (jw : ℕ → K) (e : MmEnv K) (hf : FollowOk e) (hg : GridOk e) (nslice nslice' mxg n r nc : ℕ) (hs : 1 ≤ nslice)
    (hs' : 1 ≤ nslice') (hn : 1 ≤ n) (hgs : GaussOk e n) (hlen : (e.gauss n).length = n) (hpos : ∀ p ∈ e.gauss n, 0 < p.2)
    (empty : JState K) (m m' : ODict (MapVal K)) (h : makeMaps e nslice mxg n r nc empty = .ok m) (h' : makeMaps e nslice' mxg n r nc empty = .ok m')
    (first : MapPol K) (y0 : K) (h0 : e.grid.getPoloidalGrid ((0 : ℕ) : K) = .ok (some first, y0)) (hm : 2 * mxg ≤ first.nx) (o o' : Ops K)
    (ho : calculateOps jc jw (asMapDict first.nx e.grid.ny first.nz (n ^ 2) m) = .ok o)
    (ho' : calculateOps jc jw (asMapDict first.nx e.grid.ny first.nz (n ^ 2) m') = .ok o') (x y z : ℕ) (h1 : mxg ≤ x)
    (h2 : x + mxg < first.nx) (h3 : y < e.grid.ny) (h4 : z < first.nz) : o.cellNumber (x, y, z) = o'.cellNumber (x, y, z) := by
  obtain ⟨f1, i, hi⟩ := C205_read e hf hg nslice mxg n r nc hs hn hgs hlen hpos empty m h
  obtain ⟨f2, i', hi'⟩ := C205_read e hf hg nslice' mxg n r nc hs' hn hgs hlen hpos empty m' h'
  have e1 := hi.first_eq h0
  have e2 := hi'.first_eq h0
  subst e1 e2
  exact cells_same jc jw e mxg n m m' _ i i' hi hi' hm o o' ho ho' x y z h1 h2 h3 h4

theorem exMm_positive (ys : List ℚ) (per slab : Bool) (n : ℕ) (hn : 1 ≤ n) : ((exMm ys per slab).gauss n).length = n ∧ ∀ p ∈ (exMm ys per slab).gauss n, 0 < p.2 := by
  constructor
  · simp [exMm]
  · intro p hp
    obtain ⟨i, _, rfl⟩ := List.mem_map.1 hp
    have : (0 : ℚ) < n := by exact_mod_cast hn
    positivity

theorem exMm_first : (exMm [0, 1] true false).grid.getPoloidalGrid ((0 : ℕ) : ℚ) = .ok (some exMapPol, 0) := by
  have : (((0 : ℕ) : ℚ)) = ((0 : ℤ) : ℚ) := by norm_num
  rw [this, Grid.getPoloidalGrid_int]
  rfl

theorem exMm_second : (exMm [0, 1] true false).grid.getPoloidalGrid ((0 : ℕ) + ((stepOf true : ℤ) : ℚ)) = .ok (some exMapPol, 1) := by
  have : ((0 : ℕ) : ℚ) + ((stepOf true : ℤ) : ℚ) = ((1 : ℤ) : ℚ) := by norm_num [stepOf]
  rw [this, Grid.getPoloidalGrid_int]
  unfold Grid.getInt
  rw [pyInt_intCast, if_pos (by simp [Grid.ny, exMm])]
  rfl

/-! ### C207 -/

/-- **C207.** With one slice and one sample per cell the positions that `weights.py` interpolates at are those of the field
lines through the grid points, on the adjacent plane; outside the boundary they are -1, which is never inside. -/
theorem C207_positions (e : MmEnv K) (hf : FollowOk e) (φ : K → K → K → K → K × K) (hφ : PointTracer e φ) (mxg r nc : ℕ)
    (empty : JState K) (m : ODict (MapVal K)) (h : makeMaps e 1 mxg 1 r nc empty = .ok m) (first : MapPol K) (i : Input K)
    (hi : ReadFrom e mxg 1 m first i) (fwd : Bool) (j : ℕ) (hj : j < e.grid.ny) :
    ∃ pol y target yt, e.grid.getPoloidalGrid (j : K) = .ok (some pol, y) ∧
      e.grid.getPoloidalGrid ((j : K) + (stepOf fwd : K)) = .ok (target, yt) ∧
      ∀ x z, (i.xs fwd (x, j, z) 0, i.zs fwd (x, j, z) 0) = match target with
        | none => (-1, -1)
        | some p => if e.outside (φ (pol.R x z) (pol.Z x z) y yt).1 yt (φ (pol.R x z) (pol.Z x z) y yt).2 then (-1, -1)
          else p.findIndex (fun x z => (φ (pol.R x z) (pol.Z x z) y yt).1) (fun x z => (φ (pol.R x z) (pol.Z x z) y yt).2) x z := by
  have hd0 : stepOf fwd ≠ 0 := by cases fwd <;> simp [stepOf]
  have hd1 : (stepOf fwd).natAbs = 1 := by cases fwd <;> simp [stepOf]
  obtain ⟨first', y0, smp, ps, h1, h2, h3, h4, h5, h6, h7⟩ := sub_arrays h hf hd0 hd1.le
  obtain ⟨ho, _⟩ := offsetsOf_int (K := K) 1 (stepOf fwd) hd0 hd1.le
  have hxs : i.xs fwd = ps.xts := by
    have := (hi.xs fwd).symm.trans h5
    injection this with this
    injection this
  have hzs : i.zs fwd = ps.zts := by
    have := (hi.zs fwd).symm.trans h6
    injection this with this
    injection this
  have hsingle : ∀ x z, ps.xts (x, j, z) 0 = ps.xt (x, j, z) ∧ ps.zts (x, j, z) 0 = ps.zt (x, j, z) := by
    intro x z
    obtain ⟨pol, y, targets, coord, t, g1, g2, g3, g4, g5, _, g7⟩ := h7 j hj
    have hs := (g7 (by rw [length_offsetsOf, hd1])).single (by norm_num) x z
    obtain ⟨_, _, a3, a4⟩ := g5 x z
    rw [hs.1, hs.2, a3, a4]
    exact ⟨rfl, rfl⟩
  obtain ⟨coord, t, yt, yl, k1, k2, k3, k4⟩ := filled_traced h1 ho (h7 j hj)
  have hyl : yl = yt := k3 hd1
  have hov : (offsetValues 1 (stepOf fwd).sign : List K)[(stepOf fwd).natAbs]? = some (stepOf fwd : K) := by
    rw [← offsetValues_eq, List.getElem?_map, ho]; rfl
  obtain ⟨pol, y, t', yt', q1, q2, q3⟩ := traced_point hφ k1 hov
  have hk : e.grid.getPoloidalGrid ((j : K) + (stepOf fwd : K)) = .ok (t, yt) := k2
  have htt : t' = t ∧ yt' = yt := by
    rw [hk] at q2
    injection q2 with q2
    injection q2 with a b
    exact ⟨a.symm, b.symm⟩
  obtain ⟨rfl, rfl⟩ := htt
  subst hyl
  refine ⟨pol, y, t', yl, q1, hk, ?_⟩
  intro x z
  obtain ⟨_, _, a3, a4⟩ := k4 x z
  rw [hxs, hzs, (hsingle x z).1, (hsingle x z).2, a3, a4]
  have hc : coord = fun x z => φ (pol.R x z) (pol.Z x z) y yl := by
    funext x z
    exact q3 x z
  rw [hc]
  cases t' with
  | none => rfl
  | some p =>
    simp only [indexOf, indicesOf]

/-- **C207.** So the operator of one direction gives the value of the interpolated function where the field line meets the adjacent plane,
if this is inside and the position in z is not negative, or is whole. -/
theorem C207_value_partial (jc : ℕ → ℤ) (jw : ℕ → K) (e : MmEnv K) (hf : FollowOk e) (φ : K → K → K → K → K × K) (hφ : PointTracer e φ) (mxg r nc : ℕ)
    (empty : JState K) (m : ODict (MapVal K)) (h : makeMaps e 1 mxg 1 r nc empty = .ok m) (first : MapPol K) (i : Input K)
    (hi : ReadFrom e mxg 1 m first i) (hm : 2 * mxg ≤ first.nx) (o : Ops K)
    (ho : calculateOps jc jw (asMapDict first.nx e.grid.ny first.nz 1 m) = .ok o) (fwd : Bool) (x j z : ℕ) (hc : i.Interior (x, j, z))
    (pol p : MapPol K) (y yt : K) (h1 : e.grid.getPoloidalGrid (j : K) = .ok (some pol, y))
    (h2 : e.grid.getPoloidalGrid ((j : K) + (stepOf fwd : K)) = .ok (some p, yt))
    (hin : e.outside (φ (pol.R x z) (pol.Z x z) y yt).1 yt (φ (pol.R x z) (pol.Z x z) y yt).2 = false) (q : K × K)
    (hq : q = p.findIndex (fun x z => (φ (pol.R x z) (pol.Z x z) y yt).1) (fun x z => (φ (pol.R x z) (pol.Z x z) y yt).2) x z)
    (hx : ¬ i.Escapes q.1) (hns : i.NoneSkipped q.1) (hz : 0 ≤ q.2 ∨ (⌊q.2⌋ : K) = q.2) (v : ℤ → K) :
    applyRow ((o.legs fwd).op.row ((o.legs fwd).legInterior (x, j, z)).toNat) v =
      i.interp (fun d => v (o.cellNumber d)) (i.plane fwd j) q.1 q.2 := by
  obtain ⟨pol', y', t, yt', g1, g2, g3⟩ := C207_positions e hf φ hφ mxg r nc empty m h first i hi fwd j (by rw [← hi.eny]; exact hc.2.2.1)
  rw [h1] at g1
  injection g1 with g1
  injection g1 with ga gb
  injection ga with ga
  subst ga gb
  rw [h2] at g2
  injection g2 with g2
  injection g2 with ga gb
  subst ga gb
  have hp := g3 x z
  simp only [hin, Bool.false_eq_true, if_false] at hp
  rw [← hq] at hp
  have ex : i.xs fwd (x, j, z) 0 = q.1 := by rw [← hp]
  have ez : i.zs fwd (x, j, z) 0 = q.2 := by rw [← hp]
  have hn : i.n = 1 := by rw [hi.en]; norm_num
  have hs : i.SomeStay fwd (x, j, z) := ⟨0, by omega, by rw [ex]; exact hx⟩
  have hst : i.staying fwd (x, j, z) = {0} := by
    unfold Input.staying
    rw [hn]
    ext t
    simp only [Finset.mem_filter, Finset.mem_range, Finset.mem_singleton]
    constructor
    · rintro ⟨h, -⟩; omega
    · rintro rfl; exact ⟨by omega, by rw [ex]; exact hx⟩
  have hw0 : 0 < i.w.getD 0 0 := by
    have hl : 0 < i.w.length := by rw [hi.good.len, hn]; norm_num
    rw [List.getD_eq_getElem _ _ hl]
    exact hi.good.pos _ (List.getElem_mem hl)
  rw [C13_row_any_z jc jw _ i hi.repr (by rw [hi.emxg, hi.enx]; exact hm) hi.good o ho fwd _ hc hs
    (by rw [hst]; simp only [Finset.mem_singleton, forall_eq]; rw [ex]; exact hns) v, hst, Finset.sum_singleton, Finset.sum_singleton, ex, ez]
  have hzf : pyInt q.2 = ⌊q.2⌋ := by
    unfold pyInt
    split
    · rfl
    · rcases hz with hz | hz
      · contradiction
      · rw [← hz]; simp
  rw [hzf, mul_comm, mul_div_assoc, div_self hw0.ne', mul_one]
  rfl

/-- **C206 (refutation).** On the example grid the cell (1, 0, 0) is mapped to its neighbour with one slice, and has lost its field line with two. -/
theorem C206_fails : ¬ ∀ e : MmEnv ℚ, FollowOk e → GridOk e → SliceFree e := by
  intro hall
  have hsf := hall (exMm [0, 1] true false) (exMm_follow _ _ _) (exMm_grid _ _ _ (by simp))
  let empty : JState ℚ := ⟨fun _ => 0, fun _ _ => 0, fun _ _ => 0⟩
  obtain ⟨m, h⟩ := exMm_succeeds [0, 1] true false (by simp) 1 1 1 1 1 (by norm_num) (by norm_num) (by norm_num) empty
  obtain ⟨m', h'⟩ := exMm_succeeds [0, 1] true false (by simp) 2 1 1 1 1 (by norm_num) (by norm_num) (by norm_num) empty
  have hp := exMm_positive [0, 1] true false 1 le_rfl
  obtain ⟨f1, i, hi⟩ := C205_read _ (exMm_follow _ _ _) (exMm_grid _ _ _ (by simp)) 1 1 1 1 1 (by norm_num) (by norm_num) (exMm_gauss _ _ _ 1) hp.1 hp.2 empty m h
  obtain ⟨f2, i', hi'⟩ := C205_read _ (exMm_follow _ _ _) (exMm_grid _ _ _ (by simp)) 2 1 1 1 1 (by norm_num) (by norm_num) (exMm_gauss _ _ _ 1) hp.1 hp.2 empty m' h'
  have e1 := hi.first_eq exMm_first
  have e2 := hi'.first_eq exMm_first
  subst e1
  subst e2
  have hm : 2 * 1 ≤ exMapPol.nx := by decide
  obtain ⟨o, ho⟩ := C205_operators (fun _ => 0) (fun _ => 0) _ (exMm_follow _ _ _) (exMm_grid _ _ _ (by simp)) 1 1 1 1 1 (by norm_num) (by norm_num)
    (exMm_gauss _ _ _ 1) hp.1 hp.2 empty m h exMapPol 0 exMm_first hm
  obtain ⟨o', ho'⟩ := C205_operators (fun _ => 0) (fun _ => 0) _ (exMm_follow _ _ _) (exMm_grid _ _ _ (by simp)) 2 1 1 1 1 (by norm_num) (by norm_num)
    (exMm_gauss _ _ _ 1) hp.1 hp.2 empty m' h' exMapPol 0 exMm_first hm
  have heq := hsf 1 2 1 1 1 1 empty m m' exMapPol o o' (by norm_num) (by norm_num) (by norm_num) h h' ⟨0, exMm_first⟩ hm ho ho' true
  have hny : (exMm [0, 1] true false).grid.ny = 2 := rfl
  have hc : i.Interior (1, 0, 0) := by
    refine ⟨?_, ?_, ?_, ?_⟩
    · rw [hi.emxg]
    · rw [hi.emxg, hi.enx]; decide
    · rw [hi.eny, hny]; norm_num
    · rw [hi.enz]; decide
  have hc' : i'.Interior (1, 0, 0) := by
    refine ⟨?_, ?_, ?_, ?_⟩
    · rw [hi'.emxg]
    · rw [hi'.emxg, hi'.enx]; decide
    · rw [hi'.eny, hny]; norm_num
    · rw [hi'.enz]; decide
  have lost := (C206_all_lost (fun _ => 0) (fun _ => 0) _ (exMm_follow _ _ _) 2 1 1 1 1 le_rfl le_rfl le_rfl empty m' h' exMapPol i' hi' hm o' ho' true
    (1, 0, 0) hc').1
  obtain ⟨pol, y, t, yt, g1, g2, g3⟩ := C207_positions _ (exMm_follow _ _ _) _ (exMm_point _ _ _) 1 1 1 empty m h exMapPol i hi true 0 (by rw [hny]; norm_num)
  rw [exMm_first] at g1
  injection g1 with g1
  injection g1 with ga gb
  injection ga with ga
  subst ga gb
  rw [exMm_second] at g2
  injection g2 with g2
  injection g2 with ga gb
  subst ga gb
  have hx : i.xs true (1, 0, 0) 0 = 1 := by
    have := congrArg Prod.fst (g3 1 0)
    simp only at this
    rw [this]
    norm_num [exMm, exMapPol]
  have hs : i.SomeStay true (1, 0, 0) := by
    refine ⟨0, by rw [hi.en]; norm_num, ?_⟩
    rw [hx]
    unfold Input.Escapes
    rw [hi.emxg, hi.enx]
    norm_num [exMapPol]
  have stay := ((C04_leg_numbers_bijective (fun _ => 0) (fun _ => 0) _ i hi.repr o ho true).2.2.1 (1, 0, 0)).2 ⟨hc, hs⟩
  have : (0 : ℤ) ≤ (o.legs true).legInterior (1, 0, 0) := stay
  rw [heq, lost] at this
  omega

/-! ### C208: the slab -/

/-- The field lines of a `Slab`: the position at `y'` of the one through `(R, Z)` at `y`. -/
def slabLine (By Bz xcentre Bzprime R Z y y' : K) : K × K := (R, Z + (Bz + (R - xcentre) * Bzprime) / By * (y' - y))

/-- What the field lines of a slab have to do with its field: the slope is the one that is integrated. -/
theorem slab_slope (By Bz xcentre Bzprime : K) (h : 1 / 10 ^ 8 ≤ |By|) (R Z y y' y'' : K) :
    (slab By Bz xcentre Bzprime).slopes y [(R, Z)] = .ok [(0, (Bz + (R - xcentre) * Bzprime) / By)] ∧
    slabLine By Bz xcentre Bzprime R Z y y'' = (R, (slabLine By Bz xcentre Bzprime R Z y y').2 + (Bz + (R - xcentre) * Bzprime) / By * (y'' - y')) ∧
    slabLine By Bz xcentre Bzprime R Z y y = (R, Z) := by
  refine ⟨?_, ?_, ?_⟩
  · have h' : ¬ |By| < 1 / 10 ^ 8 := not_lt.2 h
    unfold FieldFns.slopes
    rw [if_neg (by simp), if_neg (by simp only [slab, List.any_cons, List.any_nil, Bool.or_false]; norm_num at h' ⊢; exact h')]
    simp [slab, FieldFns.slope, FieldFns.Rmaj, div_eq_mul_inv, mul_comm]
  · unfold slabLine
    congr 1
    simp only
    ring
  · simp [slabLine]

/-- By how many cells the field line moves in z from plane to plane. -/
def slabShift (g : RectPol K) (By Bz xcentre Bzprime : K) (x : ℕ) (dy : K) : K :=
  (Bz + (g.Rmin + (x : K) * g.dR - xcentre) * Bzprime) / By * dy / g.dZ

/-- A slab on a rectangular grid, without boundary, the same on all planes. -/
structure SlabEnv (e : MmEnv K) (g : RectPol K) (By Bz xcentre Bzprime : K) : Prop where
  follow : FollowOk e
  lines : PointTracer e (slabLine By Bz xcentre Bzprime)
  inside : ∀ x y z, e.outside x y z = false
  pols : ∀ (k : ℤ) (p : MapPol K) (y : K), e.grid.getPoloidalGrid (k : K) = .ok (some p, y) → p = g.mapPol
  dR : g.dR ≠ 0
  dZ : g.dZ ≠ 0

/-- The value at `s` cells from cell `(x, z)` on the plane `y`, interpolated in z only. -/
def alongZ (nz : ℕ) (v : Cell → K) (x y : ℕ) (t : K) : K :=
  catmullRomSpline (fun oz => v (x, y, ((⌊t⌋ + oz) % (nz : ℤ)).toNat)) (t - (⌊t⌋ : K))

theorem spline_zero (p : ℤ → K) : catmullRomSpline p 0 = p 0 := by
  simp [catmullRomSpline]

theorem interp_alongZ (i : Input K) (v : Cell → K) (y x : ℕ) (t : K) (h1 : i.mxg ≤ x) (h2 : x + i.mxg < i.nx) :
    i.interp v y (x : K) t = alongZ i.nz v x y t := by
  unfold Input.interp alongZ
  simp only [Int.floor_natCast, Int.cast_natCast, sub_self, spline_zero, add_zero]
  have : i.clampX (x : ℤ) = x := by unfold Input.clampX; omega
  rw [this]

section Slab

variable {e : MmEnv K} {g : RectPol K} {By Bz xc Bzp : K} (se : SlabEnv e g By Bz xc Bzp)
  {mxg r nc : ℕ} {empty : JState K} {m : ODict (MapVal K)} (h : makeMaps e 1 mxg 1 r nc empty = .ok m)
  {i : Input K} (hi : ReadFrom e mxg 1 m g.mapPol i)

include se h hi in
/-- **C208.** The maps of a slab: nothing moves in x, and the shift in z is slope times distance, in cells. -/
theorem C208_positions (fwd : Bool) (x j z : ℕ) (hj : j < e.grid.ny) (p : MapPol K) (y yt : K) (hy : e.grid.getPoloidalGrid (j : K) = .ok (some p, y))
    (p' : MapPol K) (hy' : e.grid.getPoloidalGrid ((j : K) + (stepOf fwd : K)) = .ok (some p', yt)) :
    i.xs fwd (x, j, z) 0 = x ∧ i.zs fwd (x, j, z) 0 = z + slabShift g By Bz xc Bzp x (yt - y) := by
  have hp : p = g.mapPol := se.pols (j : ℤ) p y (by push_cast; exact hy)
  have hp' : p' = g.mapPol := se.pols ((j : ℤ) + stepOf fwd) p' yt (by push_cast; exact hy')
  subst hp hp'
  obtain ⟨pol, y', t, yt', g1, g2, g3⟩ := C207_positions e se.follow _ se.lines mxg r nc empty m h _ i hi fwd j hj
  rw [hy] at g1
  injection g1 with g1
  injection g1 with ga gb
  injection ga with ga
  subst ga gb
  rw [hy'] at g2
  injection g2 with g2
  injection g2 with ga gb
  subst ga gb
  have := g3 x z
  simp only [se.inside, Bool.false_eq_true, if_false] at this
  have h1 := congrArg Prod.fst this
  have h2 := congrArg Prod.snd this
  simp only [slabLine, RectPol.mapPol, RectPol.pol, RectPol.findIndex] at h1 h2
  have hR := se.dR
  have hZ := se.dZ
  rw [h1, h2]
  constructor
  · field_simp
    ring
  · unfold slabShift
    field_simp
    ring

include se h hi in
/-- **C208**, exactly when: the row of a cell is the interpolation along z at the end of its field line if, and with at least four
points in z only if, the end has a z index that is not negative, or is whole. -/
theorem C208_value_partial (jc : ℕ → ℤ) (jw : ℕ → K) (hm : 2 * mxg ≤ g.nx) (o : Ops K)
    (ho : calculateOps jc jw (asMapDict g.nx e.grid.ny g.nz 1 m) = .ok o) (fwd : Bool) (x j z : ℕ) (hx1 : mxg ≤ x) (hx2 : x + mxg < g.nx)
    (hj : j < e.grid.ny) (hz : z < g.nz) (p : MapPol K) (y yt : K) (hy : e.grid.getPoloidalGrid (j : K) = .ok (some p, y))
    (p' : MapPol K) (hy' : e.grid.getPoloidalGrid ((j : K) + (stepOf fwd : K)) = .ok (some p', yt)) (t : K)
    (ht : t = z + slabShift g By Bz xc Bzp x (yt - y)) :
    ((0 ≤ t ∨ (⌊t⌋ : K) = t) → ∀ v : ℤ → K, applyRow ((o.legs fwd).op.row ((o.legs fwd).legInterior (x, j, z)).toNat) v =
      alongZ g.nz (fun d => v (o.cellNumber d)) x (i.plane fwd j) t) ∧
    (4 ≤ g.nz → (∀ v : ℤ → K, applyRow ((o.legs fwd).op.row ((o.legs fwd).legInterior (x, j, z)).toNat) v =
      alongZ g.nz (fun d => v (o.cellNumber d)) x (i.plane fwd j) t) → (0 ≤ t ∨ (⌊t⌋ : K) = t)) := by
  obtain ⟨px, pz⟩ := C208_positions se h hi fwd x j z hj p y yt hy p' hy'
  rw [← ht] at pz
  have hnx : i.nx = g.nx := hi.enx
  have hnz : i.nz = g.nz := hi.enz
  have hn : i.n = 1 := by rw [hi.en]; norm_num
  have hc : i.Interior (x, j, z) := by
    refine ⟨by rw [hi.emxg]; exact hx1, by rw [hi.emxg, hnx]; exact hx2, by rw [hi.eny]; exact hj, by rw [hnz]; exact hz⟩
  have hne : ¬ i.Escapes (i.xs fwd (x, j, z) 0) := by
    rw [px]
    unfold Input.Escapes
    rw [hi.emxg, hnx]
    push Not
    have a : (x : K) + mxg + 1 ≤ g.nx := by exact_mod_cast hx2
    exact ⟨by exact_mod_cast hx1, by linarith⟩
  have hs : i.SomeStay fwd (x, j, z) := ⟨0, by omega, hne⟩
  have hst : i.staying fwd (x, j, z) = {0} := by
    unfold Input.staying
    rw [hn]
    ext t
    simp only [Finset.mem_filter, Finset.mem_range, Finset.mem_singleton]
    constructor
    · rintro ⟨h, -⟩; omega
    · rintro rfl; exact ⟨by omega, hne⟩
  have hw0 : 0 < i.w.getD 0 0 := by
    have hl : 0 < i.w.length := by rw [hi.good.len, hn]; norm_num
    rw [List.getD_eq_getElem _ _ hl]
    exact hi.good.pos _ (List.getElem_mem hl)
  have hclear : ∀ s ∈ i.staying fwd (x, j, z), i.NoneSkipped (i.xs fwd (x, j, z) s) := by
    rw [hst]
    simp only [Finset.mem_singleton, forall_eq]
    rw [px]
    exact noneSkipped_of_clear _ _ (Or.inl (by simp))
  have hm' : 2 * i.mxg ≤ i.nx := by rw [hi.emxg, hnx]; exact hm
  have hal : ∀ v : Cell → K, i.legAverage fwd (x, j, z) v = alongZ g.nz v x (i.plane fwd j) t := by
    intro v
    unfold Input.legAverage
    rw [hst, Finset.sum_singleton, Finset.sum_singleton, px, pz, mul_comm, mul_div_assoc, div_self hw0.ne', mul_one,
      interp_alongZ i v _ x t hc.1 hc.2.1, hnz]
  constructor
  · intro hcond v
    rw [← hal, C13_row_any_z jc jw _ i hi.repr hm' hi.good o ho fwd _ hc hs hclear v]
    have hzf : pyInt t = ⌊t⌋ := by
      unfold pyInt
      split
      · rfl
      · rcases hcond with hz | hz
        · contradiction
        · rw [← hz]; simp
    unfold Input.legAverage
    rw [hst]
    simp only [Finset.sum_singleton]
    rw [pz, hzf]
    rfl
  · intro h4 hall
    have := (C13_single_iff jc jw _ i hi.repr hm' hi.good hn (by rw [hnz]; exact h4) o ho fwd (x, j, z) hc hs hclear).1 (by
      intro v
      rw [hal]
      exact hall v)
    rw [pz] at this
    exact this

include se h hi in
/-- **C208.** If the shift is a whole number of cells the operator moves the values by this number, with the period in z. -/
theorem C208_whole (jc : ℕ → ℤ) (jw : ℕ → K) (hm : 2 * mxg ≤ g.nx) (o : Ops K)
    (ho : calculateOps jc jw (asMapDict g.nx e.grid.ny g.nz 1 m) = .ok o) (fwd : Bool) (x j z : ℕ) (hx1 : mxg ≤ x) (hx2 : x + mxg < g.nx)
    (hj : j < e.grid.ny) (hz : z < g.nz) (p : MapPol K) (y yt : K) (hy : e.grid.getPoloidalGrid (j : K) = .ok (some p, y))
    (p' : MapPol K) (hy' : e.grid.getPoloidalGrid ((j : K) + (stepOf fwd : K)) = .ok (some p', yt)) (k : ℤ)
    (hk : slabShift g By Bz xc Bzp x (yt - y) = k) (v : ℤ → K) :
    applyRow ((o.legs fwd).op.row ((o.legs fwd).legInterior (x, j, z)).toNat) v =
      v (o.cellNumber (x, i.plane fwd j, (((z : ℤ) + k) % (g.nz : ℤ)).toNat)) := by
  have hfl : ⌊((z : K) + k)⌋ = (z : ℤ) + k := by
    have : ((z : K) + k) = (((z : ℤ) + k : ℤ) : K) := by push_cast; ring
    rw [this, Int.floor_intCast]
  rw [(C208_value_partial se h hi jc jw hm o ho fwd x j z hx1 hx2 hj hz p y yt hy p' hy' ((z : K) + k) (by rw [hk])).1
    (Or.inr (by rw [hfl]; push_cast; ring)) v]
  unfold alongZ
  rw [hfl]
  have : ((z : K) + k - (((z : ℤ) + k : ℤ) : K)) = 0 := by push_cast; ring
  rw [this, spline_zero, add_zero]

end Slab

/-- The full claim of C207. -/
def ValueRight (K : Type) [Field K] [LinearOrder K] [IsStrictOrderedRing K] [FloorRing K] : Prop :=
  ∀ (e : MmEnv K) (φ : K → K → K → K → K × K) (mxg r nc : ℕ) (empty : JState K) (m : ODict (MapVal K)) (first : MapPol K) (i : Input K) (o : Ops K)
    (fwd : Bool) (x j z : ℕ) (pol p : MapPol K) (y yt : K) (q : K × K), FollowOk e → PointTracer e φ →
    makeMaps e 1 mxg 1 r nc empty = .ok m → ReadFrom e mxg 1 m first i → 2 * mxg ≤ first.nx →
    calculateOps (fun _ => 0) (fun _ => 0) (asMapDict first.nx e.grid.ny first.nz 1 m) = .ok o → i.Interior (x, j, z) →
    e.grid.getPoloidalGrid (j : K) = .ok (some pol, y) → e.grid.getPoloidalGrid ((j : K) + (stepOf fwd : K)) = .ok (some p, yt) →
    e.outside (φ (pol.R x z) (pol.Z x z) y yt).1 yt (φ (pol.R x z) (pol.Z x z) y yt).2 = false →
    q = p.findIndex (fun x z => (φ (pol.R x z) (pol.Z x z) y yt).1) (fun x z => (φ (pol.R x z) (pol.Z x z) y yt).2) x z →
    ¬ i.Escapes q.1 → i.NoneSkipped q.1 → ∀ v : ℤ → K,
    applyRow ((o.legs fwd).op.row ((o.legs fwd).legInterior (x, j, z)).toNat) v =
      i.interp (fun d => v (o.cellNumber d)) (i.plane fwd j) q.1 q.2

/-- The full claim of C208. -/
def SlabRight (K : Type) [Field K] [LinearOrder K] [IsStrictOrderedRing K] [FloorRing K] : Prop :=
  ∀ (e : MmEnv K) (g : RectPol K) (By Bz xc Bzp : K) (mxg r nc : ℕ) (empty : JState K) (m : ODict (MapVal K)) (i : Input K) (o : Ops K)
    (fwd : Bool) (x j z : ℕ) (p p' : MapPol K) (y yt : K), SlabEnv e g By Bz xc Bzp →
    makeMaps e 1 mxg 1 r nc empty = .ok m → ReadFrom e mxg 1 m g.mapPol i → 2 * mxg ≤ g.nx →
    calculateOps (fun _ => 0) (fun _ => 0) (asMapDict g.nx e.grid.ny g.nz 1 m) = .ok o → mxg ≤ x → x + mxg < g.nx → j < e.grid.ny → z < g.nz →
    e.grid.getPoloidalGrid (j : K) = .ok (some p, y) → e.grid.getPoloidalGrid ((j : K) + (stepOf fwd : K)) = .ok (some p', yt) → ∀ v : ℤ → K,
    applyRow ((o.legs fwd).op.row ((o.legs fwd).legInterior (x, j, z)).toNat) v =
      alongZ g.nz (fun d => v (o.cellNumber d)) x (i.plane fwd j) (z + slabShift g By Bz xc Bzp x (yt - y))

/-- One point in x, four in z, one plane, periodic; field lines go up by `b` cells per turn. -/
def slabPol : RectPol ℚ := ⟨1, 4, 1, 1, 0, 0⟩

/-- See `slabPol`. -/
def slabMm (b : ℚ) : MmEnv ℚ where
  grid := ⟨[slabPol.mapPol], [0], 1, true, 1, 4⟩
  follow := fun _ _ R Z ys => ys.map fun y x z => slabLine 1 b 0 0 (R x z) (Z x z) (ys.headD 0) y
  outside := fun _ _ _ => false
  byfunc := fun _ _ _ => 1
  isSlab := true
  lineLength := fun _ _ => 1
  gauss := fun n => (List.range n).map fun i => ((2 * i + 1) / n - 1, 2 / n)
  sqrt := fun x => x
  repr := fun _ => "0.5"

theorem slabMm_int (b : ℚ) (k : ℤ) : (slabMm b).grid.getPoloidalGrid (k : ℚ) = .ok (some slabPol.mapPol, k) := by
  have hk := Grid.getInt_periodic (slabMm b).grid rfl Nat.one_pos rfl 0 Nat.one_pos k
  have e1 : ((0 : ℕ) : ℤ) + k * (((slabMm b).grid.ycoords.length : ℕ) : ℤ) = k := by
    have : (slabMm b).grid.ycoords.length = 1 := rfl
    rw [this]; push_cast; ring
  rw [e1] at hk
  rw [hk]
  simp [slabMm]

theorem slabMm_env (b : ℚ) : SlabEnv (slabMm b) slabPol 1 b 0 0 where
  follow := by intro n m R Z ys; simp [slabMm]
  lines := by intro n m R Z y ys; rfl
  inside := fun _ _ _ => rfl
  pols := by
    intro k p y h
    rw [slabMm_int] at h
    injection h with h
    injection h with h _
    injection h with h
    exact h.symm
  dR := by norm_num [slabPol]
  dZ := by norm_num [slabPol]

theorem slabMm_grid (b : ℚ) : GridOk (slabMm b) := by
  refine ⟨rfl, Nat.one_pos, ?_⟩
  intro p hp
  have : p = slabPol.mapPol := by simpa [slabMm] using hp
  subst this
  exact ⟨fun _ _ => 1, fun _ _ => 1, fun _ _ => 0, rfl, rfl, rfl⟩

/-- The maps of this slab and what is made from them. -/
theorem slabMm_all (b : ℚ) : ∃ m i o, makeMaps (slabMm b) 1 0 1 1 1 ⟨fun _ => 0, fun _ _ => 0, fun _ _ => 0⟩ = .ok m ∧
    ReadFrom (slabMm b) 0 1 m slabPol.mapPol i ∧
    calculateOps (fun _ => 0) (fun _ => 0) (asMapDict slabPol.nx (slabMm b).grid.ny slabPol.nz 1 m) = .ok o := by
  have hf := (slabMm_env b).follow
  have hgs : GaussOk (slabMm b) 1 := fun h => absurd h (by norm_num)
  have hlen : ((slabMm b).gauss 1).length = 1 := rfl
  have hpos : ∀ p ∈ (slabMm b).gauss 1, 0 < p.2 := by
    intro p hp
    obtain ⟨i, _, rfl⟩ := List.mem_map.1 hp
    norm_num
  obtain ⟨m, h⟩ := makeMaps_succeeds (slabMm b) hf (slabMm_grid b) 1 0 1 1 1 le_rfl hgs le_rfl le_rfl ⟨fun _ => 0, fun _ _ => 0, fun _ _ => 0⟩
  have h0 : (slabMm b).grid.getPoloidalGrid ((0 : ℕ) : ℚ) = .ok (some slabPol.mapPol, 0) := by
    have := slabMm_int b 0
    push_cast at this ⊢
    exact this
  obtain ⟨f, i, hi⟩ := C205_read _ hf (slabMm_grid b) 1 0 1 1 1 le_rfl le_rfl hgs hlen hpos _ m h
  have e1 := hi.first_eq h0
  subst e1
  obtain ⟨o, ho⟩ := C205_operators (fun _ => 0) (fun _ => 0) _ hf (slabMm_grid b) 1 0 1 1 1 le_rfl le_rfl hgs hlen hpos _ m h _ 0 h0 (by simp)
  exact ⟨m, i, o, h, hi, ho⟩

theorem slabMm_here (b : ℚ) : (slabMm b).grid.getPoloidalGrid ((0 : ℕ) : ℚ) = .ok (some slabPol.mapPol, 0) ∧
    (slabMm b).grid.getPoloidalGrid (((0 : ℕ) : ℚ) + (stepOf true : ℚ)) = .ok (some slabPol.mapPol, 1) := by
  have h0 := slabMm_int b 0
  have h1 := slabMm_int b 1
  push_cast at h0 h1
  refine ⟨by push_cast; exact h0, ?_⟩
  have : ((0 : ℕ) : ℚ) + (stepOf true : ℚ) = 1 := by norm_num [stepOf]
  rw [this]
  exact h1

/-- **C208 (refutation).** A slab where the field lines go down by half a cell. -/
theorem C208_fails : ¬ SlabRight ℚ := by
  intro hall
  obtain ⟨m, i, o, h, hi, ho⟩ := slabMm_all (-1 / 2)
  obtain ⟨h0, h1⟩ := slabMm_here (-1 / 2)
  have hv := hall _ slabPol 1 (-1 / 2) 0 0 0 1 1 _ m i o true 0 0 0 _ _ 0 1 (slabMm_env _) h hi (by decide) ho (by decide) (by decide) (by decide)
    (by decide) h0 h1
  have := (C208_value_partial (slabMm_env _) h hi _ _ (by decide) o ho true 0 0 0 (by decide) (by decide) (by decide) (by decide) _ 0 1 h0 _ h1 _ rfl).2
    (by decide) hv
  norm_num [slabShift, slabPol] at this

/-- **C207 (refutation).** The same slab. -/
theorem C207_fails : ¬ ValueRight ℚ := by
  intro hall
  apply C208_fails
  intro e g By Bz xc Bzp mxg r nc empty m i o fwd x j z p p' y yt se h hi hm ho hx1 hx2 hj hz hy hy' v
  obtain ⟨px, pz⟩ := C208_positions se h hi fwd x j z hj p y yt hy p' hy'
  have hp : p = g.mapPol := se.pols (j : ℤ) p y (by push_cast; exact hy)
  have hp' : p' = g.mapPol := se.pols ((j : ℤ) + stepOf fwd) p' yt (by push_cast; exact hy')
  subst hp hp'
  have hR := se.dR
  have hZ := se.dZ
  have hnx : i.nx = g.nx := hi.enx
  have hnz : i.nz = g.nz := hi.enz
  have hc : i.Interior (x, j, z) := by
    refine ⟨by rw [hi.emxg]; exact hx1, by rw [hi.emxg, hnx]; exact hx2, by rw [hi.eny]; exact hj, by rw [hnz]; exact hz⟩
  have hq : ((x : ℚ), (z : ℚ) + slabShift g By Bz xc Bzp x (yt - y)) =
      g.mapPol.findIndex (fun x z => (slabLine By Bz xc Bzp (g.mapPol.R x z) (g.mapPol.Z x z) y yt).1)
        (fun x z => (slabLine By Bz xc Bzp (g.mapPol.R x z) (g.mapPol.Z x z) y yt).2) x z := by
    simp only [slabLine, RectPol.mapPol, RectPol.pol, RectPol.findIndex, slabShift]
    congr 1
    · field_simp; ring
    · field_simp; ring
  rw [hall e _ mxg r nc empty m g.mapPol i o fwd x j z g.mapPol g.mapPol y yt _ se.follow se.lines h hi hm ho hc hy hy' (se.inside _ _ _) hq ?_ ?_ v,
    interp_alongZ i _ _ x _ hc.1 hc.2.1, hnz]
  · unfold Input.Escapes
    rw [hi.emxg, hnx]
    push Not
    have a : (x : ℚ) + mxg + 1 ≤ g.nx := by exact_mod_cast hx2
    simp only
    exact ⟨by exact_mod_cast hx1, by linarith⟩
  · exact noneSkipped_of_clear _ _ (Or.inl (by simp))

/-- The hypotheses of the theorems on slabs can be met: field lines that go down by a whole cell move the values by one. -/
example : ∃ (m : ODict (MapVal ℚ)) (o : Ops ℚ), makeMaps (slabMm (-1)) 1 0 1 1 1 ⟨fun _ => 0, fun _ _ => 0, fun _ _ => 0⟩ = .ok m ∧
    calculateOps (fun _ => 0) (fun _ => 0) (asMapDict slabPol.nx (slabMm (-1)).grid.ny slabPol.nz 1 m) = .ok o ∧
    ∀ v : ℤ → ℚ, applyRow ((o.legs true).op.row ((o.legs true).legInterior (0, 0, 0)).toNat) v = v (o.cellNumber (0, 0, 3)) := by
  obtain ⟨m, i, o, h, hi, ho⟩ := slabMm_all (-1)
  obtain ⟨h0, h1⟩ := slabMm_here (-1)
  refine ⟨m, o, h, ho, fun v => ?_⟩
  rw [C208_whole (slabMm_env _) h hi _ _ (by decide) o ho true 0 0 0 (by decide) (by decide) (by decide) (by decide) _ 0 1 h0 _ h1 (-1)
    (by norm_num [slabShift, slabPol]) v]
  have : i.plane true 0 = 0 := by
    unfold Input.plane
    rw [hi.eny]
    rfl
  rw [this]
  rfl

end Zoidberg
