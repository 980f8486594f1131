import Verif.Proofs.MakeMapsOk

/-! # A concrete case for the theorems on `make_maps` -/

set_option linter.unusedSectionVars false

namespace Zoidberg

/-- A unit Cartesian grid of 3 by 4 points. -/
def exMapPol : MapPol ℚ where
  nx := 3
  nz := 4
  R := fun x _ => 1 + x
  Z := fun _ z => z
  metric := fun k => if k = "g_xx" ∨ k = "g_zz" then some (fun _ _ => 1)
    else if k = "g_xz" then some (fun _ _ => 0) else none
  findIndex := fun R Z x z => (R x z - 1, Z x z)

/-- Field lines move up by half the distance in `y`; points above 7/2 are outside;
the quadrature is the midpoint rule.  The grid has the given `ycoords`. -/
def exMm (ys : List ℚ) (per slab : Bool) : MmEnv ℚ where
  grid := ⟨ys.map fun _ => exMapPol, ys, ys.length, per, 3, 4⟩
  follow := fun _ _ R Z ys => ys.map fun y x z => (R x z, Z x z + (y - ys.headD 0) / 2)
  outside := fun _ _ z => decide (7 / 2 < z)
  byfunc := fun x _ _ => 2 + x
  isSlab := slab
  lineLength := fun _ ys => |ys.getLastD 0 - ys.headD 0|
  gauss := fun n => (List.range n).map fun i => ((2 * i + 1) / n - 1, 2 / n)
  sqrt := fun x => x
  repr := fun _ => "0.5"

theorem exMm_follow (ys : List ℚ) (per slab : Bool) : FollowOk (exMm ys per slab) := by
  intro n m R Z ys
  simp [exMm]

theorem exMm_grid (ys : List ℚ) (per slab : Bool) (h : 0 < ys.length) : GridOk (exMm ys per slab) := by
  refine ⟨by simp [exMm], h, ?_⟩
  intro p hp
  obtain ⟨y, _, rfl⟩ := List.mem_map.1 hp
  exact ⟨fun _ _ => 1, fun _ _ => 1, fun _ _ => 0, rfl, rfl, rfl⟩

theorem exMm_gauss (ys : List ℚ) (per slab : Bool) (n : ℕ) : GaussOk (exMm ys per slab) n := by
  intro h
  have e1 : ((exMm ys per slab).gauss n).map (·.2) = List.replicate n (2 / (n : ℚ)) := by
    unfold exMm
    simp only [List.map_map]
    refine List.ext_getElem (by simp) ?_
    intro i h1 h2
    simp
  have hn : (n : ℚ) ≠ 0 := by
    have : n ≠ 0 := by omega
    exact_mod_cast this
  rw [e1, List.sum_replicate, nsmul_eq_mul]
  field_simp

/-- `make_maps` succeeds for this case, with any options. -/
theorem exMm_succeeds (ys : List ℚ) (per slab : Bool) (h : 0 < ys.length) (nslice mxg n r nc : ℕ)
    (hn : 1 ≤ n) (hr : 1 ≤ r) (hc : 1 ≤ nc) (empty : JState ℚ) :
    ∃ m, makeMaps (exMm ys per slab) nslice mxg n r nc empty = .ok m :=
  makeMaps_succeeds _ (exMm_follow ys per slab) (exMm_grid ys per slab h) nslice mxg n r nc hn
    (exMm_gauss ys per slab n) hr hc empty

end Zoidberg
