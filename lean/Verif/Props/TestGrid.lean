import Verif.Model.TestGrid
import Verif.Props.GridMetric
import Mathlib.Tactic.Linarith
import Mathlib.Tactic.FieldSimp
import Mathlib.Tactic.Positivity

/-!
# What the tests of grids and slabs notice (C296, C297)
-/

set_option linter.unusedSectionVars false

namespace Zoidberg

variable {K : Type} [Field K] [LinearOrder K] [IsStrictOrderedRing K] [FloorRing K]

theorem grid_isClose_self (a : K) : isClose a a := by
  unfold isClose
  rw [sub_self, abs_zero]
  positivity

/-! ## C296 -/

/-- C296: exactly what the test of grids notices of any `getPoloidalGrid`, right or wrong. -/
theorem C296_lookup {G : Type} (ny : ℕ) (look : K → Except Err (Option G × K)) (n : ℕ) (L : K) :
    testLookup ny look n L = true ↔ ny = n ∧ (∃ y, look (-1) = .ok (none, y) ∧ isClose y 0) ∧ (∃ y, look (n : K) = .ok (none, y) ∧ isClose y L) ∧
      (∃ p y, look 0 = .ok (p, y) ∧ isClose y (L / (2 * n))) ∧ ∃ p y, look ((n : K) - 1) = .ok (p, y) ∧ isClose y (L - L / (2 * n)) := by
  have out : ∀ i y, lookupIs look i true y = true ↔ ∃ y', look i = .ok (none, y') ∧ isClose y' y := by
    intro i y
    unfold lookupIs
    rcases look i with e | ⟨_ | p, y'⟩ <;> simp
  have ins : ∀ i y, lookupIs look i false y = true ↔ ∃ p y', look i = .ok (p, y') ∧ isClose y' y := by
    intro i y
    unfold lookupIs
    rcases look i with e | ⟨p, y'⟩
    · simp
    · simp only [Bool.not_false, Bool.true_or, Bool.true_and, decide_eq_true_eq]
      constructor
      · intro h; exact ⟨p, y', rfl, h⟩
      · rintro ⟨p', y'', h, h'⟩
        cases h
        exact h'
  simp only [testLookup, Bool.and_eq_true, decide_eq_true_eq, out, ins, and_assoc]

/-- C296: exactly what the test of periodic grids notices of any `getPoloidalGrid`. -/
theorem C296_periodic_lookup {G : Type} [DecidableEq G] (ny : ℕ) (look : K → Except Err (Option G × K)) (n : ℕ) :
    testPeriodicLookup ny look n = true ↔ ny = n ∧ ∃ p y y', look ((n : K) - 1) = .ok (some p, y) ∧ look (-1) = .ok (some p, y') ∧ y' < y := by
  unfold testPeriodicLookup
  rw [Bool.and_eq_true, decide_eq_true_eq]
  refine and_congr_right fun _ => ?_
  rcases look ((n : K) - 1) with e | ⟨_ | p, y⟩ <;> rcases look (-1) with e' | ⟨_ | q, y'⟩ <;> simp

/-- C296: the test of grids passes exactly for grids that are not periodic, have the number of planes and the length of the test, and whose first and last planes are where the test has them. -/
theorem C296_iff {G : Type} (size : G → ℕ × ℕ) (l : List G) (ys : List K) (Ly : K) (per : Bool) (g : Grid G K) (hg : Grid.init size (.many l) ys Ly per = .ok g) (n : ℕ) (L : K) :
    testGetPoloidalGrid g n L = true ↔
      ys.length = n ∧ per = false ∧ isClose Ly L ∧ isClose (ys.getD 0 0) (L / (2 * n)) ∧ isClose (ys.getD (n - 1) 0) (L - L / (2 * n)) := by
  obtain ⟨-, hys, -, -, -, h0⟩ := Grid.init_many hg
  have hny : g.ny = ys.length := by rw [Grid.ny, hys]
  have h0' : 0 < ys.length := h0
  by_cases hn : ys.length = n
  swap
  · simp [testGetPoloidalGrid, testLookup, hny, hn]
  subst hn
  cases per with
  | true =>
    obtain ⟨p, -, h2⟩ := C19_periodic_lookup size l ys Ly g hg (ys.length - 1) (by omega) (-1)
    have e : ((ys.length - 1 : ℕ) : K) + ((-1 : ℤ) : K) * (ys.length : K) = -1 := by
      rw [Nat.cast_sub (by omega)]; push_cast; ring
    rw [e] at h2
    simp [testGetPoloidalGrid, testLookup, lookupIs, h2]
  | false =>
    obtain ⟨hin, hlo, hhi⟩ := C21_ends size l ys Ly g hg
    have a := hlo (-1) (by omega)
    have b := hhi (ys.length : ℤ) le_rfl
    obtain ⟨p, -, c⟩ := hin 0 h0'
    obtain ⟨q, -, d⟩ := hin (ys.length - 1) (by omega)
    rw [Nat.cast_sub (by omega)] at d
    push_cast at a b c d
    simp only [testGetPoloidalGrid, testLookup, lookupIs, a, b, c, d, hny, grid_isClose_self]
    simp [and_assoc]

/-- C296: the test of periodic grids passes exactly for periodic grids with the number of planes and a positive length: the length itself and the coordinates are not noticed. -/
theorem C296_periodic_iff {G : Type} [DecidableEq G] (size : G → ℕ × ℕ) (l : List G) (ys : List K) (Ly : K) (per : Bool) (g : Grid G K) (hg : Grid.init size (.many l) ys Ly per = .ok g) (n : ℕ) :
    testPeriodicGrid g n = true ↔ ys.length = n ∧ per = true ∧ 0 < Ly := by
  obtain ⟨-, hys, -, -, -, h0⟩ := Grid.init_many hg
  have hny : g.ny = ys.length := by rw [Grid.ny, hys]
  have h0' : 0 < ys.length := h0
  by_cases hn : ys.length = n
  swap
  · simp [testPeriodicGrid, testPeriodicLookup, hny, hn]
  subst hn
  cases per with
  | true =>
    obtain ⟨p, hp, h1⟩ := C19_periodic_lookup size l ys Ly g hg (ys.length - 1) (by omega) 0
    obtain ⟨q, hq, h2⟩ := C19_periodic_lookup size l ys Ly g hg (ys.length - 1) (by omega) (-1)
    rw [hp] at hq
    obtain rfl := Option.some.inj hq
    have e : ((ys.length - 1 : ℕ) : K) + ((-1 : ℤ) : K) * (ys.length : K) = -1 := by
      rw [Nat.cast_sub (by omega)]; push_cast; ring
    have e' : ((ys.length - 1 : ℕ) : K) + ((0 : ℤ) : K) * (ys.length : K) = (ys.length : K) - 1 := by
      rw [Nat.cast_sub (by omega)]; push_cast; ring
    rw [e] at h2
    rw [e'] at h1
    simp [testPeriodicGrid, testPeriodicLookup, hny, h1, h2]
  | false =>
    have a := (C21_ends size l ys Ly g hg).2.1 (-1) (by omega)
    push_cast at a
    simp only [testPeriodicGrid, testPeriodicLookup, a]
    rcases g.getPoloidalGrid ((ys.length : K) - 1) with _ | ⟨_ | _, _⟩ <;> simp

/-- C296: a rectangular grid passes the test with its own numbers exactly if it is not periodic, and that of periodic grids exactly if it is and the length is positive. -/
theorem C296_rectangular {G : Type} [DecidableEq G] (size : G → ℕ × ℕ) (pol : G) (ny : ℕ) (hny : 0 < ny) (Ly : K) (per : Bool) :
    ∃ g, rectangularGrid size pol ny Ly per = .ok g ∧ (testGetPoloidalGrid g ny Ly = true ↔ per = false) ∧ (testPeriodicGrid g ny = true ↔ per = true ∧ 0 < Ly) := by
  have hlen := rectangularY_length (K := K) ny Ly per
  obtain ⟨g, hg⟩ : ∃ g, rectangularGrid size pol ny Ly per = .ok g := by
    unfold rectangularGrid Grid.init
    obtain ⟨y, t, ht⟩ := List.exists_cons_of_length_pos (by rw [hlen]; exact hny : 0 < (rectangularY ny Ly per).length)
    simp [ht]
  have hm := rectangularGrid_many size pol ny Ly per g hg
  refine ⟨g, hg, ?_, ?_⟩
  · rw [C296_iff size _ _ Ly per g hm, hlen]
    refine ⟨fun h => h.2.1, ?_⟩
    rintro rfl
    have hn : (ny : K) ≠ 0 := by exact_mod_cast hny.ne'
    refine ⟨rfl, rfl, grid_isClose_self _, ?_, ?_⟩
    · rw [rectangularY_getD ny Ly false 0 hny]
      simp [grid_isClose_self]
    · rw [rectangularY_getD ny Ly false (ny - 1) (by omega), Nat.cast_sub (by omega)]
      have : (if false = true then (0 : K) else Ly / (2 * ny)) + ((ny : K) - ((1 : ℕ) : K)) * (Ly / ny) = Ly - Ly / (2 * ny) := by
        simp only [Bool.false_eq_true, if_false, Nat.cast_one]
        field_simp
        ring
      rw [this]
      exact grid_isClose_self _
  · rw [C296_periodic_iff size _ _ Ly per g hm, hlen]
    simp

/-- The grids of the tests. -/
example : ∃ g : Grid ℕ ℚ, rectangularGrid (fun _ => (10, 10)) 0 10 10 false = .ok g ∧ testGetPoloidalGrid g 10 10 = true ∧ testPeriodicGrid g 10 = false := by
  obtain ⟨g, h, a, b⟩ := C296_rectangular (K := ℚ) (fun _ : ℕ => (10, 10)) 0 10 (by norm_num) 10 false
  refine ⟨g, h, a.2 rfl, ?_⟩
  rw [← Bool.not_eq_true, b]
  simp

/-- A wrong coordinate of a plane between the first and the last one is not noticed. -/
example : ∃ g : Grid ℕ ℚ, Grid.init (fun _ => (1, 1)) (.many [0, 1, 2]) [1 / 2, 100, 5 / 2] 3 false = .ok g ∧ testGetPoloidalGrid g 3 3 = true := by
  refine ⟨_, rfl, ?_⟩
  rw [C296_iff (fun _ => (1, 1)) [0, 1, 2] [1 / 2, 100, 5 / 2] 3 false _ rfl]
  refine ⟨rfl, rfl, grid_isClose_self _, ?_, ?_⟩
  · have : (3 : ℚ) / (2 * ((3 : ℕ) : ℚ)) = 1 / 2 := by norm_num
    rw [this]; exact grid_isClose_self _
  · have : (3 : ℚ) - 3 / (2 * ((3 : ℕ) : ℚ)) = 5 / 2 := by norm_num
    rw [this]; exact grid_isClose_self _

/-! ## C297 -/

/-- C297: what the tests of slabs notice of any field: the components at the points of the diagonal in the plane 0. -/
theorem C297_iff (f : FieldFns K) (xs : List K) (by' bz : K) :
    testSlabField f xs by' bz = true ↔ ∀ x ∈ xs, isClose (f.Bx x x 0) 0 ∧ isClose (f.By x x 0) by' ∧ isClose (f.Bz x x 0) bz := by
  simp only [testSlabField, Bool.and_eq_true, List.all_eq_true, decide_eq_true_eq]
  constructor
  · rintro ⟨⟨a, b⟩, c⟩ x hx
    exact ⟨a x hx, b x hx, c x hx⟩
  · intro h
    exact ⟨⟨fun x hx => (h x hx).1, fun x hx => (h x hx).2.1⟩, fun x hx => (h x hx).2.2⟩

/-- C297: a slab with the components of the test passes exactly if the shear changes the field by no more than the tolerance at every point; without shear it passes for all points. -/
theorem C297_slab (By Bz xcentre Bzprime : K) (xs : List K) :
    testSlabField (slab By Bz xcentre Bzprime) xs By Bz = true ↔ ∀ x ∈ xs, |x - xcentre| * |Bzprime| ≤ 1 / 10 ^ 8 + 1 / 10 ^ 5 * |Bz| := by
  rw [C297_iff]
  refine forall₂_congr fun x _ => ?_
  simp only [slab, grid_isClose_self, true_and]
  unfold isClose
  rw [add_sub_cancel_left, abs_mul]

/-- C297: a field without shear always passes. -/
theorem C297_passes (By Bz xcentre Rmaj : K) (xs : List K) : testSlabField (slab By Bz xcentre 0) xs By Bz = true ∧ testSlabField (curvedSlab By Bz xcentre 0 Rmaj) xs By Bz = true := by
  constructor <;> rw [C297_iff] <;> intro x _ <;> simp [slab, curvedSlab, grid_isClose_self]

/-- C297: the major radius of a curved slab is not noticed: it passes exactly if the flat one does. -/
theorem C297_curved (By Bz xcentre Bzprime Rmaj : K) (xs : List K) (by' bz : K) :
    testSlabField (curvedSlab By Bz xcentre Bzprime Rmaj) xs by' bz = testSlabField (slab By Bz xcentre Bzprime) xs by' bz := rfl

/-- C297: with the points of the test, the reference in the first of them, the test passes exactly if nine times the shear is within the tolerance. -/
theorem C297_arange (By Bz Bzprime : K) :
    testSlabField (slab By Bz 0 Bzprime) ((List.range 10).map fun i : ℕ => (i : K)) By Bz = true ↔ 9 * |Bzprime| ≤ 1 / 10 ^ 8 + 1 / 10 ^ 5 * |Bz| := by
  rw [C297_slab]
  constructor
  · intro h
    have := h 9 (List.mem_map.2 ⟨9, by simp, by norm_num⟩)
    rwa [sub_zero, abs_of_nonneg (by norm_num : (0 : K) ≤ 9)] at this
  · intro h x hx
    obtain ⟨i, hi, rfl⟩ := List.mem_map.1 hx
    refine le_trans ?_ h
    rw [sub_zero, abs_of_nonneg (Nat.cast_nonneg i)]
    have : (i : K) ≤ 9 := by
      have := List.mem_range.1 hi
      exact_mod_cast (by omega : i ≤ 9)
    exact mul_le_mul_of_nonneg_right this (abs_nonneg _)

/-- The field of the test passes, and one with the default shear would not. -/
example : testSlabField (slab (1 / 2 : ℚ) (1 / 5) 0 0) ((List.range 10).map fun i : ℕ => (i : ℚ)) (1 / 2) (1 / 5) = true ∧
    testSlabField (slab (1 / 2 : ℚ) (1 / 5) 0 1) ((List.range 10).map fun i : ℕ => (i : ℚ)) (1 / 2) (1 / 5) = false := by
  refine ⟨(C297_passes _ _ _ 1 _).1, ?_⟩
  rw [← Bool.not_eq_true, C297_arange, abs_one, abs_of_nonneg (by norm_num : (0 : ℚ) ≤ 1 / 5)]
  norm_num

end Zoidberg
