import Verif.Model.ParMetric
import Verif.Props.Grid
import Mathlib.Tactic.FieldSimp
import Mathlib.Tactic.IntervalCases

/-! # C39, C100: the y coordinates of parallel slices -/

set_option linter.unusedSectionVars false

namespace Zoidberg

variable {K : Type} [Field K] [LinearOrder K] [IsStrictOrderedRing K] [FloorRing K]

theorem length_unwrap_aux (m s : K) (l : List ℕ) : ∀ p : List K,
    (l.foldl (fun p i => if m * (p.getD i 0 - p.getD (i - 1) 0) < 0 then p.set i (p.getD i 0 + s) else p)
      p).length = p.length := by
  induction l with
  | nil => intro p; rfl
  | cons i t ih =>
    intro p
    rw [List.foldl_cons, ih]
    split <;> simp

theorem getD_set (p : List K) (i j : ℕ) (v d : K) (hi : i < p.length) :
    (p.set i v).getD j d = if j = i then v else p.getD j d := by
  rw [List.getD_eq_getElem?_getD, List.getD_eq_getElem?_getD, List.getElem?_set]
  by_cases h : i = j
  · subst h; simp [hi]
  · rw [if_neg h, if_neg (Ne.symm h)]

/-- The loop, given the values it should produce: every value is either kept or
shifted, according to the comparison with its predecessor. -/
theorem unwrap_spec (m s : K) (p : List K) (q : ℕ → K) (h0 : q 0 = p.getD 0 0)
    (h : ∀ i, 1 ≤ i → i < p.length →
      (m * (p.getD i 0 - q (i - 1)) < 0 ∧ q i = p.getD i 0 + s) ∨
      (¬ m * (p.getD i 0 - q (i - 1)) < 0 ∧ q i = p.getD i 0)) :
    unwrap m s p = (List.range p.length).map q := by
  have key : ∀ k, k + 1 ≤ p.length → ∀ j,
      ((pyRange 1 (k + 1)).foldl (fun p i =>
        if m * (p.getD i 0 - p.getD (i - 1) 0) < 0 then p.set i (p.getD i 0 + s) else p) p).getD j 0 =
        if j ≤ k ∧ j < p.length then q j else p.getD j 0 := by
    intro k
    induction k with
    | zero =>
      intro _ j
      have : pyRange 1 (0 + 1) = [] := rfl
      rw [this, List.foldl_nil]
      split
      · rename_i hj
        obtain ⟨hj, _⟩ := hj
        have : j = 0 := by omega
        subst this
        exact h0.symm
      · rfl
    | succ k ih =>
      intro hk j
      have e : pyRange 1 (k + 1 + 1) = pyRange 1 (k + 1) ++ [k + 1] := by
        unfold pyRange
        simp only [Nat.add_sub_cancel]
        rw [List.range'_concat]
        congr 2
        omega
      rw [e, List.foldl_append, List.foldl_cons, List.foldl_nil]
      have ih := ih (by omega)
      have hlen := length_unwrap_aux m s (pyRange 1 (k + 1)) p
      generalize hr : (pyRange 1 (k + 1)).foldl (fun p i =>
        if m * (p.getD i 0 - p.getD (i - 1) 0) < 0 then p.set i (p.getD i 0 + s) else p) p = r at ih hlen ⊢
      have e1 : r.getD (k + 1) 0 = p.getD (k + 1) 0 := by
        rw [ih, if_neg (by omega)]
      have e2 : r.getD (k + 1 - 1) 0 = q (k + 1 - 1) := by
        rw [ih, if_pos (by omega)]
      rw [e1, e2]
      rcases h (k + 1) (by omega) (by omega) with ⟨a, b⟩ | ⟨a, b⟩
      · rw [if_pos a, getD_set _ _ _ _ _ (by omega)]
        by_cases hj : j = k + 1
        · subst hj
          rw [if_pos rfl, if_pos (by omega), b]
        · rw [if_neg hj, ih]
          by_cases hj2 : j ≤ k ∧ j < p.length
          · rw [if_pos hj2, if_pos (by omega)]
          · rw [if_neg hj2, if_neg (by omega)]
      · rw [if_neg a, ih]
        by_cases hj : j = k + 1
        · subst hj
          rw [if_neg (by omega), if_pos (by omega), b]
        · by_cases hj2 : j ≤ k ∧ j < p.length
          · rw [if_pos hj2, if_pos (by omega)]
          · rw [if_neg hj2, if_neg (by omega)]
  rcases Nat.eq_zero_or_pos p.length with hp | hp
  · have : p = [] := List.length_eq_zero_iff.1 hp
    subst this
    rfl
  · have hlen := length_unwrap_aux m s (pyRange 1 p.length) p
    have key' := key (p.length - 1) (by omega)
    rw [show p.length - 1 + 1 = p.length by omega] at key'
    unfold unwrap
    refine List.ext_getElem (by rw [hlen]; simp) ?_
    intro j h1 h2
    have hj : j < p.length := by rw [hlen] at h1; exact h1
    have := key' j
    rw [if_pos (by omega), List.getD_eq_getElem?_getD, List.getElem?_eq_getElem h1] at this
    simp only [Option.getD_some] at this
    rw [this]
    simp

/-- Sum of the differences. -/
theorem sum_diff (q : ℕ → K) (n : ℕ) :
    ((List.range n).map fun i => q (i + 1) - q i).sum = q n - q 0 := by
  induction n with
  | zero => simp
  | succ n ih => rw [List.range_succ, List.map_append, List.sum_append, ih]; simp

theorem meanDiff_eq (y : List K) :
    meanDiff y = (y.getD (y.length - 1) 0 - y.getD 0 0) / ((y.length - 1 : ℕ) : K) := by
  unfold meanDiff
  rw [sum_diff (fun i => y.getD i 0)]

/-! ## Coordinates of increasing grids -/

/-- The y coordinates increase and span less than one period. -/
structure Increasing (y : List K) (Ly : K) : Prop where
  lt : ∀ i, i + 1 < y.length → y.getD i 0 < y.getD (i + 1) 0
  span : y.getD (y.length - 1) 0 - y.getD 0 0 < Ly

theorem Increasing.mono {y : List K} {Ly : K} (h : Increasing y Ly) : ∀ i j, i ≤ j → j < y.length →
    y.getD i 0 ≤ y.getD j 0 := by
  intro i j hij hj
  induction j with
  | zero => have : i = 0 := by omega
            subst this; exact le_refl _
  | succ j ih =>
    by_cases e : i = j + 1
    · subst e; exact le_refl _
    · exact le_trans (ih (by omega) (by omega)) (le_of_lt (h.lt j hj))

/-- The expected coordinate of plane `i` of the slice with the given offset:
periods are counted from the one in which the slice of plane 0 lies. -/
def sliceCoord (y : List K) (Ly : K) (offset : ℤ) (i : ℕ) : K :=
  y.getD (((i : ℤ) + offset) % (y.length : ℤ)).toNat 0 +
    (((((i : ℤ) + offset) / (y.length : ℤ) - offset / (y.length : ℤ)) : ℤ) : K) * Ly

theorem getD_rollBack (y : List K) (offset : ℤ) (i : ℕ) (hi : i < y.length) :
    (rollBack y offset).getD i 0 = y.getD (((i : ℤ) + offset) % (y.length : ℤ)).toNat 0 := by
  unfold rollBack
  rw [List.getD_eq_getElem?_getD, List.getElem?_map, List.getElem?_range hi]
  rfl

/-- Division with remainder along consecutive indices. -/
theorem step_div (n : ℕ) (hn : 0 < n) (a : ℤ) (hr : (a - 1) % n ≠ (n : ℤ) - 1) :
    a % n = (a - 1) % n + 1 ∧ a / n = (a - 1) / n := by
  have hn' : (0 : ℤ) < n := by exact_mod_cast hn
  have h1 := Int.mul_ediv_add_emod (a - 1) n
  have h2 := Int.emod_nonneg (a - 1) hn'.ne'
  have h3 := Int.emod_lt_of_pos (a - 1) hn'
  have ha : a = ((a - 1) % n + 1) + n * ((a - 1) / n) := by linarith
  constructor
  · conv_lhs => rw [ha]
    rw [Int.add_mul_emod_self_left]
    exact Int.emod_eq_of_lt (by omega) (by omega)
  · conv_lhs => rw [ha]
    rw [Int.add_mul_ediv_left _ _ hn'.ne', Int.ediv_eq_zero_of_lt (by omega) (by omega)]
    ring

theorem step_wrap (n : ℕ) (hn : 0 < n) (a : ℤ) (hr : (a - 1) % n = (n : ℤ) - 1) :
    a % n = 0 ∧ a / n = (a - 1) / n + 1 := by
  have hn' : (0 : ℤ) < n := by exact_mod_cast hn
  have h1 := Int.mul_ediv_add_emod (a - 1) n
  have ha : a = 0 + n * ((a - 1) / n + 1) := by rw [hr] at h1; linarith
  constructor
  · conv_lhs => rw [ha]
    rw [Int.add_mul_emod_self_left]; simp
  · conv_lhs => rw [ha]
    rw [Int.add_mul_ediv_left _ _ hn'.ne']; simp

theorem wraps (n : ℕ) (offset : ℤ) (i : ℕ) (hi : i < n) :
    (((i : ℤ) + offset) / n - offset / n = 0 ∧
        ((i : ℤ) + offset) % n = offset % n + i) ∨
      (((i : ℤ) + offset) / n - offset / n = 1 ∧
        ((i : ℤ) + offset) % n = offset % n + i - n) := by
  have hn' : (0 : ℤ) < n := by omega
  have h1 := Int.mul_ediv_add_emod offset n
  have h2 := Int.emod_nonneg offset hn'.ne'
  have h3 := Int.emod_lt_of_pos offset hn'
  by_cases h : offset % n + i < n
  · left
    have ha : (i : ℤ) + offset = (offset % n + i) + n * (offset / n) := by linarith
    constructor
    · rw [ha, Int.add_mul_ediv_left _ _ hn'.ne', Int.ediv_eq_zero_of_lt (by omega) (by omega)]; ring
    · conv_lhs => rw [ha]
      rw [Int.add_mul_emod_self_left, Int.emod_eq_of_lt (by omega) (by omega)]
  · right
    have ha : (i : ℤ) + offset = (offset % n + i - n) + n * (offset / n + 1) := by linarith
    constructor
    · rw [ha, Int.add_mul_ediv_left _ _ hn'.ne', Int.ediv_eq_zero_of_lt (by omega) (by omega)]; ring
    · conv_lhs => rw [ha]
      rw [Int.add_mul_emod_self_left, Int.emod_eq_of_lt (by omega) (by omega)]

/-- The expected coordinates increase. -/
theorem sliceCoord_lt {y : List K} {Ly : K} (h : Increasing y Ly) (offset : ℤ) (i : ℕ)
    (hi : i + 1 < y.length) : sliceCoord y Ly offset i < sliceCoord y Ly offset (i + 1) := by
  have hn : 0 < y.length := by omega
  have hn' : (0 : ℤ) < y.length := by exact_mod_cast hn
  unfold sliceCoord
  have e : (((i + 1 : ℕ) : ℤ) + offset) - 1 = (i : ℤ) + offset := by push_cast; ring
  by_cases hr : ((((i + 1 : ℕ) : ℤ) + offset) - 1) % (y.length : ℤ) = (y.length : ℤ) - 1
  · obtain ⟨a, b⟩ := step_wrap y.length hn _ hr
    rw [a, b, e]
    rw [e] at hr
    rw [hr]
    have h3 := h.span
    have e2 : ((y.length : ℤ) - 1).toNat = y.length - 1 := by omega
    rw [e2]
    push_cast
    linarith
  · obtain ⟨a, b⟩ := step_div y.length hn _ hr
    rw [a, b, e]
    have h2 := Int.emod_nonneg ((i : ℤ) + offset) hn'.ne'
    have h3 := Int.emod_lt_of_pos ((i : ℤ) + offset) hn'
    rw [e] at hr
    have e2 : (((i : ℤ) + offset) % (y.length : ℤ) + 1).toNat =
        (((i : ℤ) + offset) % (y.length : ℤ)).toNat + 1 := by omega
    rw [e2]
    have := h.lt (((i : ℤ) + offset) % (y.length : ℤ)).toNat (by omega)
    linarith

theorem unwrap_increasing {y : List K} {Ly m : K} (h : Increasing y Ly) (hm : 0 < m)
    (offset : ℤ) : unwrap m Ly (rollBack y offset) = (List.range y.length).map (sliceCoord y Ly offset) := by
  have hlen : (rollBack y offset).length = y.length := by unfold rollBack; simp
  rw [unwrap_spec m Ly (rollBack y offset) (sliceCoord y Ly offset), hlen]
  · by_cases hn : 0 < y.length
    · rw [getD_rollBack y offset 0 hn]
      unfold sliceCoord
      simp
    · have : y = [] := List.length_eq_zero_iff.1 (by omega)
      subst this
      simp [sliceCoord, rollBack]
  · intro i h1 h2
    rw [hlen] at h2
    rw [getD_rollBack y offset i h2]
    have hn' : (0 : ℤ) < y.length := by omega
    have hlt := sliceCoord_lt h offset (i - 1) (by omega)
    rw [show i - 1 + 1 = i by omega] at hlt
    have b0 := Int.emod_nonneg offset hn'.ne'
    have b1 := Int.emod_lt_of_pos offset hn'
    rcases wraps y.length offset i h2 with ⟨a, b⟩ | ⟨a, b⟩
    · right
      have e : sliceCoord y Ly offset i = y.getD (((i : ℤ) + offset) % (y.length : ℤ)).toNat 0 := by
        unfold sliceCoord
        rw [a]; simp
      rw [e] at hlt ⊢
      refine ⟨?_, rfl⟩
      have := mul_pos hm (sub_pos.2 hlt)
      linarith
    · left
      have e : sliceCoord y Ly offset i = y.getD (((i : ℤ) + offset) % (y.length : ℤ)).toNat 0 + Ly := by
        unfold sliceCoord
        rw [a]; simp
      refine ⟨?_, e⟩
      refine mul_neg_of_pos_of_neg hm ?_
      rw [sub_neg]
      -- the predecessor is at least the largest coordinate below
      rcases wraps y.length offset (i - 1) (by omega) with ⟨a', b'⟩ | ⟨a', b'⟩
      · -- the last plane before the end of the period
        unfold sliceCoord
        rw [a']
        simp only [Int.cast_zero, zero_mul, add_zero]
        have c1 : (((i : ℤ) + offset) % (y.length : ℤ)).toNat = 0 := by
          have hi1 : (((i - 1 : ℕ) : ℤ)) = (i : ℤ) - 1 := by omega
          have d3 := Int.emod_lt_of_pos (((i - 1 : ℕ) : ℤ) + offset) hn'
          omega
        have c2 : ((((i - 1 : ℕ) : ℤ) + offset) % (y.length : ℤ)).toNat = y.length - 1 := by
          have hi1 : (((i - 1 : ℕ) : ℤ)) = (i : ℤ) - 1 := by omega
          have d4 := Int.emod_nonneg ((i : ℤ) + offset) hn'.ne'
          have d3 := Int.emod_lt_of_pos (((i - 1 : ℕ) : ℤ) + offset) hn'
          omega
        rw [c1, c2]
        exact lt_of_lt_of_le (h.lt 0 (by omega)) (h.mono 1 _ (by omega) (by omega))
      · unfold sliceCoord
        rw [a']
        simp only [Int.cast_one, one_mul]
        have d1 := Int.emod_lt_of_pos (((i - 1 : ℕ) : ℤ) + offset) hn'
        have d2 := Int.emod_lt_of_pos ((i : ℤ) + offset) hn'
        have d3 := Int.emod_nonneg (((i - 1 : ℕ) : ℤ) + offset) hn'.ne'
        have d4 := Int.emod_nonneg ((i : ℤ) + offset) hn'.ne'
        have c2 := h.mono 0 ((((i - 1 : ℕ) : ℤ) + offset) % (y.length : ℤ)).toNat (by omega) (by omega)
        have c3 := h.mono (((i : ℤ) + offset) % (y.length : ℤ)).toNat (y.length - 1) (by omega) (by omega)
        have := h.span
        linarith

theorem meanDiff_pos {y : List K} {Ly : K} (h : Increasing y Ly) (hn : 2 ≤ y.length) : 0 < meanDiff y := by
  rw [meanDiff_eq]
  have : (0 : K) < ((y.length - 1 : ℕ) : K) := by
    have : 0 < y.length - 1 := by omega
    exact_mod_cast this
  refine div_pos ?_ this
  have h1 := h.lt 0 (by omega)
  have h2 := h.mono 1 (y.length - 1) (by omega) (by omega)
  linarith

/-- The result on an increasing periodic grid, if the assertion on the mean passes. -/
theorem parCoords_increasing {y : List K} {Ly : K} (h : Increasing y Ly) (hn : 2 ≤ y.length)
    (offset : ℤ) : parCoords y Ly true offset =
      if isClose (meanDiff ((List.range y.length).map (sliceCoord y Ly offset))) (meanDiff y) then
        .ok ((List.range y.length).map (sliceCoord y Ly offset))
      else .error (.assertion "Mean of dy changes") := by
  have hm := meanDiff_pos h hn
  have hLy : 0 < Ly := by
    have h1 := h.mono 0 (y.length - 1) (by omega) (by omega)
    have := h.span
    linarith
  have hsign : npSign (meanDiff y) = 1 := by
    unfold npSign
    rw [if_neg (by linarith), if_pos hm]
  unfold parCoords
  simp only [if_true, hsign, one_mul, unwrap_increasing h hm]
  by_cases hc : isClose (meanDiff ((List.range y.length).map (sliceCoord y Ly offset))) (meanDiff y)
  · rw [if_neg (by simp [hc]), if_pos hc]
  · rw [if_pos (by simp [hc]; omega), if_neg hc]

/-- What C39 asks of the coordinates `p` of a slice of grid `g`: they are monotonic in
the direction of `Ly`, and differ from the coordinates that the grid itself gives for
the planes `i + offset` by one common multiple of the period. -/
def Unwrapped {G : Type} (g : Grid G K) (offset : ℤ) (p : List K) : Prop :=
  p.length = g.ny ∧
  (∀ i, i + 1 < g.ny → 0 < g.Ly * (p.getD (i + 1) 0 - p.getD i 0)) ∧
  ∃ n : ℤ, ∀ i < g.ny, ∃ pol, g.getPoloidalGrid (((i : ℤ) + offset : ℤ) : K) =
    .ok (pol, p.getD i 0 + (n : K) * g.Ly)

/-- **C39**, **C100** for increasing grids: if the assertion passes, the coordinates are
right, whether or not the spacing is uniform. -/
theorem unwrapped_of_ok {G : Type} (g : Grid G K) (hl : g.polGrids.length = g.ycoords.length)
    (hp : g.yperiodic = true) (h : Increasing g.ycoords g.Ly) (hn : 2 ≤ g.ny) (offset : ℤ) (p : List K)
    (hok : parCoords g.ycoords g.Ly g.yperiodic offset = .ok p) : Unwrapped g offset p := by
  have hn' : 2 ≤ g.ycoords.length := hn
  rw [hp, parCoords_increasing h hn'] at hok
  split at hok
  swap
  · simp at hok
  injection hok with hok
  have hget : ∀ i < g.ycoords.length, p.getD i 0 = sliceCoord g.ycoords g.Ly offset i := by
    intro i hi
    rw [← hok, List.getD_eq_getElem?_getD, List.getElem?_map, List.getElem?_range hi]
    rfl
  have hLy : 0 < g.Ly := by
    have h1 := h.mono 0 (g.ycoords.length - 1) (by omega) (by omega)
    have := h.span
    linarith
  refine ⟨by rw [← hok]; simp [Grid.ny], ?_, offset / (g.ycoords.length : ℤ), ?_⟩
  · intro i hi
    have hi' : i + 1 < g.ycoords.length := hi
    rw [hget i (by omega), hget (i + 1) hi']
    exact mul_pos hLy (sub_pos.2 (sliceCoord_lt h offset i hi'))
  · intro i hi
    have hi' : i < g.ycoords.length := hi
    rw [hget i hi']
    have hn0 : (0 : ℤ) < g.ycoords.length := by omega
    have d1 := Int.emod_lt_of_pos ((i : ℤ) + offset) hn0
    have d2 := Int.emod_nonneg ((i : ℤ) + offset) hn0.ne'
    have e := Int.mul_ediv_add_emod ((i : ℤ) + offset) (g.ycoords.length : ℤ)
    have hlt : (((i : ℤ) + offset) % (g.ycoords.length : ℤ)).toNat < g.ycoords.length := by omega
    have key := Grid.getInt_periodic g hl (by omega) hp _ hlt (((i : ℤ) + offset) / (g.ycoords.length : ℤ))
    have e2 : (((((i : ℤ) + offset) % (g.ycoords.length : ℤ)).toNat : ℕ) : ℤ) +
        ((i : ℤ) + offset) / (g.ycoords.length : ℤ) * (g.ycoords.length : ℤ) = (i : ℤ) + offset := by
      rw [Int.toNat_of_nonneg d2]
      linarith
    rw [e2] at key
    refine ⟨some (g.polGrids[(((i : ℤ) + offset) % (g.ycoords.length : ℤ)).toNat]'(by omega)), ?_⟩
    rw [key]
    congr 2
    unfold sliceCoord
    rw [List.getD_eq_getElem?_getD, List.getElem?_eq_getElem hlt]
    simp only [Option.getD_some]
    push_cast
    ring

/-- Equally spaced coordinates of a periodic grid: spacing `h`, period `ny * h`. -/
def UniformY (y : List K) (Ly : K) : Prop :=
  ∃ y0 h : K, h ≠ 0 ∧ (∀ i < y.length, y.getD i 0 = y0 + (i : K) * h) ∧ Ly = (y.length : K) * h

theorem isClose_self (a : K) : isClose a a := by
  unfold isClose
  rw [sub_self, abs_zero]
  positivity

theorem uniform_increasing {y : List K} {Ly : K} (hu : UniformY y Ly) (hLy : 0 < Ly) : Increasing y Ly := by
  obtain ⟨y0, h, h0, hy, e⟩ := hu
  have hpos : 0 < h := by
    by_contra hc
    have := mul_nonpos_of_nonneg_of_nonpos (Nat.cast_nonneg (α := K) y.length) (not_lt.1 hc)
    linarith
  have hn : 0 < y.length := by
    by_contra hc
    rw [show y.length = 0 by omega] at e
    simp at e
    linarith
  constructor
  · intro i hi
    rw [hy i (by omega), hy (i + 1) hi]
    push_cast
    linarith
  · rw [hy 0 hn, hy _ (by omega : y.length - 1 < y.length), e]
    rw [Nat.cast_sub (by omega)]
    push_cast
    linarith

theorem uniform_mean {y : List K} {Ly : K} (hn : 2 ≤ y.length) (y0 h : K)
    (hy : ∀ i < y.length, y.getD i 0 = y0 + (i : K) * h) (_ : Ly = (y.length : K) * h) : meanDiff y = h := by
  rw [meanDiff_eq, hy 0 (by omega), hy _ (by omega : y.length - 1 < y.length)]
  have : ((y.length - 1 : ℕ) : K) ≠ 0 := by
    have : y.length - 1 ≠ 0 := by omega
    exact_mod_cast this
  field_simp
  simp

theorem uniform_sliceCoord {y : List K} {Ly : K} (y0 h : K)
    (hy : ∀ i < y.length, y.getD i 0 = y0 + (i : K) * h) (e : Ly = (y.length : K) * h) (offset : ℤ) (i : ℕ)
    (hi : i < y.length) : sliceCoord y Ly offset i =
      y0 + ((i : K) + ((offset % (y.length : ℤ) : ℤ) : K)) * h := by
  have hn0 : (0 : ℤ) < y.length := by omega
  have d1 := Int.emod_lt_of_pos ((i : ℤ) + offset) hn0
  have d2 := Int.emod_nonneg ((i : ℤ) + offset) hn0.ne'
  unfold sliceCoord
  rw [hy _ (by omega), e]
  have c : (((((i : ℤ) + offset) % (y.length : ℤ)).toNat : ℕ) : K) =
      ((((i : ℤ) + offset) % (y.length : ℤ) : ℤ) : K) := by
    rw [← Int.cast_natCast, Int.toNat_of_nonneg d2]
  rw [c]
  rcases wraps y.length offset i hi with ⟨a, b⟩ | ⟨a, b⟩ <;> rw [a, b] <;> push_cast <;> ring

theorem uniform_mean_slice {y : List K} {Ly : K} (hn : 2 ≤ y.length) (y0 h : K)
    (hy : ∀ i < y.length, y.getD i 0 = y0 + (i : K) * h) (e : Ly = (y.length : K) * h) (offset : ℤ) :
    meanDiff ((List.range y.length).map (sliceCoord y Ly offset)) = h := by
  have hlen : ((List.range y.length).map (sliceCoord y Ly offset)).length = y.length := by simp
  refine (uniform_mean (Ly := Ly) (by omega) (y0 + ((offset % (y.length : ℤ) : ℤ) : K) * h) h ?_ ?_)
  · intro i hi
    rw [hlen] at hi
    rw [List.getD_eq_getElem?_getD, List.getElem?_map, List.getElem?_range hi]
    simp only [Option.map_some, Option.getD_some]
    rw [uniform_sliceCoord y0 h hy e offset i hi]
    ring
  · rw [hlen]; exact e

/-! ## The properties -/

/-- **C39**, for positive `Ly`: on a periodic grid with equally spaced planes both
assertions pass, and the coordinates of every slice are strictly monotonic and those
of the grid up to one common multiple of the period.  Missing: negative `Ly`, for which
`C39_fails` shows that the claim is false. -/
theorem C39_uniform_partial {G : Type} (g : Grid G K) (hl : g.polGrids.length = g.ycoords.length)
    (hp : g.yperiodic = true) (hu : UniformY g.ycoords g.Ly) (hLy : 0 < g.Ly) (hn : 2 ≤ g.ny)
    (offset : ℤ) :
    checkLy g.ycoords g.Ly = .ok () ∧
    ∃ p, parCoords g.ycoords g.Ly g.yperiodic offset = .ok p ∧ Unwrapped g offset p := by
  have hi := uniform_increasing hu hLy
  have hn' : 2 ≤ g.ycoords.length := hn
  obtain ⟨y0, h, h0, hy, e⟩ := hu
  refine ⟨?_, ?_⟩
  · unfold checkLy
    rw [if_neg]
    rintro ⟨_, hc⟩
    apply hc
    rw [uniform_mean hn' y0 h hy e, e, mul_comm]
    exact isClose_self _
  · have hok : parCoords g.ycoords g.Ly g.yperiodic offset =
        .ok ((List.range g.ycoords.length).map (sliceCoord g.ycoords g.Ly offset)) := by
      rw [hp, parCoords_increasing hi hn', if_pos]
      rw [uniform_mean_slice hn' y0 h hy e, uniform_mean hn' y0 h hy e]
      exact isClose_self _
    exact ⟨_, hok, unwrapped_of_ok g hl hp hi hn offset _ hok⟩

/-- The slice coordinates themselves, on a uniform grid: no gap and no jump. -/
theorem C39_spacing_partial (y : List K) (Ly : K) (hu : UniformY y Ly) (hLy : 0 < Ly) (hn : 2 ≤ y.length)
    (offset : ℤ) : ∃ p, parCoords y Ly true offset = .ok p ∧ p.length = y.length ∧
      ∀ i, i + 1 < y.length → p.getD (i + 1) 0 - p.getD i 0 = Ly / (y.length : K) := by
  have hi := uniform_increasing hu hLy
  obtain ⟨y0, h, h0, hy, e⟩ := hu
  refine ⟨(List.range y.length).map (sliceCoord y Ly offset), ?_, by simp, ?_⟩
  · rw [parCoords_increasing hi hn, if_pos]
    rw [uniform_mean_slice hn y0 h hy e, uniform_mean hn y0 h hy e]
    exact isClose_self _
  · intro i h1
    rw [List.getD_eq_getElem?_getD, List.getD_eq_getElem?_getD, List.getElem?_map, List.getElem?_map,
      List.getElem?_range h1, List.getElem?_range (by omega)]
    simp only [Option.map_some, Option.getD_some]
    rw [uniform_sliceCoord y0 h hy e offset i (by omega), uniform_sliceCoord y0 h hy e offset (i + 1) h1, e]
    have : (y.length : K) ≠ 0 := by
      have : y.length ≠ 0 := by omega
      exact_mod_cast this
    field_simp
    push_cast
    ring

/-- A grid of four planes, used as an example. -/
def exParGrid : Grid Unit ℚ :=
  { polGrids := [(), (), (), ()], ycoords := [1, 2, 3, 4], Ly := 4, yperiodic := true, nx := 3, nz := 3 }

example : UniformY exParGrid.ycoords exParGrid.Ly :=
  ⟨1, 1, by norm_num, by
    intro i hi
    have : i < 4 := hi
    interval_cases i <;> norm_num [exParGrid], by norm_num [exParGrid]⟩

example : parCoords exParGrid.ycoords exParGrid.Ly true (-1) = .ok [4, 5, 6, 7] := by decide +kernel

/-- **C39**: the claim is false for negative `Ly`: two planes at 0 and -1, period -2.
The loop adds `np.sign(meandy) * Ly`, which is positive, and the assertion on the mean
fails. -/
theorem C39_fails : ∃ (g : Grid Unit ℚ) (offset : ℤ), g.polGrids.length = g.ycoords.length ∧
    g.yperiodic = true ∧ UniformY g.ycoords g.Ly ∧ 2 ≤ g.ny ∧ checkLy g.ycoords g.Ly = .ok () ∧
    parCoords g.ycoords g.Ly g.yperiodic offset = .error (.assertion "Mean of dy changes") := by
  refine ⟨{ polGrids := [(), ()], ycoords := [0, -1], Ly := -2, yperiodic := true, nx := 3, nz := 3 }, 1,
    rfl, rfl, ⟨0, -1, by norm_num, ?_, by norm_num⟩, by decide, by decide +kernel, by decide +kernel⟩
  intro i hi
  have : i < 2 := hi
  interval_cases i <;> norm_num

/-- **C100**, what holds of grids that are not uniform: increasing planes within one
period never get wrong coordinates; the only possible exception is the assertion on
the mean.  Missing: that it does not happen, which `C100_fails` refutes. -/
theorem C100_right_or_error_partial {G : Type} (g : Grid G K)
    (hl : g.polGrids.length = g.ycoords.length) (hp : g.yperiodic = true)
    (h : Increasing g.ycoords g.Ly) (hn : 2 ≤ g.ny) (offset : ℤ) :
    (∃ p, parCoords g.ycoords g.Ly g.yperiodic offset = .ok p ∧ Unwrapped g offset p) ∨
    parCoords g.ycoords g.Ly g.yperiodic offset = .error (.assertion "Mean of dy changes") := by
  cases hc : parCoords g.ycoords g.Ly g.yperiodic offset with
  | ok p => exact Or.inl ⟨p, rfl, unwrapped_of_ok g hl hp h hn offset p hc⟩
  | error e =>
    right
    rw [hp, parCoords_increasing h hn] at hc
    split at hc
    · simp at hc
    · rw [hc]

example : Increasing ([0, 1, 3] : List ℚ) (9 / 2) :=
  ⟨by
    intro i hi
    have : i + 1 < 3 := hi
    have : i < 2 := by omega
    interval_cases i <;> norm_num, by norm_num⟩

/-- **C100**: a periodic grid of increasing planes whose `Ly` passes the first test
need not be writable: planes at 0, 1, 3 with period 9/2 fail the second test for
offset 2. -/
theorem C100_fails : ∃ (g : Grid Unit ℚ) (offset : ℤ), g.polGrids.length = g.ycoords.length ∧
    g.yperiodic = true ∧ Increasing g.ycoords g.Ly ∧ 2 ≤ g.ny ∧ checkLy g.ycoords g.Ly = .ok () ∧
    parCoords g.ycoords g.Ly g.yperiodic offset = .error (.assertion "Mean of dy changes") := by
  refine ⟨{ polGrids := [(), (), ()], ycoords := [0, 1, 3], Ly := 9 / 2, yperiodic := true, nx := 3, nz := 3 },
    2, rfl, rfl, ⟨?_, by norm_num⟩, by decide, by decide +kernel, by decide +kernel⟩
  intro i hi
  have : i + 1 < 3 := hi
  have : i < 2 := by omega
  interval_cases i <;> norm_num

end Zoidberg
