import Verif.Props.ParMetric
import Verif.Props.ParCoords
import Verif.Props.LineFromPoints
import Verif.Props.RzDistance
import Verif.Props.BoundaryConvex
import Verif.Props.TracePoincare
import Verif.Props.Upscale
import Verif.Props.FieldCoils
import Verif.Props.Reversible

/-!
# Exact conditions for properties that do not hold in general: C39, C102, C108, C120, C121, C126, C129, C131, C138
-/

set_option linter.unusedSectionVars false

namespace Zoidberg

section
variable {K : Type} [Field K] [LinearOrder K] [IsStrictOrderedRing K] [FloorRing K]

/-- **C102.** On an open grid the coordinate of a plane of a slice is right exactly if its neighbour exists. -/
theorem C102_iff (ypar : List K) (Ly : K) (hu : UniformY ypar Ly) (n : ℤ) (p : List K) (hp : parCoords ypar Ly false n = .ok p)
    (i : ℕ) (hi : i < ypar.length) :
    p.getD i 0 = ypar.getD i 0 + (n : K) * (Ly / (ypar.length : K)) ↔ 0 ≤ (i : ℤ) + n ∧ (i : ℤ) + n < ypar.length := by
  constructor
  · intro h
    obtain ⟨y0, d, h0, hy, e⟩ := hu
    have hl : (0 : ℤ) < ypar.length := by omega
    have hpe : p = rollBack ypar n := by
      unfold parCoords at hp
      simp only [Bool.false_eq_true, if_false] at hp
      injection hp with hp
      exact hp.symm
    have h1 := Int.emod_nonneg ((i : ℤ) + n) hl.ne'
    have h2 := Int.emod_lt_of_pos ((i : ℤ) + n) hl
    have hlK : (ypar.length : K) ≠ 0 := by
      have : ypar.length ≠ 0 := by omega
      exact_mod_cast this
    rw [hpe, getD_rollBack _ _ _ hi, hy i hi, hy _ (by omega), e, mul_div_cancel_left₀ _ hlK] at h
    have h3 : ((((i : ℤ) + n) % (ypar.length : ℤ)).toNat : K) = ((((i : ℤ) + n) % (ypar.length : ℤ) : ℤ) : K) := by
      rw [← Int.cast_natCast, Int.toNat_of_nonneg h1]
    rw [h3] at h
    have h4 : ((((i : ℤ) + n) % (ypar.length : ℤ) : ℤ) : K) = (((i : ℤ) + n : ℤ) : K) := by
      push_cast at h ⊢
      have : ((((i : ℤ) + n) % (ypar.length : ℤ) : ℤ) : K) * d = ((i : K) + (n : K)) * d := by linear_combination h
      exact mul_right_cancel₀ h0 this
    have h5 := Int.cast_injective h4
    omega
  · rintro ⟨h1, h2⟩
    obtain ⟨q, hq, -, h3⟩ := C102_interior_partial ypar Ly hu n
    rw [hp] at hq
    injection hq with hq
    rw [hq]
    exact h3 i hi h1 h2

/-- **C121.** `line_from_points` returns a line exactly if there are points and the tour from every one of them makes a line. -/
theorem C121_iff (e : RzEnv K) (pts : List (K × K)) (order smooth : Option ℕ) :
    (∃ l, lineFromPoints e pts order smooth false = .ok (some l)) ↔
      pts ≠ [] ∧ ∀ s < pts.length, (lineCandidate e pts order smooth s).toBool = true := by
  constructor
  · rintro ⟨l, hl⟩
    unfold lineFromPoints at hl
    rw [if_neg (by simp)] at hl
    cases hb : bestLine e pts order smooth (List.range pts.length) none with
    | error x => rw [hb] at hl; cases hl
    | ok r =>
      obtain ⟨h1, -, h3⟩ := bestLine_spec e pts order smooth _ _ _ hb
      constructor
      · rintro rfl
        rw [hb] at hl
        rcases h3 with h3 | ⟨s, hs, -⟩
        · rw [h3] at hl; cases hl
        · simp at hs
      · intro s hs
        obtain ⟨c, hc, -⟩ := h1 s (List.mem_range.2 hs)
        rw [hc]; rfl
  · rintro ⟨h0, h⟩
    have hpos : 0 < pts.length := List.length_pos_of_ne_nil h0
    exact C121_all_candidates_partial e pts order smooth h ⟨0, hpos, h 0 hpos⟩

/-- **C120.** The line that `equallySpaced` returns is of the same order exactly if that is three. -/
theorem C120_iff (e : RzEnv K) (l r : RZLine K) (n : Option ℕ) (w : Option (List K)) (h : l.equallySpaced e n w = .ok r) :
    r.order = l.order ↔ l.order = 3 := by
  rw [equallySpaced_order h]
  exact eq_comm

/-- **C129.** The slices of the caller stay exactly if they are not an array, are in increasing order, or are refused. -/
theorem C129_iff (isArray : Bool) (T : K) (s : List K) :
    slicesAfter isArray T s = s ↔ isArray = false ∨ s.Pairwise (· ≤ ·) ∨ ∃ a ∈ s, a < 0 ∨ a > T := by
  refine ⟨fun h => ?_, C129_unchanged_partial isArray T s⟩
  by_contra hc
  push Not at hc
  obtain ⟨h1, h2, h3⟩ := hc
  have hne : s ≠ [] := by
    rintro rfl
    exact h2 List.Pairwise.nil
  unfold slicesAfter poincareSlices at h
  dsimp only at h
  rw [if_neg hne, if_neg (by
    simp only [Bool.or_eq_true, List.any_eq_true, decide_eq_true_eq, not_or, not_exists, not_and, not_lt]
    exact ⟨fun a ha => (h3 a ha).1, fun a ha => (h3 a ha).2⟩)] at h
  rw [show isArray = true by simpa using h1] at h
  simp only [if_true] at h
  apply h2
  rw [← h]
  exact List.pairwise_insertionSort _ s

/-- **C108.** The progress bar does no harm exactly if there is more than one plane. -/
theorem C108_iff (ip : Interp K) (field xt zt : NdArray K) (factor : ℕ) (nx ny nz : ℕ) (hxt : xt.shape = [nx, ny, nz])
    (hfs : field.shape = [nx, ny, nz]) (hy : 0 < ny) (hf : 0 < factor) : ProgressHarmless ip field xt zt factor ↔ ny ≠ 1 := by
  refine ⟨?_, C108_progress_partial ip field xt zt factor nx ny nz hxt⟩
  rintro h rfl
  obtain ⟨r, hr⟩ := C107_returns ip field xt zt factor nx 1 nz hxt hfs hy hf
  unfold ProgressHarmless at h
  rw [hr] at h
  have e : (List.range (factor * 1)).mapM (upscaleProgress (K := K) false 1) = .error (.runtime "ZeroDivisionError") := by
    obtain ⟨k, rfl⟩ : ∃ k, factor = k + 1 := ⟨factor - 1, by omega⟩
    rw [mul_one, List.range_succ_eq_map, List.mapM_cons]
    rfl
  obtain ⟨fld, nx', ny', nz', hf', hx, hz, u, s, _, fpos, f1, x1, z1, e'⟩ := upscale_ok h
  unfold upscale at h
  simp only [u, bind, Except.bind] at h
  rw [hxt] at s
  simp only [List.cons.injEq, and_true] at s
  obtain ⟨rfl, rfl, rfl⟩ := s
  simp only [hxt] at h
  rw [mul_one] at e
  simp [f1, x1, z1, e, hf.ne'] at h

/-- Arrays of `y` that pass the checks have two elements. -/
theorem checkInputs_two {x z y : FArr K} {a : FArr K × FArr K × FArr K} (hy : y.Ok) (hc : checkInputs x z y = .ok a) :
    2 ≤ a.2.2.data.length := by
  unfold FArr.Ok at hy
  unfold checkInputs at hc
  dsimp only at hc
  have hw : ¬ y.atleast1d.len < 2 → ¬ y.atleast1d.shape.length > 1 → 2 ≤ y.atleast1d.data.length := by
    intro c1 c2
    unfold FArr.len at c1
    by_cases c6 : y.shape = []
    · simp [FArr.atleast1d, c6] at c1
    · have e : y.atleast1d = y := if_neg c6
      rw [e] at c1 c2 ⊢
      rcases hs : y.shape with _ | ⟨n, _ | ⟨m, l⟩⟩
      · exact absurd hs c6
      · rw [hs] at c1 hy
        simp at c1 hy
        omega
      · rw [hs] at c2; simp at c2
  split_ifs at hc with c1 c2 c3 c4 c5
  all_goals
    injection hc with hc
    rw [← hc]
    exact hw c1 c2

/-- Integer starting points that are not spread over the others: there is no result, whatever the field. -/
theorem followReversible_int (dir : List (K × K) → K → Except Err (List (K × K))) (rtol eps : K) (nsteps fuel : ℕ) (x z y : FArr K)
    (gx gz : Given) (same : Bool) (hy : y.Ok) (hn : 0 < nsteps)
    (hb : (gx.isInt = true ∧ xSpread x z = false) ∨ (gz.isInt = true ∧ zSpread x z = false))
    (r : RevResult K) : followReversible dir rtol eps nsteps fuel x z y gx gz same ≠ .ok r := by
  intro h
  unfold followReversible at h
  cases hc : checkInputs x z y with
  | error e => rw [hc] at h; cases h
  | ok a =>
    rw [hc] at h
    simp only [Except.bind] at h
    have h2 := checkInputs_two hy hc
    obtain ⟨y0, y1, ys, hd⟩ : ∃ y0 y1 ys, a.2.2.data = y0 :: y1 :: ys := by
      rcases hd : a.2.2.data with _ | ⟨y0, _ | ⟨y1, ys⟩⟩
      · rw [hd] at h2; simp at h2
      · rw [hd] at h2; simp at h2
      · exact ⟨y0, y1, ys, rfl⟩
    obtain ⟨n, rfl⟩ : ∃ n, nsteps = n + 1 := ⟨nsteps - 1, by omega⟩
    generalize hB : RevBad.mk (gx.isInt && !xSpread x z) (gz.isInt && !zSpread x z)
      (decide (a.1.shape.length ≤ 1) && decide (a.2.1.shape.length > 1)) = bad at h
    have hbad : ∃ e, bad.check = .error e := by
      rw [← hB]
      unfold RevBad.check
      rcases hb with ⟨h3, h4⟩ | ⟨h3, h4⟩
      · simp [h3, h4]
      · dsimp only
        split_ifs with c1 c2 c3
        · exact ⟨_, rfl⟩
        · exact ⟨_, rfl⟩
        · exact ⟨_, rfl⟩
        · simp [h3, h4] at c3
    obtain ⟨e, he⟩ := hbad
    have hstep : ∀ dy p y, ∃ e, revStep same bad dir rtol eps fuel dy p y = .error e := by
      intro dy p y
      unfold revStep
      cases dir p y with
      | error e => exact ⟨e, rfl⟩
      | ok d =>
        simp only [Except.bind, he]
        exact ⟨e, rfl⟩
    rw [hd] at h
    obtain ⟨e', he'⟩ := hstep ((y1 - y0) / ((n + 1 : ℕ) : K)) (a.1.data.zip a.2.1.data) y0
    have hr : revRows (fun dy => revStep same bad dir rtol eps fuel dy) (n + 1) (y1 :: ys) (a.1.data.zip a.2.1.data) y0 = .error e' := by
      unfold revRows
      dsimp only
      unfold revSteps
      rw [he']
      rfl
    simp only [List.tail_cons, List.getD_cons_zero] at h
    rw [hr] at h
    cases h

/-- **C131.** Exactly when there is a result: it is the one with floating point numbers, and every array of integers is spread over the other. -/
theorem C131_iff (dir : List (K × K) → K → Except Err (List (K × K))) (rtol eps : K) (nsteps fuel : ℕ) (x z y : FArr K) (ix iz : Bool)
    (hy : y.Ok) (hn : 0 < nsteps) (r : FArr K) :
    (followReversible dir rtol eps nsteps fuel x z y ⟨false, ix⟩ ⟨false, iz⟩ false).map RevResult.result = .ok r ↔
      (followReversible dir rtol eps nsteps fuel x z y ⟨false, false⟩ ⟨false, false⟩ false).map RevResult.result = .ok r ∧
        (ix = true → xSpread x z = true) ∧ (iz = true → zSpread x z = true) := by
  constructor
  · intro h
    refine ⟨C131_integers_partial dir rtol eps nsteps fuel x z y ix iz r h, ?_⟩
    cases hf : followReversible dir rtol eps nsteps fuel x z y ⟨false, ix⟩ ⟨false, iz⟩ false with
    | error e => rw [hf] at h; cases h
    | ok q =>
      constructor
      · intro hi
        by_contra hc
        exact followReversible_int dir rtol eps nsteps fuel x z y _ _ false hy hn (Or.inl ⟨hi, by simpa using hc⟩) q hf
      · intro hi
        by_contra hc
        exact followReversible_int dir rtol eps nsteps fuel x z y _ _ false hy hn (Or.inr ⟨hi, by simpa using hc⟩) q hf
  · rintro ⟨h, h1, h2⟩
    rw [← h]
    unfold followReversible
    have e1 : (ix && !xSpread x z) = false := by
      cases ix
      · rfl
      · rw [h1 rfl]; rfl
    have e2 : (iz && !zSpread x z) = false := by
      cases iz
      · rfl
      · rw [h2 rfl]; rfl
    simp only [e1, e2, Bool.false_and]

/-- The last step of `unwrap` on a list whose other differences have the sign of the mean. -/
theorem unwrap_last (m s : K) (p : List K) (hp : 2 ≤ p.length)
    (h : ∀ i, 1 ≤ i → i + 1 < p.length → ¬ m * (p.getD i 0 - p.getD (i - 1) 0) < 0)
    (hl : m * (p.getD (p.length - 1) 0 - p.getD (p.length - 2) 0) < 0) :
    unwrap m s p = p.set (p.length - 1) (p.getD (p.length - 1) 0 + s) := by
  have key : ∀ k, k + 1 < p.length → (pyRange 1 (k + 1)).foldl (fun p i =>
      if m * (p.getD i 0 - p.getD (i - 1) 0) < 0 then p.set i (p.getD i 0 + s) else p) p = p := by
    intro k
    induction k with
    | zero => intro _; rfl
    | succ k ih =>
      intro hk
      have e : pyRange 1 (k + 1 + 1) = pyRange 1 (k + 1) ++ [k + 1] := by
        simp [pyRange, List.range'_concat, Nat.add_comm]
      rw [e, List.foldl_append, ih (by omega)]
      simp only [List.foldl_cons, List.foldl_nil]
      rw [if_neg (h (k + 1) (by omega) hk)]
  obtain ⟨n, hn⟩ : ∃ n, p.length = n + 2 := ⟨p.length - 2, by omega⟩
  unfold unwrap
  have e : pyRange 1 p.length = pyRange 1 (n + 1) ++ [n + 1] := by
    rw [hn]
    simp [pyRange, List.range'_concat, Nat.add_comm]
  rw [e, List.foldl_append, key n (by omega)]
  simp only [List.foldl_cons, List.foldl_nil]
  rw [hn] at hl ⊢
  simp only [show n + 2 - 1 = n + 1 by omega, show n + 2 - 2 = n by omega] at hl ⊢
  rw [show n + 1 - 1 = n by omega, if_pos hl]

/-- **C39.** On a periodic grid with equal spacing the coordinates of all the slices are right exactly if the period is positive. -/
theorem C39_iff {G : Type} (g : Grid G K) (hl : g.polGrids.length = g.ycoords.length) (hp : g.yperiodic = true)
    (hu : UniformY g.ycoords g.Ly) (hn : 2 ≤ g.ny) :
    (∀ offset : ℤ, ∃ p, parCoords g.ycoords g.Ly g.yperiodic offset = .ok p ∧ Unwrapped g offset p) ↔ 0 < g.Ly := by
  refine ⟨fun h => ?_, fun hLy offset => (C39_uniform_partial g hl hp hu hLy hn offset).2⟩
  by_contra hneg
  obtain ⟨p, hok, hlen, hmono, -⟩ := h 1
  have hn' : 2 ≤ g.ycoords.length := hn
  obtain ⟨y0, d, h0, hy, e⟩ := hu
  obtain ⟨n, hnn⟩ : ∃ n, g.ycoords.length = n + 2 := ⟨g.ycoords.length - 2, by omega⟩
  have hnK : (0 : K) ≤ (n : K) := Nat.cast_nonneg n
  have hd : d < 0 := by
    refine lt_of_le_of_ne ?_ h0
    by_contra hc
    push Not at hc
    apply hneg
    rw [e, hnn]; push_cast
    positivity
  have hm := uniform_mean hn' y0 d hy e
  have hroll : ∀ i < n + 2, (rollBack g.ycoords 1).getD i 0 = if i = n + 1 then y0 else y0 + ((i : K) + 1) * d := by
    intro i hi
    rw [getD_rollBack _ _ _ (by omega), hnn]
    split_ifs with hc
    · have : (((i : ℤ) + 1) % ((n + 2 : ℕ) : ℤ)).toNat = 0 := by
        rw [hc]; push_cast
        rw [show (n : ℤ) + 1 + 1 = n + 2 by ring, Int.emod_self]; rfl
      rw [this, hy 0 (by omega)]; simp
    · have : (((i : ℤ) + 1) % ((n + 2 : ℕ) : ℤ)).toNat = i + 1 := by
        rw [Int.emod_eq_of_lt (by omega) (by omega)]; omega
      rw [this, hy _ (by omega)]; push_cast; ring
  have hrl : (rollBack g.ycoords 1).length = n + 2 := by simp [rollBack, hnn]
  have hpe : p = unwrap d (npSign d * g.Ly) (rollBack g.ycoords 1) := by
    unfold parCoords at hok
    rw [hp, hm] at hok
    simp only [if_true] at hok
    split_ifs at hok with hc
    injection hok with hok
    exact hok.symm
  have hr1 : (rollBack g.ycoords 1).getD (n + 1) 0 = y0 := by rw [hroll _ (by omega), if_pos rfl]
  have hr0 : (rollBack g.ycoords 1).getD n 0 = y0 + ((n : K) + 1) * d := by rw [hroll _ (by omega), if_neg (by omega)]
  have hdd : 0 < d * d := mul_pos_of_neg_of_neg hd hd
  rw [unwrap_last d _ _ (by omega)] at hpe
  · have hmn := hmono n (by unfold Grid.ny; omega)
    rw [hpe, hrl] at hmn
    simp only [show n + 2 - 1 = n + 1 by omega] at hmn
    have e1 : ((rollBack g.ycoords 1).set (n + 1) ((rollBack g.ycoords 1).getD (n + 1) 0 + npSign d * g.Ly)).getD (n + 1) 0 = y0 - g.Ly := by
      rw [List.getD_eq_getElem?_getD, List.getElem?_set_self (by omega), hr1]
      simp [npSign, hd]; ring
    have e0 : ((rollBack g.ycoords 1).set (n + 1) ((rollBack g.ycoords 1).getD (n + 1) 0 + npSign d * g.Ly)).getD n 0 = y0 + ((n : K) + 1) * d := by
      rw [List.getD_eq_getElem?_getD, List.getElem?_set_ne (by omega), ← List.getD_eq_getElem?_getD, hr0]
    rw [e1, e0, e, hnn] at hmn
    push_cast at hmn
    have : (0 : K) ≤ ((n : K) + 2) * (2 * n + 3) * (d * d) := by positivity
    nlinarith
  · intro i h1 h2
    rw [hroll i (by omega), hroll (i - 1) (by omega), if_neg (by omega), if_neg (by omega)]
    have : ((i - 1 : ℕ) : K) = (i : K) - 1 := by rw [Nat.cast_sub h1]; simp
    rw [this]
    push Not
    have : d * (y0 + ((i : K) + 1) * d - (y0 + ((i : K) - 1 + 1) * d)) = d * d := by ring
    rw [this]
    exact hdd.le
  · rw [hrl]
    simp only [show n + 2 - 1 = n + 1 by omega, show n + 2 - 2 = n by omega]
    rw [hr1, hr0]
    have : (0 : K) < ((n : K) + 1) * (d * d) := by positivity
    nlinarith

/-- An open grid whose last plane gets a wrong coordinate. -/
example : UniformY ([0, 1, 2] : List ℚ) 3 ∧ ∃ p, parCoords ([0, 1, 2] : List ℚ) 3 false 1 = .ok p :=
  ⟨⟨0, 1, by norm_num, by
    intro i hi
    have : i < 3 := hi
    interval_cases i <;> norm_num, by norm_num⟩, _, rfl⟩

/-- A periodic grid that runs backwards. -/
example : ∃ g : Grid Unit ℚ, g.polGrids.length = g.ycoords.length ∧ g.yperiodic = true ∧ UniformY g.ycoords g.Ly ∧ 2 ≤ g.ny ∧ g.Ly < 0 := by
  refine ⟨{ polGrids := [(), ()], ycoords := [0, -1], Ly := -2, yperiodic := true, nx := 3, nz := 3 },
    rfl, rfl, ⟨0, -1, by norm_num, ?_, by norm_num⟩, by decide, by norm_num⟩
  intro i hi
  have : i < 2 := hi
  interval_cases i <;> norm_num

/-- Slices that are sorted in the caller's array. -/
example : slicesAfter true (10 : ℚ) [3, 1] ≠ [3, 1] := by
  rw [Ne, C129_iff]
  push Not
  exact ⟨by simp, by norm_num, by norm_num⟩

end

/-- **C138.** The derivatives of the potential are the field exactly where there is no current, on the axis, and at the distance two from it. -/
theorem C138_iff (xc zc a b x z y : ℝ) :
    (HasDerivAt (fun t => pinchA xc zc a x t) (-(screwpinch xc zc a b).Bx x z y) z ∧
      HasDerivAt (fun t => pinchA xc zc a t z) ((screwpinch xc zc a b).Bz x z y) x) ↔
      a = 0 ∨ pinchR xc zc x z = 0 ∨ pinchR xc zc x z = 2 := by
  have hz := ((((hasDerivAt_id z).sub_const zc).pow 2).const_add ((x - xc) ^ 2)).const_mul a
  have hx := ((((hasDerivAt_id x).sub_const xc).pow 2).add_const ((z - zc) ^ 2)).const_mul a
  have hr : pinchR xc zc x z ^ 2 = (x - xc) ^ 2 + (z - zc) ^ 2 := by
    unfold pinchR
    exact Real.sq_sqrt (by positivity)
  rw [pinch_Bx, pinch_Bz]
  simp only [pinchA_eq]
  constructor
  · rintro ⟨h1, h2⟩
    have e1 := h1.unique hz
    have e2 := h2.unique hx
    simp at e1 e2
    have e : a * (pinchR xc zc x z - 2) * pinchR xc zc x z ^ 2 = 0 := by
      rw [hr]; linear_combination (x - xc) * e2 + (z - zc) * e1
    rcases mul_eq_zero.1 e with e | e
    · rcases mul_eq_zero.1 e with e | e
      · exact Or.inl e
      · exact Or.inr (Or.inr (by linarith))
    · exact Or.inr (Or.inl (pow_eq_zero_iff two_ne_zero |>.1 e))
  · intro h
    have key : ∀ d : ℝ, d ^ 2 ≤ (x - xc) ^ 2 + (z - zc) ^ 2 → a * pinchR xc zc x z * d = a * (2 * d) := by
      intro d hd
      rcases h with h | h | h
      · rw [h]; ring
      · rw [← hr, h] at hd
        have : d = 0 := by nlinarith
        rw [this]; ring
      · rw [h]; ring
    constructor
    · refine hz.congr_deriv ?_
      have := key (z - zc) (by nlinarith [sq_nonneg (x - xc)])
      simp; linarith
    · refine hx.congr_deriv ?_
      have := key (x - xc) (by nlinarith [sq_nonneg (z - zc)])
      simp; linarith

end Zoidberg
