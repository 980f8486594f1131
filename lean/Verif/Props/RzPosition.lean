import Verif.Props.RzClosest

/-!
# C127: the splines of a line
-/

set_option linter.unusedSectionVars false

namespace Zoidberg

variable {K : Type} [Field K] [LinearOrder K] [IsStrictOrderedRing K] [FloorRing K]

theorem npRem_period {n : K} (h : 0 < n) (x : K) (k : ℤ) : npRem (x + k * n) n = npRem x n := by
  unfold npRem
  rw [add_div, mul_div_cancel_right₀ _ h.ne', Int.floor_add_intCast, Int.cast_add]
  ring

/-- **C127.** The position and its derivatives are periodic. -/
theorem C127_periodic (l : RZLine K) (pi : K) (hpi : 0 < pi) (theta : K) (k : ℤ) (d : ℕ) :
    l.value pi (theta + k * (2 * pi)) d = l.value pi theta d := by
  unfold RZLine.value
  rw [npRem_period (by linarith)]

/-- The spline without smoothing goes through the values. -/
def SplineInterpolates (e : RzEnv K) : Prop :=
  ∀ ord v f, e.splrep ord none v = .ok f → ∀ i < v.length, f 0 (2 * e.pi * (i : K) / (v.length : K)) = v.getD i 0

theorem ofPts_build {e : RzEnv K} {p : List (K × K)} {ac : Bool} {order smooth : Option ℕ} {l : RZLine K}
    (h : RZLine.ofPts e p ac order smooth = .ok l) : RZLine.build e l.pts order smooth = .ok l := by
  have hb : ∀ q, RZLine.build e q order smooth = .ok l → l.pts = q := by
    intro q hq
    unfold RZLine.build at hq
    dsimp only at hq
    split_ifs at hq
    cases h1 : e.splrep (splineOrder order) (smooth.map (rzKnots e.pi q.length)) (q.map Prod.fst) with
    | error x => rw [h1] at hq; cases hq
    | ok rs =>
      rw [h1] at hq
      cases h2 : e.splrep (splineOrder order) (smooth.map (rzKnots e.pi q.length)) (q.map Prod.snd) with
      | error x => simp [h2, Except.bind] at hq
      | ok zs =>
        simp only [h2, Except.bind] at hq
        injection hq with hq
        rw [← hq]
  unfold RZLine.ofPts at h
  dsimp only at h
  split_ifs at h <;> (have := hb _ h; rw [this]; exact h)

theorem build_ok {e : RzEnv K} {q : List (K × K)} {order smooth : Option ℕ} {l : RZLine K}
    (h : RZLine.build e q order smooth = .ok l) :
    q ≠ [] ∧ l.order = splineOrder order ∧
      e.splrep l.order (smooth.map (rzKnots e.pi q.length)) (q.map Prod.fst) = .ok l.rspl ∧
      e.splrep l.order (smooth.map (rzKnots e.pi q.length)) (q.map Prod.snd) = .ok l.zspl := by
  unfold RZLine.build at h
  dsimp only at h
  split_ifs at h with hq
  cases h1 : e.splrep (splineOrder order) (smooth.map (rzKnots e.pi q.length)) (q.map Prod.fst) with
  | error x => rw [h1] at h; cases h
  | ok rs =>
    rw [h1] at h
    cases h2 : e.splrep (splineOrder order) (smooth.map (rzKnots e.pi q.length)) (q.map Prod.snd) with
    | error x => simp [h2, Except.bind] at h
    | ok zs =>
      simp only [h2, Except.bind] at h
      injection h with h
      rw [← h]
      exact ⟨hq, rfl, h1, h2⟩

/-- **C127.** Without smoothing the line goes through its control points, at equally spaced angles. -/
theorem C127_control (e : RzEnv K) (hpi : 0 < e.pi) (he : SplineInterpolates e) (p : List (K × K)) (ac : Bool)
    (order : Option ℕ) (l : RZLine K) (h : RZLine.ofPts e p ac order none = .ok l) (i : ℕ) (hi : i < l.pts.length) (k : ℤ) :
    l.value e.pi (2 * e.pi * (i : K) / (l.pts.length : K) + k * (2 * e.pi)) 0 = l.pts[i] := by
  obtain ⟨hne, ho, hr, hz⟩ := build_ok (ofPts_build h)
  rw [C127_periodic l e.pi hpi]
  have hn : (0 : K) < (l.pts.length : K) := Nat.cast_pos.2 (by omega)
  have hin : (i : K) < (l.pts.length : K) := Nat.cast_lt.2 hi
  have hid : npRem (2 * e.pi * (i : K) / (l.pts.length : K)) (2 * e.pi) = 2 * e.pi * (i : K) / (l.pts.length : K) := by
    apply npRem_id
    · positivity
    · rw [div_lt_iff₀ hn]
      exact mul_lt_mul_of_pos_left hin (by linarith)
  unfold RZLine.value
  rw [hid]
  have e1 := he _ _ _ hr i (by simpa using hi)
  have e2 := he _ _ _ hz i (by simpa using hi)
  rw [List.length_map] at e1 e2
  rw [e1, e2]
  simp [List.getD_eq_getElem?_getD, hi]

/-- **C127.** The order of the splines is that which is asked for, three by default. -/
theorem C127_order (e : RzEnv K) (p : List (K × K)) (ac : Bool) (order smooth : Option ℕ) (l : RZLine K)
    (h : RZLine.ofPts e p ac order smooth = .ok l) :
    l.order = (match order with | none => 3 | some k => if k = 0 then 3 else k) ∧
      ∃ kn, e.splrep l.order kn (l.pts.map Prod.fst) = .ok l.rspl ∧ e.splrep l.order kn (l.pts.map Prod.snd) = .ok l.zspl := by
  obtain ⟨-, ho, hr, hz⟩ := build_ok (ofPts_build h)
  refine ⟨?_, _, hr, hz⟩
  rw [ho]
  rcases order with _ | k
  · rfl
  · cases k <;> rfl

/-- **C127.** With `smooth` the knots are the centres of `n // smooth + 1` equal parts of the circle. -/
theorem C127_knots (e : RzEnv K) (hpi : 0 < e.pi) (p : List (K × K)) (ac : Bool) (order : Option ℕ) (s : ℕ) (l : RZLine K)
    (h : RZLine.ofPts e p ac order (some s) = .ok l) :
    ∃ kn : List K, e.splrep l.order (some kn) (l.pts.map Prod.fst) = .ok l.rspl ∧
      e.splrep l.order (some kn) (l.pts.map Prod.snd) = .ok l.zspl ∧ kn.length = l.pts.length / s + 1 ∧
      (∀ i < kn.length, kn.getD i 0 = (2 * (i : K) + 1) * e.pi / (kn.length : K)) ∧
      ∀ t ∈ kn, 0 < t ∧ t < 2 * e.pi := by
  obtain ⟨-, -, hr, hz⟩ := build_ok (ofPts_build h)
  have hlen : (rzKnots e.pi l.pts.length s).length = l.pts.length / s + 1 := by simp [rzKnots, linspaceOpen]
  have hget : ∀ i < (rzKnots e.pi l.pts.length s).length, (rzKnots e.pi l.pts.length s).getD i 0 =
      (2 * (i : K) + 1) * e.pi / ((rzKnots e.pi l.pts.length s).length : K) := by
    intro i hi
    rw [hlen] at hi ⊢
    have hn : ((l.pts.length / s + 1 : ℕ) : K) ≠ 0 := Nat.cast_ne_zero.2 (by omega)
    unfold rzKnots
    rw [List.getD_eq_getElem?_getD, List.getElem?_map]
    simp only [linspaceOpen, List.getElem?_map, List.getElem?_range hi, Option.map_some, Option.getD_some]
    field_simp
    ring
  refine ⟨_, hr, hz, hlen, hget, ?_⟩
  intro t ht
  obtain ⟨i, hi, rfl⟩ := List.getElem_of_mem ht
  have hg := hget i hi
  rw [List.getD_eq_getElem _ _ hi] at hg
  rw [hg]
  have hn : (0 : K) < ((rzKnots e.pi l.pts.length s).length : K) := Nat.cast_pos.2 (by omega)
  have hin : (i : K) + 1 ≤ ((rzKnots e.pi l.pts.length s).length : K) := by exact_mod_cast hi
  constructor
  · have : (0 : K) ≤ (i : K) := Nat.cast_nonneg i
    positivity
  · rw [div_lt_iff₀ hn]
    nlinarith

/-- An interpolating environment: the step function through the values. -/
def stepEnv : RzEnv ℚ :=
  ⟨3, fun x => x, fun _ _ v => .ok fun _ t => v.getD (pyInt (t * (v.length : ℚ) / 6)).toNat 0⟩

theorem stepEnv_interpolates : SplineInterpolates stepEnv := by
  intro ord v f h i hi
  have hn : (v.length : ℚ) ≠ 0 := Nat.cast_ne_zero.2 (by omega)
  unfold stepEnv at h ⊢
  dsimp only at h ⊢
  injection h with h
  rw [← h]
  have : (2 * 3 * (i : ℚ) / (v.length : ℚ)) * (v.length : ℚ) / 6 = ((i : ℤ) : ℚ) := by push_cast; field_simp; ring
  dsimp only
  rw [this]
  congr 1
  unfold pyInt
  simp

/-- A triangle for it. -/
example : (RZLine.ofPts stepEnv [(0, 0), (2, 0), (1, 1)] true none none).toBool = true ∧
    (RZLine.ofPts stepEnv [(0, 0), (2, 0), (1, 1)] true (some 1) (some 100)).toBool = true := by
  decide +kernel

end Zoidberg
