import Verif.Props.GridGen
import Verif.Props.SmoothLoop

/-!
# Exact conditions: C52, C90
-/

set_option linter.unusedSectionVars false

namespace Zoidberg

variable {K : Type} [Field K] [LinearOrder K] [IsStrictOrderedRing K] [FloorRing K]

/-- Three rings of four points, turned against each other: the points `c_i (√-1)^j`, with `c_1 = 1` and `c_0`, `c_2` such that the sweep
with the factor `lam` keeps them.  The coordinates of `c_i`. -/
def skewRing (lam : K) (i : ℕ) : K × K :=
  if i = 0 then ((2 - lam) / lam ^ 2, 1 / lam - 1) else if i = 1 then (1, 0) else ((2 - lam) / lam ^ 2 + 2, 1 / lam + 1)

def skewRingR (lam : K) : Arr2 K := fun i j =>
  if j = 0 then (skewRing lam i).1 else if j = 1 then -(skewRing lam i).2 else if j = 2 then -(skewRing lam i).1 else (skewRing lam i).2

def skewRingZ (lam : K) : Arr2 K := fun i j =>
  if j = 0 then (skewRing lam i).2 else if j = 1 then (skewRing lam i).1 else if j = 2 then -(skewRing lam i).2 else -(skewRing lam i).1

theorem skewRing_fixed (lam : K) (h : lam ≠ 0) : EllFixed 3 4 lam 1 1 (skewRingR lam) (skewRingZ lam) := by
  apply C52_solution_fixed
  · norm_num
  · norm_num
  · intro i j h1 h2 hj
    obtain rfl : i = 1 := by omega
    interval_cases j <;> simp [ellResidual, skewRingR, skewRingZ, skewRing] <;> constructor <;> field_simp <;> ring
  · intro i j h1 h2 hj
    obtain rfl : i = 1 := by omega
    interval_cases j <;> simp [ellScale, ellDiag, ellCoeffs, Stencil.at, skewRingR, skewRingZ, skewRing] <;> ring_nf <;> positivity

/-- **C52.** Exact condition on `dz_relax` (which is not zero: `dz_relax or 10 / 3`): the grids that a sweep keeps satisfy the documented equation
only for the value one. -/
theorem C52_iff (lam : K) (h : lam ≠ 0) : FixedSolves lam ↔ lam = 1 := by
  constructor
  · intro hf
    have := (hf 3 4 1 1 (skewRingR lam) (skewRingZ lam) one_ne_zero one_ne_zero (skewRing_fixed lam h) 1 0 (by decide) (by decide)
      (by decide)).2
    simp [ellResidual, skewRingR, skewRingZ, skewRing] at this
    field_simp at this
    have h8 : lam * (lam - 1) = 0 := by linear_combination (-1 / 8) * this
    rcases mul_eq_zero.1 h8 with q | q
    · exact absurd q h
    · linarith
  · rintro rfl
    exact C52_fixed_partial

example : FixedSolves (1 : ℚ) ∧ ¬ FixedSolves (-1 : ℚ) :=
  ⟨(C52_iff 1 (by norm_num)).2 rfl, fun h => absurd ((C52_iff (-1 : ℚ) (by norm_num)).1 h) (by norm_num)⟩

/-- **C90.** Exact condition: where the fit is accepted, a run of points is smoothed if and only if it ends before the last point. -/
theorem C90_iff (sqrt : K → K) (ls : CubicSolver K) (tol : K) (r z : List K) (bounds : ℕ) (s : SmoothState K) (run : List ℤ) (start : ℤ) (hl : r.length = z.length)
    (hr : s.r.length = r.length) (hz : s.z.length = r.length) (hc : run.IsChain fun a b => a + 1 = b) (hs : run.head? = some start)
    (h1 : -(r.length : ℤ) < start) (h2 : start + run.length ≤ r.length) (h3 : 2 * run.length < r.length) (hb : bounds ≤ run.length)
    (hls : ∀ f, ∃ res, ls f = .ok res ∧ res.optimality ≤ tol) :
    (∃ s', smoothStep sqrt ls tol r z bounds false s run = .ok s') ↔ start + run.length < r.length := by
  constructor
  · rintro ⟨s', h⟩
    by_contra hn
    have he : start + run.length = r.length := by omega
    have hp : 0 < run.length := by
      cases run with
      | nil => cases hs
      | cons a l => simp
    unfold smoothStep at h
    rw [if_neg (not_not.mpr hb), if_neg (by omega), hs] at h
    cases ht : run.getLast? with
    | none => rw [ht] at h; cases h
    | some stop =>
      rw [ht] at h
      dsimp only at h
      cases hq : smoothSetup r z start stop with
      | error err => rw [hq] at h; cases h
      | ok q =>
        rw [hq] at h
        obtain ⟨res, hres, hopt⟩ := hls (smoothFun sqrt q.1 q.2.1 q.2.2.1)
        change (ls (smoothFun sqrt q.1 q.2.1 q.2.2.1)).bind _ = .ok s' at h
        rw [hres] at h
        change (if tol < res.optimality then _ else _) = Except.ok s' at h
        rw [if_neg (not_lt.2 hopt), C90_end s run start q.2.2.2 res.x false (by omega) hp (by omega) (by omega)] at h
        cases h
  · intro h
    exact C90_step_partial sqrt ls tol r z bounds s run start hl hr hz hc hs h1 h h3 hb fun f => (hls f).imp fun _ h => h.1

example : (∃ s', smoothStep exRoot exStraight (1 / 100000000 : ℚ) [0, 1, 2, 3, 4] [0, 1, 0, 1, 0] 1 false ⟨[0, 1, 2, 3, 4], [0, 1, 0, 1, 0], false, []⟩ [3] = .ok s') ∧
    ¬ ∃ s', smoothStep exRoot exStraight (1 / 100000000 : ℚ) [0, 1, 2, 3, 4] [0, 1, 0, 1, 0] 1 false ⟨[0, 1, 2, 3, 4], [0, 1, 0, 1, 0], false, []⟩ [4] = .ok s' := by
  have hls : ∀ f, ∃ res, exStraight f = .ok res ∧ res.optimality ≤ (1 / 100000000 : ℚ) := fun f => ⟨_, rfl, by norm_num⟩
  exact ⟨(C90_iff exRoot exStraight (1 / 100000000) [0, 1, 2, 3, 4] [0, 1, 0, 1, 0] 1 ⟨[0, 1, 2, 3, 4], [0, 1, 0, 1, 0], false, []⟩ [3] 3 rfl rfl rfl (by simp) rfl
    (by decide) (by decide) (by decide) (by decide) hls).2 (by decide),
    fun h => absurd ((C90_iff exRoot exStraight (1 / 100000000) [0, 1, 2, 3, 4] [0, 1, 0, 1, 0] 1 ⟨[0, 1, 2, 3, 4], [0, 1, 0, 1, 0], false, []⟩ [4] 4 rfl rfl rfl (by simp) rfl
    (by decide) (by decide) (by decide) (by decide) hls).1 h) (by decide)⟩

end Zoidberg
