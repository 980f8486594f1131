import Verif.Model.TestSmooth
import Mathlib.Data.List.GetD
import Mathlib.Data.Rat.Floor
import Mathlib.Tactic.Linarith
import Mathlib.Tactic.NormNum

/-!
# C282: what `test_assert_npolygons` checks

`testz.all() != newz.all()` compares whether the arrays have an entry that is zero.
-/

set_option linter.unusedSectionVars false

namespace Zoidberg

variable {K : Type} [Field K] [LinearOrder K] [IsStrictOrderedRing K]

theorem npAllTrue_iff (a : List K) : npAllTrue a = true ↔ (0 : K) ∉ a := by
  unfold npAllTrue
  rw [List.all_eq_true]
  constructor
  · intro h h0
    simpa using h 0 h0
  · intro h x hx
    rw [decide_eq_true_eq]
    rintro rfl
    exact h hx

theorem npAllTrue_false (a : List K) : npAllTrue a = false ↔ (0 : K) ∈ a := by
  rw [← Bool.not_eq_true, npAllTrue_iff, not_not]

/-- The first point of the polygon has the height zero. -/
theorem polyInterp_zero (pi : K) (sin : K → K) (h0 : sin 0 = 0) (n m : ℕ) (hm : 1 ≤ m) :
    (0 : K) ∈ polyInterp pi sin n m := by
  unfold polyInterp
  rw [List.mem_map]
  refine ⟨0, List.mem_range.2 (by omega), ?_⟩
  simp [polyAngle, h0]

theorem run_testz (sqrt : K → K) (ls : CubicSolver K) (tol pi : K) (cos sin : K → K) (fuel n m : ℕ)
    (p : PolyRun K) (h : runNpolygons sqrt ls tol pi cos sin fuel n m = .ok p) :
    p.testr = polyInterp pi cos n m ∧ p.testz = polyInterp pi sin n m ∧
      smoothLine sqrt ls tol (96 / 100) 10 none false fuel (polyInterp pi cos n m) (polyInterp pi sin n m) =
        .ok p.newr p.newz ∧ findOutliers sqrt p.newr p.newz (96 / 100) 30 = .ok p.outliers := by
  unfold runNpolygons at h
  dsimp only at h
  split at h
  · rename_i a b hab
    cases ho : findOutliers sqrt a b (96 / 100) 30 with
    | error x => rw [ho] at h; cases h
    | ok o =>
      rw [ho] at h
      cases h
      exact ⟨rfl, rfl, hab, ho⟩
  all_goals cases h

/-- One part of the test passes exactly if the run returns, the outliers are as expected, and the new
heights contain a zero or not. -/
theorem polyPart_iff (run : ℕ → ℕ → Except Err (PolyRun K)) (n m : ℕ) (found differ : Bool)
    (hz : ∀ p, run n m = .ok p → (0 : K) ∈ p.testz) :
    polyPart run n m found differ = .ok () ↔
      ∃ p, run n m = .ok p ∧ (found = true ↔ p.outliers ≠ []) ∧ (differ = true ↔ (0 : K) ∉ p.newz) := by
  unfold polyPart
  cases h : run n m with
  | error x => simp [Except.bind]
  | ok p =>
    have h1 := (npAllTrue_false p.testz).2 (hz p h)
    dsimp only [Except.bind]
    have key : polyCheck found differ p = true ↔
        (found = true ↔ p.outliers ≠ []) ∧ (differ = true ↔ (0 : K) ∉ p.newz) := by
      unfold polyCheck
      rw [h1, ← npAllTrue_iff, Bool.and_eq_true]
      apply and_congr
      · cases found <;> cases p.outliers <;> simp
      · cases differ <;> cases npAllTrue p.newz <;> simp
    by_cases hk : polyCheck found differ p = true
    · rw [if_pos hk]
      exact ⟨fun _ => ⟨p, rfl, key.1 hk⟩, fun _ => rfl⟩
    · rw [if_neg hk]
      constructor
      · intro q; cases q
      · rintro ⟨p', hp, h2⟩
        cases hp
        exact absurd (key.2 h2) hk

/-- **C282.** The test passes exactly if the three runs return, with no outliers in the first two and some
in the third, and the new heights contain no zero in the first and third and a zero in the second. -/
theorem C282_iff (sqrt : K → K) (ls : CubicSolver K) (tol pi : K) (cos sin : K → K) (h0 : sin 0 = 0) (fuel : ℕ) :
    testAssertNpolygons (runNpolygons sqrt ls tol pi cos sin fuel) = .ok () ↔
      (∃ p, runNpolygons sqrt ls tol pi cos sin fuel 10 1000 = .ok p ∧ p.outliers = [] ∧ (0 : K) ∉ p.newz) ∧
      (∃ p, runNpolygons sqrt ls tol pi cos sin fuel 1000 10000 = .ok p ∧ p.outliers = [] ∧ (0 : K) ∈ p.newz) ∧
      (∃ p, runNpolygons sqrt ls tol pi cos sin fuel 5 1000 = .ok p ∧ p.outliers ≠ [] ∧ (0 : K) ∉ p.newz) := by
  have hz : ∀ n m, 1 ≤ m → ∀ p, runNpolygons sqrt ls tol pi cos sin fuel n m = .ok p → (0 : K) ∈ p.testz := by
    intro n m hm p hp
    rw [(run_testz sqrt ls tol pi cos sin fuel n m p hp).2.1]
    exact polyInterp_zero pi sin h0 n m hm
  have e1 := polyPart_iff (runNpolygons sqrt ls tol pi cos sin fuel) 10 1000 false true (hz _ _ (by norm_num))
  have e2 := polyPart_iff (runNpolygons sqrt ls tol pi cos sin fuel) 1000 10000 false false (hz _ _ (by norm_num))
  have e3 := polyPart_iff (runNpolygons sqrt ls tol pi cos sin fuel) 5 1000 true true (hz _ _ (by norm_num))
  simp only [Bool.false_eq_true, false_iff, not_not, true_iff, ne_eq] at e1 e2 e3
  simp only [ne_eq]
  rw [← e1, ← e2, ← e3]
  unfold testAssertNpolygons
  cases polyPart (runNpolygons sqrt ls tol pi cos sin fuel) 10 1000 false true with
  | error x => simp [Except.bind]
  | ok u =>
    cases polyPart (runNpolygons sqrt ls tol pi cos sin fuel) 1000 10000 false false with
    | error x => simp [Except.bind]
    | ok u => simp [Except.bind]

/-- **C282** `_partial`: if an assertion that the arrays differ passes, the heights have been changed. -/
theorem C282_changed_partial (p : PolyRun K) (found : Bool) (h : polyCheck found true p = true) :
    p.newz ≠ p.testz := by
  intro he
  unfold polyCheck at h
  rw [he] at h
  simp at h

/-- **C282** fails: for every polygon there are other heights, different at every point except the first,
for which the assertion that nothing has been smoothed passes and the one that something has been smoothed
does not. -/
theorem C282_fails (pi : K) (sin : K → K) (h0 : sin 0 = 0) (n m : ℕ) (hm : 2 ≤ m) (testr newr : List K) :
    ∃ newz : List K, newz.length = m ∧
      (∀ j, 1 ≤ j → j < m → newz.getD j 0 ≠ (polyInterp pi sin n m).getD j 0) ∧
      polyCheck false false ⟨[], testr, polyInterp pi sin n m, newr, newz⟩ = true ∧
      ∀ found o, polyCheck found true ⟨o, testr, polyInterp pi sin n m, newr, newz⟩ = false := by
  have hz := (npAllTrue_false _).2 (polyInterp_zero pi sin h0 n m (by omega))
  have hlen : (polyInterp pi sin n m).length = m := by simp [polyInterp]
  refine ⟨(List.range m).map fun j : ℕ => if j = 0 then 0 else (polyInterp pi sin n m).getD j 0 + 1,
    by simp, ?_, ?_, ?_⟩
  · intro j h1 h2
    rw [List.getD_eq_getElem _ _ (by simpa using h2)]
    simp only [List.getElem_map, List.getElem_range]
    rw [if_neg (by omega)]
    exact (lt_add_one _).ne'
  all_goals
    have hn : npAllTrue ((List.range m).map fun j : ℕ => if j = 0 then (0 : K) else (polyInterp pi sin n m).getD j 0 + 1) = false := by
      rw [npAllTrue_false, List.mem_map]
      exact ⟨0, List.mem_range.2 (by omega), if_pos rfl⟩
    unfold polyCheck
    dsimp only
    rw [hz, hn]
  · rfl
  · intro found o
    simp

/-- The check passes although the points have changed: 4 corners, 4 points. -/
example : polyCheck false false (⟨[], [], [0, 1, 0, -1], [], [0, 7, 8, 9]⟩ : PolyRun ℚ) = true := by decide

/-- It fails although nothing but the first point has kept its height. -/
example : polyCheck false true (⟨[], [], [0, 1, 0, -1], [], [0, 7, 8, 9]⟩ : PolyRun ℚ) = false := by decide

/-- The points of a square between the corners. -/
example : polyInterp (1 : ℚ) (fun t => if t = 1 / 2 then 1 else if t = 3 / 2 then -1 else 0) 4 8 =
    [0, 1 / 2, 1, 1 / 2, 0, -1 / 2, -1, -1 / 2] := by decide +kernel

end Zoidberg
