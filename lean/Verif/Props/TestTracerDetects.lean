import Verif.Props.TestTracer

/-!
# C291: what the tests of the tracers detect
-/

set_option linter.unusedSectionVars false

namespace Zoidberg

section
variable {K : Type} [Field K] [LinearOrder K] [IsStrictOrderedRing K]

/-- `c` is within the tolerances of `np.allclose` of `v`. -/
def WithinTol (c v : K) : Prop := |c - v| ≤ 1 / 100000000 + 1 / 100000 * |v|

/-- **C291.** The tests pass only if both calls succeed with results of the right shapes, and every coordinate but the values of `z` where the lines of the second call start is within the
tolerances of the exact one. -/
theorem C291_detects (follow : FArr K → FArr K → FArr K → Except Err (FArr K)) : tracerTest follow = .ok true ↔
    ∃ a b, follow ⟨[], [1 / 5]⟩ ⟨[], [3 / 10]⟩ ⟨[2], [3 / 2, 5 / 2]⟩ = .ok a ∧ follow ⟨[3], [1 / 5, 3 / 10, 2 / 5]⟩ ⟨[], [1 / 2]⟩ ⟨[2], [1, 5 / 2]⟩ = .ok b ∧
      a.shape = [2, 1, 2] ∧ b.shape = [2, 3, 2] ∧
      (∀ p ∈ [((0 : ℕ), (1 / 5 : K)), (1, 3 / 10), (2, 1 / 5), (3, 1 / 2)], WithinTol (a.data.getD p.1 0) p.2) ∧
      (∀ p ∈ [((0 : ℕ), (1 / 5 : K)), (2, 3 / 10), (4, 2 / 5), (6, 1 / 5), (7, 4 / 5), (8, 3 / 10), (9, 4 / 5), (10, 2 / 5), (11, 4 / 5)],
        WithinTol (b.data.getD p.1 0) p.2) := by
  have hc : ∀ c v : K, isClose c v ↔ WithinTol c v := by intro c v; unfold isClose WithinTol; norm_num
  have e1 : (3 / 10 + 1 / 10 / (1 / 2) : K) = 1 / 2 := by norm_num
  have e2 : (1 / 2 + 3 / 2 * (1 / 10) / (1 / 2) : K) = 4 / 5 := by norm_num
  unfold tracerTest
  cases ha : follow ⟨[], [1 / 5]⟩ ⟨[], [3 / 10]⟩ ⟨[2], [3 / 2, 5 / 2]⟩ with
  | error e =>
    constructor
    · intro h; cases h
    · rintro ⟨a, b, h, -⟩; cases h
  | ok a =>
    cases hb : follow ⟨[3], [1 / 5, 3 / 10, 2 / 5]⟩ ⟨[], [1 / 2]⟩ ⟨[2], [1, 5 / 2]⟩ with
    | error e =>
      constructor
      · intro h; cases h
      · rintro ⟨a, b, -, h, -⟩; cases h
    | ok b =>
      have t1 : tracerTest1 a = true ↔ a.shape = [2, 1, 2] ∧ ∀ p ∈ [((0 : ℕ), (1 / 5 : K)), (1, 3 / 10), (2, 1 / 5), (3, 1 / 2)], WithinTol (a.data.getD p.1 0) p.2 := by
        unfold tracerTest1 allCloseTo coord3
        rw [e1]
        by_cases hs : a.shape = [2, 1, 2]
        · simp [hs, hc, List.all_cons]
          tauto
        · simp [hs]
      have t2 : tracerTest2 b = true ↔ b.shape = [2, 3, 2] ∧ ∀ p ∈ [((0 : ℕ), (1 / 5 : K)), (2, 3 / 10), (4, 2 / 5), (6, 1 / 5), (7, 4 / 5), (8, 3 / 10), (9, 4 / 5), (10, 2 / 5),
          (11, 4 / 5)], WithinTol (b.data.getD p.1 0) p.2 := by
        unfold tracerTest2 allCloseTo coord3
        rw [e2]
        by_cases hs : b.shape = [2, 3, 2]
        · simp [hs, hc, List.all_cons]
          tauto
        · simp [hs]
      show Except.ok (tracerTest1 a && tracerTest2 b) = .ok true ↔ _
      rw [Except.ok.injEq, Bool.and_eq_true, t1, t2]
      constructor
      · rintro ⟨⟨h1, h2⟩, h3, h4⟩
        exact ⟨a, b, rfl, rfl, h1, h3, h2, h4⟩
      · rintro ⟨a', b', h1, h2, h3, h4, h5, h6⟩
        obtain rfl : a = a' := by injection h1
        obtain rfl : b = b' := by injection h2
        exact ⟨⟨h3, h5⟩, h4, h6⟩

/-- A tracer that stays at the starting points is found out. -/
example : tracerTest (fun x z _ : FArr ℚ => .ok ⟨[2, x.data.length, 2], (x.data.flatMap fun a => [a, z.data.getD 0 0]) ++ (x.data.flatMap fun a => [a, z.data.getD 0 0])⟩) ≠ .ok true := by
  intro h
  obtain ⟨a, b, ha, -, -, -, h1, -⟩ := (C291_detects _).1 h
  have h2 := h1 (3, 1 / 2) (by simp)
  have : a = ⟨[2, 1, 2], [1 / 5, 3 / 10, 1 / 5, 3 / 10]⟩ := by injection ha with ha; exact ha.symm
  subst this
  unfold WithinTol at h2
  norm_num at h2

/-- **C291.** `test_poincare` passes only if there are three slices and five turns with two values in every slice. -/
theorem C291_poincare_detects (ode : List K → List K → Except Err (List (List K))) [FloorRing K] : poincareTest ode = .ok true ↔
    ∃ res sl, tracePoincare (poincareFollow ode ⟨[], [0]⟩ ⟨[], [0]⟩) (1 : K) (some 3) none 5 1 = .ok (res, sl) ∧ sl.length = 3 ∧ res.length = 5 ∧
      ∀ q ∈ res, q.length = 3 ∧ ∀ s ∈ q, s.length = 2 := by
  unfold poincareTest
  cases h : tracePoincare (poincareFollow ode ⟨[], [0]⟩ ⟨[], [0]⟩) (1 : K) (some 3) none 5 1 with
  | error e =>
    constructor
    · intro h; cases h
    · rintro ⟨_, _, h, -⟩; cases h
  | ok r =>
    obtain ⟨res, sl⟩ := r
    show Except.ok _ = .ok true ↔ _
    rw [Except.ok.injEq]
    simp only [Bool.and_eq_true, decide_eq_true_eq, List.all_eq_true]
    constructor
    · rintro ⟨⟨h1, h2⟩, h3⟩
      exact ⟨res, sl, rfl, h1, h2, fun q hq => ⟨(h3 q hq).1.trans h1, (h3 q hq).2⟩⟩
    · rintro ⟨res', sl', h1, h2, h3, h4⟩
      obtain ⟨rfl, rfl⟩ : res = res' ∧ sl = sl' := by injection h1 with h1; injection h1 with a b; exact ⟨a, b⟩
      exact ⟨⟨h2, h3⟩, fun q hq => ⟨(h4 q hq).1.trans h2.symm, (h4 q hq).2⟩⟩

end

end Zoidberg
