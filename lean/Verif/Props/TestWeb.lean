import Verif.Model.TestWeb
import Mathlib.Tactic.Linarith
import Mathlib.Tactic.Positivity
import Mathlib.Analysis.SpecialFunctions.Pow.Real
import Mathlib.Analysis.Real.Pi.Bounds

/-!
# What the test of the web tracer notices (C300)
-/

set_option linter.unusedSectionVars false

namespace Zoidberg

variable {K : Type} [Field K] [LinearOrder K] [IsStrictOrderedRing K]

theorem webMax_lt (c : K) : ∀ (l : List K) (d : K), l.foldl max d < c ↔ d < c ∧ ∀ x ∈ l, x < c
  | [], d => by simp
  | a :: l, d => by
    rw [List.foldl_cons, webMax_lt c l (max d a)]
    simp only [max_lt_iff, List.mem_cons, forall_eq_or_imp]
    tauto

theorem webDist_mem (sqrt : K → K) (ny nl : ℕ) (res : ℕ → ℕ → K × K) (x : K) : x ∈ webDist sqrt ny nl res ↔
    ∃ i < ny, ∃ j, j + 1 < nl ∧ sqrt (((res i (j + 1)).1 - (res i j).1) ^ 2 + ((res i (j + 1)).2 - (res i j).2) ^ 2) = x := by
  unfold webDist
  simp only [List.mem_flatMap, List.mem_range, List.mem_map]
  constructor
  · rintro ⟨i, hi, j, hj, h⟩; exact ⟨i, hi, j, by omega, h⟩
  · rintro ⟨i, hi, j, hj, h⟩; exact ⟨i, hi, j, by omega, h⟩

/-- The assertions about one result, in terms of the result: the sign of Z after the first value of `y`, and the distance of neighbouring lines. -/
def WebGood (sqrt : K → K) (ny nl : ℕ) (up : Bool) (res : ℕ → ℕ → K × K) : Prop :=
  (∀ i, i + 1 < ny → ∀ j < nl, if up then 0 < (res (i + 1) j).2 else (res (i + 1) j).2 < 0) ∧
    ∀ i < ny, ∀ j, j + 1 < nl → sqrt (((res i (j + 1)).1 - (res i j).1) ^ 2 + ((res i (j + 1)).2 - (res i j).2) ^ 2) < 5 / 100

/-- C300: the assertions about a result hold exactly if Z has its sign and neighbouring lines are close; that distances are not negative never fails. -/
theorem C300_block (sqrt : K → K) (hs : ∀ x, 0 ≤ sqrt x) (ny nl : ℕ) (hy : 1 ≤ ny) (hl : 2 ≤ nl) (up : Bool) (res : ℕ → ℕ → K × K) :
    ∃ b, webBlock sqrt ny nl up res = .ok b ∧ (b = true ↔ WebGood sqrt ny nl up res) := by
  have hm := webDist_mem sqrt ny nl res
  unfold webBlock
  rcases h : webDist sqrt ny nl res with - | ⟨d, ds⟩
  · have := (hm _).2 ⟨0, by omega, 0, by omega, rfl⟩
    rw [h] at this
    simp at this
  · rw [h] at hm
    refine ⟨_, rfl, ?_⟩
    simp only [Bool.and_eq_true, List.all_eq_true, List.mem_range, decide_eq_true_eq, webMax_lt]
    have hall : (d < 5 / 100 ∧ ∀ x ∈ ds, x < 5 / 100) ↔ ∀ x ∈ d :: ds, x < (5 / 100 : K) := by simp
    rw [hall]
    unfold WebGood
    constructor
    · rintro ⟨⟨h1, -⟩, h3⟩
      refine ⟨fun i hi j hj => ?_, fun i hi j hj => h3 _ ((hm _).2 ⟨i, hi, j, hj, rfl⟩)⟩
      have := h1 i (by omega) j hj
      cases up <;> simpa using this
    · rintro ⟨h1, h3⟩
      refine ⟨⟨fun i hi j hj => ?_, fun x hx => ?_⟩, fun x hx => ?_⟩
      · have := h1 i (by omega) j hj
        cases up <;> simpa using this
      · obtain ⟨i, -, j, -, rfl⟩ := (hm x).1 hx
        exact hs _
      · obtain ⟨i, hi, j, hj, rfl⟩ := (hm x).1 hx
        exact h3 i hi j hj

/-- C300: with a single line there is no distance, and the test would end with a ValueError. -/
theorem C300_single (sqrt : K → K) (ny nl : ℕ) (hl : nl ≤ 1) (up : Bool) (res : ℕ → ℕ → K × K) : ∃ m, webBlock sqrt ny nl up res = .error (.value m) := by
  have : webDist sqrt ny nl res = [] := by
    rw [List.eq_nil_iff_forall_not_mem]
    intro x hx
    obtain ⟨i, -, j, hj, -⟩ := (webDist_mem sqrt ny nl res x).1 hx
    omega
  unfold webBlock
  rw [this]
  exact ⟨_, rfl⟩

/-- C300 (what holds): exactly what the test notices, for all tracers that give results. -/
theorem C300_iff_partial (pi : K) (sqrt : K → K) (hs : ∀ x, 0 ≤ sqrt x) (ny nl : ℕ) (hy : 1 ≤ ny) (hl : 2 ≤ nl) (res : Option ℕ → List K → ℕ → ℕ → K × K) :
    testTraceWeb pi sqrt ny nl (fun c ys => .ok (res c ys)) = .ok true ↔
      WebGood sqrt ny nl true (res none (webYs ny 1 0)) ∧ WebGood sqrt ny nl false (res none (webYs ny (-1) 0)) ∧ WebGood sqrt ny nl true (res none (webYs ny 1 (pi * 4 / 5))) ∧
        WebGood sqrt ny nl false (res none (webYs ny (-1) (pi * 6 / 5))) ∧
        ∀ i < ny, ∀ j < nl, isClose (res none (webYs ny (-1) (pi * 6 / 5)) i j).1 (res (some 2) (webYs ny (-1) (pi * 6 / 5)) i j).1 ∧
          isClose (res none (webYs ny (-1) (pi * 6 / 5)) i j).2 (res (some 2) (webYs ny (-1) (pi * 6 / 5)) i j).2 := by
  obtain ⟨b1, e1, h1⟩ := C300_block sqrt hs ny nl hy hl true (res none (webYs ny 1 0))
  obtain ⟨b2, e2, h2⟩ := C300_block sqrt hs ny nl hy hl false (res none (webYs ny (-1) 0))
  obtain ⟨b3, e3, h3⟩ := C300_block sqrt hs ny nl hy hl true (res none (webYs ny 1 (pi * 4 / 5)))
  obtain ⟨b4, e4, h4⟩ := C300_block sqrt hs ny nl hy hl false (res none (webYs ny (-1) (pi * 6 / 5)))
  unfold testTraceWeb
  simp only [Except.bind, e1, e2, e3, e4, Except.map, Except.ok.injEq, Bool.and_eq_true, List.all_eq_true, List.mem_range, decide_eq_true_eq, h1, h2, h3, h4, and_assoc]

/-- C300: the test cannot pass if a call raises an exception. -/
theorem C300_raises (pi : K) (sqrt : K → K) (ny nl : ℕ) (follow : Option ℕ → List K → Except Err (ℕ → ℕ → K × K)) (er : Err) (h : follow none (webYs ny 1 0) = .error er) :
    testTraceWeb pi sqrt ny nl follow = .error er := by
  unfold testTraceWeb
  rw [h]
  rfl

/-- A tracer whose lines all move by `L` outwards at each value of `y`. -/
noncomputable def jumping (L : ℝ) (ys : List ℝ) : ℕ → ℕ → ℝ × ℝ :=
  fun i j => (57 / 10 + (j : ℝ) * (3 / 10 / 9) + L * i, (if 0 < ys.getD 1 0 - ys.getD 0 0 then 1 else -1) * (i : ℝ))

theorem webYs_step (n : ℕ) (hn : 2 ≤ n) (sign shift : ℝ) : (webYs n sign shift).getD 1 0 - (webYs n sign shift).getD 0 0 = sign * (1 / 10 / ((n : ℝ) - 1)) := by
  unfold webYs
  simp [List.getD_eq_getElem?_getD, show 0 < n by omega, show 1 < n by omega]

theorem jumping_good (L : ℝ) (ny nl : ℕ) (ys : List ℝ) (up : Bool) (h : up = decide (0 < ys.getD 1 0 - ys.getD 0 0)) : WebGood Real.sqrt ny nl up (jumping L ys) := by
  constructor
  · intro i _ j _
    have : (0 : ℝ) < (i : ℝ) + 1 := by positivity
    unfold jumping
    by_cases hy : 0 < ys.getD 1 0 - ys.getD 0 0
    · rw [h]
      simp only [hy, decide_true, if_true]
      push_cast
      linarith
    · rw [h]
      simp only [hy, decide_false, if_false]
      rw [if_neg (by simp)]
      push_cast
      linarith
  · intro i _ j _
    unfold jumping
    push_cast
    rw [show (57 / 10 + ((j : ℝ) + 1) * (3 / 10 / 9) + L * i - (57 / 10 + (j : ℝ) * (3 / 10 / 9) + L * i)) ^ 2 +
      ((if 0 < ys.getD 1 0 - ys.getD 0 0 then (1 : ℝ) else -1) * (i : ℝ) - (if 0 < ys.getD 1 0 - ys.getD 0 0 then (1 : ℝ) else -1) * (i : ℝ)) ^ 2 = (1 / 30) ^ 2 by ring, Real.sqrt_sq (by norm_num)]
    norm_num

/-- C300 (refutation): the comment says that the step is not too large, but the distances are those of neighbouring lines. The test of ten values and ten lines passes for a tracer with steps longer than any bound. -/
theorem C300_fails (L : ℝ) : ∃ res : Option ℕ → List ℝ → ℕ → ℕ → ℝ × ℝ, testTraceWeb Real.pi Real.sqrt 10 10 (fun c ys => .ok (res c ys)) = .ok true ∧
    ∀ c ys i j, L ≤ Real.sqrt (((res c ys (i + 1) j).1 - (res c ys i j).1) ^ 2 + ((res c ys (i + 1) j).2 - (res c ys i j).2) ^ 2) := by
  refine ⟨fun _ ys => jumping L ys, ?_, fun c ys i j => ?_⟩
  · rw [C300_iff_partial Real.pi Real.sqrt Real.sqrt_nonneg 10 10 (by norm_num) (by norm_num)]
    refine ⟨jumping_good _ _ _ _ _ ?_, jumping_good _ _ _ _ _ ?_, jumping_good _ _ _ _ _ ?_, jumping_good _ _ _ _ _ ?_, fun i _ j _ => ⟨?_, ?_⟩⟩
    · rw [webYs_step 10 (by norm_num)]; norm_num
    · rw [webYs_step 10 (by norm_num)]; norm_num
    · rw [webYs_step 10 (by norm_num)]; norm_num
    · rw [webYs_step 10 (by norm_num)]; norm_num
    · unfold isClose
      rw [sub_self, abs_zero]
      positivity
    · unfold isClose
      rw [sub_self, abs_zero]
      positivity
  · refine Real.le_sqrt_of_sq_le ?_
    unfold jumping
    push_cast
    nlinarith [sq_nonneg ((if 0 < ys.getD 1 0 - ys.getD 0 0 then (1 : ℝ) else -1) * ((i : ℝ) + 1) - (if 0 < ys.getD 1 0 - ys.getD 0 0 then (1 : ℝ) else -1) * (i : ℝ))]

/-- Lines that start 0.1 apart, without any step, are rejected. -/
example : ¬ WebGood Real.sqrt 10 10 true (fun i j => ((j : ℝ) / 10, (i : ℝ))) := by
  rintro ⟨-, h⟩
  have := h 0 (by norm_num) 0 (by norm_num)
  rw [Real.sqrt_lt' (by norm_num)] at this
  norm_num at this

end Zoidberg
