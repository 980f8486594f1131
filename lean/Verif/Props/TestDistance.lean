import Verif.Model.TestDistance
import Verif.Props.RzDistance
import Verif.Props.RzPosition
import Verif.Proofs.MakeMaps
import Mathlib.Tactic.Linarith
import Mathlib.Tactic.FieldSimp
import Mathlib.Tactic.Positivity

/-!
# What the tests of distances notice (C299)
-/

set_option linter.unusedSectionVars false

namespace Zoidberg

open Finset

variable {K : Type} [Field K] [LinearOrder K] [IsStrictOrderedRing K] [FloorRing K]

/-- The speed along the line at the sample `j` of `N`. -/
def sampleSpeed (e : RzEnv K) (l : RZLine K) (N j : ℕ) : K :=
  e.sqrt ((l.value e.pi ((j : K) * (2 * e.pi / (N : K))) 1).1 ^ 2 + (l.value e.pi ((j : K) * (2 * e.pi / (N : K))) 1).2 ^ 2)

/-- The mean of the speed at the samples, 20 for each point. -/
def meanSpeed (e : RzEnv K) (l : RZLine K) : K := (∑ j ∈ range (20 * l.pts.length), sampleSpeed e l (20 * l.pts.length) j) / ((20 * l.pts.length : ℕ) : K)

/-- The distance from point `i` to the next one. -/
def pointStep (e : RzEnv K) (l : RZLine K) (i : ℕ) : K :=
  ∑ j ∈ range 20, 2 * e.pi / ((20 * l.pts.length : ℕ) : K) * (sampleSpeed e l (20 * l.pts.length) (i * 20 + j + 1) + sampleSpeed e l (20 * l.pts.length) (i * 20 + j)) / 2

theorem sampleSpeed_end (e : RzEnv K) (hpi : 0 < e.pi) (l : RZLine K) (N : ℕ) (hN : 0 < N) : sampleSpeed e l N N = sampleSpeed e l N 0 := by
  have hn : (N : K) ≠ 0 := by exact_mod_cast hN.ne'
  have h : ∀ d, l.value e.pi ((N : K) * (2 * e.pi / (N : K))) d = l.value e.pi (((0 : ℕ) : K) * (2 * e.pi / (N : K))) d := by
    intro d
    have := npRem_period (n := 2 * e.pi) (by linarith) 0 1
    have e1 : (N : K) * (2 * e.pi / (N : K)) = 0 + ((1 : ℤ) : K) * (2 * e.pi) := by push_cast; field_simp; ring
    unfold RZLine.value
    rw [e1, this]
    simp
  unfold sampleSpeed
  rw [h]

/-- C299: without weights the whole distance along a line of splines is 2 pi times the mean of the speed, as the first and the last sample are the same point. -/
theorem C299_total (e : RzEnv K) (hpi : 0 < e.pi) (l : RZLine K) (ho : l.order ≠ 1) (hn : 0 < l.pts.length) :
    ∃ d, l.distance e 20 none = .ok d ∧ d.length = l.pts.length + 1 ∧ d.getD 0 0 = 0 ∧ (∀ i < l.pts.length, d.getD (i + 1) 0 - d.getD i 0 = pointStep e l i) ∧
      d.getD l.pts.length 0 = 2 * e.pi * meanSpeed e l := by
  obtain ⟨d, h1, h2, h3, h4⟩ := C56_spline e l ho hn 20 (by norm_num) none (by simp) (sampleSpeed e l (20 * l.pts.length)) (fun j => by simp [sampleSpeed, weightOf])
  refine ⟨d, h1, h2, h3, fun i hi => h4 i hi, ?_⟩
  set N := 20 * l.pts.length with hN
  have hN0 : 0 < N := by omega
  have hNK : (N : K) ≠ 0 := by exact_mod_cast hN0.ne'
  have key : ∀ i, i ≤ l.pts.length → d.getD i 0 = ∑ k ∈ range (i * 20), 2 * e.pi / (N : K) * (sampleSpeed e l N (k + 1) + sampleSpeed e l N k) / 2 := by
    intro i
    induction i with
    | zero => intro _; simpa using h3
    | succ i ih =>
      intro hi
      have a := h4 i (by omega)
      have b := ih (by omega)
      rw [Nat.add_mul, Nat.one_mul, sum_range_add, ← b, ← a]
      ring
  rw [key _ le_rfl, Nat.mul_comm, ← hN]
  have hs : ∑ k ∈ range N, sampleSpeed e l N (k + 1) = ∑ k ∈ range N, sampleSpeed e l N k := by
    have a := sum_range_succ (sampleSpeed e l N) N
    have b := sum_range_succ' (sampleSpeed e l N) N
    rw [sampleSpeed_end e hpi l N hN0] at a
    linarith
  have : ∀ k, 2 * e.pi / (N : K) * (sampleSpeed e l N (k + 1) + sampleSpeed e l N k) / 2 = e.pi / (N : K) * sampleSpeed e l N (k + 1) + e.pi / (N : K) * sampleSpeed e l N k := by
    intro k; ring
  rw [sum_congr rfl fun k _ => this k, sum_add_distrib, ← mul_sum, ← mul_sum, hs]
  unfold meanSpeed
  rw [← hN]
  ring

theorem isClose_zero (a : K) (h : a = 0) : isClose a 0 := by
  unfold isClose
  rw [h, sub_zero, abs_zero]
  positivity

/-- C299: exactly when the test of distances passes: for the number of points of the test, and a mean speed of 1 and 2 within the tolerances, if the distance grows from each point to the next. -/
theorem C299_iff (e : RzEnv K) (hpi : 0 < e.pi) (inner outer : RZLine K) (hi : inner.order ≠ 1) (ho : outer.order ≠ 1) (hin : 0 < inner.pts.length) (hon : 0 < outer.pts.length) (n : ℕ) :
    testDistance e inner outer n = .ok true ↔ inner.pts.length = n ∧ isClose (2 * e.pi * meanSpeed e inner) (2 * e.pi) ∧ (∀ i < n, 0 < pointStep e inner i) ∧
      isClose (2 * e.pi * meanSpeed e outer) (4 * e.pi) := by
  obtain ⟨d, a1, a2, a3, a4, a5⟩ := C299_total e hpi inner hi hin
  obtain ⟨d', b1, b2, b3, b4, b5⟩ := C299_total e hpi outer ho hon
  unfold testDistance
  rw [a1, b1]
  simp only [Except.bind, Except.map, Except.ok.injEq, Bool.and_eq_true, decide_eq_true_eq, List.all_eq_true, List.mem_range, a2, b2, Nat.add_sub_cancel, a5, b5, gt_iff_lt]
  constructor
  · rintro ⟨⟨⟨⟨h1, -⟩, h3⟩, h4⟩, h5⟩
    obtain rfl : inner.pts.length = n := by omega
    exact ⟨rfl, h3, fun i hi => by rw [← a4 i hi]; exact h4 i hi, h5⟩
  · rintro ⟨rfl, h3, h4, h5⟩
    exact ⟨⟨⟨⟨rfl, isClose_zero _ a3⟩, h3⟩, fun i hi => by rw [a4 i hi]; exact h4 i hi⟩, h5⟩

theorem meanSpeed_near (e : RzEnv K) (l : RZLine K) (hn : 0 < l.pts.length) (r t : K) (h : ∀ j, |sampleSpeed e l (20 * l.pts.length) j - r| ≤ t) : |meanSpeed e l - r| ≤ t := by
  have hN : (0 : K) < ((20 * l.pts.length : ℕ) : K) := by exact_mod_cast (by omega : 0 < 20 * l.pts.length)
  unfold meanSpeed
  have : (∑ j ∈ range (20 * l.pts.length), sampleSpeed e l (20 * l.pts.length) j) / ((20 * l.pts.length : ℕ) : K) - r =
      (∑ j ∈ range (20 * l.pts.length), (sampleSpeed e l (20 * l.pts.length) j - r)) / ((20 * l.pts.length : ℕ) : K) := by
    rw [sum_sub_distrib, sum_const, card_range, nsmul_eq_mul]
    field_simp
  rw [this, abs_div, abs_of_pos hN, div_le_iff₀ hN]
  refine (abs_sum_le_sum_abs _ _).trans ((sum_le_sum fun j _ => h j).trans ?_)
  rw [sum_const, card_range, nsmul_eq_mul, mul_comm]

/-- C299: the test passes if the splines of the circles have their speed within a part in 100000 everywhere. -/
theorem C299_passes (e : RzEnv K) (hpi : 0 < e.pi) (inner outer : RZLine K) (hi : inner.order ≠ 1) (ho : outer.order ≠ 1) (hin : 0 < inner.pts.length) (hon : 0 < outer.pts.length)
    (h1 : ∀ j, |sampleSpeed e inner (20 * inner.pts.length) j - 1| ≤ 1 / 10 ^ 5) (h2 : ∀ j, |sampleSpeed e outer (20 * outer.pts.length) j - 2| ≤ 2 / 10 ^ 5) :
    testDistance e inner outer inner.pts.length = .ok true := by
  rw [C299_iff e hpi inner outer hi ho hin hon]
  have m1 := meanSpeed_near e inner hin 1 _ h1
  have m2 := meanSpeed_near e outer hon 2 _ h2
  have hN : (0 : K) < ((20 * inner.pts.length : ℕ) : K) := by exact_mod_cast (by omega : 0 < 20 * inner.pts.length)
  refine ⟨rfl, ?_, fun i _ => ?_, ?_⟩
  · unfold isClose
    rw [show 2 * e.pi * meanSpeed e inner - 2 * e.pi = 2 * e.pi * (meanSpeed e inner - 1) by ring, abs_mul, abs_of_pos (by linarith : 0 < 2 * e.pi)]
    have := mul_le_mul_of_nonneg_left m1 (by linarith : 0 ≤ 2 * e.pi)
    have t : (0 : K) ≤ 1 / 10 ^ 8 := by positivity
    linarith
  · unfold pointStep
    refine sum_pos (fun j _ => ?_) (by simp)
    have s : ∀ j, 0 < sampleSpeed e inner (20 * inner.pts.length) j := fun j => by
      have := (abs_le.1 (h1 j)).1
      have t : (1 : K) / 10 ^ 5 < 1 := by norm_num
      linarith
    have a := s (i * 20 + j + 1)
    have b := s (i * 20 + j)
    positivity
  · unfold isClose
    rw [show 2 * e.pi * meanSpeed e outer - 4 * e.pi = 2 * e.pi * (meanSpeed e outer - 2) by ring, abs_mul, abs_of_pos (by linarith : 0 < 2 * e.pi), abs_of_pos (by linarith : 0 < 4 * e.pi)]
    have := mul_le_mul_of_nonneg_left m2 (by linarith : 0 ≤ 2 * e.pi)
    have t : (0 : K) ≤ 1 / 10 ^ 8 := by positivity
    have : 2 * e.pi * (2 / 10 ^ 5) = 1 / 10 ^ 5 * (4 * e.pi) := by ring
    linarith

/-- C299: the test of `equallySpaced` never fails with an assertion: if there is a line, it has the number of points asked for. -/
theorem C299_order (e : RzEnv K) (l : RZLine K) (n : ℕ) : testOrderByDistance e l n ≠ .ok false := by
  unfold testOrderByDistance
  intro h
  rcases hm : l.equallySpaced e (some n) none with er | m
  · rw [hm] at h
    simp [Except.map] at h
  · rw [hm] at h
    simp only [Except.map, Except.ok.injEq, decide_eq_false_iff_not] at h
    refine h ?_
    unfold RZLine.equallySpaced at hm
    rcases ht : l.equalTheta e (some n) none with er | ts
    · rw [ht] at hm
      simp [Except.bind] at hm
    · rw [ht] at hm
      simp only [Except.bind] at hm
      have hts : ts.length = n := by
        unfold RZLine.equalTheta at ht
        rcases hd : l.distance e 20 none with er | d
        · rw [hd] at ht
          simp [Except.bind] at ht
        · rw [hd] at ht
          simp only [Except.bind] at ht
          have := mapM_length ht
          rw [this]
          simp [linspaceOpen]
      have hb : ∀ (p : List (K × K)) (m : RZLine K), RZLine.build e p none none = .ok m → m.pts = p := by
        intro p m hp
        unfold RZLine.build at hp
        simp only [Except.bind] at hp
        split at hp
        · cases hp
        · split at hp
          · cases hp
          · split at hp
            · cases hp
            · cases hp; rfl
      unfold RZLine.ofPts at hm
      rw [if_pos rfl] at hm
      split at hm
      · cases hm
      · rename_i h0
        generalize hq : (if orient (List.map (fun t => l.value e.pi t 0) ts) > 0 then (List.map (fun t => l.value e.pi t 0) ts).reverse else List.map (fun t => l.value e.pi t 0) ts) = q at hm
        have hql : q.length = n := by
          rw [← hq]
          split <;> simp [hts]
        dsimp only at hm
        by_cases ho : ¬ orient q < 0
        · rw [if_pos ho] at hm
          cases hm
        · rw [if_neg ho] at hm
          rw [hb _ _ hm, hql]

/-- Circles with exact splines. -/
noncomputable def circleLine (r : ℝ) (n : ℕ) : RZLine ℝ :=
  ⟨(List.range n).map fun j : ℕ => (1 + r * Real.cos (j * (2 * Real.pi / n)), r * Real.sin (j * (2 * Real.pi / n))), 3,
    fun d t => if d = 0 then 1 + r * Real.cos t else -(r * Real.sin t), fun d t => if d = 0 then r * Real.sin t else r * Real.cos t⟩

theorem circleLine_speed (e : RzEnv ℝ) (he : e.sqrt = Real.sqrt) (r : ℝ) (hr : 0 ≤ r) (n N j : ℕ) : sampleSpeed e (circleLine r n) N j = r := by
  unfold sampleSpeed RZLine.value circleLine
  simp only [one_ne_zero, if_false, he]
  have : ∀ t : ℝ, (-(r * Real.sin t)) ^ 2 + (r * Real.cos t) ^ 2 = r ^ 2 := by
    intro t
    have := Real.sin_sq_add_cos_sq t
    linear_combination r ^ 2 * this
  rw [this, Real.sqrt_sq hr]

/-- The circles of the test, with exact splines. -/
example (e : RzEnv ℝ) (hp : e.pi = Real.pi) (he : e.sqrt = Real.sqrt) : testDistance e (circleLine 1 50) (circleLine 2 50) 50 = .ok true := by
  have hl : (circleLine 1 50).pts.length = 50 := by simp [circleLine]
  have := C299_passes e (by rw [hp]; exact Real.pi_pos) (circleLine 1 50) (circleLine 2 50) (by simp [circleLine]) (by simp [circleLine]) (by simp [circleLine]) (by simp [circleLine])
    (fun j => by rw [circleLine_speed e he 1 (by norm_num)]; norm_num) (fun j => by rw [circleLine_speed e he 2 (by norm_num)]; norm_num)
  rwa [hl] at this

/-- A line with the speed of the outer circle in place of the inner one is noticed. -/
example (e : RzEnv ℝ) (hp : e.pi = Real.pi) (he : e.sqrt = Real.sqrt) : testDistance e (circleLine 2 50) (circleLine 2 50) 50 ≠ .ok true := by
  rw [Ne, C299_iff e (by rw [hp]; exact Real.pi_pos) _ _ (by simp [circleLine]) (by simp [circleLine]) (by simp [circleLine]) (by simp [circleLine])]
  rintro ⟨-, h, -⟩
  have m : meanSpeed e (circleLine 2 50) = 2 := by
    have := meanSpeed_near e (circleLine 2 50) (by simp [circleLine]) 2 0 (fun j => by rw [circleLine_speed e he 2 (by norm_num)]; norm_num)
    have := abs_nonpos_iff.1 this
    linarith
  rw [m, hp] at h
  unfold isClose at h
  have hp0 := Real.pi_gt_three
  rw [show 2 * Real.pi * 2 - 2 * Real.pi = 2 * Real.pi by ring, abs_of_pos (by linarith)] at h
  linarith

end Zoidberg
