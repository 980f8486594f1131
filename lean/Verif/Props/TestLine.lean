import Verif.Model.TestLine
import Verif.Props.Reconstruct
import Verif.Props.TestTracer
import Mathlib.Tactic.Positivity

/-!
# The tests of lines (C295)
-/

set_option linter.unusedSectionVars false

namespace Zoidberg

variable {K : Type} [Field K] [LinearOrder K] [IsStrictOrderedRing K] [FloorRing K]

/-- Two points that `np.allclose` does not tell apart. -/
def ClosePt (a b : K × K) : Prop := |a.1 - b.1| ≤ 1 / 10 ^ 8 + 1 / 10 ^ 5 * |b.1| ∧ |a.2 - b.2| ≤ 1 / 10 ^ 8 + 1 / 10 ^ 5 * |b.2|

theorem allClosePts_iff (a b : List (K × K)) (h : b.length = a.length) : allClosePts a b = true ↔ ∀ i < a.length, ClosePt (ptAt a i) (ptAt b i) := by
  unfold allClosePts
  rw [List.all_eq_true]
  constructor
  · intro H i hi
    have hz : (a.zip b)[i]'(by rw [List.length_zip, h, min_self]; exact hi) = (a[i], b[i]'(by omega)) := List.getElem_zip
    have := H (a[i], b[i]'(by omega)) (by rw [← hz]; exact List.getElem_mem _)
    rw [decide_eq_true_iff] at this
    rw [ptAt_lt a hi, ptAt_lt b (by omega), List.getD_eq_getElem _ _ hi, List.getD_eq_getElem _ _ (by omega)]
    exact this
  · intro H q hq
    obtain ⟨i, hi, rfl⟩ := List.getElem_of_mem hq
    have hi' : i < a.length := by rw [List.length_zip, h, min_self] at hi; exact hi
    have := H i hi'
    rw [ptAt_lt a hi', ptAt_lt b (by omega), List.getD_eq_getElem _ _ hi', List.getD_eq_getElem _ _ (by omega)] at this
    rw [decide_eq_true_iff, List.getElem_zip]
    exact this

theorem ptAt_rotate_any (p : List (K × K)) (k i : ℕ) : ptAt (p.rotate k) i = ptAt p (i + k) := by
  rcases Nat.eq_zero_or_pos p.length with h0 | h0
  · rw [List.length_eq_zero_iff.1 h0]; simp [ptAt]
  · unfold ptAt
    rw [List.length_rotate, List.getD_eq_getElem _ _ (by rw [List.length_rotate]; exact Nat.mod_lt _ h0), List.getElem_rotate, List.getD_eq_getElem _ _ (Nat.mod_lt _ h0)]
    congr 1
    rw [Nat.mod_add_mod]

/-- **C295.** What the assertion of `test_line_from_points` says: the points of the new line are those of the old one, beginning at some point and in the same direction, up to the tolerances. -/
theorem C295_iff (orig rec : List (K × K)) (h : rec.length = orig.length) (h0 : orig ≠ []) :
    lineMatch orig rec = .ok true ↔ ∃ k, ∀ i < orig.length, ClosePt (ptAt orig i) (ptAt rec (i + k)) := by
  have hpos : 0 < orig.length := List.length_pos_iff.2 h0
  unfold lineMatch
  rw [if_neg hpos.ne', if_neg (by rw [h]; exact fun h => h rfl), Except.ok.injEq, List.any_eq_true]
  constructor
  · rintro ⟨k, -, hk⟩
    rw [allClosePts_iff _ _ (by unfold rollPts; rw [List.length_rotate, h])] at hk
    refine ⟨rec.length - k % rec.length, fun i hi => ?_⟩
    rw [← ptAt_rotate_any]
    exact hk i hi
  · rintro ⟨k, hk⟩
    refine ⟨(rec.length - k % rec.length) % rec.length, List.mem_range.2 (by rw [← h]; exact Nat.mod_lt _ (by omega)), ?_⟩
    rw [allClosePts_iff _ _ (by unfold rollPts; rw [List.length_rotate, h])]
    intro i hi
    unfold rollPts
    rw [ptAt_rotate_any, Nat.mod_mod]
    have hlt : k % rec.length < rec.length := Nat.mod_lt _ (by omega)
    have : ptAt rec (i + (rec.length - (rec.length - k % rec.length) % rec.length)) = ptAt rec (i + k) := by
      rw [← ptAt_mod rec (i + k), ← ptAt_mod rec (i + (rec.length - (rec.length - k % rec.length) % rec.length))]
      congr 1
      rcases Nat.eq_zero_or_pos (k % rec.length) with hz | hz
      · rw [hz, Nat.sub_zero, Nat.mod_self, Nat.sub_zero, Nat.add_mod_right, Nat.add_mod, hz, Nat.add_zero, Nat.mod_mod]
      · rw [Nat.mod_eq_of_lt (show rec.length - k % rec.length < rec.length by omega), show rec.length - (rec.length - k % rec.length) = k % rec.length by omega, Nat.add_mod_mod]
    rw [this]
    exact hk i hi

/-- **C295.** The test never ends with an exception of its own, for as many points. -/
theorem C295_total (orig rec : List (K × K)) (h : rec.length = orig.length) : ∃ b, lineMatch orig rec = .ok b := by
  unfold lineMatch
  by_cases h0 : orig.length = 0
  · exact ⟨false, by rw [if_pos h0]⟩
  · exact ⟨_, by rw [if_neg h0, if_neg (by rw [h]; exact fun h => h rfl)]⟩

/-- **C295.** It passes for all closed lines on which the neighbours are the nearest points, and all orders of the points. -/
theorem C295_passes (e : RzEnv K) (he : SplrepTotal e) (p : List (K × K)) (h3 : 3 ≤ p.length) (hd : p.Nodup) (hn : NeighboursNearest p) (ha : 0 < signedArea p)
    (pts : List (K × K)) (hp : pts.Perm p) : testLineFromPoints e p pts = .ok true := by
  obtain ⟨l, k, h1, h2⟩ := C228_exists_partial e he p h3 hd hn ha pts hp none none
  unfold testLineFromPoints
  rw [h1]
  show lineMatch p l.pts = .ok true
  rw [C295_iff _ _ (by rw [h2, List.length_rotate]) (by intro h; rw [h] at h3; simp at h3)]
  refine ⟨p.length - k % p.length, fun i hi => ?_⟩
  rw [h2, ptAt_rotate_any]
  have hlt : k % p.length < p.length := Nat.mod_lt _ (by omega)
  have : ptAt p (i + (p.length - k % p.length) + k) = ptAt p i := by
    rw [← ptAt_mod p (i + (p.length - k % p.length) + k), ← ptAt_mod p i]
    congr 1
    rw [Nat.add_mod, ← Nat.mod_mod k, ← Nat.add_mod, Nat.mod_mod, show i + (p.length - k % p.length) + k % p.length = i + p.length by omega, Nat.add_mod_right]
  rw [this]
  exact ⟨tracer_isClose_self _, tracer_isClose_self _⟩

/-- The circles of the library. -/
theorem C295_circle (e : RzEnv ℝ) (he : SplrepTotal e) (R0 r : ℝ) (hr : r ≠ 0) (n : ℕ) (hn : 3 ≤ n) (pts : List (ℝ × ℝ)) (hp : pts.Perm (circlePts Real.pi Real.cos Real.sin R0 r n)) :
    testLineFromPoints e (circlePts Real.pi Real.cos Real.sin R0 r n) pts = .ok true := by
  refine C295_passes e he _ (by rw [circlePts_length]; exact hn) (circle_nodup R0 r hr hn) (circle_nearest R0 r hr hn) ?_ pts hp
  rw [circlePts_area R0 r n (by omega)]
  have hn' : (0 : ℝ) < n := by exact_mod_cast (by omega : 0 < n)
  have hs : 0 < Real.sin (2 * Real.pi / n) := by
    have hpi := Real.pi_pos
    apply Real.sin_pos_of_pos_of_lt_pi (by positivity)
    rw [div_lt_iff₀ hn']
    have : (3 : ℝ) ≤ n := by exact_mod_cast hn
    nlinarith
  positivity

/-- **C295.** A line that passes has the same area, with its sign, up to the tolerances. -/
theorem C295_area (orig rec : List (K × K)) (h : rec.length = orig.length) (h0 : orig ≠ []) (M : K) (hM : ∀ i, |(ptAt rec i).1| ≤ M ∧ |(ptAt rec i).2| ≤ M) (hp : lineMatch orig rec = .ok true) :
    |signedArea orig - signedArea rec| ≤ orig.length * (2 * M * (1 / 10 ^ 8 + 1 / 10 ^ 5 * M) + (1 / 10 ^ 8 + 1 / 10 ^ 5 * M) ^ 2) := by
  obtain ⟨k, hk⟩ := (C295_iff orig rec h h0).1 hp
  have hpos : 0 < orig.length := List.length_pos_iff.2 h0
  have hM0 : 0 ≤ M := (abs_nonneg _).trans (hM 0).1
  set ε : K := 1 / 10 ^ 8 + 1 / 10 ^ 5 * M with hε
  have hε0 : 0 ≤ ε := by positivity
  have hk' : ∀ i, |(ptAt orig i).1 - (ptAt (rec.rotate k) i).1| ≤ ε ∧ |(ptAt orig i).2 - (ptAt (rec.rotate k) i).2| ≤ ε ∧ |(ptAt (rec.rotate k) i).1| ≤ M ∧ |(ptAt (rec.rotate k) i).2| ≤ M := by
    intro i
    have hl : (rec.rotate k).length = orig.length := by rw [List.length_rotate, h]
    obtain ⟨c1, c2⟩ := hk (i % orig.length) (Nat.mod_lt _ hpos)
    rw [← ptAt_rotate_any, ptAt_mod, ← hl, ptAt_mod, ptAt_rotate_any] at c1 c2
    obtain ⟨m1, m2⟩ := hM (i + k)
    rw [ptAt_rotate_any]
    refine ⟨c1.trans ?_, c2.trans ?_, m1, m2⟩
    · rw [hε]; gcongr
    · rw [hε]; gcongr
  rw [← signedArea_rotate rec k, signedArea_eq, signedArea_eq, List.length_rotate, h, ← sub_div, ← Finset.sum_sub_distrib, abs_div, abs_of_pos (show (0 : K) < 2 by norm_num), div_le_iff₀ (by norm_num)]
  refine (Finset.abs_sum_le_sum_abs _ _).trans ?_
  have hterm : ∀ i ∈ Finset.range orig.length, |(ptAt orig i).1 * (ptAt orig (i + 1)).2 - (ptAt orig (i + 1)).1 * (ptAt orig i).2 -
      ((ptAt (rec.rotate k) i).1 * (ptAt (rec.rotate k) (i + 1)).2 - (ptAt (rec.rotate k) (i + 1)).1 * (ptAt (rec.rotate k) i).2)| ≤ 2 * (2 * M * ε + ε ^ 2) := by
    intro i _
    have key : ∀ a b c d : K, |a - c| ≤ ε → |b - d| ≤ ε → |c| ≤ M → |d| ≤ M → |a * b - c * d| ≤ 2 * M * ε + ε ^ 2 := by
      intro a b c d h1 h2 h3 h4
      have : a * b - c * d = (a - c) * (b - d) + (a - c) * d + c * (b - d) := by ring
      rw [this]
      refine (abs_add_le _ _).trans ?_
      have e1 := abs_add_le ((a - c) * (b - d)) ((a - c) * d)
      rw [abs_mul, abs_mul] at e1
      rw [abs_mul]
      have f1 := mul_le_mul h1 h2 (abs_nonneg _) hε0
      have f2 := mul_le_mul h1 h4 (abs_nonneg _) hε0
      have f3 := mul_le_mul h3 h2 (abs_nonneg _) hM0
      nlinarith
    obtain ⟨a1, a2, a3, a4⟩ := hk' i
    obtain ⟨b1, b2, b3, b4⟩ := hk' (i + 1)
    have g1 := key _ _ _ _ a1 b2 a3 b4
    have g2 := key _ _ _ _ b1 a2 b3 a4
    rw [abs_le] at g1 g2 ⊢
    constructor <;> linarith [g1.1, g1.2, g2.1, g2.2]
  refine (Finset.sum_le_sum hterm).trans ?_
  rw [Finset.sum_const, Finset.card_range, nsmul_eq_mul]
  apply le_of_eq
  ring

/-- **C295.** So it notices a line in the other direction, unless the line is very thin. -/
theorem C295_reversed (orig : List (K × K)) (h0 : orig ≠ []) (M : K) (hM : ∀ i, |(ptAt orig i).1| ≤ M ∧ |(ptAt orig i).2| ≤ M) (k : ℕ)
    (ha : orig.length * (2 * M * (1 / 10 ^ 8 + 1 / 10 ^ 5 * M) + (1 / 10 ^ 8 + 1 / 10 ^ 5 * M) ^ 2) < 2 * |signedArea orig|) :
    lineMatch orig (orig.reverse.rotate k) = .ok false := by
  obtain ⟨b, hb⟩ := C295_total orig (orig.reverse.rotate k) (by rw [List.length_rotate, List.length_reverse])
  cases b with
  | false => exact hb
  | true =>
    exfalso
    have hM' : ∀ i, |(ptAt (orig.reverse.rotate k) i).1| ≤ M ∧ |(ptAt (orig.reverse.rotate k) i).2| ≤ M := by
      intro i
      have hpos : 0 < orig.length := List.length_pos_iff.2 h0
      have hmem : ptAt (orig.reverse.rotate k) i ∈ orig := by
        unfold ptAt
        rw [List.getD_eq_getElem _ _ (Nat.mod_lt _ (by rw [List.length_rotate, List.length_reverse]; exact hpos))]
        have := List.getElem_mem (l := orig.reverse.rotate k) (n := i % (orig.reverse.rotate k).length) (Nat.mod_lt _ (by rw [List.length_rotate, List.length_reverse]; exact hpos))
        rwa [List.mem_rotate, List.mem_reverse] at this
      obtain ⟨j, hj, hj'⟩ := List.getElem_of_mem hmem
      have := hM j
      rw [ptAt_lt orig hj, List.getD_eq_getElem _ _ hj, hj'] at this
      exact this
    have := C295_area orig _ (by rw [List.length_rotate, List.length_reverse]) h0 M hM' hb
    rw [signedArea_rotate, signedArea_reverse, sub_neg_eq_add, ← two_mul, abs_mul, abs_of_pos (show (0 : K) < 2 by norm_num)] at this
    linarith

/-- **C295.** `test_circular_boundaries` passes for the circles of the library with the sizes of the test and all numbers of points. -/
theorem C295_circular (n : ℕ) (hn : 1 ≤ n) : testCircular (circlePts Real.pi Real.cos Real.sin 1 1 n) (circlePts Real.pi Real.cos Real.sin 1 2 n) = .ok true := by
  have hne : ∀ r : ℝ, circlePts Real.pi Real.cos Real.sin 1 r n ≠ [] := by
    intro r h
    have := congrArg List.length h
    rw [circlePts_length] at this
    simp at this
    omega
  have hm : ∀ r : ℝ, ∀ q ∈ circlePts Real.pi Real.cos Real.sin 1 r n, ∃ t, q.1 = 1 + r * Real.cos t := by
    intro r q hq
    unfold circlePts at hq
    obtain ⟨t, -, rfl⟩ := List.mem_map.1 hq
    exact ⟨t, rfl⟩
  unfold testCircular
  rw [if_neg (by rw [not_or]; exact ⟨hne 1, hne 2⟩)]
  congr 1
  simp only [Bool.and_eq_true, List.all_eq_true, decide_eq_true_iff]
  refine ⟨⟨⟨?_, ?_⟩, ?_⟩, ?_⟩ <;> intro q hq <;> obtain ⟨t, ht⟩ := hm _ q hq <;> have h1 := Real.neg_one_le_cos t <;> have h2 := Real.cos_le_one t <;> rw [ht] <;> linarith

/-- **C295.** It looks at `R` only, and from one side: exactly when it passes. -/
theorem C295_circular_iff (inner outer : List (K × K)) (hi : inner ≠ []) (ho : outer ≠ []) :
    testCircular inner outer = .ok true ↔ (∀ q ∈ inner, 0 ≤ q.1 ∧ q.1 ≤ 2) ∧ ∀ q ∈ outer, -1 ≤ q.1 ∧ q.1 ≤ 3 := by
  unfold testCircular
  rw [if_neg (by rw [not_or]; exact ⟨hi, ho⟩)]
  simp only [Except.ok.injEq, Bool.and_eq_true, List.all_eq_true, decide_eq_true_iff]
  constructor
  · rintro ⟨⟨⟨a, b⟩, c⟩, d⟩
    exact ⟨fun q hq => ⟨b q hq, a q hq⟩, fun q hq => ⟨d q hq, c q hq⟩⟩
  · rintro ⟨a, b⟩
    exact ⟨⟨⟨fun q hq => (a q hq).2, fun q hq => (a q hq).1⟩, fun q hq => (b q hq).2⟩, fun q hq => (b q hq).1⟩

/-! ## Examples -/

/-- The test notices that a square is the other way round. -/
example : lineMatch [((0 : ℚ), (0 : ℚ)), (1, 0), (1, 1), (0, 1)] ([((0 : ℚ), (0 : ℚ)), (1, 0), (1, 1), (0, 1)].reverse.rotate 1) = .ok false := by
  apply C295_reversed _ (by simp) 1
  · intro i
    have : i % 4 < 4 := Nat.mod_lt _ (by norm_num)
    unfold ptAt
    show |([((0 : ℚ), (0 : ℚ)), (1, 0), (1, 1), (0, 1)].getD (i % 4) (0, 0)).1| ≤ 1 ∧ |([((0 : ℚ), (0 : ℚ)), (1, 0), (1, 1), (0, 1)].getD (i % 4) (0, 0)).2| ≤ 1
    generalize i % 4 = j at this
    interval_cases j <;> simp
  · norm_num [signedArea, Finset.sum_range_succ]

/-- A circle with 20 points, shuffled. -/
example (e : RzEnv ℝ) (he : SplrepTotal e) : testLineFromPoints e (circlePts Real.pi Real.cos Real.sin 3 1 20) (circlePts Real.pi Real.cos Real.sin 3 1 20).reverse = .ok true :=
  C295_circle e he 3 1 one_ne_zero 20 (by norm_num) _ (List.reverse_perm _)

/-- A line without any height passes the test for circles. -/
example : testCircular [((1 : ℚ), (0 : ℚ))] [((1 : ℚ), (0 : ℚ))] = .ok true :=
  (C295_circular_iff _ _ (by simp) (by simp)).2 (by simp)

end Zoidberg
