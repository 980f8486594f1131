import Verif.Model.Volume
import Verif.Props.RzLine
import Mathlib.Data.List.GetD
import Mathlib.Tactic.Linarith
import Mathlib.Tactic.FieldSimp
import Mathlib.Tactic.IntervalCases
import Mathlib.Tactic.LinearCombination

/-!
# C274: the volume made of the cross sections
-/

set_option linter.unusedSectionVars false

namespace Zoidberg

open Finset

variable {K : Type} [Field K] [LinearOrder K] [IsStrictOrderedRing K] [FloorRing K]

theorem sum_cyc (n : ℕ) (f : ℕ → K) : ∑ i ∈ range n, f ((i + 1) % n) = ∑ i ∈ range n, f i := by
  cases n with
  | zero => rfl
  | succ m =>
    rw [sum_range_succ, sum_range_succ']
    congr 1
    · refine sum_congr rfl fun i hi => ?_
      rw [Nat.mod_eq_of_lt (by have := mem_range.1 hi; omega)]
    · rw [Nat.mod_self]

/-- The angles between the sections add up to one period. -/
theorem dphi_sum (pi symmetry : K) (angles : List K) (n : ℕ) (hn : 0 < n) : ∑ i ∈ range n, torusDphi pi n angles symmetry i = 2 * pi / symmetry := by
  obtain ⟨m, rfl⟩ : ∃ m, n = m + 1 := ⟨n - 1, by omega⟩
  rw [sum_range_succ]
  have h1 : ∑ i ∈ range m, torusDphi pi (m + 1) angles symmetry i = ∑ i ∈ range m, (angles.getD (i + 1) 0 - angles.getD i 0) := by
    refine sum_congr rfl fun i hi => ?_
    have hi := mem_range.1 hi
    unfold torusDphi
    rw [Nat.mod_eq_of_lt (by omega), if_neg (by omega)]
  rw [h1, sum_range_sub fun i => angles.getD i 0]
  unfold torusDphi
  rw [Nat.mod_self, if_pos rfl]
  ring

theorem sectionStep_eq (angles : List K) : sectionStep angles = (angles.getD (angles.length - 1) 0 - angles.getD 0 0) / ((angles.length - 1 : ℕ) : K) := by
  unfold sectionStep
  rw [sum_range_sub fun i => angles.getD i 0]

/-- What a section contributes: its area times the radius of its centre. -/
def secAR (s : K × K) : K := s.1 * s.2

theorem torus_zero (pi symmetry : K) (secs : List (K × K)) (angles : List K) (hs : symmetry ≠ 0) (hn : secs.length ≠ 0) (hl : secs.length ≤ angles.length) :
    torusVolume pi secs angles symmetry 0 = .ok (some (∑ i ∈ range secs.length,
      1 / 2 * (secAR (secs.getD i (0, 0)) + secAR (secs.getD ((i + 1) % secs.length) (0, 0))) * torusDphi pi secs.length angles symmetry i)) := by
  unfold torusVolume
  rw [if_pos rfl, if_neg hn, if_neg (by omega), if_neg hs]
  rfl

theorem torus_one (pi symmetry : K) (hpi : pi ≠ 0) (secs : List (K × K)) (angles : List K) (hl : 2 ≤ angles.length) :
    torusVolume pi secs angles symmetry 1 = .ok (some (sectionStep angles * ∑ i ∈ range secs.length, secAR (secs.getD i (0, 0)))) := by
  unfold torusVolume
  rw [if_neg one_ne_zero, if_pos rfl]
  split_ifs with h0 h1
  · rw [h0]; simp
  · omega
  · congr 2
    rw [mul_sum]
    refine sum_congr rfl fun i _ => ?_
    unfold secAR
    field_simp

/-- **C274.** For sections at equal angles both modes give the sum of area times radius, times the angle between the sections. -/
theorem C274_equal (pi symmetry a : K) (hpi : pi ≠ 0) (hs : symmetry ≠ 0) (secs : List (K × K)) (angles : List K) (hn : 2 ≤ secs.length) (hl : angles.length = secs.length)
    (ha : ∀ i < secs.length, angles.getD i 0 = a + (i : K) * (2 * pi / symmetry / secs.length)) (mode : ℤ) (hm : mode = 0 ∨ mode = 1) :
    torusVolume pi secs angles symmetry mode = .ok (some (2 * pi / symmetry / secs.length * ∑ i ∈ range secs.length, secAR (secs.getD i (0, 0)))) := by
  have hN : (secs.length : K) ≠ 0 := by
    have : secs.length ≠ 0 := by omega
    exact_mod_cast this
  rcases hm with rfl | rfl
  · rw [torus_zero pi symmetry secs angles hs (by omega) hl.ge]
    congr 2
    have hd : ∀ i ∈ range secs.length, torusDphi pi secs.length angles symmetry i = 2 * pi / symmetry / secs.length := by
      intro i hi
      have hi := mem_range.1 hi
      unfold torusDphi
      rcases Nat.lt_or_ge (i + 1) secs.length with h | h
      · rw [Nat.mod_eq_of_lt h, if_neg (by omega), ha i hi, ha (i + 1) h]
        push_cast
        ring
      · have e : i + 1 = secs.length := by omega
        rw [e, Nat.mod_self, if_pos rfl, ha i hi, ha 0 (by omega)]
        have e2 : (secs.length : K) = i + 1 := by rw [← e]; push_cast; ring
        rw [e2] at hN ⊢
        push_cast
        field_simp
        ring
    rw [sum_congr rfl fun i hi => by rw [hd i hi], ← sum_mul, ← mul_sum, sum_add_distrib, sum_cyc secs.length fun i => secAR (secs.getD i (0, 0))]
    ring
  · rw [torus_one pi symmetry hpi secs angles (by omega), sectionStep_eq, hl, ha _ (by omega), ha 0 (by omega)]
    congr 3
    have h1 : ((secs.length - 1 : ℕ) : K) ≠ 0 := by
      have : secs.length - 1 ≠ 0 := by omega
      exact_mod_cast this
    push_cast
    field_simp
    ring

/-- **C274.** The mode 0 with the same section everywhere gives the volume of Pappus, whatever the angles are: the area times the way of the centre in one period. -/
theorem C274_pappus (pi symmetry : K) (hs : symmetry ≠ 0) (secs : List (K × K)) (s : K × K) (hsec : ∀ t ∈ secs, t = s) (angles : List K) (hn : secs.length ≠ 0)
    (hl : secs.length ≤ angles.length) : torusVolume pi secs angles symmetry 0 = .ok (some (s.1 * (2 * pi * s.2 / symmetry))) := by
  rw [torus_zero pi symmetry secs angles hs hn hl]
  congr 2
  have hc : ∀ i, i < secs.length → secs.getD i (0, 0) = s := fun i hi => by
    rw [List.getD_eq_getElem _ _ hi]
    exact hsec _ (List.getElem_mem hi)
  have e : ∀ i ∈ range secs.length, 1 / 2 * (secAR (secs.getD i (0, 0)) + secAR (secs.getD ((i + 1) % secs.length) (0, 0))) * torusDphi pi secs.length angles symmetry i =
      secAR s * torusDphi pi secs.length angles symmetry i := by
    intro i hi
    rw [hc i (mem_range.1 hi), hc _ (Nat.mod_lt _ (by omega))]
    ring
  rw [sum_congr rfl e, ← mul_sum, dphi_sum pi symmetry angles _ (by omega)]
  unfold secAR
  field_simp

/-- **C274, the exact condition** for the mode 1: with the same section everywhere it gives this volume exactly if the mean distance of the angles is that of equal angles. -/
theorem C274_iff (pi symmetry : K) (hpi : pi ≠ 0) (hs : symmetry ≠ 0) (secs : List (K × K)) (s : K × K) (hsec : ∀ t ∈ secs, t = s) (h0 : s.1 * s.2 ≠ 0) (angles : List K)
    (hn : 2 ≤ secs.length) (hl : angles.length = secs.length) :
    torusVolume pi secs angles symmetry 1 = .ok (some (s.1 * (2 * pi * s.2 / symmetry))) ↔
      secs.length * (angles.getD (angles.length - 1) 0 - angles.getD 0 0) = (secs.length - 1) * (2 * pi / symmetry) := by
  rw [torus_one pi symmetry hpi secs angles (by omega), sectionStep_eq]
  have hc : ∀ i ∈ range secs.length, secAR (secs.getD i (0, 0)) = s.1 * s.2 := fun i hi => by
    have hi := mem_range.1 hi
    rw [List.getD_eq_getElem _ _ hi, hsec _ (List.getElem_mem hi)]
    rfl
  rw [sum_congr rfl hc, sum_const, card_range, nsmul_eq_mul, hl, Nat.cast_sub (by omega), Nat.cast_one]
  have h1 : (secs.length : K) - 1 ≠ 0 := by
    have : (1 : K) < secs.length := by exact_mod_cast (by omega : 1 < secs.length)
    linarith
  generalize angles.getD (secs.length - 1) 0 - angles.getD 0 0 = d
  constructor
  · intro h
    injection h with h
    injection h with h
    apply mul_right_cancel₀ h0
    field_simp at h ⊢
    linear_combination h
  · intro h
    congr 2
    have : s.1 * s.2 * (secs.length * d) = s.1 * s.2 * ((secs.length - 1) * (2 * pi / symmetry)) := by rw [h]
    field_simp at this ⊢
    linear_combination this

/-- **C274 is false** of the mode 1 for angles that are not equally spaced: three sections in the first third of the period give half of the volume. -/
theorem C274_fails : torusVolume (1 / 2 : ℚ) [(1, 1), (1, 1), (1, 1)] [0, 1 / 6, 1 / 3] 1 0 = .ok (some 1) ∧
    torusVolume (1 / 2 : ℚ) [(1, 1), (1, 1), (1, 1)] [0, 1 / 6, 1 / 3] 1 1 = .ok (some (1 / 2)) := by
  constructor
  · rw [C274_pappus _ _ (by norm_num) _ (1, 1) (by simp) _ (by simp) (by simp)]
    norm_num
  · rw [torus_one _ _ (by norm_num) _ _ (by simp)]
    norm_num [sectionStep, sum_range_succ, secAR]

/-! ## The sections -/

/-- The shell between two rectangles: the mode 0 gives its volume in one period, for all angles. -/
theorem C274_ring (pi symmetry r1 r2 z1 z2 : K) (hs : symmetry ≠ 0) (hr : r1 < r2) (hz : z1 < z2) :
    secArea [(r1, z1), (r2, z1), (r2, z2), (r1, z2)] = (r2 - r1) * (z2 - z1) ∧ secR [(r1, z1), (r2, z1), (r2, z2), (r1, z2)] = (r1 + r2) / 2 ∧
      ∀ (n : ℕ) (angles : List K), n ≠ 0 → n ≤ angles.length →
        torusVolume pi ((List.replicate n [(r1, z1), (r2, z1), (r2, z2), (r1, z2)]).map fun p => (secArea p, secR p)) angles symmetry 0 =
          .ok (some (pi * (r2 ^ 2 - r1 ^ 2) * (z2 - z1) / symmetry)) := by
  have hsum : ∑ i ∈ range 4, edgeCross [(r1, z1), (r2, z1), (r2, z2), (r1, z2)] i = 2 * ((r2 - r1) * (z2 - z1)) := by
    simp [sum_range_succ, edgeCross]
    ring
  have hpos : 0 < (r2 - r1) * (z2 - z1) := mul_pos (by linarith) (by linarith)
  have hA : secArea [(r1, z1), (r2, z1), (r2, z2), (r1, z2)] = (r2 - r1) * (z2 - z1) := by
    unfold secArea
    rw [show [(r1, z1), (r2, z1), (r2, z2), (r1, z2)].length = 4 from rfl, hsum, abs_of_pos (by linarith)]
    ring
  have hR : secR [(r1, z1), (r2, z1), (r2, z2), (r1, z2)] = (r1 + r2) / 2 := by
    unfold secR
    rw [show [(r1, z1), (r2, z1), (r2, z2), (r1, z2)].length = 4 from rfl, hsum, div_eq_div_iff (by linarith) two_ne_zero]
    simp [sum_range_succ, edgeCross]
    ring
  refine ⟨hA, hR, fun n angles hn hl => ?_⟩
  rw [C274_pappus pi symmetry hs _ ((r2 - r1) * (z2 - z1), (r1 + r2) / 2) (by
    intro t ht
    rw [List.map_replicate] at ht
    rw [List.eq_of_mem_replicate ht, hA, hR]) angles (by simpa using hn) (by simpa using hl)]
  congr 2
  field_simp
  ring

/-- A sum over the edges of a polygon. -/
def edgeSum (F : K × K → K × K → K) (p : List (K × K)) : K := ∑ i ∈ range p.length, F (p.getD i (0, 0)) (p.getD ((i + 1) % p.length) (0, 0))

theorem edgeSum_pt (F : K × K → K × K → K) (p : List (K × K)) : edgeSum F p = ∑ i ∈ range p.length, F (ptAt p i) (ptAt p (i + 1)) :=
  sum_congr rfl fun i hi => by rw [ptAt_lt p (mem_range.1 hi)]; rfl

theorem edgeSum_rotate (F : K × K → K × K → K) (p : List (K × K)) (k : ℕ) : edgeSum F (p.rotate k) = edgeSum F p := by
  rcases Nat.eq_zero_or_pos p.length with h0 | h0
  · rw [List.length_eq_zero_iff.1 h0]; simp
  have ha : ∀ q : List (K × K), 0 < q.length → ∀ i, ptAt (q.rotate 1) i = ptAt q (i + 1) := by
    intro q hq i
    unfold ptAt
    rw [List.length_rotate, List.getD_eq_getElem?_getD, List.getElem?_rotate (Nat.mod_lt _ hq), List.getD_eq_getElem?_getD, Nat.mod_add_mod]
  induction k with
  | zero => simp
  | succ k ih =>
    rw [← List.rotate_rotate, ← ih]
    have hq : 0 < (p.rotate k).length := by rw [List.length_rotate]; exact h0
    generalize p.rotate k = q at hq
    rw [edgeSum_pt, edgeSum_pt, List.length_rotate]
    simp only [ha q hq]
    exact sum_shift (fun i => F (ptAt q i) (ptAt q (i + 1))) q.length (fun i => by
      have : i + q.length + 1 = i + 1 + q.length := by omega
      simp only [this, ptAt_add])

theorem edgeSum_reverse (F : K × K → K × K → K) (p : List (K × K)) : edgeSum F p.reverse = edgeSum (fun a b => F b a) p := by
  rcases Nat.eq_zero_or_pos p.length with h0 | h0
  · rw [List.length_eq_zero_iff.1 h0]; simp [edgeSum]
  rw [edgeSum_pt, edgeSum_pt, List.length_reverse]
  have hs := sum_shift (fun i => F (ptAt p (i + p.length)) (ptAt p (i + p.length - 1))) p.length (fun i => by
      have : i + p.length + p.length - 1 = (i + p.length - 1) + p.length := by omega
      simp only [this, ptAt_add])
  have e3 : ∀ i, i + 1 + p.length - 1 = i + p.length := fun i => by omega
  simp only [e3, ptAt_add] at hs
  rw [hs, ← sum_range_reflect]
  refine sum_congr rfl fun i hi => ?_
  have hi := mem_range.1 hi
  have e1 : ptAt p.reverse (p.length - 1 - i) = ptAt p i := by
    rw [ptAt_reverse p (by omega)]; congr 1; omega
  have e2 : ptAt p.reverse (p.length - 1 - i + 1) = ptAt p (i + p.length - 1) := by
    rcases Nat.eq_zero_or_pos i with h | h
    · subst h
      have : p.length - 1 - 0 + 1 = 0 + p.reverse.length := by simp; omega
      rw [this, ptAt_add, ptAt_reverse p (by omega)]
      congr 1; omega
    · rw [ptAt_reverse p (by omega)]
      have : i + p.length - 1 = (i - 1) + p.length := by omega
      rw [this, ptAt_add]; congr 1; omega
  rw [e1, e2]

/-- **C274.** Where a section begins and which way round it goes makes no difference. -/
theorem C274_direction (p : List (K × K)) (k : ℕ) :
    secArea (p.rotate k) = secArea p ∧ secR (p.rotate k) = secR p ∧ secArea p.reverse = secArea p ∧ secR p.reverse = secR p := by
  have a : ∀ q : List (K × K), ∑ i ∈ range q.length, edgeCross q i = edgeSum (fun a b => a.1 * b.2 - b.1 * a.2) q := fun q => rfl
  have b : ∀ q : List (K × K), ∑ i ∈ range q.length, ((q.getD i (0, 0)).1 + (q.getD ((i + 1) % q.length) (0, 0)).1) * edgeCross q i =
      edgeSum (fun a b => (a.1 + b.1) * (a.1 * b.2 - b.1 * a.2)) q := fun q => rfl
  have n1 : edgeSum (fun a b : K × K => b.1 * a.2 - a.1 * b.2) p = -edgeSum (fun a b => a.1 * b.2 - b.1 * a.2) p := by
    unfold edgeSum
    rw [← sum_neg_distrib]
    exact sum_congr rfl fun i _ => by ring
  have n2 : edgeSum (fun a b : K × K => (b.1 + a.1) * (b.1 * a.2 - a.1 * b.2)) p = -edgeSum (fun a b => (a.1 + b.1) * (a.1 * b.2 - b.1 * a.2)) p := by
    unfold edgeSum
    rw [← sum_neg_distrib]
    exact sum_congr rfl fun i _ => by ring
  unfold secArea secR
  simp only [a, b, edgeSum_rotate, edgeSum_reverse]
  refine ⟨trivial, trivial, ?_, ?_⟩
  · rw [n1, abs_neg]
  · rw [n1, n2, mul_neg, neg_div_neg_eq]

/-- **C274.** The shell between two rectangles, for all angles. -/
theorem C274_shell (pi symmetry r1 r2 s1 s2 z1 z2 y1 y2 : K) (hs : symmetry ≠ 0) (hr : r1 < r2) (hz : z1 < z2) (hr2 : s1 < s2) (hz2 : y1 < y2) (n : ℕ) (angles : List K)
    (hn : n ≠ 0) (hl : n ≤ angles.length) :
    shellVolume pi (List.replicate n [(r1, z1), (r2, z1), (r2, z2), (r1, z2)]) (List.replicate n [(s1, y1), (s2, y1), (s2, y2), (s1, y2)]) angles symmetry 0 =
      .ok (some (pi * (r2 ^ 2 - r1 ^ 2) * (z2 - z1) / symmetry - pi * (s2 ^ 2 - s1 ^ 2) * (y2 - y1) / symmetry)) := by
  unfold shellVolume
  rw [(C274_ring pi symmetry r1 r2 z1 z2 hs hr hz).2.2 n angles hn hl, (C274_ring pi symmetry s1 s2 y1 y2 hs hr2 hz2).2.2 n angles hn hl]
  rfl

/-- **C274.** Other modes give no volume, and the difference of two of them is a `TypeError`. -/
theorem C274_modes (pi symmetry : K) (outer inner : List (List (K × K))) (angles : List K) (mode : ℤ) (h0 : mode ≠ 0) (h1 : mode ≠ 1) :
    shellVolume pi outer inner angles symmetry mode = .error (.type "unsupported operand") := by
  unfold shellVolume torusVolume
  rw [if_neg h0, if_neg h1, if_neg h0, if_neg h1]
  rfl

/-- A case of three different sections at equal angles. -/
example (mode : ℤ) (hm : mode = 0 ∨ mode = 1) : torusVolume (3 : ℚ) [(1, 2), (2, 3), (4, 5)] [1, 2, 3] 2 mode = .ok (some 28) := by
  rw [C274_equal 3 2 1 (by norm_num) (by norm_num) [(1, 2), (2, 3), (4, 5)] [1, 2, 3] (by simp) (by simp) (by
    intro i hi
    simp only [List.length_cons, List.length_nil] at hi
    interval_cases i <;> norm_num) mode hm]
  norm_num [sum_range_succ, secAR]

end Zoidberg
