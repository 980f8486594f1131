import Verif.Model.VolumeCurve
import Verif.Props.FieldCoils
import Verif.Props.RzDistance
import Verif.Props.FastLine
import Verif.Props.VolumeTorus
import Mathlib.Analysis.SpecialFunctions.Trigonometric.Bounds
import Mathlib.Tactic.FieldSimp
import Mathlib.Tactic.Positivity
import Mathlib.Tactic.LinearCombination
import Mathlib.Tactic.IntervalCases

/-!
# C292: the cross sections of the exact volume
-/

set_option linter.unusedSectionVars false

namespace Zoidberg

open Finset

section
variable {K : Type} [Field K] [LinearOrder K] [IsStrictOrderedRing K] [FloorRing K]

theorem sortFirst_perm (ps : List (K × K)) : (sortFirst ps).Perm ps := List.perm_insertionSort _ _

theorem sortFirst_length (ps : List (K × K)) : (sortFirst ps).length = ps.length := (sortFirst_perm ps).length_eq

instance firstTotal : Std.Total (fun a b : K × K => a.1 ≤ b.1) := ⟨fun a b => le_total a.1 b.1⟩
instance firstTrans : IsTrans (K × K) (fun a b : K × K => a.1 ≤ b.1) := ⟨fun _ _ _ h1 h2 => le_trans h1 h2⟩

theorem sortFirst_pairwise {ps : List (K × K)} (h : (ps.map Prod.fst).Nodup) : ((sortFirst ps).map Prod.fst).Pairwise (· < ·) := by
  have h1 : ((sortFirst ps).map Prod.fst).Pairwise (· ≤ ·) := by
    rw [List.pairwise_map]
    exact List.pairwise_insertionSort (fun a b : K × K => a.1 ≤ b.1) ps
  have h2 : ((sortFirst ps).map Prod.fst).Pairwise (· ≠ ·) := ((sortFirst_perm ps).map Prod.fst).nodup_iff.2 h
  exact (h1.and h2).imp fun hh => lt_of_le_of_ne hh.1 hh.2

theorem map_fst_getD (s : List (K × K)) (i : ℕ) : (s.map Prod.fst).getD i 0 = (s.getD i (0, 0)).1 := by
  rcases lt_or_ge i s.length with h | h
  · rw [List.getD_eq_getElem _ _ (by simpa using h), List.getD_eq_getElem _ _ h]; simp
  · rw [List.getD_eq_default _ _ (by simpa using h), List.getD_eq_default _ _ h]

/-- The straight line through two points. -/
def lineThrough (a b : K × K) (t : K) : K := (b.2 - a.2) / (b.1 - a.1) * (t - a.1) + a.2

/-- The result lies on the straight line through two of the points, which lie on either side of an argument between the least and the greatest. -/
theorem interpExtrap_spec {ps : List (K × K)} (hn : (ps.map Prod.fst).Nodup) (hl : 2 ≤ ps.length) (t : K) :
    ∃ a ∈ ps, ∃ b ∈ ps, a.1 < b.1 ∧ interpExtrap ps t = .ok (lineThrough a b t) ∧
      (∀ p ∈ ps, p.1 ≤ a.1 ∨ b.1 ≤ p.1) ∧ ((∃ p ∈ ps, p.1 ≤ t) → (∃ p ∈ ps, t ≤ p.1) → a.1 ≤ t ∧ t ≤ b.1) := by
  have hp := sortFirst_pairwise hn
  have hlen := sortFirst_length ps
  set s := sortFirst ps with hs
  set c := s.countP fun a => decide (a.1 < t) with hc
  have hc' : ((s.map Prod.fst).countP fun a => decide (a < t)) = c := by rw [List.countP_map]; rfl
  set hi := min (max c 1) (s.length - 1) with hhi
  have h1 : hi < s.length := by omega
  have h2 : hi - 1 < hi := by omega
  have hlt : (s.getD (hi - 1) (0, 0)).1 < (s.getD hi (0, 0)).1 := by
    rw [← map_fst_getD, ← map_fst_getD]
    exact pairwise_getD hp h2 (by simpa using h1)
  have hm : ∀ i < s.length, s.getD i (0, 0) ∈ ps := by
    intro i h
    rw [List.getD_eq_getElem _ _ h]
    exact (sortFirst_perm ps).mem_iff.1 (List.getElem_mem h)
  have hidx : ∀ p ∈ ps, ∃ i < s.length, p = s.getD i (0, 0) := by
    intro p h
    obtain ⟨i, hi, he⟩ := List.getElem_of_mem ((sortFirst_perm ps).mem_iff.2 h)
    exact ⟨i, hi, by rw [List.getD_eq_getElem _ _ hi, he]⟩
  have key : ∀ i < s.length, ((s.getD i (0, 0)).1 < t ↔ i < c) := by
    intro i h
    rw [← map_fst_getD, countP_lt_iff hp t i (by simpa using h), hc']
  refine ⟨_, hm _ (by omega), _, hm _ h1, hlt, ?_, ?_, ?_⟩
  · unfold interpExtrap
    dsimp only
    rw [← hs, ← hc, ← hhi, if_neg hlt.ne']
    rfl
  · intro p h
    obtain ⟨i, hi1, rfl⟩ := hidx p h
    have hle : ∀ j k, j ≤ k → k < s.length → (s.getD j (0, 0)).1 ≤ (s.getD k (0, 0)).1 := by
      intro j k hjk hk
      rcases hjk.lt_or_eq with h | h
      · rw [← map_fst_getD, ← map_fst_getD]
        exact (pairwise_getD hp h (by simpa using hk)).le
      · rw [h]
    rcases le_or_gt i (hi - 1) with h | h
    · exact .inl (hle _ _ h (by omega))
    · exact .inr (hle _ _ (by omega) hi1)
  · rintro ⟨p, hp1, hp2⟩ ⟨q, hq1, hq2⟩
    obtain ⟨i, hi1, rfl⟩ := hidx p hp1
    obtain ⟨j, hj1, rfl⟩ := hidx q hq1
    have hj : ¬ j < c := by rw [← key j hj1]; exact not_lt.2 hq2
    constructor
    · rcases Nat.eq_zero_or_pos c with h | h
      · have e : hi - 1 = 0 := by omega
        rw [e]
        rcases Nat.eq_zero_or_pos i with h0 | h0
        · subst h0; exact hp2
        · refine le_trans (le_of_lt ?_) hp2
          rw [← map_fst_getD, ← map_fst_getD]
          exact pairwise_getD hp h0 (by simpa using hi1)
      · have e : hi - 1 = c - 1 := by omega
        rw [e]
        exact ((key (c - 1) (by omega)).2 (by omega)).le
    · refine not_lt.1 fun h => ?_
      rw [key hi h1] at h
      omega

/-- **C292.** The result does not depend on the order of the points. -/
theorem C292_perm {ps qs : List (K × K)} (h : ps.Perm qs) (hn : (ps.map Prod.fst).Nodup) (t : K) : interpExtrap ps t = interpExtrap qs t := by
  have hs : sortFirst ps = sortFirst qs := by
    have hp := sortFirst_pairwise hn
    have hq := sortFirst_pairwise (((h.map Prod.fst).nodup_iff).1 hn)
    rw [List.pairwise_map] at hp hq
    exact ((sortFirst_perm ps).trans (h.trans (sortFirst_perm qs).symm)).eq_of_pairwise (fun a b _ _ h1 h2 => absurd h1 h2.not_gt) hp hq
  unfold interpExtrap
  rw [hs]

/-- **C292 (partial).** Between the least and the greatest argument the result lies between bounds of the values; what is missing is that it lies there for the other angles. -/
theorem C292_between_partial {ps : List (K × K)} (hn : (ps.map Prod.fst).Nodup) (hl : 2 ≤ ps.length) (t lo hi : K) (h0 : ∃ p ∈ ps, p.1 ≤ t) (h1 : ∃ p ∈ ps, t ≤ p.1)
    (hb : ∀ p ∈ ps, lo ≤ p.2 ∧ p.2 ≤ hi) : ∃ r, interpExtrap ps t = .ok r ∧ lo ≤ r ∧ r ≤ hi := by
  obtain ⟨a, ha, b, hb', hab, he, -, hr⟩ := interpExtrap_spec hn hl t
  obtain ⟨h2, h3⟩ := hr h0 h1
  have hpos : 0 < b.1 - a.1 := by linarith
  have ew : lineThrough a b t = (1 - (t - a.1) / (b.1 - a.1)) * a.2 + (t - a.1) / (b.1 - a.1) * b.2 := by
    unfold lineThrough; field_simp; ring
  have w0 : 0 ≤ (t - a.1) / (b.1 - a.1) := div_nonneg (by linarith) hpos.le
  have w1 : (t - a.1) / (b.1 - a.1) ≤ 1 := by rw [div_le_one hpos]; linarith
  refine ⟨_, he, ?_, ?_⟩ <;> rw [ew] <;> generalize (t - a.1) / (b.1 - a.1) = w at w0 w1
  · nlinarith [(hb a ha).1, (hb b hb').1]
  · nlinarith [(hb a ha).2, (hb b hb').2]

/-- **C292.** At the argument of a point the result is its value. -/
theorem C292_node {ps : List (K × K)} (hn : (ps.map Prod.fst).Nodup) (hl : 2 ≤ ps.length) {p : K × K} (hp : p ∈ ps) : interpExtrap ps p.1 = .ok p.2 := by
  obtain ⟨a, ha, b, hb, hab, he, hb2, hr⟩ := interpExtrap_spec hn hl p.1
  obtain ⟨h1, h2⟩ := hr ⟨p, hp, le_rfl⟩ ⟨p, hp, le_rfl⟩
  have inj : ∀ q ∈ ps, q.1 = p.1 → q = p := fun q hq h => List.inj_on_of_nodup_map hn hq hp h
  have hpos : b.1 - a.1 ≠ 0 := by linarith
  rw [he]
  unfold lineThrough
  rcases hb2 p hp with h | h
  · rw [inj a ha (le_antisymm h1 h)]
    simp
  · rw [inj b hb (le_antisymm h h2)] at hpos ⊢
    rw [div_mul_cancel₀ _ hpos, sub_add_cancel]

/-- Equal values give that value everywhere. -/
theorem interpExtrap_const {ps : List (K × K)} (hn : (ps.map Prod.fst).Nodup) (hl : 2 ≤ ps.length) {v : K} (hv : ∀ p ∈ ps, p.2 = v) (t : K) : interpExtrap ps t = .ok v := by
  obtain ⟨a, ha, b, hb, hab, he, -, -⟩ := interpExtrap_spec hn hl t
  rw [he]
  unfold lineThrough
  rw [hv a ha, hv b hb]
  simp

end

/-- **C292.** The angle lies in a turn, and with the distance it gives the point. -/
theorem C292_theta (x z x0 : ℝ) : 0 ≤ divertorTheta x z x0 ∧ divertorTheta x z x0 < 2 * Real.pi ∧
    (polarOf x0 (x, z)).2 * Real.cos (polarOf x0 (x, z)).1 + x0 = x ∧ (polarOf x0 (x, z)).2 * Real.sin (polarOf x0 (x, z)).1 = z := by
  have hpi := Real.pi_pos
  have h1 : -Real.pi < atan2R z (x - x0) := Complex.neg_pi_lt_arg _
  have h2 : atan2R z (x - x0) ≤ Real.pi := Complex.arg_le_pi _
  have hc : Real.cos (divertorTheta x z x0) = Real.cos (atan2R z (x - x0)) := by unfold divertorTheta; split_ifs <;> simp
  have hs : Real.sin (divertorTheta x z x0) = Real.sin (atan2R z (x - x0)) := by unfold divertorTheta; split_ifs <;> simp
  refine ⟨?_, ?_, ?_, ?_⟩
  · unfold divertorTheta; split_ifs <;> linarith
  · unfold divertorTheta; split_ifs <;> linarith
  · unfold polarOf
    dsimp only
    rw [hc]
    rcases (add_nonneg (sq_nonneg (x - x0)) (sq_nonneg z)).lt_or_eq with h | h
    · have := Real.sqrt_pos.2 h
      rw [cos_atan2R z (x - x0) h]
      field_simp
      ring
    · rw [← h, Real.sqrt_zero]
      have : x - x0 = 0 := by nlinarith [sq_nonneg (x - x0), sq_nonneg z]
      linarith
  · unfold polarOf
    dsimp only
    rw [hs]
    rcases (add_nonneg (sq_nonneg (x - x0)) (sq_nonneg z)).lt_or_eq with h | h
    · have := Real.sqrt_pos.2 h
      rw [sin_atan2R]
      field_simp
    · rw [← h, Real.sqrt_zero]
      have : z = 0 := by nlinarith [sq_nonneg (x - x0), sq_nonneg z]
      linarith

/-- **C292.** Points at different angles give as many corners as there are of them, at equal angles, each on the straight line in the angle through two of the points between which there is no
other; where there are points at angles on both sides of that of the corner, its distance lies between those of the two. -/
theorem C292_section (R0 : ℝ) {pts : List (ℝ × ℝ)} (hn : (pts.map fun p => divertorTheta p.1 p.2 R0).Nodup) (hl : 3 ≤ pts.length) :
    ∃ q, curveSection R0 pts = .ok q ∧ q.length = pts.length ∧ ∀ i < pts.length, ∃ a ∈ pts, ∃ b ∈ pts, ∃ r, divertorTheta a.1 a.2 R0 < divertorTheta b.1 b.2 R0 ∧
      q.getD i (0, 0) = (r * Real.cos (2 * Real.pi * i / pts.length) + R0, r * Real.sin (2 * Real.pi * i / pts.length)) ∧
      r = lineThrough (polarOf R0 a) (polarOf R0 b) (2 * Real.pi * i / pts.length) ∧
      (∀ p ∈ pts, divertorTheta p.1 p.2 R0 ≤ divertorTheta a.1 a.2 R0 ∨ divertorTheta b.1 b.2 R0 ≤ divertorTheta p.1 p.2 R0) ∧
      ((∃ p ∈ pts, divertorTheta p.1 p.2 R0 ≤ 2 * Real.pi * i / pts.length) → (∃ p ∈ pts, 2 * Real.pi * i / pts.length ≤ divertorTheta p.1 p.2 R0) →
        divertorTheta a.1 a.2 R0 ≤ 2 * Real.pi * i / pts.length ∧ 2 * Real.pi * i / pts.length ≤ divertorTheta b.1 b.2 R0) := by
  have hnd : ((pts.map (polarOf R0)).map Prod.fst).Nodup := by rw [List.map_map]; exact hn
  have H := interpExtrap_spec hnd (by simp; omega)
  set P := pts.map (polarOf R0) with hP
  choose A hA B hB hAB hI hno hin using H
  have hm : ∀ l : List ℝ, (l.mapM fun t => (interpExtrap P t).map fun r => (r * Real.cos t + R0, r * Real.sin t)) =
      .ok (l.map fun t => (lineThrough (A t) (B t) t * Real.cos t + R0, lineThrough (A t) (B t) t * Real.sin t)) := by
    intro l
    induction l with
    | nil => rfl
    | cons t l ih => rw [List.mapM_cons, ih, hI]; rfl
  refine ⟨(linspaceOpen 0 (2 * Real.pi) pts.length).map fun t => (lineThrough (A t) (B t) t * Real.cos t + R0, lineThrough (A t) (B t) t * Real.sin t), ?_, by simp [linspaceOpen], ?_⟩
  · unfold curveSection
    rw [← hP, hm]
    show (if _ then _ else _) = _
    rw [if_neg (by simp [linspaceOpen]; omega)]
  · intro i hi
    set t := 2 * Real.pi * (i : ℝ) / pts.length with ht
    obtain ⟨a, ha, hea⟩ := List.mem_map.1 (hA t)
    obtain ⟨b, hb, heb⟩ := List.mem_map.1 (hB t)
    have h1 := hAB t
    have h2 := hno t
    have h3 := hin t
    rw [← hea, ← heb] at h1 h2 h3
    refine ⟨a, ha, b, hb, _, h1, ?_, rfl, ?_, ?_⟩
    · rw [List.getD_eq_getElem _ _ (by simpa [linspaceOpen] using hi)]
      have e : (0 : ℝ) + (i : ℝ) * ((2 * Real.pi - 0) / (pts.length : ℝ)) = t := by rw [ht]; ring
      simp only [linspaceOpen, List.getElem_map, List.getElem_range, e, hea, heb]
    · intro p hp
      exact h2 _ (List.mem_map_of_mem hp)
    · rintro ⟨p, hp, hp'⟩ ⟨p2, hp2, hp2'⟩
      exact h3 ⟨_, List.mem_map_of_mem hp, hp'⟩ ⟨_, List.mem_map_of_mem hp2, hp2'⟩

/-- The corners at equal angles on a circle. -/
noncomputable def regularSection (R0 a : ℝ) (n : ℕ) : List (ℝ × ℝ) :=
  (List.range n).map fun i : ℕ => (a * Real.cos (2 * Real.pi * i / n) + R0, a * Real.sin (2 * Real.pi * i / n))

/-- **C292.** Of points on a circle are made the corners at equal angles on that circle. -/
theorem C292_circle (R0 a : ℝ) (ha : 0 < a) {pts : List (ℝ × ℝ)} (hn : pts.Nodup) (hl : 3 ≤ pts.length) (hp : ∀ p ∈ pts, (p.1 - R0) ^ 2 + p.2 ^ 2 = a ^ 2) :
    curveSection R0 pts = .ok (regularSection R0 a pts.length) := by
  have hv : ∀ p ∈ pts, (polarOf R0 p).2 = a := by
    intro p h
    unfold polarOf
    dsimp only
    rw [hp p h, Real.sqrt_sq ha.le]
  have hnd : ((pts.map (polarOf R0)).map Prod.fst).Nodup := by
    rw [List.map_map]
    refine List.Nodup.map_on ?_ hn
    rintro ⟨x, z⟩ h1 ⟨x', z'⟩ h2 h3
    have e1 := (C292_theta x z R0).2.2
    have e2 := (C292_theta x' z' R0).2.2
    rw [hv _ h1] at e1
    rw [hv _ h2] at e2
    have h3 : (polarOf R0 (x, z)).1 = (polarOf R0 (x', z')).1 := h3
    rw [h3] at e1
    rw [Prod.mk.injEq]
    exact ⟨e1.1.symm.trans e2.1, e1.2.symm.trans e2.2⟩
  have hI : ∀ t, interpExtrap (pts.map (polarOf R0)) t = .ok a := by
    intro t
    refine interpExtrap_const hnd (by simp; omega) ?_ t
    intro p h
    obtain ⟨q, hq, rfl⟩ := List.mem_map.1 h
    exact hv q hq
  have hm : ∀ l : List ℝ, (l.mapM fun t => (interpExtrap (pts.map (polarOf R0)) t).map fun r => (r * Real.cos t + R0, r * Real.sin t)) =
      .ok (l.map fun t => (a * Real.cos t + R0, a * Real.sin t)) := by
    intro l
    induction l with
    | nil => rfl
    | cons t l ih => rw [List.mapM_cons, ih, hI]; rfl
  unfold curveSection
  rw [hm]
  show (if _ then _ else _) = _
  rw [if_neg (by simp [linspaceOpen]; omega)]
  unfold regularSection linspaceOpen
  rw [List.map_map]
  congr 1
  refine List.map_congr_left fun i _ => ?_
  have : (0 : ℝ) + (i : ℝ) * ((2 * Real.pi - 0) / (pts.length : ℝ)) = 2 * Real.pi * i / pts.length := by ring
  simp only [Function.comp, this]

theorem regularSection_length (R0 a : ℝ) (n : ℕ) : (regularSection R0 a n).length = n := by simp [regularSection]

theorem regularSection_next (R0 a : ℝ) {n : ℕ} (hn : n ≠ 0) (i : ℕ) : (regularSection R0 a n).getD (i % n) (0, 0) =
    (a * Real.cos (2 * Real.pi * i / n) + R0, a * Real.sin (2 * Real.pi * i / n)) := by
  have hlt := Nat.mod_lt i (Nat.pos_of_ne_zero hn)
  have hn' : (n : ℝ) ≠ 0 := by exact_mod_cast hn
  rw [List.getD_eq_getElem _ _ (by rw [regularSection_length]; exact hlt)]
  have e : 2 * Real.pi * (i : ℝ) / n = 2 * Real.pi * ((i % n : ℕ) : ℝ) / n + ((i / n : ℕ) : ℝ) * (2 * Real.pi) := by
    have : (i : ℝ) = (n : ℝ) * ((i / n : ℕ) : ℝ) + ((i % n : ℕ) : ℝ) := by exact_mod_cast (Nat.div_add_mod i n).symm
    rw [this]
    field_simp
    have e2 : ((n * (i / n) + i % n : ℕ)) = i := Nat.div_add_mod i n
    ring
  rw [e, Real.cos_add_nat_mul_two_pi, Real.sin_add_nat_mul_two_pi]
  simp [regularSection]

/-- **C292.** The area of these corners and the radius of their centre. -/
theorem C292_area (R0 a : ℝ) (n : ℕ) (hn : 3 ≤ n) (ha : 0 < a) :
    secArea (regularSection R0 a n) = n / 2 * a ^ 2 * Real.sin (2 * Real.pi / n) ∧ secR (regularSection R0 a n) = R0 := by
  have hn0 : n ≠ 0 := by omega
  have hn' : (0 : ℝ) < n := by exact_mod_cast (by omega : 0 < n)
  have hn3 : (3 : ℝ) ≤ n := by exact_mod_cast hn
  have hpi := Real.pi_pos
  set c : ℕ → ℝ := fun i => Real.cos (2 * Real.pi * i / n) with hc
  set s : ℕ → ℝ := fun i => Real.sin (2 * Real.pi * i / n) with hs
  have hw : ∀ i, c i * s (i + 1) - c (i + 1) * s i = Real.sin (2 * Real.pi / n) := by
    intro i
    have : 2 * Real.pi / n = 2 * Real.pi * ((i + 1 : ℕ) : ℝ) / n - 2 * Real.pi * i / n := by push_cast; ring
    rw [this, Real.sin_sub]
    simp only [hc, hs]
    ring
  have hpos : 0 < Real.sin (2 * Real.pi / n) := by
    apply Real.sin_pos_of_pos_of_lt_pi (by positivity)
    rw [div_lt_iff₀ hn']
    nlinarith
  have hsn : s n = s 0 := by simp only [hs]; rw [mul_div_assoc, div_self hn'.ne']; simp
  have hcn : c n = c 0 := by simp only [hc]; rw [mul_div_assoc, div_self hn'.ne']; simp
  have hsc : ∑ i ∈ range n, c i = 0 := by
    have h := sum_cos_angles (n := n) (m := 1) one_ne_zero (by simp; omega)
    simp only [Int.cast_one, one_mul] at h
    simp only [hc]
    rw [Finset.sum_congr rfl fun i _ => by rw [circle_angle n i (by omega), Real.cos_add_pi], Finset.sum_neg_distrib, h, neg_zero]
  have hsc1 : ∑ i ∈ range n, c (i + 1) = 0 := by
    have := Finset.sum_range_succ' c n
    rw [Finset.sum_range_succ, hsc, hcn] at this
    linarith
  have ht : ∑ i ∈ range n, (s (i + 1) - s i) = 0 := by rw [Finset.sum_range_sub, hsn, sub_self]
  have ht2 : ∑ i ∈ range n, (c (i + 1) * s (i + 1) - c i * s i) = 0 := by rw [Finset.sum_range_sub (fun i => c i * s i), hsn, hcn, sub_self]
  have hA : ∀ i ∈ range n, ((regularSection R0 a n).getD i (0, 0)) = (a * c i + R0, a * s i) := by
    intro i hi
    have := regularSection_next R0 a hn0 i
    rwa [Nat.mod_eq_of_lt (mem_range.1 hi)] at this
  have hB : ∀ i, ((regularSection R0 a n).getD ((i + 1) % n) (0, 0)) = (a * c (i + 1) + R0, a * s (i + 1)) := fun i => regularSection_next R0 a hn0 (i + 1)
  have hE : ∀ i ∈ range n, edgeCross (regularSection R0 a n) i = a ^ 2 * Real.sin (2 * Real.pi / n) + R0 * a * (s (i + 1) - s i) := by
    intro i hi
    unfold edgeCross
    rw [regularSection_length, hA i hi, hB i, ← hw i]
    ring
  have hS : ∑ i ∈ range n, edgeCross (regularSection R0 a n) i = n * (a ^ 2 * Real.sin (2 * Real.pi / n)) := by
    rw [Finset.sum_congr rfl hE, Finset.sum_add_distrib, ← Finset.mul_sum (range n) (fun i => s (i + 1) - s i), ht]
    simp
  constructor
  · unfold secArea
    rw [regularSection_length, hS, abs_of_pos (by positivity)]
    ring
  · unfold secR
    rw [regularSection_length, hS]
    have hM : ∑ i ∈ range n, (((regularSection R0 a n).getD i (0, 0)).1 + ((regularSection R0 a n).getD ((i + 1) % n) (0, 0)).1) * edgeCross (regularSection R0 a n) i =
        3 * (n * (a ^ 2 * Real.sin (2 * Real.pi / n))) * R0 := by
      have : ∀ i ∈ range n, (((regularSection R0 a n).getD i (0, 0)).1 + ((regularSection R0 a n).getD ((i + 1) % n) (0, 0)).1) * edgeCross (regularSection R0 a n) i =
          3 * (a ^ 2 * Real.sin (2 * Real.pi / n)) * R0 + 2 * R0 ^ 2 * a * (s (i + 1) - s i) + R0 * a ^ 2 * (c (i + 1) * s (i + 1) - c i * s i) +
            a ^ 3 * Real.sin (2 * Real.pi / n) * c i + a ^ 3 * Real.sin (2 * Real.pi / n) * c (i + 1) := by
        intro i hi
        rw [hE i hi, hA i hi, hB i]
        linear_combination (R0 * a ^ 2) * hw i
      rw [Finset.sum_congr rfl this]
      simp only [Finset.sum_add_distrib, ← Finset.mul_sum, ht, ht2, hsc, hsc1]
      simp
      ring
    rw [hM, mul_div_assoc, mul_comm]
    field_simp

/-- **C292.** The volume between two tori with circles as cross sections. -/
theorem C292_torus (R0 a b symmetry : ℝ) (hs : symmetry ≠ 0) (ha : 0 < a) (hb : 0 < b) (n ny : ℕ) (hn : 3 ≤ n) (hny : ny ≠ 0) (angles : List ℝ) (hl : ny ≤ angles.length) :
    shellVolume Real.pi (List.replicate ny (regularSection R0 b n)) (List.replicate ny (regularSection R0 a n)) angles symmetry 0 =
      .ok (some (n / 2 * Real.sin (2 * Real.pi / n) * (b ^ 2 - a ^ 2) * (2 * Real.pi * R0 / symmetry))) := by
  unfold shellVolume
  have h := fun c hc => C274_pappus Real.pi symmetry hs ((List.replicate ny (regularSection R0 c n)).map fun p => (secArea p, secR p))
    (n / 2 * c ^ 2 * Real.sin (2 * Real.pi / n), R0) (by
      intro t ht
      obtain ⟨p, hp, rfl⟩ := List.mem_map.1 ht
      rw [List.eq_of_mem_replicate hp, (C292_area R0 c n hn hc).1, (C292_area R0 c n hn hc).2]) angles (by simpa using hny) (by simpa using hl)
  rw [h b hb, h a ha]
  show Except.ok (some _) = Except.ok (some _)
  congr 2
  ring

/-- **C292.** The area is less than that of the circle, and not by much. -/
theorem C292_error (a : ℝ) (ha : 0 < a) (n : ℕ) (hn : 3 ≤ n) (R0 : ℝ) :
    secArea (regularSection R0 a n) < Real.pi * a ^ 2 ∧ Real.pi * a ^ 2 * (1 - 2 / 3 * (Real.pi / n) ^ 2) < secArea (regularSection R0 a n) := by
  have hn' : (3 : ℝ) ≤ n := by exact_mod_cast hn
  have h0 : (0 : ℝ) < n := by linarith
  have hpi := Real.pi_pos
  rw [(C292_area R0 a n (by omega) ha).1]
  have hx : 0 < 2 * Real.pi / n := by positivity
  have u := Real.sin_lt hx
  have l := Real.sin_gt_sub_cube hx
  have hq : 0 < (n : ℝ) / 2 * a ^ 2 := by positivity
  constructor
  · have e : Real.pi * a ^ 2 = n / 2 * a ^ 2 * (2 * Real.pi / n) := by field_simp
    rw [e]
    exact mul_lt_mul_of_pos_left u hq
  · have e : Real.pi * a ^ 2 * (1 - 2 / 3 * (Real.pi / n) ^ 2) = n / 2 * a ^ 2 * (2 * Real.pi / n - (2 * Real.pi / n) ^ 3 / 6) := by field_simp; ring
    rw [e]
    exact mul_lt_mul_of_pos_left l hq

/-- **C292 fails.** Three points at distances of at least 1 give a corner in the centre, since the first angle of the corners is before all of theirs. -/
theorem C292_fails : (∀ p ∈ [((0 : ℝ), (1 : ℝ)), (-2, 0), (0, -1)], 1 ≤ (polarOf 0 p).2) ∧ ∃ q, curveSection 0 [(0, 1), (-2, 0), (0, -1)] = .ok q ∧ (0, 0) ∈ q := by
  have hpi := Real.pi_pos
  have t1 : polarOf 0 ((0 : ℝ), (1 : ℝ)) = (Real.pi / 2, 1) := by
    have : atan2R 1 (0 - 0) = Real.pi / 2 := by
      unfold atan2R
      rw [show (⟨0 - 0, 1⟩ : ℂ) = Complex.I by rw [sub_zero]; rfl, Complex.arg_I]
    unfold polarOf divertorTheta
    dsimp only
    rw [this, if_neg (by linarith)]
    norm_num
  have t2 : polarOf 0 ((-2 : ℝ), (0 : ℝ)) = (Real.pi, 2) := by
    have : atan2R 0 (-2 - 0) = Real.pi := by
      unfold atan2R
      rw [show (⟨-2 - 0, 0⟩ : ℂ) = ((-2 : ℝ) : ℂ) by rw [sub_zero]; rfl, Complex.arg_ofReal_of_neg (by norm_num)]
    unfold polarOf divertorTheta
    dsimp only
    rw [this, if_neg (by linarith)]
    rw [show ((-2 : ℝ) - 0) ^ 2 + 0 ^ 2 = 2 ^ 2 by norm_num, Real.sqrt_sq (by norm_num)]
  have t3 : polarOf 0 ((0 : ℝ), (-1 : ℝ)) = (3 / 2 * Real.pi, 1) := by
    have : atan2R (-1) (0 - 0) = -(Real.pi / 2) := by
      unfold atan2R
      rw [show (⟨0 - 0, -1⟩ : ℂ) = -Complex.I by rw [sub_zero]; apply Complex.ext <;> simp, Complex.arg_neg_I]
    unfold polarOf divertorTheta
    dsimp only
    rw [this, if_pos (by linarith)]
    rw [Prod.mk.injEq]
    exact ⟨by ring, by norm_num⟩
  refine ⟨?_, ?_⟩
  · intro p hp
    fin_cases hp
    · rw [t1]
    · rw [t2]; norm_num
    · rw [t3]
  · have hL : [((0 : ℝ), (1 : ℝ)), (-2, 0), (0, -1)].map (polarOf 0) = [(Real.pi / 2, 1), (Real.pi, 2), (3 / 2 * Real.pi, 1)] := by
      simp only [List.map_cons, List.map_nil, t1, t2, t3]
    have hS : sortFirst [(Real.pi / 2, (1 : ℝ)), (Real.pi, 2), (3 / 2 * Real.pi, 1)] = [(Real.pi / 2, 1), (Real.pi, 2), (3 / 2 * Real.pi, 1)] := by
      apply List.Pairwise.insertionSort_eq
      simp
      refine ⟨⟨?_, ?_⟩, ?_⟩ <;> linarith
    have h0 : interpExtrap [(Real.pi / 2, (1 : ℝ)), (Real.pi, 2), (3 / 2 * Real.pi, 1)] 0 = .ok 0 := by
      unfold interpExtrap
      rw [hS]
      dsimp only
      have hc : ([(Real.pi / 2, (1 : ℝ)), (Real.pi, 2), (3 / 2 * Real.pi, 1)].countP fun a => decide (a.1 < 0)) = 0 := by
        rw [List.countP_eq_zero]
        intro a ha
        fin_cases ha <;> simp <;> linarith
      rw [hc]
      simp only [List.length_cons, List.length_nil]
      norm_num [List.getD]
      rw [if_neg (by linarith)]
      congr 1
      field_simp
      ring
    have hnd : ([(Real.pi / 2, (1 : ℝ)), (Real.pi, 2), (3 / 2 * Real.pi, 1)].map Prod.fst).Nodup := by
      simp
      refine ⟨⟨?_, ?_⟩, ?_⟩ <;> intro h <;> linarith
    obtain ⟨_, _, _, _, _, e1, _⟩ := interpExtrap_spec hnd (by simp) (2 * Real.pi / 3)
    obtain ⟨_, _, _, _, _, e2, _⟩ := interpExtrap_spec hnd (by simp) (4 * Real.pi / 3)
    have hT : linspaceOpen 0 (2 * Real.pi) 3 = [0, 2 * Real.pi / 3, 4 * Real.pi / 3] := by
      unfold linspaceOpen
      rw [show List.range 3 = [0, 1, 2] from rfl]
      simp only [List.map_cons, List.map_nil]
      norm_num
      ring
    unfold curveSection
    rw [hL]
    simp only [List.length_cons, List.length_nil, Nat.zero_add, Nat.reduceAdd, hT, List.mapM_cons, List.mapM_nil, h0, e1, e2]
    refine ⟨_, rfl, ?_⟩
    simp

/-- **C292.** A single point has no slope, nor have points at the same angle. -/
theorem C292_equal {K : Type} [Field K] [LinearOrder K] [IsStrictOrderedRing K] [FloorRing K] {ps : List (K × K)} (h : ∀ p ∈ ps, ∀ q ∈ ps, p.1 = q.1) (t : K) :
    interpExtrap ps t = .error (.runtime "nan") := by
  unfold interpExtrap
  dsimp only
  rw [if_pos]
  generalize (List.countP (fun a : K × K => decide (a.1 < t)) (sortFirst ps)) = c
  rcases Nat.eq_zero_or_pos (sortFirst ps).length with h0 | h0
  · rw [List.getD_eq_default _ _ (by omega), List.getD_eq_default _ _ (by omega)]
  · have hm : ∀ i < (sortFirst ps).length, (sortFirst ps).getD i (0, 0) ∈ ps := by
      intro i hi
      rw [List.getD_eq_getElem _ _ hi]
      exact (sortFirst_perm ps).mem_iff.1 (List.getElem_mem hi)
    exact h _ (hm _ (by omega)) _ (hm _ (by omega))

/-- **C292.** Fewer than three points give no polygon. -/
theorem C292_few (R0 : ℝ) (pts : List (ℝ × ℝ)) (h : pts.length < 3) : ∃ e, curveSection R0 pts = .error e := by
  cases hc : curveSection R0 pts with
  | error e => exact ⟨e, rfl⟩
  | ok q =>
    exfalso
    unfold curveSection at hc
    cases hm : ((linspaceOpen 0 (2 * Real.pi) pts.length).mapM fun t =>
      (interpExtrap (pts.map (polarOf R0)) t).map fun r => (r * Real.cos t + R0, r * Real.sin t)) with
    | error e => rw [hm] at hc; cases hc
    | ok q' =>
      rw [hm] at hc
      have hl : ∀ (l : List ℝ) (f : ℝ → Except Err (ℝ × ℝ)) (r : List (ℝ × ℝ)), l.mapM f = .ok r → r.length = l.length := by
        intro l f
        induction l with
        | nil => intro r h; injection h with h; rw [← h]; rfl
        | cons a l ih =>
          intro r h
          rw [List.mapM_cons] at h
          cases ha : f a with
          | error e => rw [ha] at h; cases h
          | ok b =>
            cases hb : l.mapM f with
            | error e => rw [ha, hb] at h; cases h
            | ok bs =>
              rw [ha, hb] at h
              injection h with h
              rw [← h, List.length_cons, List.length_cons, ih bs hb]
      have := hl _ _ _ hm
      have h3 : q'.length < 3 := by rw [this]; simpa [linspaceOpen] using h
      have hc : (if q'.length < 3 then Except.error (Err.value "A linearring requires at least 4 coordinates.") else .ok q') = (.ok q : Except Err (List (ℝ × ℝ))) := hc
      rw [if_pos h3] at hc
      cases hc

/-- Two points on a circle. -/
example : ∃ e, curveSection 2 [(1, 0), (3, 0)] = .error e := C292_few 2 _ (by simp)

/-- The hypotheses of C292_circle can be met: three points of the unit circle, in no order. -/
example : curveSection 2 [(1, 0), (3, 0), (2, 1)] = .ok (regularSection 2 1 3) := by
  refine C292_circle 2 1 one_pos (by norm_num) (by simp) ?_
  intro p hp
  fin_cases hp <;> norm_num

/-- Inside the arguments and beyond them. -/
example : interpExtrap [((3 : ℚ), (5 : ℚ)), (1, 1), (2, 2)] (5 / 2) = .ok (7 / 2) ∧ interpExtrap [((3 : ℚ), (5 : ℚ)), (1, 1), (2, 2)] 0 = .ok 0 ∧
    interpExtrap [((3 : ℚ), (5 : ℚ)), (1, 1), (2, 2)] 4 = .ok 8 ∧ interpExtrap [((3 : ℚ), (5 : ℚ)), (1, 1), (2, 2)] 2 = .ok 2 := by
  refine ⟨?_, ?_, ?_, ?_⟩ <;> decide +kernel

/-- The hypotheses of C292_between_partial can be met. -/
example : ∃ r, interpExtrap [((3 : ℚ), (5 : ℚ)), (1, 1), (2, 2)] (5 / 2) = .ok r ∧ 1 ≤ r ∧ r ≤ 5 := by
  refine C292_between_partial (by decide +kernel) (by simp) _ _ _ ⟨(1, 1), by simp, by norm_num⟩ ⟨(3, 5), by simp, by norm_num⟩ ?_
  intro p hp
  fin_cases hp <;> norm_num

end Zoidberg
