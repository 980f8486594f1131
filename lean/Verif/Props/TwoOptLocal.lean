import Verif.Props.TwoOpt
import Verif.Props.Reconstruct
import Mathlib.Analysis.Complex.Basic
import Mathlib.Analysis.Convex.StrictConvexSpace
import Mathlib.Analysis.InnerProductSpace.Convex
import Mathlib.Analysis.SpecialFunctions.Complex.Arg
import Mathlib.Tactic.Linarith
import Mathlib.Tactic.LinearCombination

/-!
# C229: exchanging two edges of the line of `line_from_points_two_opt`
-/

set_option linter.unusedSectionVars false

namespace Zoidberg

/-! ## The length of a route -/

section walk

variable {K : Type} [Field K] [LinearOrder K] [IsStrictOrderedRing K] [FloorRing K]

/-- The distance of two cities. -/
def cityDist (sqrt : K → K) (c : List (K × K)) (i j : ℕ) : K :=
  sqrt (((c.getD i (0, 0)).1 - (c.getD j (0, 0)).1) ^ 2 + ((c.getD i (0, 0)).2 - (c.getD j (0, 0)).2) ^ 2)

theorem cityDist_comm (sqrt : K → K) (c : List (K × K)) (i j : ℕ) : cityDist sqrt c i j = cityDist sqrt c j i := by
  unfold cityDist
  congr 1
  ring

/-- The length of an open route. -/
def walk (D : ℕ → ℕ → K) : List ℕ → K
  | [] => 0
  | [_] => 0
  | a :: b :: t => D b a + walk D (b :: t)

theorem walk_append (D : ℕ → ℕ → K) : ∀ (a : ℕ) (s : List ℕ) (b : ℕ) (t : List ℕ),
    walk D (a :: s ++ b :: t) = walk D (a :: s) + D b ((a :: s).getLast (by simp)) + walk D (b :: t)
  | a, [], b, t => by simp [walk]
  | a, a' :: s, b, t => by
    have := walk_append D a' s b t
    simp only [List.cons_append] at this
    simp only [List.cons_append, walk, this]
    rw [List.getLast_cons (by simp : a' :: s ≠ [])]
    ring

theorem walk_reverse (D : ℕ → ℕ → K) (hD : ∀ i j, D i j = D j i) : ∀ l : List ℕ, walk D l.reverse = walk D l
  | [] => rfl
  | [_] => rfl
  | a :: b :: t => by
    have ih := walk_reverse D hD (b :: t)
    obtain ⟨x, s, hs⟩ : ∃ x s, (b :: t).reverse = x :: s := by
      cases h : (b :: t).reverse with
      | nil => simp at h
      | cons x s => exact ⟨x, s, rfl⟩
    have hl : (x :: s).getLast (by simp) = b := by
      have : (b :: t).reverse.getLast (by simp) = b := by simp
      simpa only [hs] using this
    rw [List.reverse_cons, hs, walk_append, hl, ← hs, ih, hD a b]
    simp [walk]
    ring

theorem walk_eq_sum (D : ℕ → ℕ → K) : ∀ (a : ℕ) (t : List ℕ),
    walk D (a :: t) = ∑ p ∈ Finset.range t.length, D ((a :: t).getD (p + 1) 0) ((a :: t).getD p 0)
  | a, [] => by simp [walk]
  | a, b :: t => by
    rw [walk, walk_eq_sum D b t, List.length_cons, Finset.sum_range_succ', add_comm]
    simp

/-- `path_distance` is the length of the closed route. -/
theorem pathDist_eq_walk (sqrt : K → K) (c : List (K × K)) (a : ℕ) (t : List ℕ) :
    pathDist sqrt c (a :: t) = walk (cityDist sqrt c) (a :: t ++ [a]) := by
  rw [List.cons_append, walk_eq_sum]
  unfold pathDist
  have hs : ∀ (n : ℕ) (f : ℕ → K), ((List.range n).map f).sum = ∑ p ∈ Finset.range n, f p := fun n f => by
    simp [Finset.sum, Multiset.range, Finset.range]
  rw [hs, List.length_append, List.length_cons, Finset.sum_range_succ']
  simp only [List.length_singleton]
  rw [Finset.sum_range_succ]
  congr 1
  · apply Finset.sum_congr rfl
    intro p hp
    rw [Finset.mem_range] at hp
    have h1 : (p + 1 + (t.length + 1) - 1) % (t.length + 1) = p := by
      rw [show p + 1 + (t.length + 1) - 1 = p + (t.length + 1) by omega, Nat.add_mod_right, Nat.mod_eq_of_lt (by omega)]
    rw [h1]
    have e : ∀ q, q ≤ t.length → (a :: (t ++ [a])).getD q 0 = (a :: t).getD q 0 := by
      intro q hq
      rw [← List.cons_append, List.getD_append _ _ _ _ (by simp; omega)]
    rw [e _ (by omega), e _ (by omega)]
    rfl
  · have h1 : (0 + (t.length + 1) - 1) % (t.length + 1) = t.length := by
      rw [show 0 + (t.length + 1) - 1 = t.length by omega, Nat.mod_eq_of_lt (by omega)]
    rw [h1]
    have e1 : (a :: (t ++ [a])).getD t.length 0 = (a :: t).getD t.length 0 := by
      rw [← List.cons_append, List.getD_append _ _ _ _ (by simp)]
    have e2 : (a :: (t ++ [a])).getD (t.length + 1) 0 = a := by simp
    rw [e1, e2]
    rfl

/-- Reversing a section exchanges the edges at its two ends. -/
theorem pathDist_swap (sqrt : K → K) (c : List (K × K)) (r : List ℕ) (p q : ℕ) (hpq : p < q) (hq : q < r.length) :
    pathDist sqrt c (twoOptSwap r (p + 1) q) + cityDist sqrt c (r.getD p 0) (r.getD (p + 1) 0) + cityDist sqrt c (r.getD q 0) (r.getD ((q + 1) % r.length) 0) =
      pathDist sqrt c r + cityDist sqrt c (r.getD p 0) (r.getD q 0) + cityDist sqrt c (r.getD (p + 1) 0) (r.getD ((q + 1) % r.length) 0) := by
  obtain ⟨A, M, B, hr, hA, hM⟩ : ∃ A M B : List ℕ, r = A ++ M ++ B ∧ A.length = p + 1 ∧ M.length = q - p := by
    refine ⟨r.take (p + 1), (r.take (q + 1)).drop (p + 1), r.drop (q + 1), ?_, ?_, ?_⟩
    · have h1 : r.take (p + 1) = (r.take (q + 1)).take (p + 1) := by rw [List.take_take, Nat.min_eq_left (by omega)]
      rw [h1, List.take_append_drop, List.take_append_drop]
    · rw [List.length_take]; omega
    · rw [List.length_drop, List.length_take]; omega
  have hsw : twoOptSwap r (p + 1) q = A ++ M.reverse ++ B := by
    unfold twoOptSwap
    have t1 : r.take (p + 1) = A := by rw [hr, List.append_assoc, List.take_append_of_le_length (by omega), List.take_of_length_le (by omega)]
    have t2 : r.take (q + 1) = A ++ M := by
      rw [hr, List.take_append_of_le_length (by rw [List.length_append]; omega), List.take_of_length_le (by rw [List.length_append]; omega)]
    have t3 : r.drop (q + 1) = B := by
      rw [hr]; apply List.drop_left'; rw [List.length_append]; omega
    rw [t1, t2, t3, List.drop_left' hA]
  obtain ⟨a, A', rfl⟩ : ∃ a A', A = a :: A' := by
    cases A with
    | nil => simp at hA
    | cons a A' => exact ⟨a, A', rfl⟩
  obtain ⟨m, M', rfl⟩ : ∃ m M', M = m :: M' := by
    cases M with
    | nil => simp at hM; omega
    | cons m M' => exact ⟨m, M', rfl⟩
  obtain ⟨m2, M2, hrev⟩ : ∃ x s, (m :: M').reverse = x :: s := by
    cases h : (m :: M').reverse with
    | nil => simp at h
    | cons x s => exact ⟨x, s, rfl⟩
  obtain ⟨b, B', hB⟩ : ∃ b B', B ++ [a] = b :: B' := by
    cases h : B ++ [a] with
    | nil => simp at h
    | cons x s => exact ⟨x, s, rfl⟩
  have hm2 : (m :: M').getLast (by simp) = m2 := by
    have : (m :: M').reverse.head (by simp) = (m :: M').getLast (by simp) := List.head_reverse _
    simp only [hrev] at this
    simpa using this.symm
  have hl2 : (m2 :: M2).getLast (by simp) = m := by
    have : (m :: M').reverse.getLast (by simp) = m := by simp
    simpa only [hrev] using this
  have w1 : pathDist sqrt c r = walk (cityDist sqrt c) (a :: A' ++ (m :: M' ++ b :: B')) := by
    rw [hr, List.append_assoc, List.cons_append, pathDist_eq_walk, ← hB]
    simp
  have w2 : pathDist sqrt c (twoOptSwap r (p + 1) q) = walk (cityDist sqrt c) (a :: A' ++ (m2 :: M2 ++ b :: B')) := by
    rw [hsw, List.append_assoc, List.cons_append, pathDist_eq_walk, ← hB, hrev]
    simp
  have f1 := walk_append (cityDist sqrt c) a A' m (M' ++ b :: B')
  have f2 := walk_append (cityDist sqrt c) m M' b B'
  have f3 := walk_append (cityDist sqrt c) a A' m2 (M2 ++ b :: B')
  have f4 := walk_append (cityDist sqrt c) m2 M2 b B'
  have f5 : walk (cityDist sqrt c) (m2 :: M2) = walk (cityDist sqrt c) (m :: M') := by
    rw [← hrev, walk_reverse _ (cityDist_comm sqrt c)]
  rw [← List.cons_append] at f1 f3
  rw [hl2] at f4
  rw [hm2] at f2
  have g0 : r.getD p 0 = (a :: A').getLast (by simp) := by
    rw [hr, List.append_assoc, List.getD_append _ _ _ _ (by omega), List.getLast_eq_getElem, List.getD_eq_getElem _ _ (by omega)]
    congr 1
    omega
  have g1 : r.getD (p + 1) 0 = m := by
    rw [hr, List.append_assoc, List.getD_append_right _ _ _ _ (by omega), hA]
    simp
  have g2 : r.getD q 0 = m2 := by
    rw [hr, List.append_assoc, List.getD_append_right _ _ _ _ (by omega), List.getD_append _ _ _ _ (by omega), ← hm2, List.getLast_eq_getElem,
      List.getD_eq_getElem _ _ (by omega)]
    congr 1
    omega
  have g3 : r.getD ((q + 1) % r.length) 0 = b := by
    have hlen : r.length = q + 1 + B.length := by
      rw [hr, List.length_append, List.length_append]; omega
    cases B with
    | nil =>
      simp at hB
      simp only [List.length_nil, add_zero] at hlen
      rw [← hlen, Nat.mod_self, hr, ← hB.1]
      simp
    | cons b' B'' =>
      simp only [List.cons_append, List.cons.injEq] at hB
      simp only [List.length_cons] at hlen
      rw [Nat.mod_eq_of_lt (by omega), hr, List.getD_append_right _ _ _ _ (by rw [List.length_append]; omega), ← hB.1]
      have : q + 1 - (a :: A' ++ m :: M').length = 0 := by rw [List.length_append]; omega
      rw [this]
      simp
  rw [w1, w2, f1, f2, f3, f4, f5, g0, g1, g2, g3]
  have := cityDist_comm sqrt c ((a :: A').getLast (by simp)) m
  have := cityDist_comm sqrt c ((a :: A').getLast (by simp)) m2
  have := cityDist_comm sqrt c b m
  have := cityDist_comm sqrt c b m2
  linarith

/-! ## The last pass -/

theorem fold_unchanged {α : Type} {sqrt : K → K} {c : List (K × K)} {d : K} (f : List ℕ × K → α → List ℕ × K) :
    ∀ (l : List α), (∀ s a, a ∈ l → Route sqrt c d s → Route sqrt c d (f s a) ∧ Better s (f s a)) →
      ∀ s, Route sqrt c d s → (l.foldl f s).2 = s.2 → l.foldl f s = s ∧ ∀ a ∈ l, f s a = s
  | [], _, s, _, _ => ⟨rfl, by simp⟩
  | a :: l, hf, s, h, he => by
    obtain ⟨h1, h2⟩ := hf s a (by simp) h
    obtain ⟨h3, h4⟩ := fold_route f l (fun s b hb => hf s b (by simp [hb])) _ h1
    rw [List.foldl_cons] at he
    have e : f s a = s := by
      rcases h2 with h2 | h2
      · exact h2
      · exfalso
        rcases h4 with h4 | h4
        · rw [h4] at he; linarith
        · linarith
    rw [e] at he
    obtain ⟨h5, h6⟩ := fold_unchanged f l (fun s b hb => hf s b (by simp [hb])) s h he
    rw [List.foldl_cons, e]
    refine ⟨h5, ?_⟩
    intro b hb
    rcases List.mem_cons.1 hb with hb | hb
    · rw [hb, e]
    · exact h6 b hb

/-- No section that the pass has tried makes the route shorter. -/
def Tried (sqrt : K → K) (c : List (K × K)) (r : List ℕ) : Prop :=
  ∀ i k, 1 ≤ i → i + 2 < r.length → i < k → k < r.length → pathDist sqrt c r ≤ pathDist sqrt c (twoOptSwap r i k)

theorem pass_unchanged {sqrt : K → K} {c : List (K × K)} {d : K} {s : List ℕ × K} (h : Route sqrt c d s) (he : (twoOptPass sqrt c s).2 = s.2) :
    twoOptPass sqrt c s = s ∧ Tried sqrt c s.1 := by
  unfold twoOptPass at he ⊢
  obtain ⟨h1, h2⟩ := fold_unchanged (twoOptInner sqrt c) (pyRange 1 (s.1.length - 2)) (fun s k hk hs => twoOptInner_route hs (by
    simp only [pyRange, List.mem_range'_1] at hk; omega)) _ h he
  refine ⟨h1, ?_⟩
  intro i k hi hi2 hik hk
  have h3 := h2 i (by simp only [pyRange, List.mem_range'_1]; omega)
  unfold twoOptInner at h3
  obtain ⟨-, h4⟩ := fold_unchanged (twoOptTry sqrt c i) (pyRange (i + 1) s.1.length) (fun s k hk hs => twoOptTry_route hs hi (by
    simp only [pyRange, List.mem_range'_1] at hk; omega)) _ h (by rw [h3])
  have h5 := h4 k (by simp only [pyRange, List.mem_range'_1]; omega)
  unfold twoOptTry at h5
  dsimp only at h5
  rw [← h.dist]
  by_contra hcon
  rw [if_pos (not_le.1 hcon)] at h5
  have := congrArg Prod.snd h5
  simp only at this
  exact hcon this.ge

theorem pathDist_nonneg {sqrt : K → K} (hs : ∀ x, 0 ≤ sqrt x) (c : List (K × K)) (r : List ℕ) : 0 ≤ pathDist sqrt c r := by
  unfold pathDist
  apply List.sum_nonneg
  intro x hx
  obtain ⟨p, -, rfl⟩ := List.mem_map.1 hx
  exact hs _

theorem twoOptLoop_tried {sqrt : K → K} (hs0 : ∀ x, 0 ≤ sqrt x) {c : List (K × K)} {d : K} :
    ∀ (fuel : ℕ) (factor : K) (s : List ℕ × K) (r : List ℕ), Route sqrt c d s → (factor ≤ 0 → Tried sqrt c s.1) →
      twoOptLoop sqrt c 0 fuel factor s = .ok r → Tried sqrt c r
  | 0, _, _, _, _, _, h => by cases h
  | fuel + 1, factor, s, r, hs, hf, h => by
    rw [twoOptLoop] at h
    obtain ⟨h1, hb⟩ := twoOptPass_route hs
    dsimp only at h
    split_ifs at h with hfac h3 h0
    · refine twoOptLoop_tried hs0 fuel _ _ r h1 (fun hle => absurd hfac (not_lt.2 hle)) h
    · injection h with h
      have hle := h1.self.dist
      have hn := pathDist_nonneg hs0 c (twoOptPass sqrt c s).1
      have he : (twoOptPass sqrt c s).2 = s.2 := by
        rcases hb with hb | hb
        · rw [hb]
        · rw [h0] at hb; linarith
      obtain ⟨e, ht⟩ := pass_unchanged hs he
      rw [e] at h
      rw [← h]; exact ht
    · refine twoOptLoop_tried hs0 fuel _ _ r h1 (fun hle => ?_) h
      have hpos : 0 < s.2 := lt_of_le_of_ne (by rw [hs.dist]; exact pathDist_nonneg hs0 c s.1) (Ne.symm h0)
      have he : (twoOptPass sqrt c s).2 = s.2 := by
        rcases hb with hb | hb
        · rw [hb]
        · exfalso
          have := (div_lt_one hpos).2 hb
          linarith
      obtain ⟨e, ht⟩ := pass_unchanged hs he
      rw [e]; exact ht
    · injection h with h
      rw [← h]
      exact hf (not_lt.1 hfac)

theorem twoOpt_tried {sqrt : K → K} (hs0 : ∀ x, 0 ≤ sqrt x) {c : List (K × K)} {fuel : ℕ} {r : List ℕ} (h : twoOpt sqrt c 0 fuel = .ok r) :
    Tried sqrt c r :=
  twoOptLoop_tried hs0 fuel 1 _ r (route_start sqrt c) (fun h => absurd h (by norm_num)) h


theorem fold_stay {α : Type} (f : List ℕ × K → α → List ℕ × K) (s : List ℕ × K) : ∀ l : List α, (∀ a ∈ l, f s a = s) → l.foldl f s = s
  | [], _ => rfl
  | a :: l, h => by
    rw [List.foldl_cons, h a (by simp)]
    exact fold_stay f s l fun b hb => h b (by simp [hb])

/-- A route that no tried section makes shorter is kept. -/
theorem twoOpt_stay {sqrt : K → K} {c : List (K × K)} {thr : K} (h0 : 0 ≤ thr) (h4 : 4 ≤ c.length) (h : Tried sqrt c (List.range c.length)) (fuel : ℕ) :
    twoOpt sqrt c thr (fuel + 2) = .ok (List.range c.length) := by
  have hp : twoOptPass sqrt c (List.range c.length, pathDist sqrt c (List.range c.length)) = (List.range c.length, pathDist sqrt c (List.range c.length)) := by
    unfold twoOptPass
    apply fold_stay
    intro i hi
    simp only [pyRange, List.mem_range'_1] at hi
    unfold twoOptInner
    apply fold_stay
    intro k hk
    simp only [pyRange, List.mem_range'_1] at hk
    unfold twoOptTry
    dsimp only
    rw [if_neg (not_lt.2 (h i k (by omega) (by omega) (by omega) (by omega)))]
  unfold twoOpt
  generalize pathDist sqrt c (List.range c.length) = d at hp
  rw [twoOptLoop]
  dsimp only
  rw [hp]
  split_ifs with h1 h2 h3
  · simp at h2; omega
  · rfl
  · rw [twoOptLoop, if_neg]
    dsimp only
    rw [div_self h3, sub_self]
    exact not_lt.2 h0
  · rfl

end walk

/-! ## The property -/

/-- Point `i` of the closed line. -/
def corner (pts : List (ℝ × ℝ)) (i : ℕ) : ℝ × ℝ := pts.getD (i % pts.length) (0, 0)

/-- The distance in the plane. -/
noncomputable def euclid (a b : ℝ × ℝ) : ℝ := Real.sqrt ((a.1 - b.1) ^ 2 + (a.2 - b.2) ^ 2)

/-- The length of the closed line. -/
noncomputable def outline (pts : List (ℝ × ℝ)) : ℝ := ∑ i ∈ Finset.range pts.length, euclid (corner pts i) (corner pts (i + 1))

/-- What is saved when the edges after the points `p` and `q` are exchanged. -/
noncomputable def saving (pts : List (ℝ × ℝ)) (p q : ℕ) : ℝ :=
  euclid (corner pts p) (corner pts (p + 1)) + euclid (corner pts q) (corner pts (q + 1)) -
    (euclid (corner pts p) (corner pts q) + euclid (corner pts (p + 1)) (corner pts (q + 1)))

/-- Two edges cross each other in one point inside both. -/
def Crosses (a b c d : ℝ × ℝ) : Prop :=
  (b.1 - a.1) * (d.2 - c.2) - (b.2 - a.2) * (d.1 - c.1) ≠ 0 ∧
    ∃ s t : ℝ, 0 < s ∧ s < 1 ∧ 0 < t ∧ t < 1 ∧ a.1 + s * (b.1 - a.1) = c.1 + t * (d.1 - c.1) ∧ a.2 + s * (b.2 - a.2) = c.2 + t * (d.2 - c.2)

theorem euclid_eq_norm (a b : ℝ × ℝ) : euclid a b = ‖(⟨a.1 - b.1, a.2 - b.2⟩ : ℂ)‖ := by
  unfold euclid
  rw [Complex.norm_def, Complex.normSq_mk]
  congr 1
  ring

theorem euclid_comm (a b : ℝ × ℝ) : euclid a b = euclid b a := by
  unfold euclid; congr 1; ring

/-- The detour over the crossing point is longer. -/
theorem detour {u v : ℝ × ℝ} {s t : ℝ} (hs : 0 < s) (ht : 0 < t) (h : u.1 * v.2 - u.2 * v.1 ≠ 0) :
    ‖(⟨s * u.1 + t * v.1, s * u.2 + t * v.2⟩ : ℂ)‖ < s * ‖(⟨u.1, u.2⟩ : ℂ)‖ + t * ‖(⟨v.1, v.2⟩ : ℂ)‖ := by
  have e : (⟨s * u.1 + t * v.1, s * u.2 + t * v.2⟩ : ℂ) = (s : ℝ) • (⟨u.1, u.2⟩ : ℂ) + (t : ℝ) • (⟨v.1, v.2⟩ : ℂ) := by
    apply Complex.ext <;> simp
  have n1 : s * ‖(⟨u.1, u.2⟩ : ℂ)‖ = ‖(s : ℝ) • (⟨u.1, u.2⟩ : ℂ)‖ := by rw [norm_smul, Real.norm_of_nonneg hs.le]
  have n2 : t * ‖(⟨v.1, v.2⟩ : ℂ)‖ = ‖(t : ℝ) • (⟨v.1, v.2⟩ : ℂ)‖ := by rw [norm_smul, Real.norm_of_nonneg ht.le]
  rw [e, n1, n2]
  apply norm_add_lt_of_not_sameRay
  intro hray
  apply h
  have hu : SameRay ℝ (⟨u.1, u.2⟩ : ℂ) (⟨v.1, v.2⟩ : ℂ) := by
    have := (hray.pos_smul_left (inv_pos.2 hs)).pos_smul_right (inv_pos.2 ht)
    rwa [smul_smul, smul_smul, inv_mul_cancel₀ hs.ne', inv_mul_cancel₀ ht.ne', one_smul, one_smul] at this
  rcases hu with h0 | h0 | ⟨a, b, ha, hb, hab⟩
  · have h1 := congrArg Complex.re h0
    have h2 := congrArg Complex.im h0
    simp at h1 h2
    rw [h1, h2]; ring
  · have h1 := congrArg Complex.re h0
    have h2 := congrArg Complex.im h0
    simp at h1 h2
    rw [h1, h2]; ring
  · have h1 := congrArg Complex.re hab
    have h2 := congrArg Complex.im hab
    simp at h1 h2
    have : a * (u.1 * v.2 - u.2 * v.1) = 0 := by linear_combination v.2 * h1 - v.1 * h2
    exact (mul_eq_zero.1 this).resolve_left ha.ne'

/-- Crossing edges are longer than the exchanged ones. -/
theorem crosses_longer {a b c d : ℝ × ℝ} (h : Crosses a b c d) : euclid a c + euclid b d < euclid a b + euclid c d := by
  obtain ⟨hne, s, t, hs, hs1, ht, ht1, e1, e2⟩ := h
  have d1 := detour (u := (a.1 - b.1, a.2 - b.2)) (v := (d.1 - c.1, d.2 - c.2)) hs ht (by dsimp only; intro h; apply hne; linear_combination -h)
  have d2 := detour (u := (b.1 - a.1, b.2 - a.2)) (v := (c.1 - d.1, c.2 - d.2)) (s := 1 - s) (t := 1 - t) (by linarith) (by linarith)
    (by dsimp only; intro h; apply hne; linear_combination -h)
  dsimp only at d1 d2
  have f1 : (⟨s * (a.1 - b.1) + t * (d.1 - c.1), s * (a.2 - b.2) + t * (d.2 - c.2)⟩ : ℂ) = ⟨a.1 - c.1, a.2 - c.2⟩ := by
    apply Complex.ext <;> dsimp only <;> linarith
  have f2 : (⟨(1 - s) * (b.1 - a.1) + (1 - t) * (c.1 - d.1), (1 - s) * (b.2 - a.2) + (1 - t) * (c.2 - d.2)⟩ : ℂ) = ⟨b.1 - d.1, b.2 - d.2⟩ := by
    apply Complex.ext <;> dsimp only <;> linarith
  rw [f1, ← euclid_eq_norm, ← euclid_eq_norm a b] at d1
  rw [f2, ← euclid_eq_norm] at d2
  have g1 : ‖(⟨d.1 - c.1, d.2 - c.2⟩ : ℂ)‖ = euclid c d := by rw [← euclid_eq_norm d c, euclid_comm]
  have g2 : ‖(⟨c.1 - d.1, c.2 - d.2⟩ : ℂ)‖ = euclid c d := (euclid_eq_norm c d).symm
  have g3 : ‖(⟨b.1 - a.1, b.2 - a.2⟩ : ℂ)‖ = euclid a b := by rw [← euclid_eq_norm b a, euclid_comm]
  rw [g1] at d1
  rw [g2, g3] at d2
  linarith

theorem cityDist_vertex (c : List (ℝ × ℝ)) (r : List ℕ) {i j : ℕ} (hi : i < r.length) (hj : j < r.length) :
    cityDist Real.sqrt c (r.getD i 0) (r.getD j 0) = euclid (corner (takePts c r) i) (corner (takePts c r) j) := by
  have hl : (takePts c r).length = r.length := by simp [takePts]
  have hv : ∀ m, m < r.length → corner (takePts c r) m = c.getD (r.getD m 0) (0, 0) := by
    intro m hm
    unfold corner
    rw [hl, Nat.mod_eq_of_lt hm]
    unfold takePts
    simp [List.getElem?_eq_getElem hm]
  rw [hv i hi, hv j hj]
  rfl

/-- A route that no tried section makes shorter saves nothing by any exchange but one. -/
theorem tried_saving {c : List (ℝ × ℝ)} {r : List ℕ} (h : Tried Real.sqrt c r) (p q : ℕ) (hpq : p < q) (hq : q < r.length)
    (hex : ¬ (p + 3 = r.length ∧ q + 1 = r.length)) : saving (takePts c r) p q ≤ 0 := by
  have hl : (takePts c r).length = r.length := by simp [takePts]
  have hq1 : (q + 1) % r.length < r.length := Nat.mod_lt _ (by omega)
  have hv : corner (takePts c r) (q + 1) = corner (takePts c r) ((q + 1) % r.length) := by
    unfold corner
    rw [hl, Nat.mod_mod]
  unfold saving
  rw [hv]
  by_cases hadj : q = p + 1
  · subst hadj
    linarith
  by_cases hwrap : p = 0 ∧ q + 1 = r.length
  · obtain ⟨rfl, hw⟩ := hwrap
    rw [hw, Nat.mod_self, euclid_comm (corner _ q), euclid_comm (corner _ (0 + 1))]
    linarith
  have := h (p + 1) q (by omega) (by omega) (by omega) hq
  have hsw := pathDist_swap Real.sqrt c r p q hpq hq
  rw [cityDist_vertex c r (by omega) (by omega), cityDist_vertex c r (by omega) hq1, cityDist_vertex c r (by omega) (by omega),
    cityDist_vertex c r (by omega) hq1] at hsw
  linarith

/-- **C229.** With `opt=0` the line, or the reversed line, saves nothing when any two edges are exchanged, except for those after its third last and its last
point; no other edges cross. -/
theorem C229_partial (e : RzEnv ℝ) (he : e.sqrt = Real.sqrt) (atan2 : ℝ → ℝ → ℝ) (argsort : List ℝ → List ℕ) (fuel : ℕ) (pts : List (ℝ × ℝ))
    (order smooth : Option ℕ) (l : RZLine ℝ) (h : lineFromPointsTwoOpt e atan2 argsort 0 fuel pts order smooth = .ok l) :
    ∃ r, (l.pts = r ∨ l.pts = r.reverse) ∧ ∀ p q, p < q → q < r.length → ¬ (p + 3 = r.length ∧ q + 1 = r.length) →
      saving r p q ≤ 0 ∧ ¬ Crosses (corner r p) (corner r (p + 1)) (corner r q) (corner r (q + 1)) := by
  unfold lineFromPointsTwoOpt at h
  cases hf : lineFromPointsFast e atan2 argsort pts order smooth with
  | error x => rw [hf] at h; cases h
  | ok ln =>
    rw [hf] at h
    simp only [Except.bind, he] at h
    cases hr : twoOpt Real.sqrt ln.pts 0 fuel with
    | error x => rw [hr] at h; cases h
    | ok r =>
      rw [hr] at h
      simp only at h
      refine ⟨takePts ln.pts r, (C54_anticlockwise e _ _ _ _ h).2, ?_⟩
      have hl : (takePts ln.pts r).length = r.length := by simp [takePts]
      intro p q hpq hq hex
      rw [hl] at hq hex
      have hs := tried_saving (twoOpt_tried Real.sqrt_nonneg hr) p q hpq hq hex
      refine ⟨hs, fun hc => ?_⟩
      have := crosses_longer hc
      unfold saving at hs
      linarith

/-! ## The exchange that is not tried -/

/-- No exchange of two edges makes the line shorter by more than the fraction `opt`. -/
def TwoOptimal : Prop := ∀ (e : RzEnv ℝ), e.pi = Real.pi → e.sqrt = Real.sqrt → SplrepTotal e → ∀ argsort : List ℝ → List ℕ, IsArgsort argsort →
  ∀ (opt : ℝ), 0 ≤ opt → ∀ (fuel : ℕ) (pts : List (ℝ × ℝ)) (l : RZLine ℝ),
    lineFromPointsTwoOpt e (fun y x => Complex.arg ⟨x, y⟩) argsort opt fuel pts none none = .ok l →
      ∀ p q, p < q → q < l.pts.length → saving l.pts p q ≤ opt * outline l.pts

/-- A flat triangle with a point inside it, in the order of the angle. -/
def flatPts : List (ℝ × ℝ) := [(-10, 0), (0, 4), (1, 2), (10, 0)]

/-- `arctan2(r - mean(r), z - mean(z))` for these points. -/
noncomputable def flatAngle (p : ℝ × ℝ) : ℝ := Complex.arg ⟨p.2 - 3 / 2, p.1 - 1 / 4⟩

theorem flat_angles : flatAngle (-10, 0) < flatAngle (0, 4) ∧ flatAngle (0, 4) < flatAngle (1, 2) ∧ flatAngle (1, 2) < flatAngle (10, 0) := by
  have a1 : flatAngle (-10, 0) < -(Real.pi / 2) := by
    unfold flatAngle
    by_contra hcon
    have := (Complex.neg_pi_div_two_le_arg_iff).1 (not_lt.1 hcon)
    norm_num at this
  have a2 : -(Real.pi / 2) ≤ flatAngle (0, 4) := by
    unfold flatAngle
    apply Complex.neg_pi_div_two_le_arg_iff.2
    norm_num
  have a3 : flatAngle (0, 4) < 0 := by
    unfold flatAngle
    apply Complex.arg_neg_iff.2
    norm_num
  have a4 : 0 ≤ flatAngle (1, 2) := by
    unfold flatAngle
    apply Complex.arg_nonneg_iff.2
    norm_num
  have a5 : flatAngle (1, 2) ≤ Real.pi / 2 := by
    unfold flatAngle
    apply Complex.arg_le_pi_div_two_iff.2
    norm_num
  have a6 : Real.pi / 2 < flatAngle (10, 0) := by
    unfold flatAngle
    by_contra hcon
    have := (Complex.arg_le_pi_div_two_iff).1 (not_lt.1 hcon)
    norm_num at this
  exact ⟨by linarith, by linarith, by linarith⟩

theorem sorted_unique {f : ℝ × ℝ → ℝ} : ∀ {s t : List (ℝ × ℝ)}, s.Perm t → (s.map f).Pairwise (· ≤ ·) → (t.map f).Pairwise (· < ·) → s = t
  | s, [], hp, _, _ => hp.eq_nil
  | [], b :: t, hp, _, _ => by simpa using hp.length_eq
  | a :: s, b :: t, hp, hs, ht => by
    rw [List.map_cons, List.pairwise_cons] at hs ht
    have hab : a = b := by
      by_contra hne
      have ha : a ∈ t := (List.mem_cons.1 (hp.subset (List.mem_cons_self ..))).resolve_left hne
      have hb : b ∈ s := (List.mem_cons.1 (hp.symm.subset (List.mem_cons_self ..))).resolve_left (Ne.symm hne)
      have h1 := ht.1 (f a) (List.mem_map_of_mem ha)
      have h2 := hs.1 (f b) (List.mem_map_of_mem hb)
      linarith
    subst hab
    rw [sorted_unique (List.Perm.cons_inv hp) hs.2 ht.2]

theorem flat_area : signedArea flatPts < 0 := by
  norm_num [signedArea, flatPts, Finset.sum_range_succ]

theorem flat_sorted {argsort : List ℝ → List ℕ} (ha : IsArgsort argsort) :
    takePts flatPts (argsort (flatPts.map fun p => Complex.arg ⟨p.2 - 3 / 2, p.1 - 1 / 4⟩)) = flatPts := by
  obtain ⟨h1, h2, h3⟩ := flat_angles
  refine sorted_unique (f := flatAngle) (takePts_perm (by have := (ha (flatPts.map flatAngle)).1; rwa [List.length_map] at this)) (takePts_sorted (f := flatAngle) ha) ?_
  simp only [flatPts, List.map_cons, List.map_nil]
  simp only [List.pairwise_cons, List.mem_cons, List.not_mem_nil, or_false, forall_eq_or_imp, forall_eq, List.Pairwise.nil, and_true,
    false_implies, implies_true]
  refine ⟨⟨h1, h1.trans h2, (h1.trans h2).trans h3⟩, ⟨h2, h2.trans h3⟩, h3⟩

theorem flat_tried : Tried Real.sqrt flatPts.reverse (List.range 4) := by
  intro i k hi hi2 hik hk
  simp only [List.length_range] at hi2 hk
  obtain rfl : i = 1 := by omega
  have hsw := pathDist_swap Real.sqrt flatPts.reverse (List.range 4) 0 k (by omega) (by simpa using hk)
  rw [zero_add] at hsw
  have hk' : k = 2 ∨ k = 3 := by omega
  rcases hk' with rfl | rfl
  · have e1 : cityDist Real.sqrt flatPts.reverse ((List.range 4).getD 0 0) ((List.range 4).getD 1 0) ≤
        cityDist Real.sqrt flatPts.reverse ((List.range 4).getD 1 0) ((List.range 4).getD ((2 + 1) % (List.range 4).length) 0) := by
      apply Real.sqrt_le_sqrt
      simp [flatPts]
      norm_num
    have e2 : cityDist Real.sqrt flatPts.reverse ((List.range 4).getD 2 0) ((List.range 4).getD ((2 + 1) % (List.range 4).length) 0) =
        cityDist Real.sqrt flatPts.reverse ((List.range 4).getD 0 0) ((List.range 4).getD 2 0) := by
      unfold cityDist
      congr 1
      simp [flatPts]
      try norm_num
    linarith
  · have e0 : (List.range 4).getD ((3 + 1) % (List.range 4).length) 0 = (List.range 4).getD 0 0 := by simp
    rw [e0] at hsw
    have := cityDist_comm Real.sqrt flatPts.reverse ((List.range 4).getD 3 0) ((List.range 4).getD 0 0)
    have := cityDist_comm Real.sqrt flatPts.reverse ((List.range 4).getD 1 0) ((List.range 4).getD 0 0)
    linarith

/-- `line_from_points_fast` takes these points in the opposite order. -/
theorem flat_fast {e : RzEnv ℝ} (he : SplrepTotal e) {argsort : List ℝ → List ℕ} (ha : IsArgsort argsort) :
    ∃ l, lineFromPointsFast e (fun y x => Complex.arg ⟨x, y⟩) argsort flatPts none none = .ok l ∧ l.pts = flatPts.reverse := by
  obtain ⟨l0, hl0⟩ := ofPts_ok he (p := flatPts) flat_area.ne none none
  refine ⟨l0, ?_, ?_⟩
  · unfold lineFromPointsFast
    have m1 : (flatPts.map Prod.fst).sum / (flatPts.length : ℝ) = 1 / 4 := by norm_num [flatPts]
    have m2 : (flatPts.map Prod.snd).sum / (flatPts.length : ℝ) = 3 / 2 := by norm_num [flatPts]
    dsimp only
    rw [m1, m2, flat_sorted ha]
    exact hl0
  · obtain ⟨h1, h2 | h2⟩ := C54_anticlockwise _ _ _ _ _ hl0
    · rw [h2] at h1; have := flat_area; linarith
    · exact h2

/-- These points stay in the order of the angle, for every threshold. -/
theorem flat_line {e : RzEnv ℝ} (hsq : e.sqrt = Real.sqrt) (he : SplrepTotal e) {argsort : List ℝ → List ℕ} (ha : IsArgsort argsort) {opt : ℝ} (ho : 0 ≤ opt) :
    ∃ l, lineFromPointsTwoOpt e (fun y x => Complex.arg ⟨x, y⟩) argsort opt 2 flatPts none none = .ok l ∧ l.pts = flatPts.reverse := by
  obtain ⟨l0, hfast, hp0⟩ := flat_fast he ha
  have htw : twoOpt e.sqrt l0.pts opt 2 = .ok (List.range 4) := by
    have := twoOpt_stay (sqrt := Real.sqrt) (c := l0.pts) (thr := opt) ho (by rw [hp0]; simp [flatPts]) (by
      rw [hp0]; exact flat_tried) 0
    rw [hsq, this, hp0]
    rfl
  have htake : takePts l0.pts (List.range 4) = flatPts.reverse := by
    rw [hp0]; simp [takePts, flatPts, List.range_succ]
  obtain ⟨l, hl⟩ := ofPts_ok he (p := flatPts.reverse) (by rw [signedArea_reverse]; have := flat_area; linarith) none none
  refine ⟨l, ?_, ?_⟩
  · unfold lineFromPointsTwoOpt
    rw [hfast]
    simp only [Except.bind]
    rw [htw]
    simp only
    rw [htake]
    exact hl
  · obtain ⟨h1, h2 | h2⟩ := C54_anticlockwise _ _ _ _ _ hl
    · exact h2
    · rw [h2, List.reverse_reverse] at h1; have := flat_area; linarith

/-- **C229 (refutation).** The points of a flat triangle and a point inside it stay in the order of the angle, although the exchange of two edges would make the
line shorter by more than one in a thousand. -/
theorem C229_fails : ¬ TwoOptimal := by
  intro h
  obtain ⟨argsort, ha⟩ := isArgsort_exists (K := ℝ)
  let e : RzEnv ℝ := ⟨Real.pi, Real.sqrt, fun _ _ _ => .ok fun _ _ => 0⟩
  have he : SplrepTotal e := fun _ _ _ => ⟨_, rfl⟩
  obtain ⟨l, hfin, hlp⟩ := flat_line (e := e) rfl he ha (opt := 1 / 1000) (by norm_num)
  have := h e rfl rfl he argsort ha (1 / 1000) (by norm_num) 2 flatPts l hfin 1 3 (by norm_num) (by rw [hlp]; simp [flatPts])
  rw [hlp] at this
  norm_num [saving, outline, corner, flatPts, Finset.sum_range_succ, euclid] at this
  have b1 : (2.236 : ℝ) ≤ √5 := by apply Real.le_sqrt_of_sq_le; norm_num
  have b2 : √5 ≤ (2.24 : ℝ) := by rw [Real.sqrt_le_left (by norm_num)]; norm_num
  have b3 : √400 = (20 : ℝ) := by rw [show (400 : ℝ) = 20 ^ 2 by norm_num, Real.sqrt_sq (by norm_num)]
  have b4 : √85 ≤ (9.22 : ℝ) := by rw [Real.sqrt_le_left (by norm_num)]; norm_num
  have b5 : √116 ≤ (10.78 : ℝ) := by rw [Real.sqrt_le_left (by norm_num)]; norm_num
  have b6 : √125 ≤ (11.19 : ℝ) := by rw [Real.sqrt_le_left (by norm_num)]; norm_num
  linarith

/-- The line through these points with `opt=0`. -/
example (e : RzEnv ℝ) (hsq : e.sqrt = Real.sqrt) (he : SplrepTotal e) (argsort : List ℝ → List ℕ) (ha : IsArgsort argsort) :
    ∃ l, lineFromPointsTwoOpt e (fun y x => Complex.arg ⟨x, y⟩) argsort 0 2 flatPts none none = .ok l :=
  (flat_line hsq he ha le_rfl).imp fun _ h => h.1

end Zoidberg
