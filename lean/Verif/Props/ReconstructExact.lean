import Verif.Props.Reconstruct

/-!
# C228: exactly when `line_from_points` finds the order of the points again
-/

set_option linter.unusedSectionVars false

namespace Zoidberg

variable {K : Type} [Field K] [LinearOrder K] [IsStrictOrderedRing K] [FloorRing K]

/-- The length of the line through the points `t`, as `line_from_points` compares it. -/
def TourLength (e : RzEnv K) (order smooth : Option ℕ) (t : List (K × K)) (len : K) : Prop :=
  ∃ l d, RZLine.ofPts e t true order smooth = .ok l ∧ l.distance e 20 none = .ok d ∧ len = d.getD (d.length - 1) 0

/-- A way through the points `p` that always goes on to the nearest point that is left. -/
def TourOf (p t : List (K × K)) : Prop := t.Perm p ∧ NearestNeighbour t

theorem tourLength_unique {e : RzEnv K} {order smooth : Option ℕ} {t : List (K × K)} {a b : K} (ha : TourLength e order smooth t a) (hb : TourLength e order smooth t b) : a = b := by
  obtain ⟨l, d, h1, h2, h3⟩ := ha
  obtain ⟨l', d', g1, g2, g3⟩ := hb
  rw [h1] at g1
  cases g1
  rw [h2] at g2
  cases g2
  rw [h3, g3]

theorem candidate_ok {e : RzEnv K} (he : SplrepTotal e) {p pts : List (K × K)} (hn : 2 ≤ pts.length) (hp : pts.Perm p) (hA : ∀ t, TourOf p t → signedArea t ≠ 0) (order smooth : Option ℕ) (s : ℕ) :
    ∃ c t, lineCandidate e pts order smooth s = .ok c ∧ TourOf p t ∧ t.getD 0 (0, 0) = ptAt pts (pts.length - s) ∧ RZLine.ofPts e t true order smooth = .ok c.1 ∧ TourLength e order smooth t c.2 := by
  obtain ⟨t, ht⟩ := nnTour_ok (pts := pts) hn s
  obtain ⟨tp, tN, t0⟩ := nnTour_spec ht
  obtain ⟨l, hl⟩ := ofPts_ok he (hA t ⟨tp.trans hp, tN⟩) order smooth
  obtain ⟨d, hdd⟩ := distance_ok e l
  refine ⟨(l, d.getD (d.length - 1) 0), t, ?_, ⟨tp.trans hp, tN⟩, t0, hl, l, d, hl, hdd, rfl⟩
  unfold lineCandidate
  rw [ht]
  simp only [Except.bind]
  rw [hl]
  simp only
  rw [hdd]

theorem bestLine_keep {e : RzEnv K} {pts : List (K × K)} {order smooth : Option ℕ} (b : RZLine K × K) : ∀ ss : List ℕ,
    (∀ s ∈ ss, ∃ c, lineCandidate e pts order smooth s = .ok c ∧ b.2 ≤ c.2) → bestLine e pts order smooth ss (some b) = .ok (some b)
  | [], _ => rfl
  | s :: ss, h => by
    obtain ⟨c, hc, hlt⟩ := h s (by simp)
    rw [bestLine, hc]
    simp only [Except.bind, keepBest]
    rw [if_neg (not_lt.2 hlt)]
    exact bestLine_keep b ss fun s' hs' => h s' (by simp [hs'])

/-- **C228 (partial).** Lines on which the nearest points are not the neighbours everywhere: it is enough that every way to the nearest points which for each start is at least as short as one
from there is the line itself, in one of the directions.  Missing: other lines, see `C228_iff` and `C228_fails`. -/
theorem C228_tours_partial (e : RzEnv K) (p : List (K × K)) (h2 : 2 ≤ p.length) (ha : 0 < signedArea p) (order smooth : Option ℕ)
    (ht : ∀ t len, TourOf p t → TourLength e order smooth t len → (∀ q ∈ p, ∃ t' len', TourOf p t' ∧ t'.getD 0 (0, 0) = q ∧ TourLength e order smooth t' len' ∧ len ≤ len') → t ~r p ∨ t ~r p.reverse)
    (pts : List (K × K)) (hp : pts.Perm p) (l : RZLine K) (h : lineFromPoints e pts order smooth false = .ok (some l)) : ∃ k, l.pts = p.rotate k := by
  obtain ⟨l', len, k, e1, _, hc, hmin⟩ := C57_shortest e pts order smooth _ (by rw [hp.length_eq]; omega) h
  obtain rfl : l = l' := Option.some.inj e1
  obtain ⟨t, tp, tN, _, tl⟩ := hc.tour
  obtain ⟨d, hd1, hd2⟩ := hc.length
  obtain ⟨harea, hor⟩ := C54_anticlockwise e t order smooth l tl
  have hr := ht t len ⟨tp.trans hp, tN⟩ ⟨l, d, tl, hd1, hd2⟩ (by
    intro q hq
    obtain ⟨j, hj, hjq⟩ := List.getElem_of_mem (hp.mem_iff.2 hq)
    obtain ⟨l1, len1, hc1, hle⟩ := hmin j hj
    obtain ⟨t1, t1p, t1N, t10, t1l⟩ := hc1.tour
    obtain ⟨d1, hd3, hd4⟩ := hc1.length
    refine ⟨t1, len1, ⟨t1p.trans hp, t1N⟩, ?_, ⟨l1, d1, t1l, hd3, hd4⟩, hle⟩
    rw [t10, ptAt_lt _ hj, List.getD_eq_getElem _ _ hj, hjq])
  have hl : l.pts ~r p ∨ l.pts ~r p.reverse := by
    rcases hor with h1 | h1 <;> rw [h1]
    · exact hr
    · rcases hr with h2 | h2
      · exact Or.inr h2.reverse
      · exact Or.inl (by simpa using h2.reverse)
  rcases hl with h2 | h2
  · obtain ⟨k, hk⟩ := h2.symm
    exact ⟨k, hk.symm⟩
  · obtain ⟨k, hk⟩ := h2.symm
    rw [← hk, signedArea_rotate, signedArea_reverse] at harea
    linarith

/-- **C228.** Exactly when it finds a line again from its points in any order, where no distances are equal (there is one way to the nearest points from each point): if the shortest
of these ways are the line itself. -/
theorem C228_iff (e : RzEnv K) (he : SplrepTotal e) (p : List (K × K)) (h2 : 2 ≤ p.length) (ha : 0 < signedArea p) (order smooth : Option ℕ) (hA : ∀ t, TourOf p t → signedArea t ≠ 0)
    (hu : ∀ t t', TourOf p t → TourOf p t' → t.getD 0 (0, 0) = t'.getD 0 (0, 0) → t = t') :
    (∀ pts : List (K × K), pts.Perm p → ∃ l k, lineFromPoints e pts order smooth false = .ok (some l) ∧ l.pts = p.rotate k) ↔
      ∀ t len, TourOf p t → TourLength e order smooth t len → (∀ t' len', TourOf p t' → TourLength e order smooth t' len' → len ≤ len') → t ~r p ∨ t ~r p.reverse := by
  constructor
  · intro H t len ht hlen hmin
    have hlt : t.length = p.length := ht.1.length_eq
    obtain ⟨l, k, h1, h2'⟩ := H t ht.1
    obtain ⟨c, t', hc, htt, h0, hof, hcl⟩ := candidate_ok he (by omega) ht.1 hA order smooth 0
    have : t' = t := by
      apply hu t' t htt ht
      rw [h0, Nat.sub_zero, ← ptAt_mod, Nat.mod_self, ptAt_lt t (by omega)]
    subst this
    have hbest : bestLine e t' order smooth (List.range t'.length) none = .ok (some c) := by
      obtain ⟨m, hm⟩ : ∃ m, t'.length = m + 1 := ⟨t'.length - 1, by omega⟩
      rw [hm, List.range_succ_eq_map, bestLine, hc]
      simp only [Except.bind, keepBest]
      apply bestLine_keep
      intro s _
      obtain ⟨c1, t1, hc1, ht1, -, -, hl1⟩ := candidate_ok he (by omega) ht.1 hA order smooth s
      refine ⟨c1, hc1, ?_⟩
      rw [tourLength_unique hcl hlen]
      exact hmin t1 c1.2 ht1 hl1
    unfold lineFromPoints at h1
    rw [if_neg (by simp), hbest] at h1
    simp only [Except.map, Option.map_some, Except.ok.injEq, Option.some.injEq] at h1
    rw [h1] at hof
    rcases (C54_anticlockwise e t' order smooth l hof).2 with h3 | h3
    · left
      exact List.IsRotated.symm ⟨k, by rw [← h2', h3]⟩
    · right
      have h4 : t'.reverse ~r p := List.IsRotated.symm ⟨k, by rw [← h2', h3]⟩
      simpa using h4.reverse
  · intro H pts hp
    have hl := hp.length_eq
    obtain ⟨r, hr⟩ : ∃ r, bestLine e pts order smooth (List.range pts.length) none = .ok r := by
      apply bestLine_total
      intro s _
      obtain ⟨c, -, hc, -⟩ := candidate_ok he (by omega) hp hA order smooth s
      exact ⟨c, hc⟩
    have h1 : lineFromPoints e pts order smooth false = .ok (r.map Prod.fst) := by
      unfold lineFromPoints
      rw [if_neg (by simp), hr]
      rfl
    obtain ⟨l, len, k, e1, -⟩ := C57_shortest e pts order smooth _ (by omega) h1
    rw [e1] at h1
    obtain ⟨k, hk⟩ := C228_tours_partial e p h2 ha order smooth (by
      intro t len ht hlen hq
      refine H t len ht hlen ?_
      intro t' len' ht' hlen'
      obtain ⟨t1, len1, g1, g2, g3, g4⟩ := hq (t'.getD 0 (0, 0)) (by
        have hl' : t'.length = p.length := ht'.1.length_eq
        rw [List.getD_eq_getElem _ _ (by omega)]
        exact ht'.1.mem_iff.1 (List.getElem_mem _))
      have := hu t1 t' g1 ht' g2
      subst this
      rwa [tourLength_unique hlen' g3]) pts hp l h1
    exact ⟨l, k, h1, hk⟩

/-! ## Example -/

/-- Three points with different distances. -/
def threePts : List (ℚ × ℚ) := [(0, 0), (3, 0), (0, 2)]

theorem threePts_tours {t : List (ℚ × ℚ)} (h : TourOf threePts t) : t = [(0, 0), (0, 2), (3, 0)] ∨ t = [(3, 0), (0, 0), (0, 2)] ∨ t = [(0, 2), (0, 0), (3, 0)] := by
  have hm := List.mem_permutations'.2 h.1
  have hh := h.2 0 2 (by norm_num) (by rw [h.1.length_eq]; decide)
  have hl : threePts.permutations' = [[(0, 0), (3, 0), (0, 2)], [(3, 0), (0, 0), (0, 2)], [(3, 0), (0, 2), (0, 0)], [(0, 0), (0, 2), (3, 0)], [(0, 2), (0, 0), (3, 0)], [(0, 2), (3, 0), (0, 0)]] := rfl
  rw [hl] at hm
  simp only [List.mem_cons, List.not_mem_nil, or_false] at hm
  rcases hm with rfl | rfl | rfl | rfl | rfl | rfl
  · norm_num [dist2] at hh
  · exact Or.inr (Or.inl rfl)
  · norm_num [dist2] at hh
  · exact Or.inl rfl
  · exact Or.inr (Or.inr rfl)
  · norm_num [dist2] at hh

/-- The hypotheses of the theorems hold for them. -/
example (e : RzEnv ℚ) (he : SplrepTotal e) : ∀ pts : List (ℚ × ℚ), pts.Perm threePts → ∃ l k, lineFromPoints e pts none none false = .ok (some l) ∧ l.pts = threePts.rotate k := by
  refine (C228_iff e he threePts (by decide) (by decide +kernel) none none ?_ ?_).2 ?_
  · intro t ht
    rcases threePts_tours ht with rfl | rfl | rfl <;> norm_num [signedArea, Finset.sum_range_succ]
  · intro t t' ht ht' h
    rcases threePts_tours ht with rfl | rfl | rfl <;> rcases threePts_tours ht' with rfl | rfl | rfl <;> simp at h ⊢
  · intro t len ht _ _
    rcases threePts_tours ht with rfl | rfl | rfl
    · exact Or.inr (by decide +kernel)
    · exact Or.inr (by decide +kernel)
    · exact Or.inl (by decide +kernel)

end Zoidberg
