import Verif.Props.Laplace

/-!
# C116: when the angles are made equally spaced
-/

set_option linter.unusedSectionVars false

namespace Zoidberg

variable {K : Type} [Field K] [LinearOrder K] [IsStrictOrderedRing K] [FloorRing K]

/-- Angles that increase all the way round are at least three. -/
theorem three_of_mono {pi : K} (hpi : 0 < pi) {x : List K} (hne : x ≠ []) (h : ∀ i < x.length, 0 < angleStep pi x i) : 3 ≤ x.length := by
  match x, hne with
  | [a], _ =>
    have := h 0 (by simp)
    unfold angleStep at this
    have e : wrapPi pi (0 : K) = 0 := wrapPi_unique hpi 0 (by linarith) hpi (by simp)
    simp [e] at this
  | [a, b], _ =>
    have h0 := h 0 (by simp)
    have h1 := h 1 (by simp)
    unfold angleStep at h0 h1
    simp only [List.length_cons, List.length_nil, Nat.zero_add, Nat.reduceAdd, Nat.reduceMod, List.getD_cons_zero, List.getD_cons_succ] at h0 h1
    obtain ⟨k0, e0⟩ := wrapPi_eq pi (b - a)
    obtain ⟨r1, r2⟩ := wrapPi_range hpi (b - a)
    have e : wrapPi pi (a - b) = -wrapPi pi (b - a) := wrapPi_unique hpi k0 (by linarith) (by linarith) (by rw [e0]; ring)
    rw [e] at h1
    linarith
  | _ :: _ :: _ :: _, _ => simp

/-- What `maxfac_inner = 1` gives. -/
theorem lapUniform_steps {pi fac : K} (hpi : 0 < pi) {n : ℕ} {x0 y : List K} (h3 : 3 ≤ x0.length) (hu : lapUniform pi x0 ((lapStep pi fac)^[n] x0) = .ok y) :
    ∀ i < y.length, angleStep pi y i = 2 * pi / (x0.length : K) := by
  unfold lapUniform at hu
  simp only at hu
  split at hu
  · cases hu
  · injection hu with hu
    have hl1 : (lapUnrollAll pi ((lapStep pi fac)^[n] x0)).length = x0.length := by
      rw [← iterate_length pi fac n x0]
      cases (lapStep pi fac)^[n] x0 with
      | nil => rfl
      | cons a l => simp [lapUnrollAll, lapUnroll_length]
    generalize lapUnrollAll pi ((lapStep pi fac)^[n] x0) = x1 at hu hl1
    have hlen : y.length = x0.length := by
      rw [← hu]
      simp [linspaceOpen, hl1]
    have hval : ∀ i < y.length, ∃ k : ℤ, y.getD i 0 = x1.sum / (x1.length : K) + (-pi + i * ((pi - -pi) / (x0.length : K))) +
        pi / (x0.length : K) + 2 * pi * k := by
      intro i hi
      have hi' : i < x0.length := by omega
      have : y[i]? = some (npRem (x1.sum / (x1.length : K) + (-pi + i * ((pi - -pi) / (x0.length : K))) +
          pi / (x0.length : K)) (2 * pi)) := by
        rw [← hu, List.getElem?_map, List.getElem?_zipWith, List.getElem?_map]
        unfold linspaceOpen
        rw [List.getElem?_map, List.getElem?_range hi', List.getElem?_eq_getElem (by omega)]
        simp
      rw [List.getD_eq_getElem?_getD, this]
      refine ⟨-⌊(x1.sum / (x1.length : K) + (-pi + i * ((pi - -pi) / (x0.length : K))) +
          pi / (x0.length : K)) / (2 * pi)⌋, ?_⟩
      simp only [Option.getD_some, npRem]
      push_cast
      ring
    intro i hi
    have hn0 : 0 < x0.length := by omega
    have hnK : (0 : K) < x0.length := by exact_mod_cast hn0
    have hn3 : (3 : K) ≤ x0.length := by exact_mod_cast h3
    have hn1 : (x0.length : K) ≠ 0 := hnK.ne'
    have hk : ∃ k : ℤ, angleStep pi y i = 2 * pi / (x0.length : K) + 2 * pi * k := by
      unfold angleStep
      rw [Nat.mod_eq_of_lt hi]
      obtain ⟨k0, e0⟩ := wrapPi_eq pi (y.getD ((i + 1) % y.length) 0 - y.getD i 0)
      obtain ⟨k1, e1⟩ := hval i hi
      obtain ⟨k2, e2⟩ := hval ((i + 1) % y.length) (Nat.mod_lt _ (by omega))
      rw [e0, e1, e2]
      rcases Nat.lt_or_ge (i + 1) y.length with hb | hb
      · rw [Nat.mod_eq_of_lt hb]
        refine ⟨k2 - k1 + k0, ?_⟩
        push_cast
        field_simp
        ring
      · have : i + 1 = y.length := by omega
        rw [this, Nat.mod_self]
        refine ⟨k2 - k1 + k0 - 1, ?_⟩
        have hiK : (i : K) = (x0.length : K) - 1 := by
          have : (i : K) + 1 = (x0.length : K) := by exact_mod_cast (by omega : i + 1 = x0.length)
          linarith
        rw [hiK]
        push_cast
        field_simp
        ring
    obtain ⟨k, hk⟩ := hk
    have hlt : 2 * pi / (x0.length : K) < pi := by
      rw [div_lt_iff₀ hnK]
      nlinarith
    have hpos : 0 < 2 * pi / (x0.length : K) := by positivity
    have hr := wrapPi_range hpi (y.getD ((i + 1) % y.length) 0 - y.getD (i % y.length) 0)
    change -pi ≤ angleStep pi y i ∧ angleStep pi y i < pi at hr
    have hk0 : k = 0 := by
      have b1 : (-1 : K) < k := by nlinarith
      have b2 : (k : K) < 1 := by nlinarith
      have c1 : (-1 : ℤ) < k := by exact_mod_cast b1
      have c2 : k < (1 : ℤ) := by exact_mod_cast b2
      omega
    rw [hk, hk0]
    simp

theorem lapMono_iff (pi : K) (x : List K) : lapMono pi x = true ↔ ∀ i < x.length, 0 < angleStep pi x i := by
  unfold lapMono
  rw [lapNext_eq, List.all_eq_true]
  constructor
  · intro h i hi
    simpa using h _ (List.mem_map.2 ⟨i, List.mem_range.2 hi, rfl⟩)
  · intro h v hv
    obtain ⟨i, hi, rfl⟩ := List.mem_map.1 hv
    rw [decide_eq_true_eq]
    exact h i (List.mem_range.1 hi)

/-- **C116, the exact condition.** Increasing angles are replaced by equally spaced ones exactly if they are not equally spaced already. -/
theorem C116_iff (pi fac : K) (hpi : 0 < pi) (hf0 : 0 ≤ fac) (hf1 : fac ≤ 1 / 2) (steps fuel : ℕ) (x0 : List K) (hne : x0 ≠ [])
    (h : ∀ i < x0.length, 0 < angleStep pi x0 i) :
    Equalises pi fac steps (fuel + 1) x0 ↔ ∃ i < x0.length, ∃ j < x0.length, angleStep pi x0 i ≠ angleStep pi x0 j := by
  have hn := three_of_mono hpi hne h
  constructor
  · intro he
    by_contra hc
    push Not at hc
    exact (C116_fails pi fac hpi hf0 hf1 steps fuel x0 hne (angleStep pi x0 0) (h 0 (by omega)) (fun i hi => hc i hi 0 (by omega))).2 he
  · rintro ⟨i, hi, j, hj, hij⟩
    have hmem : ∀ i < x0.length, angleStep pi x0 i ∈ lapNext pi x0 := by
      intro i hi
      rw [lapNext_eq]
      exact List.mem_map.2 ⟨i, List.mem_range.2 hi, rfl⟩
    have h0m : (lapNext pi x0).getD 0 0 = angleStep pi x0 0 := by
      rw [lapNext_eq]
      exact getD_map_range _ _ (by omega)
    obtain ⟨m0, m1, m2⟩ := foldl_min_spec (lapNext pi x0) ((lapNext pi x0).getD 0 0)
    obtain ⟨M0, M1⟩ := foldl_max_spec (lapNext pi x0) ((lapNext pi x0).getD 0 0)
    have hmin : 0 < (lapNext pi x0).foldl min ((lapNext pi x0).getD 0 0) := by
      have hall : ∀ v ∈ lapNext pi x0, 0 < v := by
        rw [lapNext_eq]
        intro v hv
        obtain ⟨i, hi, rfl⟩ := List.mem_map.1 hv
        exact h i (List.mem_range.1 hi)
      rcases m2 with e | e
      · rw [e, h0m]
        exact h 0 (by omega)
      · exact hall _ e
    have hfac : ¬ lapFac pi x0 - 1 = 0 := by
      intro e
      have e1 : lapFac pi x0 = 1 := by linarith
      unfold lapFac at e1
      simp only at e1
      rw [div_eq_one_iff_eq hmin.ne'] at e1
      have a1 := m1 _ (hmem i hi)
      have a2 := m1 _ (hmem j hj)
      have a3 := M1 _ (hmem i hi)
      have a4 := M1 _ (hmem j hj)
      exact hij (le_antisymm (by linarith) (by linarith))
    have hmono : lapMono pi ((lapStep pi fac)^[steps] x0) = true := by
      have hs : StepsIn pi x0 ((lapNext pi x0).foldl min ((lapNext pi x0).getD 0 0)) ((lapNext pi x0).foldl max ((lapNext pi x0).getD 0 0)) :=
        fun i hi => ⟨m1 _ (hmem i hi), M1 _ (hmem i hi)⟩
      rw [lapMono_iff]
      intro i hi
      exact lt_of_lt_of_le hmin ((lapSteps_keeps hpi hf0 hf1 (by linarith) steps hs).1 i hi).1
    obtain ⟨y, hy⟩ : ∃ y, lapUniform pi x0 ((lapStep pi fac)^[steps] x0) = .ok y := by
      unfold lapUniform
      simp only [hfac, if_false]
      exact ⟨_, rfl⟩
    have hst := lapUniform_steps hpi hn hy
    have hym : lapMono pi y = true := by
      rw [lapMono_iff]
      intro i hi
      rw [hst i hi]
      have : (0 : K) < x0.length := by exact_mod_cast (by omega : 0 < x0.length)
      positivity
    have hok : laplace pi fac steps (some 1) (fuel + 1) x0 = .ok y := by
      unfold laplace lapWhile
      rw [hmono]
      simp only [Bool.not_true, Bool.false_eq_true, if_false, bind, Except.bind]
      unfold lapLimit
      simp only [one_ne_zero, if_false, if_true]
      rw [hy]
      simp only [hym, not_true_eq_false, if_false]
      rfl
    exact ⟨y, hok, C116_equal_partial pi fac hpi steps (fuel + 1) x0 y hok⟩

/-- A case: increasing angles that are not equally spaced. -/
example : Equalises (3 : ℚ) (1 / 10) 2 1 [0, 1, 2, 4] := by
  refine (C116_iff 3 (1 / 10) (by norm_num) (by norm_num) (by norm_num) 2 0 [0, 1, 2, 4] (by simp) (by decide +kernel)).2
    ⟨0, by decide, 2, by decide, by decide +kernel⟩

end Zoidberg
