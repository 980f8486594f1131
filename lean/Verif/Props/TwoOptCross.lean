import Verif.Props.TwoOptLocal

/-!
# C231: the line of `line_from_points_two_opt` can cross itself
-/

set_option linter.unusedSectionVars false

namespace Zoidberg

/-- Two edges of the line cross. -/
def SelfCrossing (pts : List (ℝ × ℝ)) : Prop :=
  ∃ p q, p < q ∧ q < pts.length ∧ Crosses (corner pts p) (corner pts (p + 1)) (corner pts q) (corner pts (q + 1))

/-- The line never crosses itself. -/
def NeverCrosses : Prop := ∀ (e : RzEnv ℝ), e.pi = Real.pi → e.sqrt = Real.sqrt → SplrepTotal e → ∀ argsort : List ℝ → List ℕ, IsArgsort argsort →
  ∀ (opt : ℝ), 0 ≤ opt → opt < 1 → ∀ (fuel : ℕ) (pts : List (ℝ × ℝ)) (l : RZLine ℝ),
    lineFromPointsTwoOpt e (fun y x => Complex.arg ⟨x, y⟩) argsort opt fuel pts none none = .ok l → ¬ SelfCrossing l.pts

/-- **C231.** With `opt=0` all edges that cross are the same two: there is at most one crossing. -/
theorem C231_partial (e : RzEnv ℝ) (he : e.sqrt = Real.sqrt) (atan2 : ℝ → ℝ → ℝ) (argsort : List ℝ → List ℕ) (fuel : ℕ) (pts : List (ℝ × ℝ))
    (order smooth : Option ℕ) (l : RZLine ℝ) (h : lineFromPointsTwoOpt e atan2 argsort 0 fuel pts order smooth = .ok l) :
    ∃ r, (l.pts = r ∨ l.pts = r.reverse) ∧ ∀ p q p' q', p < q → q < r.length → p' < q' → q' < r.length →
      Crosses (corner r p) (corner r (p + 1)) (corner r q) (corner r (q + 1)) →
      Crosses (corner r p') (corner r (p' + 1)) (corner r q') (corner r (q' + 1)) → p = p' ∧ q = q' := by
  obtain ⟨r, hr, hc⟩ := C229_partial e he atan2 argsort fuel pts order smooth l h
  refine ⟨r, hr, ?_⟩
  intro p q p' q' h1 h2 h3 h4 c1 c2
  have e1 : p + 3 = r.length ∧ q + 1 = r.length := by
    by_contra hcon
    exact (hc p q h1 h2 hcon).2 c1
  have e2 : p' + 3 = r.length ∧ q' + 1 = r.length := by
    by_contra hcon
    exact (hc p' q' h3 h4 hcon).2 c2
  omega

/-! ## Five points -/

theorem try_no {c : List (ℝ × ℝ)} {r : List ℕ} {p q : ℕ} (hpq : p < q) (hq : q < r.length)
    (h : cityDist Real.sqrt c (r.getD p 0) (r.getD (p + 1) 0) + cityDist Real.sqrt c (r.getD q 0) (r.getD ((q + 1) % r.length) 0) ≤
      cityDist Real.sqrt c (r.getD p 0) (r.getD q 0) + cityDist Real.sqrt c (r.getD (p + 1) 0) (r.getD ((q + 1) % r.length) 0)) :
    twoOptTry Real.sqrt c (p + 1) (r, pathDist Real.sqrt c r) q = (r, pathDist Real.sqrt c r) := by
  have := pathDist_swap Real.sqrt c r p q hpq hq
  unfold twoOptTry
  dsimp only
  rw [if_neg (by linarith)]

theorem try_yes {c : List (ℝ × ℝ)} {r r' : List ℕ} {p q : ℕ} (hpq : p < q) (hq : q < r.length) (hr : twoOptSwap r (p + 1) q = r')
    (h : cityDist Real.sqrt c (r.getD p 0) (r.getD q 0) + cityDist Real.sqrt c (r.getD (p + 1) 0) (r.getD ((q + 1) % r.length) 0) <
      cityDist Real.sqrt c (r.getD p 0) (r.getD (p + 1) 0) + cityDist Real.sqrt c (r.getD q 0) (r.getD ((q + 1) % r.length) 0)) :
    twoOptTry Real.sqrt c (p + 1) (r, pathDist Real.sqrt c r) q = (r', pathDist Real.sqrt c r') := by
  have := pathDist_swap Real.sqrt c r p q hpq hq
  unfold twoOptTry
  dsimp only
  rw [if_pos (by linarith), hr]

/-- Five points in the order of `line_from_points_fast`. -/
def fivePts : List (ℝ × ℝ) := [(11, 1), (11, 11), (9, 12), (4, 1), (8, 5)]

theorem five_bounds : (11.18 : ℝ) ≤ √125 ∧ √125 ≤ 11.181 ∧ (2.236 : ℝ) ≤ √5 ∧ √5 ≤ 2.237 ∧ (12.206 : ℝ) ≤ √149 ∧ √149 ≤ 12.207 ∧ (6.708 : ℝ) ≤ √45 ∧ √45 ≤ 6.709 ∧
    (12.083 : ℝ) ≤ √146 ∧ √146 ≤ 12.084 ∧ (7.071 : ℝ) ≤ √50 ∧ √50 ≤ 7.072 ∧ (5.656 : ℝ) ≤ √32 ∧ √32 ≤ 5.657 ∧ √100 = (10 : ℝ) ∧ √49 = (7 : ℝ) ∧ √25 = (5 : ℝ) := by
  refine ⟨?_, ?_, ?_, ?_, ?_, ?_, ?_, ?_, ?_, ?_, ?_, ?_, ?_, ?_, ?_, ?_, ?_⟩
  all_goals first
    | (apply Real.le_sqrt_of_sq_le; norm_num)
    | (rw [Real.sqrt_le_left (by norm_num)]; norm_num)
    | (rw [Real.sqrt_eq_iff_mul_self_eq (by norm_num) (by norm_num)]; norm_num)

theorem five_pass0 : twoOptPass Real.sqrt fivePts ([0, 1, 2, 3, 4], pathDist Real.sqrt fivePts [0, 1, 2, 3, 4]) =
    ([0, 3, 4, 1, 2], pathDist Real.sqrt fivePts [0, 3, 4, 1, 2]) := by
  obtain ⟨a1, a2, b1, b2, c1, c2, d1, d2, e1, e2, f1, f2, g1, g2, h1, h2, h3⟩ := five_bounds
  have r1 : pyRange 1 3 = [1, 2] := by decide
  have r2 : pyRange 2 5 = [2, 3, 4] := by decide
  have r3 : pyRange 3 5 = [3, 4] := by decide
  have s1 := try_no (c := fivePts) (r := [0, 1, 2, 3, 4]) (p := 0) (q := 2) (by norm_num) (by norm_num) (by
    norm_num [cityDist, fivePts]; linarith)
  have s2 := try_yes (c := fivePts) (r := [0, 1, 2, 3, 4]) (r' := [0, 3, 2, 1, 4]) (p := 0) (q := 3) (by norm_num) (by norm_num) (by decide) (by
    norm_num [cityDist, fivePts]; linarith)
  have s3 := try_no (c := fivePts) (r := [0, 3, 2, 1, 4]) (p := 0) (q := 4) (by norm_num) (by norm_num) (by
    norm_num [cityDist, fivePts]; linarith)
  have s4 := try_no (c := fivePts) (r := [0, 3, 2, 1, 4]) (p := 1) (q := 3) (by norm_num) (by norm_num) (by
    norm_num [cityDist, fivePts]; linarith)
  have s5 := try_yes (c := fivePts) (r := [0, 3, 2, 1, 4]) (r' := [0, 3, 4, 1, 2]) (p := 1) (q := 4) (by norm_num) (by norm_num) (by decide) (by
    norm_num [cityDist, fivePts]; linarith)
  simp only [zero_add, Nat.reduceAdd] at s1 s2 s3 s4 s5
  unfold twoOptPass
  simp only [List.length_cons, List.length_nil, Nat.reduceAdd, Nat.reduceSub, zero_add]
  rw [r1]
  simp only [List.foldl_cons, List.foldl_nil]
  have i1 : twoOptInner Real.sqrt fivePts ([0, 1, 2, 3, 4], pathDist Real.sqrt fivePts [0, 1, 2, 3, 4]) 1 = ([0, 3, 2, 1, 4], pathDist Real.sqrt fivePts [0, 3, 2, 1, 4]) := by
    unfold twoOptInner
    simp only [List.length_cons, List.length_nil, Nat.reduceAdd, zero_add]
    rw [r2]
    simp only [List.foldl_cons, List.foldl_nil]
    rw [s1, s2, s3]
  rw [i1]
  unfold twoOptInner
  simp only [List.length_cons, List.length_nil, Nat.reduceAdd, zero_add]
  rw [r3]
  simp only [List.foldl_cons, List.foldl_nil]
  rw [s4, s5]

theorem five_pass1 : twoOptPass Real.sqrt fivePts ([0, 3, 4, 1, 2], pathDist Real.sqrt fivePts [0, 3, 4, 1, 2]) =
    ([0, 3, 4, 1, 2], pathDist Real.sqrt fivePts [0, 3, 4, 1, 2]) := by
  obtain ⟨a1, a2, b1, b2, c1, c2, d1, d2, e1, e2, f1, f2, g1, g2, h1, h2, h3⟩ := five_bounds
  have s1 := try_no (c := fivePts) (r := [0, 3, 4, 1, 2]) (p := 0) (q := 2) (by norm_num) (by norm_num) (by
    norm_num [cityDist, fivePts]; linarith)
  have s2 := try_no (c := fivePts) (r := [0, 3, 4, 1, 2]) (p := 0) (q := 3) (by norm_num) (by norm_num) (by
    norm_num [cityDist, fivePts]; linarith)
  have s3 := try_no (c := fivePts) (r := [0, 3, 4, 1, 2]) (p := 0) (q := 4) (by norm_num) (by norm_num) (by
    norm_num [cityDist, fivePts]; linarith)
  have s4 := try_no (c := fivePts) (r := [0, 3, 4, 1, 2]) (p := 1) (q := 3) (by norm_num) (by norm_num) (by
    norm_num [cityDist, fivePts]; linarith)
  have s5 := try_no (c := fivePts) (r := [0, 3, 4, 1, 2]) (p := 1) (q := 4) (by norm_num) (by norm_num) (by
    norm_num [cityDist, fivePts]; linarith)
  simp only [zero_add, Nat.reduceAdd] at s1 s2 s3 s4 s5
  unfold twoOptPass
  apply fold_stay
  intro i hi
  simp only [pyRange, List.mem_range'_1, List.length_cons, List.length_nil] at hi
  unfold twoOptInner
  apply fold_stay
  intro k hk
  simp only [pyRange, List.mem_range'_1, List.length_cons, List.length_nil] at hk
  obtain rfl | rfl : i = 1 ∨ i = 2 := by omega
  · obtain rfl | rfl | rfl : k = 2 ∨ k = 3 ∨ k = 4 := by omega
    · exact s1
    · exact s2
    · exact s3
  · obtain rfl | rfl : k = 3 ∨ k = 4 := by omega
    · exact s4
    · exact s5

/-- For every threshold below one. -/
theorem five_route {opt : ℝ} (h0 : 0 ≤ opt) (h1 : opt < 1) : twoOpt Real.sqrt fivePts opt 3 = .ok [0, 3, 4, 1, 2] := by
  have hr : List.range fivePts.length = [0, 1, 2, 3, 4] := by decide
  unfold twoOpt
  rw [hr, twoOptLoop, if_pos h1]
  dsimp only
  rw [if_neg (by norm_num), five_pass0]
  split_ifs with h2
  · rfl
  · rw [twoOptLoop]
    by_cases h3 : (1 - pathDist Real.sqrt fivePts [0, 3, 4, 1, 2] / pathDist Real.sqrt fivePts [0, 1, 2, 3, 4]) > opt
    · rw [if_pos h3]
      dsimp only
      rw [five_pass1, if_neg (by norm_num)]
      split_ifs with h4
      · rfl
      · rw [twoOptLoop, if_neg]
        dsimp only
        rw [div_self h4, sub_self]
        exact not_lt.2 h0
    · rw [if_neg h3]

theorem arg_lt_of_cross {x y : ℂ} (hx : x ≠ 0) (hy : y ≠ 0) (h : |y.arg - x.arg| < Real.pi) (hc : 0 < x.re * y.im - x.im * y.re) : x.arg < y.arg := by
  have hs : ‖x‖ * ‖y‖ * Real.sin (y.arg - x.arg) = x.re * y.im - x.im * y.re := by
    rw [Real.sin_sub]
    have h1 := Complex.norm_mul_cos_arg x
    have h2 := Complex.norm_mul_sin_arg x
    have h3 := Complex.norm_mul_cos_arg y
    have h4 := Complex.norm_mul_sin_arg y
    rw [← h1, ← h2, ← h3, ← h4]
    ring
  have hn : 0 < ‖x‖ * ‖y‖ := mul_pos (norm_pos_iff.2 hx) (norm_pos_iff.2 hy)
  by_contra hcon
  have := Real.sin_nonpos_of_nonpos_of_neg_pi_le (x := y.arg - x.arg) (by linarith [not_lt.1 hcon]) (abs_lt.1 h).1.le
  nlinarith

/-- The angle about the mean. -/
noncomputable def fiveAngle (p : ℝ × ℝ) : ℝ := Complex.arg ⟨p.2 - 6, p.1 - 43 / 5⟩

theorem five_angles : fiveAngle (8, 5) < fiveAngle (4, 1) ∧ fiveAngle (4, 1) < fiveAngle (9, 12) ∧ fiveAngle (9, 12) < fiveAngle (11, 11) ∧
    fiveAngle (11, 11) < fiveAngle (11, 1) := by
  have hpi := Real.pi_pos
  have ne : ∀ a b : ℝ, a ≠ 0 → (⟨a, b⟩ : ℂ) ≠ 0 := fun a b h h0 => h (congrArg Complex.re h0)
  have a1 : fiveAngle (8, 5) < -(Real.pi / 2) := by
    unfold fiveAngle
    by_contra hcon
    have := (Complex.neg_pi_div_two_le_arg_iff).1 (not_lt.1 hcon)
    norm_num at this
  have a2 : fiveAngle (4, 1) < -(Real.pi / 2) := by
    unfold fiveAngle
    by_contra hcon
    have := (Complex.neg_pi_div_two_le_arg_iff).1 (not_lt.1 hcon)
    norm_num at this
  have a3 : -Real.pi < fiveAngle (8, 5) := Complex.neg_pi_lt_arg _
  have a4 : -Real.pi < fiveAngle (4, 1) := Complex.neg_pi_lt_arg _
  have b1 : 0 ≤ fiveAngle (9, 12) := by
    unfold fiveAngle
    apply Complex.arg_nonneg_iff.2
    norm_num
  have b2 : 0 ≤ fiveAngle (11, 11) := by
    unfold fiveAngle
    apply Complex.arg_nonneg_iff.2
    norm_num
  have b3 : fiveAngle (9, 12) ≤ Real.pi / 2 := by
    unfold fiveAngle
    apply Complex.arg_le_pi_div_two_iff.2
    norm_num
  have b4 : fiveAngle (11, 11) ≤ Real.pi / 2 := by
    unfold fiveAngle
    apply Complex.arg_le_pi_div_two_iff.2
    norm_num
  have c1 : Real.pi / 2 < fiveAngle (11, 1) := by
    unfold fiveAngle
    by_contra hcon
    have := (Complex.arg_le_pi_div_two_iff).1 (not_lt.1 hcon)
    norm_num at this
  refine ⟨?_, by linarith, ?_, by linarith⟩
  · unfold fiveAngle at *
    refine arg_lt_of_cross (ne _ _ (by norm_num)) (ne _ _ (by norm_num)) ?_ (by norm_num)
    rw [abs_lt]
    constructor <;> linarith
  · unfold fiveAngle at *
    refine arg_lt_of_cross (ne _ _ (by norm_num)) (ne _ _ (by norm_num)) ?_ (by norm_num)
    rw [abs_lt]
    constructor <;> linarith

theorem five_sorted {argsort : List ℝ → List ℕ} (ha : IsArgsort argsort) :
    takePts fivePts (argsort (fivePts.map fun p => Complex.arg ⟨p.2 - 6, p.1 - 43 / 5⟩)) = fivePts.reverse := by
  obtain ⟨h1, h2, h3, h4⟩ := five_angles
  refine sorted_unique (f := fiveAngle) ?_ (takePts_sorted (f := fiveAngle) ha) ?_
  · refine (takePts_perm ?_).trans (List.reverse_perm _).symm
    have := (ha (fivePts.map fiveAngle)).1
    rwa [List.length_map] at this
  · simp only [fivePts, List.reverse_cons, List.reverse_nil, List.nil_append, List.cons_append, List.map_cons, List.map_nil]
    simp only [List.pairwise_cons, List.mem_cons, List.not_mem_nil, or_false, forall_eq_or_imp, forall_eq, List.Pairwise.nil, and_true,
      false_implies, implies_true]
    exact ⟨⟨h1, h1.trans h2, (h1.trans h2).trans h3, ((h1.trans h2).trans h3).trans h4⟩, ⟨h2, h2.trans h3, (h2.trans h3).trans h4⟩, ⟨h3, h3.trans h4⟩, h4⟩

/-- The points of the line that is returned. -/
def fiveLine : List (ℝ × ℝ) := [(11, 1), (4, 1), (8, 5), (11, 11), (9, 12)]

/-- **C231.** For every threshold these five points are made into a line that crosses itself. -/
theorem C231_crossing (e : RzEnv ℝ) (hsq : e.sqrt = Real.sqrt) (he : SplrepTotal e) (argsort : List ℝ → List ℕ) (ha : IsArgsort argsort) (opt : ℝ) (h0 : 0 ≤ opt)
    (h1 : opt < 1) : ∃ l, lineFromPointsTwoOpt e (fun y x => Complex.arg ⟨x, y⟩) argsort opt 3 fivePts none none = .ok l ∧ SelfCrossing l.pts := by
  have area : 0 < signedArea fivePts := by norm_num [signedArea, fivePts, Finset.sum_range_succ]
  have hrev : signedArea fivePts.reverse < 0 := by rw [signedArea_reverse]; linarith
  obtain ⟨l0, hl0⟩ := ofPts_ok he (p := fivePts.reverse) hrev.ne none none
  have hfast : lineFromPointsFast e (fun y x => Complex.arg ⟨x, y⟩) argsort fivePts none none = .ok l0 := by
    unfold lineFromPointsFast
    have m1 : (fivePts.map Prod.fst).sum / (fivePts.length : ℝ) = 43 / 5 := by norm_num [fivePts]
    have m2 : (fivePts.map Prod.snd).sum / (fivePts.length : ℝ) = 6 := by norm_num [fivePts]
    dsimp only
    rw [m1, m2, five_sorted ha]
    exact hl0
  have hp0 : l0.pts = fivePts := by
    obtain ⟨g1, g2 | g2⟩ := C54_anticlockwise _ _ _ _ _ hl0
    · rw [g2] at g1; linarith
    · rw [g2, List.reverse_reverse]
  have htake : takePts fivePts [0, 3, 4, 1, 2] = fiveLine := by
    simp [takePts, fivePts, fiveLine]
  have larea : signedArea fiveLine ≠ 0 := by norm_num [signedArea, fiveLine, Finset.sum_range_succ]
  obtain ⟨l, hl⟩ := ofPts_ok he (p := fiveLine) larea none none
  refine ⟨l, ?_, ?_⟩
  · unfold lineFromPointsTwoOpt
    rw [hfast]
    simp only [Except.bind]
    rw [hsq, hp0, five_route h0 h1]
    simp only
    rw [htake]
    exact hl
  · obtain ⟨_, g2 | g2⟩ := C54_anticlockwise _ _ _ _ _ hl
    · rw [g2]
      refine ⟨2, 4, by norm_num, by simp [fiveLine], ?_⟩
      refine ⟨by norm_num [corner, fiveLine], 5 / 9, 1 / 3, ?_⟩
      norm_num [corner, fiveLine]
    · rw [g2]
      refine ⟨1, 4, by norm_num, by simp [fiveLine], ?_⟩
      refine ⟨by norm_num [corner, fiveLine], 4 / 9, 2 / 3, ?_⟩
      norm_num [corner, fiveLine]

/-- **C231 (refutation).** -/
theorem C231_fails : ¬ NeverCrosses := by
  intro h
  obtain ⟨argsort, ha⟩ := isArgsort_exists (K := ℝ)
  obtain ⟨l, hl, hc⟩ := C231_crossing ⟨Real.pi, Real.sqrt, fun _ _ _ => .ok fun _ _ => 0⟩ rfl (fun _ _ _ => ⟨_, rfl⟩) argsort ha (1 / 1000) (by norm_num) (by norm_num)
  exact h _ rfl rfl (fun _ _ _ => ⟨_, rfl⟩) argsort ha (1 / 1000) (by norm_num) (by norm_num) 3 fivePts l hl hc

/-- These points meet the hypotheses of `C231_partial`. -/
example (e : RzEnv ℝ) (hsq : e.sqrt = Real.sqrt) (he : SplrepTotal e) (argsort : List ℝ → List ℕ) (ha : IsArgsort argsort) :
    ∃ l, lineFromPointsTwoOpt e (fun y x => Complex.arg ⟨x, y⟩) argsort 0 3 fivePts none none = .ok l :=
  (C231_crossing e hsq he argsort ha 0 le_rfl one_pos).imp fun _ h => h.1

end Zoidberg
