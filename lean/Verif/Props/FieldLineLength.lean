import Verif.Model.Diff
import Mathlib.Analysis.InnerProductSpace.PiL2
import Mathlib.Analysis.SpecialFunctions.Trigonometric.Bounds
import Mathlib.Data.List.GetD

/-!
# C67, C124: the length of field lines
-/

set_option linter.unusedSectionVars false

namespace Zoidberg

open Real

/-- The real numbers, with any splines. -/
noncomputable def realLen (spline : List ℝ → List ℝ → Except Err (ℝ → ℝ)) : LenEnv ℝ := ⟨Real.sqrt, Real.cos, Real.sin, spline⟩

/-- The distance of two points. -/
noncomputable def chord (a b : ℝ × ℝ × ℝ) : ℝ :=
  √((b.1 - a.1) ^ 2 + (b.2.1 - a.2.1) ^ 2 + (b.2.2 - a.2.2) ^ 2)

/-- The point as a vector. -/
noncomputable def vec (a : ℝ × ℝ × ℝ) : EuclideanSpace ℝ (Fin 3) := !₂[a.1, a.2.1, a.2.2]

theorem chord_dist (a b : ℝ × ℝ × ℝ) : chord a b = dist (vec b) (vec a) := by
  rw [EuclideanSpace.dist_eq]
  simp [chord, vec, Fin.sum_univ_three, Real.dist_eq, sq_abs]

theorem chord_triangle (a b c : ℝ × ℝ × ℝ) : chord a c ≤ chord a b + chord b c := by
  rw [chord_dist, chord_dist, chord_dist]
  have := dist_triangle (vec c) (vec b) (vec a)
  linarith

theorem stepLen_chord (spline) (a b : ℝ × ℝ × ℝ) : stepLen (realLen spline) a b = chord a b := rfl

theorem chord_self (a : ℝ × ℝ × ℝ) : chord a a = 0 := by rw [chord_dist, dist_self]

/-- The length of a path that is given by a function. -/
theorem pathLen_fn {K : Type} [Field K] (e : LenEnv K) (g : ℕ → K × K × K) (n : ℕ) :
    pathLen e ((List.range (n + 1)).map g) = ∑ i ∈ Finset.range n, stepLen e (g i) (g (i + 1)) := by
  unfold pathLen
  induction n generalizing g with
  | zero => simp
  | succ n ih =>
    have h := ih (fun i => g (i + 1))
    rw [Finset.sum_range_succ']
    have e1 : (List.range (n + 1 + 1)).map g = g 0 :: (List.range (n + 1)).map (fun i => g (i + 1)) := by
      rw [List.range_succ_eq_map]
      simp [Function.comp_def]
    have e2 : (List.range (n + 1)).map (fun i => g (i + 1)) = g 1 :: (List.range n).map (fun i => g (i + 1 + 1)) := by
      rw [List.range_succ_eq_map]
      simp [Function.comp_def]
    rw [e1, List.tail_cons]
    rw [e2] at h ⊢
    rw [List.tail_cons] at h
    rw [List.zipWith_cons_cons, List.sum_cons, h]
    ring

theorem chord_le_sum (g : ℕ → ℝ × ℝ × ℝ) (a n : ℕ) :
    chord (g a) (g (a + n)) ≤ ∑ i ∈ Finset.range n, chord (g (a + i)) (g (a + i + 1)) := by
  induction n with
  | zero => simp [chord_self]
  | succ n ih =>
    rw [Finset.sum_range_succ]
    exact (chord_triangle _ (g (a + n)) _).trans (by rw [← add_assoc]; linarith)

theorem coarse_le_fine (g : ℕ → ℝ × ℝ × ℝ) (r m : ℕ) :
    ∑ k ∈ Finset.range m, chord (g (k * r)) (g ((k + 1) * r)) ≤
      ∑ i ∈ Finset.range (m * r), chord (g i) (g (i + 1)) := by
  induction m with
  | zero => simp
  | succ m ih =>
    rw [Finset.sum_range_succ, Nat.succ_mul, Finset.sum_range_add]
    have := chord_le_sum g (m * r) r
    linarith

/-- What a spline is: it goes through the data points. -/
def Interpolates (spline : List ℝ → List ℝ → Except Err (ℝ → ℝ)) : Prop :=
  ∀ xs vs f, spline xs vs = .ok f → ∀ i < xs.length, f (xs.getD i 0) = vs.getD i 0

/-- The position of point `i` of a field line in Cartesian coordinates. -/
noncomputable def cartesian (rz : List (ℝ × ℝ)) (ys : List ℝ) (i : ℕ) : ℝ × ℝ × ℝ :=
  (cos (ys.getD i 0) * (rz.getD i (0, 0)).1, sin (ys.getD i 0) * (rz.getD i (0, 0)).1, (rz.getD i (0, 0)).2)

theorem getD_map_fst (rz : List (ℝ × ℝ)) (i : ℕ) : (rz.map Prod.fst).getD i 0 = (rz.getD i (0, 0)).1 := by
  rw [List.getD_eq_getElem?_getD, List.getD_eq_getElem?_getD, List.getElem?_map]
  cases rz[i]? <;> rfl

theorem getD_map_snd (rz : List (ℝ × ℝ)) (i : ℕ) : (rz.map Prod.snd).getD i 0 = (rz.getD i (0, 0)).2 := by
  rw [List.getD_eq_getElem?_getD, List.getD_eq_getElem?_getD, List.getElem?_map]
  cases rz[i]? <;> rfl

theorem fine_linspace_getD {n i : ℕ} (h : i < n) :
    (linspaceClosed (0 : ℝ) 1 n).getD i 0 = if n = 1 then 0 else 0 + (i : ℝ) * ((1 - 0) / ((n : ℝ) - 1)) := by
  rw [List.getD_eq_getElem _ _ (by simpa [linspaceClosed] using h)]
  simp [linspaceClosed]

/-- The points of the fine path. -/
theorem finePath_fn {spline} {rz : List (ℝ × ℝ)} {ys : List ℝ} {refine : ℕ} {p : List (ℝ × ℝ × ℝ)}
    (h : finePath (realLen spline) rz ys refine = .ok p) :
    ∃ yi R Z, spline (linspaceClosed 0 1 ys.length) ys = .ok yi ∧ spline ys (rz.map Prod.fst) = .ok R ∧
      spline ys (rz.map Prod.snd) = .ok Z ∧
      p = (List.range ((ys.length - 1) * refine + 1)).map fun i : ℕ =>
        finePoint (realLen spline) R Z (yi (if (ys.length - 1) * refine + 1 = 1 then 0 else
          0 + (i : ℝ) * ((1 - 0) / ((((ys.length - 1) * refine + 1 : ℕ) : ℝ) - 1)))) := by
  unfold finePath fineY at h
  change (((spline _ ys).map _).bind fun yf => (spline ys _).bind fun R => (spline ys _).bind _) = _ at h
  cases h1 : spline (linspaceClosed 0 1 ys.length) ys with
  | error x => rw [h1] at h; cases h
  | ok yi =>
    rw [h1] at h
    simp only [Except.map, Except.bind] at h
    cases h2 : spline ys (rz.map Prod.fst) with
    | error x => rw [h2] at h; cases h
    | ok R =>
      rw [h2] at h
      simp only at h
      cases h3 : spline ys (rz.map Prod.snd) with
      | error x => rw [h3] at h; cases h
      | ok Z =>
        rw [h3] at h
        simp only [Except.ok.injEq] at h
        refine ⟨yi, R, Z, rfl, rfl, rfl, ?_⟩
        rw [← h]
        unfold linspaceClosed
        simp [Function.comp_def]

/-- **C67.** The length is at least that of the polygon through the points of the trace. -/
theorem C67_polygon (spline) (hs : Interpolates spline) (rz : List (ℝ × ℝ)) (ys : List ℝ) (refine : ℕ)
    (hr : 1 ≤ refine) (L : ℝ) (h : fieldLineLength (realLen spline) rz ys refine = .ok L) :
    ∑ k ∈ Finset.range (ys.length - 1), chord (cartesian rz ys k) (cartesian rz ys (k + 1)) ≤ L := by
  unfold fieldLineLength at h
  cases hp : finePath (realLen spline) rz ys refine with
  | error x => rw [hp] at h; cases h
  | ok p =>
    rw [hp] at h
    simp only [Except.map, Except.ok.injEq] at h
    obtain ⟨yi, R, Z, h1, h2, h3, h4⟩ := finePath_fn hp
    rcases Nat.lt_or_ge ys.length 2 with hl | hl
    · -- a single point
      have e : ys.length - 1 = 0 := by omega
      rw [e]
      rw [← h, h4, pathLen_fn, e]
      simp
    · rw [← h, h4, pathLen_fn]
      set g : ℕ → ℝ × ℝ × ℝ := fun i : ℕ =>
        finePoint (realLen spline) R Z (yi (if (ys.length - 1) * refine + 1 = 1 then 0 else
          0 + (i : ℝ) * ((1 - 0) / ((((ys.length - 1) * refine + 1 : ℕ) : ℝ) - 1)))) with hg
      have hnode : ∀ k < ys.length, g (k * refine) = cartesian rz ys k := by
        intro k hk
        have hne : (ys.length - 1) * refine + 1 ≠ 1 := by
          have : 0 < (ys.length - 1) * refine := Nat.mul_pos (by omega) hr
          omega
        have hy : yi (0 + ((k * refine : ℕ) : ℝ) * ((1 - 0) / ((((ys.length - 1) * refine + 1 : ℕ) : ℝ) - 1))) =
            ys.getD k 0 := by
          have h5 := hs _ _ _ h1 k (by simpa [linspaceClosed] using hk)
          rw [fine_linspace_getD hk, if_neg (by omega)] at h5
          rw [← h5]
          congr 2
          have hr' : (refine : ℝ) ≠ 0 := by exact_mod_cast (by omega : refine ≠ 0)
          have hl' : (ys.length : ℝ) - 1 ≠ 0 := by
            have : (2 : ℝ) ≤ ys.length := by exact_mod_cast hl
            intro h0; linarith
          push_cast [Nat.cast_sub (by omega : 1 ≤ ys.length)]
          field_simp
          ring
        have hR := hs _ _ _ h2 k hk
        have hZ := hs _ _ _ h3 k hk
        rw [getD_map_fst] at hR
        rw [getD_map_snd] at hZ
        rw [hg]
        dsimp only
        rw [if_neg hne, hy]
        unfold finePoint cartesian realLen
        dsimp only
        rw [hR, hZ]
      have hle := coarse_le_fine g refine (ys.length - 1)
      refine le_trans (le_of_eq ?_) hle
      refine Finset.sum_congr rfl fun k hk => ?_
      have := Finset.mem_range.1 hk
      rw [hnode k (by omega), hnode (k + 1) (by omega)]

/-- **C67.** The length is at least the distance between the first and the last point. -/
theorem C67_chord (spline) (hs : Interpolates spline) (rz : List (ℝ × ℝ)) (ys : List ℝ) (refine : ℕ)
    (hr : 1 ≤ refine) (L : ℝ) (h : fieldLineLength (realLen spline) rz ys refine = .ok L) :
    chord (cartesian rz ys 0) (cartesian rz ys (ys.length - 1)) ≤ L := by
  have h1 := C67_polygon spline hs rz ys refine hr L h
  have h2 := chord_le_sum (cartesian rz ys) 0 (ys.length - 1)
  simp only [Nat.zero_add] at h2
  exact h2.trans h1

/-- **C67.** The length is the sum of the lengths before and after any of the points. -/
theorem C67_split {K : Type} [Field K] (e : LenEnv K) (p : List (K × K × K)) (k : ℕ) (hk : k < p.length) :
    pathLen e (p.take (k + 1)) + pathLen e (p.drop k) = pathLen e p := by
  have fn : ∀ q : List (K × K × K), q ≠ [] → q = (List.range (q.length - 1 + 1)).map fun i => q.getD i (0, 0, 0) := by
    intro q hq
    have : 0 < q.length := List.length_pos_iff.2 hq
    apply List.ext_getElem
    · simp; omega
    · intro i h1 h2
      simp [List.getElem?_eq_getElem h1]
  have l1 : (p.take (k + 1)).length - 1 = k := by simp; omega
  have l2 : (p.drop k).length - 1 = p.length - 1 - k := by simp; omega
  rw [fn (p.take (k + 1)) (by intro h0; have := congrArg List.length h0; rw [List.length_take, List.length_nil] at this; omega),
    fn (p.drop k) (by intro h0; have := congrArg List.length h0; simp at this; omega)]
  conv_rhs => rw [fn p (by rintro rfl; simp at hk)]
  rw [l1, l2, pathLen_fn, pathLen_fn, pathLen_fn]
  conv_rhs => rw [show p.length - 1 = k + (p.length - 1 - k) by omega, Finset.sum_range_add]
  congr 1
  · refine Finset.sum_congr rfl fun i hi => ?_
    have := Finset.mem_range.1 hi
    have e1 : ∀ j < k + 1, (p.take (k + 1)).getD j (0, 0, 0) = p.getD j (0, 0, 0) := by
      intro j hj
      rw [List.getD_eq_getElem _ _ (by simp; omega), List.getD_eq_getElem _ _ (by omega), List.getElem_take]
    rw [e1 i (by omega), e1 (i + 1) (by omega)]
  · refine Finset.sum_congr rfl fun i hi => ?_
    have := Finset.mem_range.1 hi
    have e1 : ∀ j, j + k < p.length → (p.drop k).getD j (0, 0, 0) = p.getD (k + j) (0, 0, 0) := by
      intro j hj
      rw [List.getD_eq_getElem _ _ (by simp; omega), List.getD_eq_getElem _ _ (by omega), List.getElem_drop]
    rw [e1 i (by omega), e1 (i + 1) (by omega), ← add_assoc]

/-! ## C124 -/

/-- What cubic splines do as well: through points on a straight line they are the straight line. -/
def ReproducesLines (spline : List ℝ → List ℝ → Except Err (ℝ → ℝ)) : Prop :=
  ∀ (a b : ℝ) xs vs f, 2 ≤ xs.length → spline xs vs = .ok f → (∀ i < xs.length, vs.getD i 0 = a * xs.getD i 0 + b) →
    ∀ x, f x = a * x + b

/-- The distance of two points on a circle. -/
theorem chord_circle (R Z a b : ℝ) :
    chord (cos a * R, sin a * R, Z) (cos b * R, sin b * R, Z) = 2 * |R| * |sin ((b - a) / 2)| := by
  unfold chord
  have h1 : (cos b * R - cos a * R) ^ 2 + (sin b * R - sin a * R) ^ 2 + (Z - Z) ^ 2 = (2 * R * sin ((b - a) / 2)) ^ 2 := by
    have hc : cos (b - a) = 1 - 2 * sin ((b - a) / 2) ^ 2 := by
      have h2 := cos_two_mul ((b - a) / 2)
      have h3 := sin_sq_add_cos_sq ((b - a) / 2)
      rw [show 2 * ((b - a) / 2) = b - a by ring] at h2
      linarith
    have hs := cos_sub b a
    have ha := sin_sq_add_cos_sq a
    have hb := sin_sq_add_cos_sq b
    have : cos b * cos a + sin b * sin a = 1 - 2 * sin ((b - a) / 2) ^ 2 := by rw [← hs, hc]
    linear_combination R ^ 2 * ha + R ^ 2 * hb - 2 * R ^ 2 * this
  dsimp only
  rw [h1, sqrt_sq_eq_abs, abs_mul, abs_mul, abs_two]

/-- **C124.** The length of a circular field line is that of the inscribed polygon with `(n-1) refine`
sides; it is at most the length of the arc, and the difference is of second order in the length of a side. -/
theorem C124_circle (spline) (hs : ReproducesLines spline) (R Z y0 h : ℝ) (n refine : ℕ) (hn : 2 ≤ n) (hr : 1 ≤ refine)
    (L : ℝ) (hL : fieldLineLength (realLen spline) (List.replicate n (R, Z)) ((List.range n).map fun i : ℕ => y0 + i * h)
      refine = .ok L) :
    L = ((n - 1) * refine : ℕ) * (2 * |R| * |sin (h / refine / 2)|) ∧ L ≤ |R| * ((n - 1 : ℕ) * |h|) ∧
      |R| * ((n - 1 : ℕ) * |h|) * (1 - (h / refine / 2) ^ 2 / 6) ≤ L := by
  set ys := (List.range n).map fun i : ℕ => y0 + i * h with hys
  have hlen : ys.length = n := by simp [hys]
  have hyi : ∀ i < n, ys.getD i 0 = y0 + i * h := by
    intro i hi
    rw [List.getD_eq_getElem _ _ (by omega)]
    simp [hys]
  have hr' : (0 : ℝ) < refine := by exact_mod_cast hr
  have hn1 : ((n - 1 : ℕ) : ℝ) = (n : ℝ) - 1 := by push_cast [Nat.cast_sub (by omega : 1 ≤ n)]; ring
  have hn2 : (0 : ℝ) < (n : ℝ) - 1 := by
    have : (2 : ℝ) ≤ n := by exact_mod_cast hn
    linarith
  have heq : L = ((n - 1) * refine : ℕ) * (2 * |R| * |sin (h / refine / 2)|) := by
    unfold fieldLineLength at hL
    cases hp : finePath (realLen spline) (List.replicate n (R, Z)) ys refine with
    | error x => rw [hp] at hL; cases hL
    | ok p =>
      rw [hp] at hL
      simp only [Except.map, Except.ok.injEq] at hL
      obtain ⟨yi, Rf, Zf, h1, h2, h3, h4⟩ := finePath_fn hp
      have hy : ∀ t, yi t = ((n : ℝ) - 1) * h * t + y0 := by
        refine hs _ _ _ _ _ (by simpa [linspaceClosed, hlen] using hn) h1 fun i hi => ?_
        have hi' : i < n := by simpa [linspaceClosed, hlen] using hi
        rw [hlen, fine_linspace_getD hi', if_neg (by omega), hyi i hi']
        field_simp
        ring
      have hR : ∀ t, Rf t = 0 * t + R := by
        refine hs _ _ _ _ _ (by omega) h2 fun i hi => ?_
        have hi' : i < n := by omega
        rw [getD_map_fst, List.getD_eq_getElem _ _ (by simpa using hi')]
        simp
      have hZ : ∀ t, Zf t = 0 * t + Z := by
        refine hs _ _ _ _ _ (by omega) h3 fun i hi => ?_
        have hi' : i < n := by omega
        rw [getD_map_snd, List.getD_eq_getElem _ _ (by simpa using hi')]
        simp
      rw [← hL, h4, pathLen_fn, hlen]
      have hne : (n - 1) * refine + 1 ≠ 1 := by
        have : 0 < (n - 1) * refine := Nat.mul_pos (by omega) hr
        omega
      have hstep : ∀ i ∈ Finset.range ((n - 1) * refine),
          stepLen (realLen spline)
            (finePoint (realLen spline) Rf Zf (yi (if (n - 1) * refine + 1 = 1 then 0 else
              0 + (i : ℝ) * ((1 - 0) / ((((n - 1) * refine + 1 : ℕ) : ℝ) - 1)))))
            (finePoint (realLen spline) Rf Zf (yi (if (n - 1) * refine + 1 = 1 then 0 else
              0 + ((i + 1 : ℕ) : ℝ) * ((1 - 0) / ((((n - 1) * refine + 1 : ℕ) : ℝ) - 1))))) =
          2 * |R| * |sin (h / refine / 2)| := by
        intro i _
        rw [if_neg hne, if_neg hne, hy, hy, stepLen_chord]
        unfold finePoint realLen
        dsimp only
        simp only [hR, hZ, zero_mul, zero_add]
        rw [chord_circle]
        congr 3
        push_cast
        rw [hn1]
        field_simp
        ring
      rw [Finset.sum_congr rfl hstep, Finset.sum_const, Finset.card_range, nsmul_eq_mul]
  have hprod : (((n - 1) * refine : ℕ) : ℝ) * (2 * |R| * |h / refine / 2|) = |R| * ((n - 1 : ℕ) * |h|) := by
    rw [abs_div, abs_div, abs_two, abs_of_pos hr']
    push_cast
    field_simp
  refine ⟨heq, ?_, ?_⟩
  · rw [heq, ← hprod]
    have := Real.abs_sin_le_abs (x := h / refine / 2)
    have h0 := abs_nonneg R
    gcongr
  · rw [heq, ← hprod]
    set x := h / refine / 2
    have h0 := abs_nonneg R
    have key : |x| * (1 - x ^ 2 / 6) ≤ |sin x| := by
      rcases eq_or_ne x 0 with hx0 | hx0
      · rw [hx0]; simp
      · have h1 := Real.sin_gt_sub_cube (abs_pos.2 hx0)
        have h2 : sin |x| ≤ |sin x| := by
          rcases abs_cases x with ⟨e, -⟩ | ⟨e, -⟩
          · rw [e]; exact le_abs_self _
          · rw [e, sin_neg]; exact neg_le_abs _
        have h3 : |x| * (1 - x ^ 2 / 6) = |x| - |x| ^ 3 / 6 := by rw [← sq_abs x]; ring
        rw [h3]
        linarith
    have h2 : 0 ≤ (((n - 1) * refine : ℕ) : ℝ) * (2 * |R|) := by positivity
    calc _ = (((n - 1) * refine : ℕ) : ℝ) * (2 * |R|) * (|x| * (1 - x ^ 2 / 6)) := by ring
      _ ≤ (((n - 1) * refine : ℕ) : ℝ) * (2 * |R|) * |sin x| := mul_le_mul_of_nonneg_left key h2
      _ = _ := by ring

/-- Straight lines between the first and the last point, for a non-trivial case of both assumptions with
two points. -/
noncomputable def exSpline (xs vs : List ℝ) : Except Err (ℝ → ℝ) :=
  if xs.length = 2 ∧ xs.getD 0 0 < xs.getD 1 0 then
    .ok fun x => vs.getD 0 0 + (x - xs.getD 0 0) / (xs.getD 1 0 - xs.getD 0 0) * (vs.getD 1 0 - vs.getD 0 0)
  else .error (.value "two increasing values")

theorem exSpline_ok : Interpolates exSpline ∧ ReproducesLines exSpline := by
  constructor
  · intro xs vs f h i hi
    unfold exSpline at h
    split_ifs at h with hc
    injection h with h
    have hd : xs.getD 1 0 - xs.getD 0 0 ≠ 0 := sub_ne_zero.2 hc.2.ne'
    have : i = 0 ∨ i = 1 := by omega
    rcases this with rfl | rfl <;> rw [← h]
    · simp
    · dsimp only
      rw [div_self hd]
      ring
  · intro a b xs vs f _ h hv x
    unfold exSpline at h
    split_ifs at h with hc
    injection h with h
    have hd : xs.getD 1 0 - xs.getD 0 0 ≠ 0 := sub_ne_zero.2 hc.2.ne'
    rw [← h, hv 0 (by omega), hv 1 (by omega)]
    field_simp
    ring

/-- Half a turn in a hundred steps: the length exists. -/
example : ∃ L, fieldLineLength (realLen exSpline) (List.replicate 2 (1, 0)) ((List.range 2).map fun i : ℕ => 0 + i * π) 100 =
    .ok L := by
  have h1 : exSpline (linspaceClosed 0 1 2) [0, π] = .ok _ := if_pos (by simp [linspaceClosed, List.range_succ])
  have h2 : exSpline [0, π] [1, 1] = .ok _ := if_pos (by simp [pi_pos])
  have h3 : exSpline [0, π] [0, 0] = .ok _ := if_pos (by simp [pi_pos])
  have hy : ((List.range 2).map fun i : ℕ => 0 + (i : ℝ) * π) = [0, π] := by simp [List.range_succ]
  rw [hy]
  unfold fieldLineLength finePath fineY
  simp only [List.length_cons, List.length_nil, List.replicate, List.map_cons, List.map_nil]
  change ∃ L, Except.map _ (((exSpline (linspaceClosed 0 1 2) [0, π]).map _).bind fun yf =>
    (exSpline [0, π] [1, 1]).bind fun R => (exSpline [0, π] [0, 0]).bind _) = _
  rw [h1, h2, h3]
  exact ⟨_, rfl⟩

end Zoidberg
