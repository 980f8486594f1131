import Verif.Props.ReversibleBack
import Verif.Props.DiffOrder
import Mathlib.Analysis.SpecialFunctions.Exp

set_option linter.unusedSectionVars false

/-!
# C244: accuracy of `FieldTracerReversible`
-/

namespace Zoidberg

section
variable {K : Type} [Field K] [LinearOrder K] [IsStrictOrderedRing K]

/-- `n` steps beside a line that satisfies the trapezoidal relation up to `e2`. -/
theorem StepsNear.follow {f : K × K → K → K × K} {Λ : K} (hf : Lip f Λ) {h k c e1 e2 : K} (hk : |h| * Λ / 2 ≤ k) (hk1 : k < 1) (hc : e1 + e2 = 2 * k * c)
    {X : K → K × K} {i : ℕ} : ∀ (n : ℕ) (y : K) (p p' : List (K × K)) (s : K), StepsNear f e1 h n y p p' → i < p.length →
    (∀ m < n, NearTrap f e2 (y + (m : K) * h) h (X (y + (m : K) * h)) (X (y + (m : K) * h + h))) →
    Near (c * (s - 1)) (p.getD i (0, 0)) (X y) → Near (c * (s * ((1 + k) / (1 - k)) ^ n - 1)) (p'.getD i (0, 0)) (X (y + (n : K) * h))
  | 0, y, p, p', s, h1, hi, _, hn => by
    rw [← show p = p' from h1]
    simpa using hn
  | n + 1, y, p, p', s, ⟨r, h1, h2⟩, hi, hX, hn => by
    have t0 := hX 0 (by omega)
    simp only [Nat.cast_zero, zero_mul, add_zero] at t0
    have st := (h1.2 i hi).stable hf hk hk1 t0 hn
    have h0 : (1 - k) ≠ 0 := by linarith
    have e : ((1 + k) * (c * (s - 1)) + (e1 + e2)) / (1 - k) = c * (s * ((1 + k) / (1 - k)) - 1) := by
      rw [hc]
      field_simp
      ring
    rw [e] at st
    have ih := StepsNear.follow hf hk hk1 hc n (y + h) r p' (s * ((1 + k) / (1 - k))) h2 (by rw [h1.1]; exact hi) (by
      intro m hm
      have := hX (m + 1) (by omega)
      have e : y + ((m + 1 : ℕ) : K) * h = y + h + (m : K) * h := by push_cast; ring
      rw [e] at this
      exact this) st
    have e2 : y + ((n + 1 : ℕ) : K) * h = y + h + (n : K) * h := by push_cast; ring
    rw [e2, pow_succ', ← mul_assoc]
    exact ih

/-- The rows of a trace beside such a line. -/
theorem RowsNear.follow {f : K × K → K → K × K} {Λ : K} (hf : Lip f Λ) {H k c e1 e2 : K} (hH : H * Λ / 2 ≤ k) (hΛ : 0 ≤ Λ) (hk1 : k < 1) (hc : e1 + e2 = 2 * k * c)
    {N : ℕ} (hN : N ≠ 0) {S : Set K} (hS : S.OrdConnected) {X : K → K × K}
    (hX : ∀ y h, y ∈ S → y + h ∈ S → |h| ≤ H → NearTrap f e2 y h (X y) (X (y + h))) {L : List K} (hL : ∀ y ∈ L, y ∈ S)
    (hch : L.IsChain (fun a b => |(b - a) / (N : K)| ≤ H)) {R : List (List (K × K))} (hR : RowsNear f e1 N L R) {i : ℕ} (hi : i < (R.getD 0 []).length)
    (h0 : (R.getD 0 []).getD i (0, 0) = X (L.getD 0 0)) : ∀ j < L.length, i < (R.getD j []).length ∧
      Near (c * (((1 + k) / (1 - k)) ^ (N * j) - 1)) ((R.getD j []).getD i (0, 0)) (X (L.getD j 0))
  | 0, _ => ⟨hi, by rw [h0]; unfold Near; simp⟩
  | j + 1, hj => by
    have hN' : (N : K) ≠ 0 := Nat.cast_ne_zero.2 hN
    have hNp : (0 : K) < N := Nat.cast_pos.2 (Nat.pos_of_ne_zero hN)
    obtain ⟨il, ih⟩ := RowsNear.follow hf hH hΛ hk1 hc hN hS hX hL hch hR hi h0 j (by omega)
    have a1 := hR.2 j hj
    have hstep : |(L.getD (j + 1) 0 - L.getD j 0) / (N : K)| ≤ H := by
      rw [List.isChain_iff_getElem] at hch
      have := hch j (by omega)
      rw [List.getD_eq_getElem _ _ hj, List.getD_eq_getElem _ _ (by omega)]
      exact this
    have ma : L.getD j 0 ∈ S := by
      rw [List.getD_eq_getElem _ _ (by omega)]
      exact hL _ (List.getElem_mem _)
    have mb : L.getD (j + 1) 0 ∈ S := by
      rw [List.getD_eq_getElem _ _ hj]
      exact hL _ (List.getElem_mem _)
    refine ⟨by rw [StepsNear.length _ _ _ _ a1]; exact il, ?_⟩
    set a := L.getD j 0
    set b := L.getD (j + 1) 0
    have mem : ∀ m : ℕ, m ≤ N → a + (m : K) * ((b - a) / (N : K)) ∈ S := by
      intro m hm
      have hm' : (m : K) ≤ N := Nat.cast_le.2 hm
      have hm0 : (0 : K) ≤ m := Nat.cast_nonneg m
      have t0 : 0 ≤ (m : K) / N := div_nonneg hm0 hNp.le
      have t1 : (m : K) / N ≤ 1 := (div_le_one hNp).2 hm'
      have e : a + (m : K) * ((b - a) / (N : K)) = a + (m : K) / N * (b - a) := by ring
      rw [e]
      rcases le_total a b with hab | hab
      · exact hS.out ma mb ⟨by nlinarith, by nlinarith⟩
      · exact hS.out mb ma ⟨by nlinarith, by nlinarith⟩
    have := StepsNear.follow hf (k := k) ((div_le_div_of_nonneg_right (mul_le_mul_of_nonneg_right hstep hΛ) (by norm_num)).trans hH) hk1 hc (i := i)
      N a (R.getD j []) (R.getD (j + 1) []) _ a1 il (by
        intro m hm
        have e : a + (m : K) * ((b - a) / (N : K)) + (b - a) / (N : K) = a + ((m + 1 : ℕ) : K) * ((b - a) / (N : K)) := by push_cast; ring
        exact hX _ _ (mem m (by omega)) (by rw [e]; exact mem (m + 1) (by omega)) hstep) ih
    have e : a + (N : K) * ((b - a) / (N : K)) = b := by field_simp; ring
    rw [e] at this
    rw [Nat.mul_succ, pow_add]
    exact this

end

/-- The trapezoidal rule for a function with three derivatives. -/
theorem trapezoid_rule {g : ℝ → ℝ} (hg : ContDiff ℝ 3 g) {S : Set ℝ} (hS : S.OrdConnected) {M : ℝ} (hM : ∀ s ∈ S, |iteratedDeriv 3 g s| ≤ M) {y h : ℝ}
    (hy : y ∈ S) (hyh : y + h ∈ S) : |g (y + h) - g y - h / 2 * (deriv g y + deriv g (y + h))| ≤ 5 / 12 * M * |h| ^ 3 := by
  have t1 := taylor_two hg hS hM hy hyh
  have t2 := taylor_two hg hS hM (x := y + h) (t := -h) hyh (by simpa using hy)
  rw [add_neg_cancel_right, abs_neg] at t2
  have t3 : |iteratedDeriv 2 g (y + h) - iteratedDeriv 2 g y| ≤ M * |h| := by
    have hd : ∀ x ∈ S, HasDerivWithinAt (iteratedDeriv 2 g) (iteratedDeriv 3 g x) S x := by
      intro x _
      have : Differentiable ℝ (iteratedDeriv 2 g) := hg.differentiable_iteratedDeriv 2 (by norm_cast)
      have h3 := (this x).hasDerivAt
      rw [← iteratedDeriv_succ] at h3
      exact h3.hasDerivWithinAt
    have := Convex.norm_image_sub_le_of_norm_hasDerivWithin_le (C := M) hd (fun x hx => by rw [Real.norm_eq_abs]; exact hM x hx)
      (hS.convex) hy hyh
    simpa [Real.norm_eq_abs] using this
  have e : g (y + h) - g y - h / 2 * (deriv g y + deriv g (y + h)) =
      1 / 2 * ((g (y + h) - (g y + deriv g y * h + iteratedDeriv 2 g y * h ^ 2 / 2)) -
        (g y - (g (y + h) + deriv g (y + h) * -h + iteratedDeriv 2 g (y + h) * (-h) ^ 2 / 2)) -
        (iteratedDeriv 2 g (y + h) - iteratedDeriv 2 g y) * h ^ 2 / 2) := by ring
  rw [e, abs_mul, abs_of_pos (by norm_num : (0 : ℝ) < 1 / 2)]
  have i1 := abs_sub ((g (y + h) - (g y + deriv g y * h + iteratedDeriv 2 g y * h ^ 2 / 2)) -
        (g y - (g (y + h) + deriv g (y + h) * -h + iteratedDeriv 2 g (y + h) * (-h) ^ 2 / 2))) ((iteratedDeriv 2 g (y + h) - iteratedDeriv 2 g y) * h ^ 2 / 2)
  have i2 := abs_sub (g (y + h) - (g y + deriv g y * h + iteratedDeriv 2 g y * h ^ 2 / 2))
    (g y - (g (y + h) + deriv g (y + h) * -h + iteratedDeriv 2 g (y + h) * (-h) ^ 2 / 2))
  have i3 : |(iteratedDeriv 2 g (y + h) - iteratedDeriv 2 g y) * h ^ 2 / 2| ≤ M * |h| ^ 3 / 2 := by
    rw [abs_div, abs_mul, abs_of_pos (by norm_num : (0 : ℝ) < 2), abs_pow]
    have := mul_le_mul_of_nonneg_right t3 (pow_nonneg (abs_nonneg h) 2)
    have e : M * |h| * |h| ^ 2 = M * |h| ^ 3 := by ring
    rw [e] at this
    linarith
  linarith

/-- A line of the field. -/
def FieldLine (f : ℝ × ℝ → ℝ → ℝ × ℝ) (X : ℝ → ℝ × ℝ) : Prop :=
  ∀ y, HasDerivAt (fun s => (X s).1) (f (X y) y).1 y ∧ HasDerivAt (fun s => (X s).2) (f (X y) y).2 y

theorem FieldLine.trap {f : ℝ × ℝ → ℝ → ℝ × ℝ} {X : ℝ → ℝ × ℝ} (hX : FieldLine f X) (h1 : ContDiff ℝ 3 fun s => (X s).1) (h2 : ContDiff ℝ 3 fun s => (X s).2)
    {S : Set ℝ} (hS : S.OrdConnected) {M : ℝ} (hM1 : ∀ s ∈ S, |iteratedDeriv 3 (fun s => (X s).1) s| ≤ M) (hM2 : ∀ s ∈ S, |iteratedDeriv 3 (fun s => (X s).2) s| ≤ M)
    {y h : ℝ} (hy : y ∈ S) (hyh : y + h ∈ S) : NearTrap f (5 / 12 * M * |h| ^ 3) y h (X y) (X (y + h)) := by
  have t1 := trapezoid_rule h1 hS hM1 hy hyh
  have t2 := trapezoid_rule h2 hS hM2 hy hyh
  rw [(hX y).1.deriv, (hX (y + h)).1.deriv] at t1
  rw [(hX y).2.deriv, (hX (y + h)).2.deriv] at t2
  exact ⟨t1, t2⟩

/-- The growth of errors over `n` steps. -/
theorem growth_le {k : ℝ} (h0 : 0 ≤ k) (hk : k ≤ 1 / 8) (n : ℕ) : ((1 + k) / (1 - k)) ^ n ≤ Real.exp (16 / 7 * k * n) := by
  have h1 : (1 + k) / (1 - k) ≤ Real.exp (16 / 7 * k) := by
    have e : (1 + k) / (1 - k) = 1 + 2 * k / (1 - k) := by
      have : (1 - k) ≠ 0 := by linarith
      field_simp
      ring
    have h2 : 2 * k / (1 - k) ≤ 16 / 7 * k := by
      rw [div_le_iff₀ (by linarith)]
      nlinarith
    have := Real.add_one_le_exp (16 / 7 * k)
    rw [e]
    linarith
  have h2 := pow_le_pow_left₀ (by apply div_nonneg <;> linarith) h1 n
  rw [← Real.exp_nat_mul] at h2
  have e : (n : ℝ) * (16 / 7 * k) = 16 / 7 * k * n := by ring
  rwa [e] at h2

/-- **C244.** Second order accuracy.  For every field whose direction is Lipschitz with the constant `Λ`, at every value of `y` the
positions that `FieldTracerReversible` returns are those of the field lines, up to
`(3/2 sqrt(rtol) + 5/12 M (D/N)²/Λ) (exp(8/7 Λ D j) - 1)`, where `D` is the largest distance between values of `y`, `N` the number of
sub-steps, `M` bounds the third derivatives of the lines and `j` counts the values of `y`. -/
theorem C244_accurate (f : ℝ × ℝ → ℝ → ℝ × ℝ) (Λ : ℝ) (hΛ : 0 < Λ) (hf : Lip f Λ) (dir : List (ℝ × ℝ) → ℝ → Except Err (List (ℝ × ℝ)))
    (hdir : Pointwise dir f) (rtol eps D M : ℝ) (hr : 0 < rtol) (he : eps ≠ 0) (N : ℕ) (hN : N ≠ 0) (hD : D / N * Λ ≤ 1 / 4)
    (x z : FArr ℝ) (L : List ℝ) (hx : x.Ok) (hz : z.Ok) (hs : shape1 x = shape1 z) (hne : x.data ≠ []) (hL : 2 ≤ L.length)
    (hc : L.IsChain (fun a b => |b - a| ≤ D)) (gx gz : Given) (hgx : Floats gx) (hgz : Floats gz)
    (S : Set ℝ) (hS : S.OrdConnected) (hLS : ∀ y ∈ L, y ∈ S) (X : ℕ → ℝ → ℝ × ℝ) (hX : ∀ i < x.data.length, FieldLine f (X i))
    (hX0 : ∀ i < x.data.length, X i (L.getD 0 0) = (x.data.getD i 0, z.data.getD i 0))
    (hX1 : ∀ i < x.data.length, ContDiff ℝ 3 fun s => (X i s).1) (hX2 : ∀ i < x.data.length, ContDiff ℝ 3 fun s => (X i s).2)
    (hM1 : ∀ i < x.data.length, ∀ s ∈ S, |iteratedDeriv 3 (fun s => (X i s).1) s| ≤ M)
    (hM2 : ∀ i < x.data.length, ∀ s ∈ S, |iteratedDeriv 3 (fun s => (X i s).2) s| ≤ M) :
    ∃ (fuel : ℕ) (R : List (List (ℝ × ℝ))), R.length = L.length ∧
      (∀ m, ∃ r, followReversible dir rtol eps N (fuel + m) x z ⟨[L.length], L⟩ gx gz false = .ok r ∧
        r.result = ⟨[L.length] ++ shape1 x ++ [2], R.flatMap interleave⟩) ∧
      ∀ j < L.length, (R.getD j []).length = x.data.length ∧ ∀ i < x.data.length,
        Near ((3 / 2 * √rtol + 5 / 12 * M * (D / N) ^ 2 / Λ) * (Real.exp (8 / 7 * Λ * D * j) - 1)) ((R.getD j []).getD i (0, 0)) (X i (L.getD j 0)) := by
  have hxz : x.data.length = z.data.length := by rw [← shape1_prod hx, ← shape1_prod hz, hs]
  have hzl : (x.data.zip z.data).length = x.data.length := by rw [List.length_zip, ← hxz, min_self]
  have hp : x.data.zip z.data ≠ [] := by
    intro h0
    rw [h0] at hzl
    exact hne (List.length_eq_zero_iff.1 hzl.symm)
  have hNp : (0 : ℝ) < N := Nat.cast_pos.2 (Nat.pos_of_ne_zero hN)
  obtain ⟨a, l, rfl⟩ : ∃ a l, L = a :: l := by
    cases L with
    | nil => simp at hL
    | cons a l => exact ⟨a, l, rfl⟩
  have hl : l ≠ [] := by rintro rfl; simp at hL
  have hD0 : 0 ≤ D := by
    obtain ⟨b, l', rfl⟩ := List.exists_cons_of_ne_nil hl
    exact (abs_nonneg _).trans (List.isChain_cons_cons.1 hc).1
  have hM0 : 0 ≤ M := by
    have hpos : 0 < x.data.length := List.length_pos_iff.2 hne
    exact (abs_nonneg _).trans (hM1 0 hpos a (hLS a (by simp)))
  set H := D / (N : ℝ) with hH
  have hH0 : 0 ≤ H := div_nonneg hD0 hNp.le
  set k := H * Λ / 2 with hk
  have hk8 : k ≤ 1 / 8 := by rw [hk]; linarith
  have hk0 : 0 ≤ k := by rw [hk]; positivity
  have hcH : (a :: l).IsChain (fun a b => |(b - a) / (N : ℝ)| ≤ H) := hc.imp fun u v h => by
    rw [abs_div, abs_of_pos hNp]
    exact div_le_div_of_nonneg_right h hNp.le
  have hck : (a :: l).IsChain (fun a b => |(b - a) / (N : ℝ)| * Λ / 2 ≤ k) := hcH.imp fun u v h => by
    have := mul_le_mul_of_nonneg_right h hΛ.le
    rw [hk]
    linarith
  have hcs : (a :: l).IsChain (SmallSteps Λ N) := hck.imp fun u v h => by
    unfold SmallSteps
    linarith
  obtain ⟨f1, rs, h1⟩ := revRows_ends hf hdir hr he hN l a _ hp hcs
  have n1 := revRows_near hf hdir he (Real.sqrt_nonneg rtol) (Real.sq_sqrt hr.le).ge hN l a _ rs hck (h1 0)
  have hrowlen : ∀ j < (a :: l).length, ((x.data.zip z.data :: rs).getD j []).length = x.data.length := by
    intro j
    induction j with
    | zero => intro _; simpa using hzl
    | succ j ih =>
      intro hj
      rw [StepsNear.length _ _ _ _ (n1.2 j hj)]
      exact ih (by omega)
  refine ⟨f1, x.data.zip z.data :: rs, n1.1, fun m => followReversible_rows dir rtol eps N _ hs hl gx gz hgx hgz rs (h1 m), ?_⟩
  intro j hj
  refine ⟨hrowlen j hj, ?_⟩
  intro i hi
  set c := 3 / 2 * √rtol + 5 / 12 * M * H ^ 2 / Λ with hcdef
  have hc0 : 0 ≤ c := by rw [hcdef]; positivity
  have key := RowsNear.follow hf (H := H) (k := k) (c := c) (e1 := 3 * k * √rtol) (e2 := 5 / 12 * M * H ^ 3) le_rfl hΛ.le (by linarith)
    (by rw [hcdef, hk]; field_simp) hN hS (X := X i) (by
      intro y h hy hyh hh
      have t := (hX i hi).trap (hX1 i hi) (hX2 i hi) hS (hM1 i hi) (hM2 i hi) hy hyh
      have hle : 5 / 12 * M * |h| ^ 3 ≤ 5 / 12 * M * H ^ 3 := mul_le_mul_of_nonneg_left (pow_le_pow_left₀ (abs_nonneg h) hh 3) (by positivity)
      exact ⟨t.1.trans hle, t.2.trans hle⟩) hLS hcH n1 (i := i) (by rw [hrowlen 0 (by simp)]; exact hi) (by
      rw [hX0 i hi, List.getD_cons_zero, List.getD_eq_getElem _ _ (by rw [hzl]; exact hi), List.getElem_zip,
        List.getD_eq_getElem _ _ hi, List.getD_eq_getElem _ _ (by omega)]) j hj
  refine key.2.mono ?_
  apply mul_le_mul_of_nonneg_left _ hc0
  have g := growth_le hk0 hk8 (N * j)
  have e : 16 / 7 * k * ((N * j : ℕ) : ℝ) = 8 / 7 * Λ * D * j := by
    rw [hk, hH]
    push_cast
    field_simp
    ring
  rw [e] at g
  linarith

/-- The hypotheses of `C244_accurate` can be met: field lines that turn round an axis. -/
example : Lip (fun (q : ℝ × ℝ) (_ : ℝ) => (q.2, -q.1)) 1 ∧ FieldLine (fun (q : ℝ × ℝ) (_ : ℝ) => (q.2, -q.1)) (fun s => (Real.sin s, Real.cos s)) ∧
    (∀ s ∈ Set.Icc (0 : ℝ) 2, |iteratedDeriv 3 (fun s => Real.sin s) s| ≤ 1) ∧ (∀ s ∈ Set.Icc (0 : ℝ) 2, |iteratedDeriv 3 (fun s => Real.cos s) s| ≤ 1) ∧
    (2 : ℝ) / (10 : ℕ) * 1 ≤ 1 / 4 := by
  refine ⟨?_, ?_, ?_, ?_, by norm_num⟩
  · intro e q q' y h
    refine ⟨by simpa using h.2, ?_⟩
    dsimp only
    rw [one_mul, ← abs_neg]
    convert h.1 using 2
    ring
  · intro y
    exact ⟨Real.hasDerivAt_sin y, Real.hasDerivAt_cos y⟩
  · intro s _
    simp only [iteratedDeriv_succ, iteratedDeriv_zero, Real.deriv_sin, Real.deriv_cos', deriv.fun_neg', deriv_neg, abs_neg]
    exact Real.abs_cos_le_one s
  · intro s _
    simp only [iteratedDeriv_succ, iteratedDeriv_zero, Real.deriv_cos', deriv.fun_neg', deriv_neg, Real.deriv_sin, Real.deriv_cos, neg_neg]
    exact Real.abs_sin_le_one s

end Zoidberg
