import Verif.Model.PolStructured
import Verif.Props.FindIndex
import Mathlib.Analysis.SpecialFunctions.Pow.Real

/-!
# C49, C112: the metric of the structured poloidal grid
-/

set_option linter.unusedSectionVars false

namespace Zoidberg

variable {K : Type} [Field K] [LinearOrder K] [IsStrictOrderedRing K] [FloorRing K]

/-- The derivatives of `R` and `Z` with respect to the `x` index, then the `z` index, at the
points of the grid. -/
def StrPol.Derivs (g : StrPol K) (Rx Zx Rz Zz : ℕ → ℕ → K) : Prop :=
  ∀ x < g.nx, ∀ z < g.nz, g.getCoordinate (x : K) (z : K) 1 0 = .ok (Rx x z, Zx x z) ∧
    g.getCoordinate (x : K) (z : K) 0 1 = .ok (Rz x z, Zz x z)

/-- They exist: the indices of the grid are in range. -/
theorem StrPol.derivs_exist (g : StrPol K) : ∃ Rx Zx Rz Zz, g.Derivs Rx Zx Rz Zz := by
  refine ⟨fun x z => g.splR 1 0 x (npRem (z : K) (g.nz : K) + (g.nz : K)),
    fun x z => g.splZ 1 0 x (npRem (z : K) (g.nz : K) + (g.nz : K)),
    fun x z => g.splR 0 1 x (npRem (z : K) (g.nz : K) + (g.nz : K)),
    fun x z => g.splZ 0 1 x (npRem (z : K) (g.nz : K) + (g.nz : K)), ?_⟩
  intro x hx z _
  have : ¬ ((x : K) < 0 ∨ (x : K) > (g.nx : K) - 1) := by
    rw [not_or, not_lt, not_lt]
    have : (x : K) + 1 ≤ (g.nx : K) := by exact_mod_cast hx
    exact ⟨by positivity, by linarith⟩
  unfold StrPol.getCoordinate
  constructor <;> rw [if_neg this]

/-- The entries of `g`. -/
theorem polG_eq (nx nz : ℕ) (hx : 0 < nx) (hz : 0 < nz) (a b : K × K) :
    polG nx nz a b = ((nx : K) ^ 2 * (a.1 ^ 2 + a.2 ^ 2), (nx : K) * nz * (a.1 * b.1 + a.2 * b.2),
      (nz : K) ^ 2 * (b.1 ^ 2 + b.2 ^ 2)) := by
  have h1 : (nx : K) ≠ 0 := by exact_mod_cast hx.ne'
  have h2 : (nz : K) ≠ 0 := by exact_mod_cast hz.ne'
  unfold polG
  simp only [Prod.mk.injEq]
  refine ⟨?_, ?_, ?_⟩ <;> field_simp

theorem polDet_eq (nx nz : ℕ) (hx : 0 < nx) (hz : 0 < nz) (a b : K × K) :
    polDet (polG nx nz a b) = ((nx : K) * nz * (a.1 * b.2 - b.1 * a.2)) ^ 2 := by
  rw [polG_eq nx nz hx hz]
  unfold polDet
  ring

theorem pow_pos_aux {a : K} (h : a ≠ 0) : 0 < a ^ 2 := lt_of_le_of_ne (sq_nonneg a) (pow_ne_zero 2 h).symm

/-- When `metric` returns, and what. -/
theorem metric_iff (g : StrPol K) {Rx Zx Rz Zz : ℕ → ℕ → K} (hd : g.Derivs Rx Zx Rz Zz) :
    ((∀ x < g.nx, ∀ z < g.nz, Rx x z * Zz x z - Rz x z * Zx x z ≠ 0) → ∃ m, g.metric = .ok m) ∧
    ∀ m, g.metric = .ok m → (∀ x < g.nx, ∀ z < g.nz, Rx x z * Zz x z - Rz x z * Zx x z ≠ 0) ∧
      ∃ f : String → ℕ → ℕ → K,
        (∀ n ∈ ["dx", "dz", "gxx", "g_xx", "gxz", "g_xz", "gzz", "g_zz"], m n = some (f n)) ∧
        (∀ n, m n ≠ none → n ∈ ["dx", "dz", "gxx", "g_xx", "gxz", "g_xz", "gzz", "g_zz"]) ∧
        ∀ x < g.nx, ∀ z < g.nz,
          let G := polG g.nx g.nz (Rx x z, Zx x z) (Rz x z, Zz x z)
          f "dx" x z = 1 / (g.nx : K) ∧ f "dz" x z = 1 / (g.nz : K) ∧ f "gxx" x z = G.2.2 / polDet G ∧
          f "g_xx" x z = G.1 ∧ f "gxz" x z = -G.2.1 / polDet G ∧ f "g_xz" x z = G.2.1 ∧
          f "gzz" x z = G.1 / polDet G ∧ f "g_zz" x z = G.2.2 := by
  have hm : ∀ x < g.nx, ∀ z < g.nz, g.gAt x z = polG g.nx g.nz (Rx x z, Zx x z) (Rz x z, Zz x z) := by
    intro x hx z hz
    obtain ⟨e1, e2⟩ := hd x hx z hz
    unfold StrPol.gAt StrPol.deriv
    rw [e1, e2]
  constructor
  · intro hr
    unfold StrPol.metric
    rw [if_neg, if_neg, if_neg]
    · exact ⟨_, rfl⟩
    all_goals
      unfold StrPol.allG
      rw [not_not, List.all_eq_true]
      intro x hx
      rw [List.all_eq_true]
      intro z hz
      rw [List.mem_range] at hx hz
      have hx0 : 0 < g.nx := by omega
      have hz0 : 0 < g.nz := by omega
      have hxK : (0 : K) < g.nx := by exact_mod_cast hx0
      have hzK : (0 : K) < g.nz := by exact_mod_cast hz0
      have hj := hr x hx z hz
      rw [decide_eq_true_eq, hm x hx z hz]
    · rw [polDet_eq _ _ hx0 hz0]
      exact pow_pos_aux (mul_ne_zero (mul_ne_zero hxK.ne' hzK.ne') hj)
    · rw [polG_eq _ _ hx0 hz0]
      apply mul_pos (pow_pos hzK 2)
      by_contra hc
      have h1 : Rz x z = 0 := by nlinarith [sq_nonneg (Rz x z), sq_nonneg (Zz x z)]
      have h2 : Zz x z = 0 := by nlinarith [sq_nonneg (Rz x z), sq_nonneg (Zz x z)]
      rw [h1, h2] at hj
      simp at hj
    · rw [polG_eq _ _ hx0 hz0]
      apply mul_pos (pow_pos hxK 2)
      by_contra hc
      have h1 : Rx x z = 0 := by nlinarith [sq_nonneg (Rx x z), sq_nonneg (Zx x z)]
      have h2 : Zx x z = 0 := by nlinarith [sq_nonneg (Rx x z), sq_nonneg (Zx x z)]
      rw [h1, h2] at hj
      simp at hj
  · intro m h
    unfold StrPol.metric at h
    split at h
    · cases h
    · split at h
      · cases h
      · split at h
        · cases h
        · rename_i hdet
          unfold StrPol.allG at hdet
          rw [not_not, List.all_eq_true] at hdet
          injection h with h
          refine ⟨?_, fun n => (m n).getD fun _ _ => 0, ?_, ?_, ?_⟩
          · intro x hx z hz hc
            have := hdet x (List.mem_range.2 hx)
            rw [List.all_eq_true] at this
            have := this z (List.mem_range.2 hz)
            rw [decide_eq_true_eq, hm x hx z hz, polDet_eq _ _ (by omega) (by omega)] at this
            simp only [hc, mul_zero] at this
            norm_num at this
          · intro n hn
            subst h
            simp only [List.mem_cons, List.not_mem_nil, or_false] at hn
            rcases hn with rfl | rfl | rfl | rfl | rfl | rfl | rfl | rfl <;> rfl
          · intro n
            subst h
            unfold StrPol.metricDict
            intro hn
            by_contra hc
            simp only [List.mem_cons, List.not_mem_nil, or_false, not_or] at hc
            obtain ⟨a1, a2, a3, a4, a5, a6, a7, a8⟩ := hc
            apply hn
            rw [if_neg a1, if_neg a2, if_neg a3, if_neg a4, if_neg a5, if_neg a6, if_neg a7, if_neg a8]
          · intro x hx z hz
            subst h
            rw [← hm x hx z hz]
            exact ⟨rfl, rfl, rfl, rfl, rfl, rfl, rfl, rfl⟩

/-- **C112.** `metric` returns exactly if the coordinates are a regular function of the indices
at every point of the grid; the orientation does not matter. -/
theorem C112_regular (g : StrPol K) :
    (∃ m, g.metric = .ok m) ↔ ∀ x < g.nx, ∀ z < g.nz, g.Regular (x : K) (z : K) := by
  obtain ⟨Rx, Zx, Rz, Zz, hd⟩ := g.derivs_exist
  obtain ⟨h1, h2⟩ := metric_iff g hd
  constructor
  · rintro ⟨m, hm⟩ x hx z hz
    obtain ⟨e1, e2⟩ := hd x hx z hz
    exact ⟨_, _, _, _, e1, e2, (h2 m hm).1 x hx z hz⟩
  · intro h
    apply h1
    intro x hx z hz
    obtain ⟨a, b, c, d, r1, r2, r3⟩ := h x hx z hz
    obtain ⟨e1, e2⟩ := hd x hx z hz
    rw [e1, Except.ok.injEq, Prod.mk.injEq] at r1
    rw [e2, Except.ok.injEq, Prod.mk.injEq] at r2
    rw [r1.1, r1.2, r2.1, r2.2]
    exact r3

/-- **C49.** When `metric` returns: it has exactly the eight entries; `g` is the contraction of
the derivatives per unit of the coordinates, positive definite, and the inverse of `ginv`; and
the square of the area of a cell is `(dx dz)² det g`. -/
theorem C49_metric (g : StrPol K) (m : Dict (ℕ → ℕ → K)) (h : g.metric = .ok m)
    (Rx Zx Rz Zz : ℕ → ℕ → K) (hd : g.Derivs Rx Zx Rz Zz) :
    (∀ n, m n ≠ none ↔ n ∈ ["dx", "dz", "gxx", "g_xx", "gxz", "g_xz", "gzz", "g_zz"]) ∧
    ∃ dx dz gxx g_xx gxz g_xz gzz g_zz, m "dx" = some dx ∧ m "dz" = some dz ∧ m "gxx" = some gxx ∧
      m "g_xx" = some g_xx ∧ m "gxz" = some gxz ∧ m "g_xz" = some g_xz ∧ m "gzz" = some gzz ∧ m "g_zz" = some g_zz ∧
      ∀ x < g.nx, ∀ z < g.nz,
        (dx x z * g.nx = 1 ∧ dz x z * g.nz = 1) ∧
        (g_xx x z * dx x z ^ 2 = Rx x z ^ 2 + Zx x z ^ 2 ∧ g_zz x z * dz x z ^ 2 = Rz x z ^ 2 + Zz x z ^ 2 ∧
          g_xz x z * (dx x z * dz x z) = Rx x z * Rz x z + Zx x z * Zz x z) ∧
        (gxx x z * g_xx x z + gxz x z * g_xz x z = 1 ∧ gxx x z * g_xz x z + gxz x z * g_zz x z = 0 ∧
          gxz x z * g_xx x z + gzz x z * g_xz x z = 0 ∧ gxz x z * g_xz x z + gzz x z * g_zz x z = 1) ∧
        (0 < g_xx x z ∧ 0 < g_zz x z ∧ 0 < g_xx x z * g_zz x z - g_xz x z ^ 2) ∧
        (g_xx x z * g_zz x z - g_xz x z ^ 2) * (dx x z * dz x z) ^ 2 =
          (Rx x z * Zz x z - Rz x z * Zx x z) ^ 2 := by
  obtain ⟨hr, f, hf, hk, hv⟩ := (metric_iff g hd).2 m h
  refine ⟨fun n => ⟨hk n, fun hn => by rw [hf n hn]; simp⟩, f "dx", f "dz", f "gxx", f "g_xx", f "gxz", f "g_xz",
    f "gzz", f "g_zz", hf _ (by simp), hf _ (by simp), hf _ (by simp), hf _ (by simp), hf _ (by simp),
    hf _ (by simp), hf _ (by simp), hf _ (by simp), ?_⟩
  intro x hx z hz
  obtain ⟨e1, e2, e3, e4, e5, e6, e7, e8⟩ := hv x hx z hz
  have hj := hr x hx z hz
  have hx0 : 0 < g.nx := by omega
  have hz0 : 0 < g.nz := by omega
  have hxK : (0 : K) < g.nx := by exact_mod_cast hx0
  have hzK : (0 : K) < g.nz := by exact_mod_cast hz0
  rw [e1, e2, e3, e4, e5, e6, e7, e8, polDet_eq _ _ hx0 hz0, polG_eq _ _ hx0 hz0]
  simp only
  generalize Rx x z = a at *
  generalize Zx x z = b at *
  generalize Rz x z = c at *
  generalize Zz x z = d at *
  have hnx := hxK.ne'
  have hnz := hzK.ne'
  have hD : 0 < ((g.nx : K) * g.nz * (a * d - c * b)) ^ 2 :=
    pow_pos_aux (mul_ne_zero (mul_ne_zero hnx hnz) hj)
  refine ⟨⟨by field_simp, by field_simp⟩, ⟨by field_simp, by field_simp, by field_simp⟩,
    ⟨?_, ?_, ?_, ?_⟩, ⟨?_, ?_, ?_⟩, ?_⟩
  · rw [div_mul_eq_mul_div, div_mul_eq_mul_div, ← add_div, div_eq_one_iff_eq hD.ne']; ring
  · rw [div_mul_eq_mul_div, div_mul_eq_mul_div, ← add_div, div_eq_zero_iff]; left; ring
  · rw [div_mul_eq_mul_div, div_mul_eq_mul_div, ← add_div, div_eq_zero_iff]; left; ring
  · rw [div_mul_eq_mul_div, div_mul_eq_mul_div, ← add_div, div_eq_one_iff_eq hD.ne']; ring
  · apply mul_pos (pow_pos hxK 2)
    by_contra hc
    have h1 : a = 0 := by nlinarith [sq_nonneg a, sq_nonneg b]
    have h2 : b = 0 := by nlinarith [sq_nonneg a, sq_nonneg b]
    rw [h1, h2] at hj
    simp at hj
  · apply mul_pos (pow_pos hzK 2)
    by_contra hc
    have h1 : c = 0 := by nlinarith [sq_nonneg c, sq_nonneg d]
    have h2 : d = 0 := by nlinarith [sq_nonneg c, sq_nonneg d]
    rw [h1, h2] at hj
    simp at hj
  · nlinarith
  · field_simp
    ring

/-- **C49** with the square root of the real numbers: the area element of the metric is the area
of a cell. -/
theorem C49_area (g : StrPol ℝ) (m : Dict (ℕ → ℕ → ℝ)) (h : g.metric = .ok m)
    (Rx Zx Rz Zz : ℕ → ℕ → ℝ) (hd : g.Derivs Rx Zx Rz Zz) :
    ∃ dx dz g_xx g_xz g_zz, m "dx" = some dx ∧ m "dz" = some dz ∧ m "g_xx" = some g_xx ∧
      m "g_xz" = some g_xz ∧ m "g_zz" = some g_zz ∧ ∀ x < g.nx, ∀ z < g.nz,
        Real.sqrt (g_xx x z * g_zz x z - g_xz x z ^ 2) * dx x z * dz x z =
          |Rx x z * Zz x z - Rz x z * Zx x z| := by
  obtain ⟨-, dx, dz, gxx, g_xx, gxz, g_xz, gzz, g_zz, h1, h2, -, h4, -, h6, -, h8, hv⟩ :=
    C49_metric g m h Rx Zx Rz Zz hd
  refine ⟨dx, dz, g_xx, g_xz, g_zz, h1, h2, h4, h6, h8, ?_⟩
  intro x hx z hz
  obtain ⟨⟨a1, a2⟩, -, -, ⟨-, -, a3⟩, a4⟩ := hv x hx z hz
  have hxK : (0 : ℝ) < g.nx := by exact_mod_cast (by omega : 0 < g.nx)
  have hzK : (0 : ℝ) < g.nz := by exact_mod_cast (by omega : 0 < g.nz)
  have p1 : 0 < dx x z := by
    by_contra hc
    have := mul_nonpos_of_nonpos_of_nonneg (not_lt.1 hc) hxK.le
    linarith
  have p2 : 0 < dz x z := by
    by_contra hc
    have := mul_nonpos_of_nonpos_of_nonneg (not_lt.1 hc) hzK.le
    linarith
  rw [← Real.sqrt_sq_eq_abs, ← a4, Real.sqrt_mul a3.le, Real.sqrt_sq (mul_pos p1 p2).le]
  ring

/-! ## Examples -/

/-- The 4 × 3 grid has a metric, also the linear one. -/
example : ∃ m, exStr.metric = .ok m :=
  (C112_regular exStr).2 fun x hx z hz => exStr_regular x hx z hz

example : ∃ m, exAff.metric = .ok m := by
  refine (C112_regular exAff).2 fun x hx z hz => ?_
  have h1 : (0 : ℚ) ≤ x := by positivity
  have h2 : (x : ℚ) ≤ (exAff.nx : ℚ) - 1 := by
    have : (x : ℚ) + 1 ≤ (exAff.nx : ℚ) := by exact_mod_cast hx
    linarith
  exact ⟨_, _, _, _, exAff_affine.dx _ _ h1 h2, exAff_affine.dz _ _ h1 h2, by norm_num⟩

/-- A grid that is collapsed to a line has none. -/
def exFlat : StrPol ℚ := ⟨2, 2, fun _ _ => 0, fun _ _ => 0, fun _ _ _ _ => 1, fun _ _ _ _ => 1⟩

example : ¬ ∃ m, exFlat.metric = .ok m := by
  rw [C112_regular]
  intro h
  obtain ⟨a, b, c, d, r1, r2, r3⟩ := h 0 (by decide) 0 (by decide)
  unfold StrPol.getCoordinate at r1 r2
  rw [if_neg (by norm_num [exFlat])] at r1 r2
  simp only [exFlat, Except.ok.injEq, Prod.mk.injEq] at r1 r2
  rw [← r1.1, ← r1.2, ← r2.1, ← r2.2] at r3
  norm_num at r3

/-- The area of a cell of a real grid. -/
noncomputable def exAreaGrid : StrPol ℝ :=
  ⟨2, 2, fun i j => 2 * i + j, fun i j => j - i, fun dx dz x z => if dx = 1 then 2 else if dz = 1 then 1 else 2 * x + z,
    fun dx dz x z => if dx = 1 then -1 else if dz = 1 then 1 else z - x⟩

theorem exAreaGrid_derivs : exAreaGrid.Derivs (fun _ _ => 2) (fun _ _ => -1) (fun _ _ => 1) (fun _ _ => 1) := by
  intro x hx z _
  have : ¬ ((x : ℝ) < 0 ∨ (x : ℝ) > (exAreaGrid.nx : ℝ) - 1) := by
    rw [not_or, not_lt, not_lt]
    have : (x : ℝ) + 1 ≤ (exAreaGrid.nx : ℝ) := by exact_mod_cast hx
    exact ⟨by positivity, by linarith⟩
  unfold StrPol.getCoordinate
  constructor
  · rw [if_neg this]; simp [exAreaGrid]
  · rw [if_neg this]; simp [exAreaGrid]

example : ∃ m, exAreaGrid.metric = .ok m ∧ ∃ dx dz g_xx g_xz g_zz, m "dx" = some dx ∧ m "dz" = some dz ∧
    m "g_xx" = some g_xx ∧ m "g_xz" = some g_xz ∧ m "g_zz" = some g_zz ∧
    Real.sqrt (g_xx 1 1 * g_zz 1 1 - g_xz 1 1 ^ 2) * dx 1 1 * dz 1 1 = 3 := by
  obtain ⟨m, hm⟩ := (metric_iff exAreaGrid exAreaGrid_derivs).1 (by intros; norm_num)
  obtain ⟨dx, dz, a, b, c, h1, h2, h3, h4, h5, h⟩ := C49_area exAreaGrid m hm _ _ _ _ exAreaGrid_derivs
  refine ⟨m, hm, dx, dz, a, b, c, h1, h2, h3, h4, h5, ?_⟩
  rw [h 1 (by simp [exAreaGrid]) 1 (by simp [exAreaGrid])]
  norm_num

end Zoidberg
