import Verif.Model.MmsGrid
import Mathlib.Analysis.SpecialFunctions.Trigonometric.Angle
import Mathlib.Analysis.SpecialFunctions.Trigonometric.Bounds
import Mathlib.Tactic.Positivity
import Mathlib.Tactic.FieldSimp
import Mathlib.Tactic.LinearCombination

/-!
# The grids of the convergence tests (C287)
-/

set_option linter.unusedSectionVars false

namespace Zoidberg

/-- A change of the angle that keeps the order of the points and the full turn. -/
structure Turn (g : ℝ → ℝ) : Prop where
  period : ∀ x, g (x + 2 * Real.pi) = g x + 2 * Real.pi
  lower : ∀ x h, 0 ≤ h → h / 5 ≤ g (x + h) - g x
  upper : ∀ x h, 0 ≤ h → g (x + h) - g x ≤ 9 / 5 * h

theorem abs_sin_sub (a b : ℝ) : |Real.sin a - Real.sin b| ≤ |a - b| := by
  rw [Real.sin_sub_sin, abs_mul, abs_mul, abs_two]
  have h1 := Real.abs_cos_le_one ((a + b) / 2)
  have h2 : |Real.sin ((a - b) / 2)| ≤ |(a - b) / 2| := Real.abs_sin_le_abs
  rw [abs_div, abs_two] at h2
  nlinarith [abs_nonneg (Real.sin ((a - b) / 2)), abs_nonneg (Real.cos ((a + b) / 2))]

theorem abs_cos_sub (a b : ℝ) : |Real.cos a - Real.cos b| ≤ |a - b| := by
  rw [← Real.sin_pi_div_two_sub a, ← Real.sin_pi_div_two_sub b]
  refine (abs_sin_sub _ _).trans (le_of_eq ?_)
  rw [show Real.pi / 2 - a - (Real.pi / 2 - b) = -(a - b) by ring, abs_neg]

theorem turn_add (c : ℝ) : Turn fun x => x + c :=
  ⟨fun x => by ring, fun x h hh => by linarith, fun x h hh => by linarith⟩

theorem turn_of (w : ℝ → ℝ) (hp : ∀ x, w (x + 2 * Real.pi) = w x) (hl : ∀ x h, 0 ≤ h → |w (x + h) - w x| ≤ 4 / 5 * h) : Turn fun x => x + w x := by
  refine ⟨fun x => ?_, fun x h hh => ?_, fun x h hh => ?_⟩
  · show x + 2 * Real.pi + w (x + 2 * Real.pi) = _
    rw [hp]; ring
  · have := abs_le.1 (hl x h hh)
    show h / 5 ≤ x + h + w (x + h) - (x + w x)
    linarith [this.1]
  · have := abs_le.1 (hl x h hh)
    show x + h + w (x + h) - (x + w x) ≤ 9 / 5 * h
    linarith [this.2]

theorem turn_var (m : ℕ) : Turn (mmsVar m) := by
  have e : (mmsNonlin : ℝ) = 4 / 5 := by unfold mmsNonlin; norm_num
  have hid : Turn fun x : ℝ => x := ⟨fun x => rfl, fun x h hh => by linarith, fun x h hh => by linarith⟩
  have bound : ∀ (a h : ℝ), 0 ≤ h → |a| ≤ h → |a * mmsNonlin| ≤ 4 / 5 * h := fun a h _ ha => by
    rw [abs_mul, e, abs_of_pos (by norm_num : (0 : ℝ) < 4 / 5)]; linarith
  match m with
  | 0 => exact hid
  | 1 =>
    refine turn_of (fun x => Real.sin x * mmsNonlin) (fun x => by rw [Real.sin_add_two_pi]) fun x h hh => ?_
    rw [← sub_mul]
    refine bound _ _ hh ((abs_sin_sub _ _).trans (le_of_eq ?_))
    rw [show x + h - x = h by ring, abs_of_nonneg hh]
  | 2 =>
    refine turn_of (fun x => Real.cos x * mmsNonlin) (fun x => by rw [Real.cos_add_two_pi]) fun x h hh => ?_
    rw [← sub_mul]
    refine bound _ _ hh ((abs_cos_sub _ _).trans (le_of_eq ?_))
    rw [show x + h - x = h by ring, abs_of_nonneg hh]
  | 3 =>
    refine turn_of (fun x => Real.cos (x * 2) / 2 * mmsNonlin) (fun x => ?_) fun x h hh => ?_
    · rw [show (x + 2 * Real.pi) * 2 = x * 2 + 2 * Real.pi + 2 * Real.pi by ring, Real.cos_add_two_pi, Real.cos_add_two_pi]
    · rw [← sub_mul, ← sub_div]
      refine bound _ _ hh ?_
      rw [abs_div, abs_two, div_le_iff₀ two_pos]
      refine (abs_cos_sub _ _).trans (le_of_eq ?_)
      rw [show (x + h) * 2 - x * 2 = h * 2 by ring, abs_of_nonneg (by linarith)]
  | 4 =>
    refine turn_of (fun x => Real.sin x / 2 * mmsNonlin) (fun x => by rw [Real.sin_add_two_pi]) fun x h hh => ?_
    rw [← sub_mul, ← sub_div]
    refine bound _ _ hh ?_
    rw [abs_div, abs_two, div_le_iff₀ two_pos]
    refine (abs_sin_sub _ _).trans ?_
    rw [show x + h - x = h by ring, abs_of_nonneg hh]; linarith
  | n + 5 => exact hid

theorem cos_mmsMod (a : ℝ) : Real.cos (mmsMod a) = Real.cos a := by
  unfold mmsMod
  rw [show a - 2 * Real.pi * (⌊a / (2 * Real.pi)⌋ : ℝ) = a - (⌊a / (2 * Real.pi)⌋ : ℤ) * (2 * Real.pi) by ring]
  exact Real.cos_sub_int_mul_two_pi _ _

theorem sin_mmsMod (a : ℝ) : Real.sin (mmsMod a) = Real.sin a := by
  unfold mmsMod
  rw [show a - 2 * Real.pi * (⌊a / (2 * Real.pi)⌋ : ℝ) = a - (⌊a / (2 * Real.pi)⌋ : ℤ) * (2 * Real.pi) by ring]
  exact Real.sin_sub_int_mul_two_pi _ _

/-- The angles of a row are those of a turn. -/
theorem theta_turn (f : MmsFile) (mode : ℕ) (r0 r1 : ℝ) (nx nz i : ℕ) : ∃ g, Turn g ∧ ∀ k, Real.cos (mmsTheta f mode r0 r1 nx nz i k) = Real.cos (g (mmsAngle nz k)) ∧
    Real.sin (mmsTheta f mode r0 r1 nx nz i k) = Real.sin (g (mmsAngle nz k)) := by
  have hid : ∃ g, Turn g ∧ ∀ k, Real.cos (mmsAngle nz k) = Real.cos (g (mmsAngle nz k)) ∧ Real.sin (mmsAngle nz k) = Real.sin (g (mmsAngle nz k)) :=
    ⟨_, turn_add 0, fun k => by simp⟩
  have hadd : ∀ c : ℝ, ∃ g, Turn g ∧ ∀ k, Real.cos (mmsAngle nz k + c) = Real.cos (g (mmsAngle nz k)) ∧ Real.sin (mmsAngle nz k + c) = Real.sin (g (mmsAngle nz k)) :=
    fun c => ⟨_, turn_add c, fun k => ⟨rfl, rfl⟩⟩
  unfold mmsTheta
  split
  · refine ⟨_, turn_add _, fun k => ⟨cos_mmsMod _, sin_mmsMod _⟩⟩
  · exact ⟨_, turn_var _, fun k => ⟨rfl, rfl⟩⟩
  · exact hadd _
  · exact hadd _
  · exact hid

theorem mmsAngle_lt (nz k k' : ℕ) (h : k < k') (h' : k' < nz) : ∃ d, 0 < d ∧ d < 2 * Real.pi ∧ mmsAngle nz k' = mmsAngle nz k + d := by
  have hn : (0 : ℝ) < nz := by exact_mod_cast (by omega : 0 < nz)
  refine ⟨((k' : ℝ) - k) * (2 * Real.pi / nz), ?_, ?_, by unfold mmsAngle; ring⟩
  · have : (k : ℝ) < k' := by exact_mod_cast h
    have := Real.pi_pos
    apply mul_pos (by linarith); positivity
  · have h1 : (k' : ℝ) - k < nz := by
      have : (k' : ℝ) < nz := by exact_mod_cast h'
      have : (0 : ℝ) ≤ k := by positivity
      linarith
    have h2 : 0 < 2 * Real.pi / nz := by have := Real.pi_pos; positivity
    calc ((k' : ℝ) - k) * (2 * Real.pi / nz) < nz * (2 * Real.pi / nz) := mul_lt_mul_of_pos_right h1 h2
      _ = 2 * Real.pi := by field_simp

theorem turn_apart {g : ℝ → ℝ} (hg : Turn g) (x d : ℝ) (h0 : 0 < d) (h1 : d < 2 * Real.pi) (hc : Real.cos (g x) = Real.cos (g (x + d)))
    (hs : Real.sin (g x) = Real.sin (g (x + d))) : False := by
  have ha := Real.Angle.cos_sin_inj hc.symm hs.symm
  obtain ⟨n, hn⟩ := Real.Angle.angle_eq_iff_two_pi_dvd_sub.1 ha
  have l := hg.lower x d h0.le
  have u := hg.lower (x + d) (2 * Real.pi - d) (by linarith)
  rw [show x + d + (2 * Real.pi - d) = x + 2 * Real.pi by ring, hg.period] at u
  have hp := Real.pi_pos
  have n0 : (0 : ℝ) < n := by
    by_contra hh
    have : 2 * Real.pi * (n : ℝ) ≤ 0 := mul_nonpos_of_nonneg_of_nonpos (by linarith) (not_lt.1 hh)
    linarith
  have n1 : (n : ℝ) < 1 := by
    by_contra hh
    have : 2 * Real.pi * 1 ≤ 2 * Real.pi * (n : ℝ) := mul_le_mul_of_nonneg_left (not_lt.1 hh) (by linarith)
    linarith
  have : (0 : ℤ) < n := by exact_mod_cast n0
  have : n < (1 : ℤ) := by exact_mod_cast n1
  omega

theorem mmsLin_lt (r0 r1 : ℝ) (nx i i' : ℕ) (hr : r0 < r1) (h : i < i') (h' : i' < nx) : mmsLin r0 r1 nx i < mmsLin r0 r1 nx i' := by
  have hn : (1 : ℝ) < nx := by exact_mod_cast (by omega : 1 < nx)
  have hi : (i : ℝ) < i' := by exact_mod_cast h
  have : 0 < (r1 - r0) / ((nx : ℝ) - 1) := div_pos (by linarith) (by linarith)
  unfold mmsLin
  nlinarith

theorem mmsLin_pos (r0 r1 : ℝ) (nx i : ℕ) (h0 : 0 < r0) (hr : r0 < r1) (h' : i < nx) : 0 < mmsLin r0 r1 nx i := by
  rcases Nat.eq_zero_or_pos i with rfl | hi
  · simp [mmsLin, h0]
  · have := mmsLin_lt r0 r1 nx 0 i hr hi h'
    have e : mmsLin r0 r1 nx 0 = r0 := by simp [mmsLin]
    linarith

theorem mmsGeom_lt (r0 r1 : ℝ) (nx i i' : ℕ) (h0 : 0 < r0) (hr : r0 < r1) (h : i < i') (h' : i' < nx) : mmsGeom r0 r1 nx i < mmsGeom r0 r1 nx i' := by
  have hn : (1 : ℝ) < nx := by exact_mod_cast (by omega : 1 < nx)
  have hi : (i : ℝ) < i' := by exact_mod_cast h
  unfold mmsGeom
  apply mul_lt_mul_of_pos_left _ h0
  apply Real.rpow_lt_rpow_of_exponent_lt ((one_lt_div h0).2 hr)
  exact div_lt_div_of_pos_right hi (by linarith)

theorem mmsGeom_pos (r0 r1 : ℝ) (nx i : ℕ) (h0 : 0 < r0) (hr : r0 < r1) : 0 < mmsGeom r0 r1 nx i :=
  mul_pos h0 (Real.rpow_pos_of_pos (div_pos (by linarith) h0) _)

theorem mmsRadius_lt (f : MmsFile) (mode : ℕ) (r0 r1 : ℝ) (nx i i' : ℕ) (h0 : 0 < r0) (hr : r0 < r1) (h : i < i') (h' : i' < nx) :
    mmsRadius f mode r0 r1 nx i < mmsRadius f mode r0 r1 nx i' := by
  unfold mmsRadius
  split
  · exact mmsGeom_lt r0 r1 nx i i' h0 hr h h'
  · exact mmsGeom_lt r0 r1 nx i i' h0 hr h h'
  · exact mmsGeom_lt r0 r1 nx i i' h0 hr h h'
  · exact mmsLin_lt r0 r1 nx i i' hr h h'

theorem mmsRadius_pos (f : MmsFile) (mode : ℕ) (r0 r1 : ℝ) (nx i : ℕ) (h0 : 0 < r0) (hr : r0 < r1) (h' : i < nx) : 0 < mmsRadius f mode r0 r1 nx i := by
  unfold mmsRadius
  split
  · exact mmsGeom_pos r0 r1 nx i h0 hr
  · exact mmsGeom_pos r0 r1 nx i h0 hr
  · exact mmsGeom_pos r0 r1 nx i h0 hr
  · exact mmsLin_pos r0 r1 nx i h0 hr h'

theorem mmsStretch_pos (f : MmsFile) (mode : ℕ) : 0 < mmsStretch f mode := by
  unfold mmsStretch
  split <;> norm_num

/-- **C287.**  The first and the last row of every grid have the radii `r0` and `r1`. -/
theorem C287_ends (f : MmsFile) (a : MmsArgs ℝ) (h0 : 0 < a.r0) (hn : 2 ≤ a.nx) :
    mmsRadius f a.mode a.r0 a.r1 a.nx 0 = a.r0 ∧ mmsRadius f a.mode a.r0 a.r1 a.nx (a.nx - 1) = a.r1 := by
  have hn' : ((a.nx : ℝ) - 1) ≠ 0 := by
    have : (2 : ℝ) ≤ a.nx := by exact_mod_cast hn
    linarith
  have hc : ((a.nx - 1 : ℕ) : ℝ) = (a.nx : ℝ) - 1 := by push_cast [Nat.cast_sub (by omega : 1 ≤ a.nx)]; rfl
  have hl : mmsLin a.r0 a.r1 a.nx 0 = a.r0 ∧ mmsLin a.r0 a.r1 a.nx (a.nx - 1) = a.r1 := by
    unfold mmsLin
    rw [hc]
    exact ⟨by simp, by field_simp; ring⟩
  have hg : mmsGeom a.r0 a.r1 a.nx 0 = a.r0 ∧ mmsGeom a.r0 a.r1 a.nx (a.nx - 1) = a.r1 := by
    unfold mmsGeom
    rw [hc, div_self hn', Real.rpow_one]
    exact ⟨by simp, by field_simp⟩
  unfold mmsRadius
  split <;> first | exact hg | exact hl

/-- **C287.**  The points of every row are on a circle (an ellipse, if `R` is stretched) with the radius of the row. -/
theorem C287_circles (f : MmsFile) (a : MmsArgs ℝ) (i k : ℕ) :
    ((mmsPoint f a i k).1 / mmsStretch f a.mode - a.R0) ^ 2 + (mmsPoint f a i k).2 ^ 2 = mmsRadius f a.mode a.r0 a.r1 a.nx i ^ 2 := by
  have := (mmsStretch_pos f a.mode).ne'
  simp only [mmsPoint]
  rw [mul_div_assoc, div_self this]
  have h := Real.sin_sq_add_cos_sq (mmsTheta f a.mode a.r0 a.r1 a.nx a.nz i k)
  linear_combination (mmsRadius f a.mode a.r0 a.r1 a.nx i) ^ 2 * h

/-- **C287.**  All points of every grid of the convergence tests are different. -/
theorem C287_distinct (f : MmsFile) (a : MmsArgs ℝ) (h0 : 0 < a.r0) (hr : a.r0 < a.r1) (i k i' k' : ℕ) (hi : i < a.nx) (hk : k < a.nz) (hi' : i' < a.nx) (hk' : k' < a.nz)
    (h : mmsPoint f a i k = mmsPoint f a i' k') : i = i' ∧ k = k' := by
  have e : mmsRadius f a.mode a.r0 a.r1 a.nx i = mmsRadius f a.mode a.r0 a.r1 a.nx i' := by
    have h1 := C287_circles f a i k
    rw [h, C287_circles f a i' k'] at h1
    exact ((pow_left_inj₀ (mmsRadius_pos f a.mode a.r0 a.r1 a.nx i' h0 hr hi').le (mmsRadius_pos f a.mode a.r0 a.r1 a.nx i h0 hr hi).le two_ne_zero).1 h1).symm
  have hii : i = i' := by
    rcases lt_trichotomy i i' with hl | hl | hl
    · have := mmsRadius_lt f a.mode a.r0 a.r1 a.nx i i' h0 hr hl hi'; linarith
    · exact hl
    · have := mmsRadius_lt f a.mode a.r0 a.r1 a.nx i' i h0 hr hl hi; linarith
  subst hii
  refine ⟨rfl, ?_⟩
  have hp := mmsRadius_pos f a.mode a.r0 a.r1 a.nx i h0 hr hi
  have hst := mmsStretch_pos f a.mode
  have h1 : Real.cos (mmsTheta f a.mode a.r0 a.r1 a.nx a.nz i k) = Real.cos (mmsTheta f a.mode a.r0 a.r1 a.nx a.nz i k') := by
    have := congrArg Prod.fst h
    simp only [mmsPoint] at this
    have := mul_right_cancel₀ hst.ne' this
    exact mul_right_cancel₀ hp.ne' (by linarith)
  have h2 : Real.sin (mmsTheta f a.mode a.r0 a.r1 a.nx a.nz i k) = Real.sin (mmsTheta f a.mode a.r0 a.r1 a.nx a.nz i k') := by
    have := congrArg Prod.snd h
    simp only [mmsPoint] at this
    exact mul_right_cancel₀ hp.ne' this
  obtain ⟨g, hg, hcs⟩ := theta_turn f a.mode a.r0 a.r1 a.nx a.nz i
  rw [(hcs k).1, (hcs k').1] at h1
  rw [(hcs k).2, (hcs k').2] at h2
  rcases lt_trichotomy k k' with hl | hl | hl
  · obtain ⟨d, d0, d1, hd⟩ := mmsAngle_lt a.nz k k' hl hk'
    rw [hd] at h1 h2
    exact (turn_apart hg _ d d0 d1 h1 h2).elim
  · exact hl
  · obtain ⟨d, d0, d1, hd⟩ := mmsAngle_lt a.nz k' k hl hk
    rw [hd] at h1 h2
    exact (turn_apart hg _ d d0 d1 h1.symm h2.symm).elim

/-- Twice the area of the triangle with corners `c`, `p` and `q`; positive if they are in this order anticlockwise. -/
def mmsArea (c p q : ℝ × ℝ) : ℝ := (p.1 - c.1) * (q.2 - c.2) - (q.1 - c.1) * (p.2 - c.2)

/-- **C287.**  With at least four points every row goes anticlockwise around the axis, from each point to the next and from the last to the first. -/
theorem C287_anticlockwise (f : MmsFile) (a : MmsArgs ℝ) (h0 : 0 < a.r0) (hr : a.r0 < a.r1) (hz : 4 ≤ a.nz) (i k : ℕ) (hi : i < a.nx) (hk : k < a.nz) :
    0 < mmsArea (a.R0 * mmsStretch f a.mode, 0) (mmsPoint f a i k) (mmsPoint f a i ((k + 1) % a.nz)) := by
  have hp := mmsRadius_pos f a.mode a.r0 a.r1 a.nx i h0 hr hi
  have hst := mmsStretch_pos f a.mode
  have hpi := Real.pi_pos
  obtain ⟨g, hg, hcs⟩ := theta_turn f a.mode a.r0 a.r1 a.nx a.nz i
  have hn : (4 : ℝ) ≤ a.nz := by exact_mod_cast hz
  have hd0 : 0 < 2 * Real.pi / (a.nz : ℝ) := by positivity
  have hd1 : 2 * Real.pi / (a.nz : ℝ) ≤ Real.pi / 2 := by
    rw [div_le_iff₀ (by linarith)]; nlinarith
  have hnext : ∃ n : ℕ, n ≤ 1 ∧ mmsAngle a.nz ((k + 1) % a.nz) + n * (2 * Real.pi) = mmsAngle a.nz k + 2 * Real.pi / (a.nz : ℝ) := by
    rcases Nat.lt_or_ge (k + 1) a.nz with hl | hl
    · refine ⟨0, by omega, ?_⟩
      rw [Nat.mod_eq_of_lt hl]; unfold mmsAngle; push_cast; ring
    · have : k + 1 = a.nz := by omega
      refine ⟨1, le_rfl, ?_⟩
      rw [this, Nat.mod_self]
      have hk1 : (k : ℝ) = a.nz - 1 := by rw [← this]; push_cast; ring
      unfold mmsAngle
      rw [hk1]
      have : (a.nz : ℝ) ≠ 0 := by linarith
      push_cast; field_simp; ring
  obtain ⟨n, hn1, hnx⟩ := hnext
  have hcn : Real.cos (g (mmsAngle a.nz ((k + 1) % a.nz))) = Real.cos (g (mmsAngle a.nz k + 2 * Real.pi / (a.nz : ℝ))) ∧
      Real.sin (g (mmsAngle a.nz ((k + 1) % a.nz))) = Real.sin (g (mmsAngle a.nz k + 2 * Real.pi / (a.nz : ℝ))) := by
    rw [← hnx]
    have : n = 0 ∨ n = 1 := by omega
    rcases this with rfl | rfl
    · simp
    · rw [show mmsAngle a.nz ((k + 1) % a.nz) + ((1 : ℕ) : ℝ) * (2 * Real.pi) = mmsAngle a.nz ((k + 1) % a.nz) + 2 * Real.pi by push_cast; ring, hg.period,
        Real.cos_add_two_pi, Real.sin_add_two_pi]
      exact ⟨rfl, rfl⟩
  have l := hg.lower (mmsAngle a.nz k) _ hd0.le
  have u := hg.upper (mmsAngle a.nz k) _ hd0.le
  have hs : 0 < Real.sin (g (mmsAngle a.nz k + 2 * Real.pi / (a.nz : ℝ)) - g (mmsAngle a.nz k)) :=
    Real.sin_pos_of_pos_of_lt_pi (by linarith) (by linarith)
  rw [Real.sin_sub] at hs
  simp only [mmsArea, mmsPoint]
  rw [(hcs k).1, (hcs k).2, (hcs ((k + 1) % a.nz)).1, (hcs ((k + 1) % a.nz)).2, hcn.1, hcn.2]
  have := mul_pos (mul_pos (mul_pos hp hp) hst) hs
  linear_combination this

/-- C287 for a grid of `poloidal_grid.py` with the mode `var3`. -/
example (k : ℕ) (hk : k < 4) : 0 < mmsArea (1 * mmsStretch .poloidal 3, 0) (mmsPoint .poloidal ⟨4, 2, 4, 1, 0.1, 0.5, 3⟩ 2 k)
    (mmsPoint .poloidal ⟨4, 2, 4, 1, 0.1, 0.5, 3⟩ 2 ((k + 1) % 4)) :=
  C287_anticlockwise .poloidal ⟨4, 2, 4, 1, 0.1, 0.5, 3⟩ (by norm_num) (by norm_num) (le_refl 4) 2 k (by norm_num) hk

end Zoidberg
