import Verif.Props.FindIndex
import Mathlib.Analysis.Complex.Basic
import Mathlib.Tactic.NormNum

/-! # Property C233: `findIndex` and `getCoordinate` are inverse to each other -/

set_option linter.unusedSectionVars false

namespace Zoidberg

/-- The coordinates, or their derivatives, at an index.  Pairs of numbers are complex numbers, for the sake of the norm. -/
noncomputable def StrPol.at (g : StrPol ℝ) (a b : ℕ) (p : ℂ) : ℂ :=
  ⟨g.splR a b p.re (npRem p.im (g.nz : ℝ) + (g.nz : ℝ)), g.splZ a b p.re (npRem p.im (g.nz : ℝ) + (g.nz : ℝ))⟩

/-- The linear part of the coordinates at `p`, applied to a step `s`. -/
noncomputable def StrPol.lin (g : StrPol ℝ) (p s : ℂ) : ℂ := (s.re : ℂ) * g.at 1 0 p + (s.im : ℂ) * g.at 0 1 p

/-- The grid lines are not too dense and not too curved in a circle around an index: the derivative is at least `1 / β`, and the coordinates differ from their linear
part by at most `L / 2` times the square of the distance. -/
structure StrPol.Tame (g : StrPol ℝ) (p0 : ℂ) (ρ β L : ℝ) : Prop where
  inv : ∀ p : ℂ, ‖p - p0‖ ≤ ρ → ∀ s, ‖s‖ ≤ β * ‖g.lin p s‖
  curv : ∀ p q : ℂ, ‖p - p0‖ ≤ ρ → ‖q - p0‖ ≤ ρ → ‖g.at 0 0 q - g.at 0 0 p - g.lin p (q - p)‖ ≤ L / 2 * ‖q - p‖ ^ 2

/-- The index of a point during the iteration. -/
def FiPt.idx (p : FiPt ℝ) : ℂ := ⟨p.x, p.z⟩
/-- The position that is looked for. -/
def FiPt.goal (p : FiPt ℝ) : ℂ := ⟨p.R, p.Z⟩
/-- How far the coordinates at the index are from the position that is looked for. -/
noncomputable def FiPt.resid (g : StrPol ℝ) (p : FiPt ℝ) : ℝ := ‖g.at 0 0 p.idx - p.goal‖

theorem lin_re (g : StrPol ℝ) (p s : ℂ) : (g.lin p s).re = s.re * (g.at 1 0 p).re + s.im * (g.at 0 1 p).re := by
  simp [StrPol.lin]

theorem lin_im (g : StrPol ℝ) (p s : ℂ) : (g.lin p s).im = s.re * (g.at 1 0 p).im + s.im * (g.at 0 1 p).im := by
  simp [StrPol.lin]

theorem det_ne (g : StrPol ℝ) (p : ℂ) (β : ℝ) (h : ∀ s, ‖s‖ ≤ β * ‖g.lin p s‖) :
    (g.at 1 0 p).re * (g.at 0 1 p).im - (g.at 0 1 p).re * (g.at 1 0 p).im ≠ 0 := by
  intro hd
  have key : ∀ s : ℂ, g.lin p s = 0 → s = 0 := by
    intro s hs
    have := h s
    rw [hs, norm_zero, mul_zero] at this
    exact norm_le_zero_iff.1 this
  have k1 := key ⟨(g.at 0 1 p).re, -(g.at 1 0 p).re⟩ (by
    apply Complex.ext
    · rw [lin_re]; simp; ring
    · rw [lin_im]; simp; linarith)
  have k2 := key ⟨(g.at 0 1 p).im, -(g.at 1 0 p).im⟩ (by
    apply Complex.ext
    · rw [lin_re]; simp; linarith
    · rw [lin_im]; simp; ring)
  rw [Complex.ext_iff] at k1 k2
  simp at k1 k2
  have k3 := key 1 (by
    apply Complex.ext
    · rw [lin_re]; simp [k1.2]
    · rw [lin_im]; simp [k2.2])
  exact one_ne_zero k3

/-- One step of Newton's method. -/
theorem newton_step (g : StrPol ℝ) (p : FiPt ℝ) (hon : p.on = true) (β : ℝ) (h : ∀ s, ‖s‖ ≤ β * ‖g.lin p.idx s‖) (u : ℝ) (hu : 1 ≤ u) :
    ∃ s : ℂ, g.lin p.idx s = -((u⁻¹ : ℝ) : ℂ) * (g.at 0 0 p.idx - p.goal) ∧
      (1 / 2 ≤ (p.idx + s).re → (p.idx + s).re ≤ (g.nx : ℝ) - 3 / 2 →
        p.newton g.nx u ((g.at 0 0 p.idx).re, (g.at 0 0 p.idx).im) ((g.at 1 0 p.idx).re, (g.at 1 0 p.idx).im)
          ((g.at 0 1 p.idx).re, (g.at 0 1 p.idx).im) = .ok ⟨p.R, p.Z, (p.idx + s).re, (p.idx + s).im, true⟩) := by
  have hd := det_ne g p.idx β h
  have hu0 : u ≠ 0 := by linarith
  set F := g.at 0 0 p.idx
  set A := g.at 1 0 p.idx with hA
  set B := g.at 0 1 p.idx with hB
  obtain ⟨D, hD⟩ : ∃ D, D = A.re * B.im - B.re * A.im := ⟨_, rfl⟩
  have hD0 : D ≠ 0 := hD ▸ hd
  refine ⟨⟨-((B.im * (F.re - p.R) - B.re * (F.im - p.Z)) / (A.re * B.im - B.re * A.im) / u),
    -((A.re * (F.im - p.Z) - A.im * (F.re - p.R)) / (A.re * B.im - B.re * A.im) / u)⟩, ?_, ?_⟩
  · apply Complex.ext
    · rw [lin_re, ← hA, ← hB]
      simp only [FiPt.goal, ← hD, Complex.mul_re, Complex.neg_re, Complex.neg_im, Complex.ofReal_re, Complex.ofReal_im, Complex.sub_re, Complex.sub_im]
      field_simp
      rw [hD]
      ring
    · rw [lin_im, ← hA, ← hB]
      simp only [FiPt.goal, ← hD, Complex.mul_im, Complex.neg_re, Complex.neg_im, Complex.ofReal_re, Complex.ofReal_im, Complex.sub_re, Complex.sub_im]
      field_simp
      rw [hD]
      ring
  · intro h1 h2
    have ex : ∀ a b : ℝ, (p.idx + ⟨a, b⟩).re = p.x + a ∧ (p.idx + ⟨a, b⟩).im = p.z + b := fun a b => ⟨rfl, rfl⟩
    rw [(ex _ _).1] at h1 h2
    rw [(ex _ _).1, (ex _ _).2]
    unfold FiPt.newton
    dsimp only
    rw [if_neg hd, hon]
    simp only [if_true, one_mul]
    rw [← sub_eq_add_neg] at h1 h2 ⊢
    rw [if_neg (not_lt.2 h1)]
    dsimp only
    rw [if_neg (not_lt.2 h2), ← sub_eq_add_neg]

/-- The size of a step and of what is left after it. -/
theorem step_size (g : StrPol ℝ) (p0 : ℂ) (ρ β L : ℝ) (ht : g.Tame p0 ρ β L) (hL : 0 ≤ L) (p T s : ℂ) (u r : ℝ) (hu : 1 ≤ u) (hp : ‖p - p0‖ ≤ ρ)
    (hr : ‖g.at 0 0 p - T‖ = r) (hs : g.lin p s = -((u⁻¹ : ℝ) : ℂ) * (g.at 0 0 p - T)) :
    ‖s‖ ≤ β * r / u ∧ (‖p + s - p0‖ ≤ ρ → ‖g.at 0 0 (p + s) - T‖ ≤ (1 - 1 / u + L * β ^ 2 * r / 2 / u ^ 2) * r) := by
  have hu0 : 0 < u := by linarith
  have hui : (0 : ℝ) < u⁻¹ := inv_pos.2 hu0
  have h1 : ‖s‖ ≤ β * r / u := by
    have := ht.inv p hp s
    rw [hs, norm_mul, norm_neg, Complex.norm_real, Real.norm_eq_abs, abs_of_pos hui, hr] at this
    rw [mul_div_assoc, div_eq_inv_mul]
    exact this
  refine ⟨h1, fun hq => ?_⟩
  have h2 := ht.curv p (p + s) hp hq
  rw [add_sub_cancel_left] at h2
  have e : g.at 0 0 (p + s) - T = (g.at 0 0 (p + s) - g.at 0 0 p - g.lin p s) + ((1 - u⁻¹ : ℝ) : ℂ) * (g.at 0 0 p - T) := by
    rw [hs]
    push_cast
    ring
  have h1u : 0 ≤ 1 - u⁻¹ := by
    have := inv_le_one_of_one_le₀ hu
    linarith
  have hr0 : 0 ≤ r := hr ▸ norm_nonneg _
  calc ‖g.at 0 0 (p + s) - T‖ ≤ L / 2 * ‖s‖ ^ 2 + (1 - u⁻¹) * r := by
        rw [e]
        refine (norm_add_le _ _).trans ?_
        rw [norm_mul, Complex.norm_real, Real.norm_eq_abs, abs_of_nonneg h1u, hr]
        linarith
    _ ≤ L / 2 * (β * r / u) ^ 2 + (1 - u⁻¹) * r := by
        have := pow_le_pow_left₀ (norm_nonneg s) h1 2
        have := mul_le_mul_of_nonneg_left this (by positivity : 0 ≤ L / 2)
        linarith
    _ = (1 - 1 / u + L * β ^ 2 * r / 2 / u ^ 2) * r := by
        field_simp
        ring

/-- Start points for which the method converges: either in the boundary, where the index is kept, or with a small enough distance from the position. -/
structure FiPt.Good (g : StrPol ℝ) (tol ρ β L : ℝ) (a : FiPt ℝ) : Prop where
  inv : a.Inv g.nx
  off : a.on = false → a.Arrived g
  tame : a.on = true → g.Tame a.idx ρ β L
  curv : a.on = true → L * β ^ 2 * a.resid g / 2 ≤ 1 / 2
  near : a.on = true → β * a.resid g ≤ ρ * (1 - L * β ^ 2 * a.resid g / 2)
  range : a.on = true → 1 / 2 + ρ ≤ a.x ∧ a.x + ρ ≤ (g.nx : ℝ) - 3 / 2
  size : a.on = true → a.resid g ^ 2 ≤ 10 ^ 200 * tol

/-- The state of a point that started at `a` after `k` passes. -/
structure FiPt.Track (g : StrPol ℝ) (ρ β L : ℝ) (k : ℕ) (a p : FiPt ℝ) : Prop where
  off : a.on = false → p = a
  on : a.on = true → p.on = true ∧ p.goal = a.goal ∧ p.resid g ≤ (13 / 18) ^ k * a.resid g ∧
    ‖p.idx - a.idx‖ * (1 - L * β ^ 2 * a.resid g / 2) ≤ β * (a.resid g - p.resid g)

theorem underrelax_range (k : ℕ) : (1 : ℝ) ≤ underrelax k ∧ underrelax k ≤ (3 : ℝ) := by
  unfold underrelax
  split_ifs <;> norm_num

theorem Track.idx_le {g : StrPol ℝ} {tol ρ β L : ℝ} {k : ℕ} {a p : FiPt ℝ} (hβ : 0 ≤ β) (ha : a.Good g tol ρ β L) (h : a.Track g ρ β L k p) (hon : a.on = true) :
    ‖p.idx - a.idx‖ ≤ ρ := by
  have h1 := (h.on hon).2.2.2
  have h2 := ha.near hon
  have h3 := ha.curv hon
  have h4 : 0 ≤ p.resid g := norm_nonneg _
  have h5 := mul_nonneg hβ h4
  nlinarith

theorem Track.inv {g : StrPol ℝ} {tol ρ β L : ℝ} {k : ℕ} {a p : FiPt ℝ} (hβ : 0 ≤ β) (ha : a.Good g tol ρ β L) (h : a.Track g ρ β L k p) : p.Inv g.nx := by
  cases hon : a.on with
  | false => rw [h.off hon]; exact ha.inv
  | true =>
    have h1 := Track.idx_le hβ ha h hon
    have h2 : |p.x - a.x| ≤ ρ := (Complex.abs_re_le_norm (p.idx - a.idx)).trans h1
    rw [abs_le] at h2
    obtain ⟨h3, h4⟩ := ha.range hon
    have h5 := (h.on hon).1
    refine ⟨⟨by linarith, by linarith⟩, fun _ => ⟨by linarith, by linarith⟩, fun h => ?_⟩
    rw [h5] at h
    cases h

/-- One pass for one point. -/
theorem track_step {g : StrPol ℝ} (hx : 1 ≤ g.nx) {tol ρ β L : ℝ} (hβ : 0 ≤ β) (hL : 0 ≤ L) {k : ℕ} {a p : FiPt ℝ} (ha : a.Good g tol ρ β L)
    (h : a.Track g ρ β L k p) (u : ℝ) (hu : 1 ≤ u) (hu3 : u ≤ 3) :
    ∃ q, p.newton g.nx u ((g.at 0 0 p.idx).re, (g.at 0 0 p.idx).im) ((g.at 1 0 p.idx).re, (g.at 1 0 p.idx).im)
        ((g.at 0 1 p.idx).re, (g.at 0 1 p.idx).im) = .ok q ∧ a.Track g ρ β L (k + 1) q ∧ q.resid g ≤ p.resid g ∧ q.on = p.on := by
  cases hon : a.on with
  | false =>
    have hp := h.off hon
    subst hp
    refine ⟨p, newton_arrived hx (ha.off hon) u, ⟨fun _ => rfl, fun h => ?_⟩, le_refl _, rfl⟩
    rw [hon] at h
    cases h
  | true =>
    obtain ⟨h1, h2, h3, h4⟩ := h.on hon
    have hle := Track.idx_le hβ ha h hon
    have ht := ha.tame hon
    obtain ⟨s, s1, s2⟩ := newton_step g p h1 β (ht.inv _ hle) u hu
    obtain ⟨t1, t2⟩ := step_size g a.idx ρ β L ht hL p.idx p.goal s u (p.resid g) hu hle rfl s1
    have hr : 0 ≤ p.resid g := norm_nonneg _
    have ha0 : 0 ≤ a.resid g := norm_nonneg _
    have hra : p.resid g ≤ a.resid g := by
      refine h3.trans (mul_le_of_le_one_left ha0 (pow_le_one₀ (by norm_num) (by norm_num)))
    set η := L * β ^ 2 * a.resid g / 2 with hη
    have hη1 : η ≤ 1 / 2 := ha.curv hon
    have hη0 : 0 ≤ η := by positivity
    have hηp : L * β ^ 2 * p.resid g / 2 ≤ η := by
      have := mul_le_mul_of_nonneg_left hra (by positivity : 0 ≤ L * β ^ 2)
      linarith
    have hu0 : 0 < u := by linarith
    obtain ⟨v, hv⟩ : ∃ v, v = u⁻¹ := ⟨_, rfl⟩
    have hv1 : v ≤ 1 := hv ▸ inv_le_one_of_one_le₀ hu
    have hv3 : 1 / 3 ≤ v := by
      rw [hv, ← one_div]
      exact one_div_le_one_div_of_le hu0 hu3
    -- the distance from the start
    have hd : ‖p.idx + s - a.idx‖ * (1 - η) ≤ β * (a.resid g - p.resid g) + β * p.resid g * v * (1 - η) := by
      have e : p.idx + s - a.idx = (p.idx - a.idx) + s := by ring
      have := norm_add_le (p.idx - a.idx) s
      rw [← e] at this
      have t1' : ‖s‖ ≤ β * p.resid g * v := by rw [hv, ← div_eq_mul_inv]; exact t1
      nlinarith
    have hball : ‖p.idx + s - a.idx‖ ≤ ρ := by
      have hn := ha.near hon
      rw [← hη] at hn
      have hb : 0 ≤ β * p.resid g := mul_nonneg hβ hr
      have hvη : v * (1 - η) ≤ 1 := by nlinarith
      have : β * p.resid g * (v * (1 - η)) ≤ β * p.resid g := mul_le_of_le_one_right hb hvη
      by_contra hc
      push Not at hc
      nlinarith
    have hq := t2 hball
    have hq' : ‖g.at 0 0 (p.idx + s) - p.goal‖ ≤ (1 - v + η * v ^ 2) * p.resid g := by
      refine hq.trans (mul_le_mul_of_nonneg_right ?_ hr)
      rw [one_div, ← hv, div_eq_mul_inv _ (u ^ 2), ← inv_pow, ← hv]
      have := mul_le_mul_of_nonneg_right hηp (sq_nonneg v)
      linarith
    have hfac : 1 - v + η * v ^ 2 ≤ 13 / 18 := by nlinarith [sq_nonneg v, mul_le_mul_of_nonneg_right hη1 (sq_nonneg v)]
    have hx' : |(p.idx + s).re - a.x| ≤ ρ := (Complex.abs_re_le_norm (p.idx + s - a.idx)).trans hball
    rw [abs_le] at hx'
    obtain ⟨r1, r2⟩ := ha.range hon
    have hres : FiPt.resid g ⟨p.R, p.Z, (p.idx + s).re, (p.idx + s).im, true⟩ = ‖g.at 0 0 (p.idx + s) - p.goal‖ := rfl
    have hidx : FiPt.idx ⟨p.R, p.Z, (p.idx + s).re, (p.idx + s).im, true⟩ = p.idx + s := rfl
    refine ⟨_, s2 (by linarith) (by linarith), ⟨fun h => ?_, fun _ => ⟨rfl, h2, ?_, ?_⟩⟩, ?_, h1.symm⟩
    · rw [hon] at h
      cases h
    · rw [hres, pow_succ]
      have := mul_le_mul_of_nonneg_right hfac hr
      nlinarith
    · rw [hidx, hres, ← hη]
      -- the step is at most the decrease of the distance, over `1 - η`
      have k1 : v * (1 - η) ≤ v - η * v ^ 2 := by nlinarith [mul_nonneg hη0 (by linarith : 0 ≤ v)]
      have k2 : β * p.resid g * (v * (1 - η)) ≤ β * p.resid g * (v - η * v ^ 2) := mul_le_mul_of_nonneg_left k1 (mul_nonneg hβ hr)
      have k3 : β * ‖g.at 0 0 (p.idx + s) - p.goal‖ ≤ β * ((1 - v + η * v ^ 2) * p.resid g) := mul_le_mul_of_nonneg_left hq' hβ
      nlinarith
    · rw [hres]
      have := mul_le_mul_of_nonneg_right hfac hr
      linarith

/-- The test whether the points are close enough. -/
theorem conv_iff (g : StrPol ℝ) (tol : ℝ) (ht : 0 < tol) : ∀ pts : List (FiPt ℝ),
    ((List.zipWith FiPt.dist pts (pts.map fun p => ((g.at 0 0 p.idx).re, (g.at 0 0 p.idx).im))).all fun v => decide (v < tol)) = true ↔
      ∀ p ∈ pts, p.on = true → p.resid g ^ 2 < tol
  | [] => by simp
  | p :: ps => by
    have hsq : p.resid g ^ 2 = ((g.at 0 0 p.idx).re - p.R) ^ 2 + ((g.at 0 0 p.idx).im - p.Z) ^ 2 := by
      rw [FiPt.resid, ← Complex.normSq_eq_norm_sq, Complex.normSq_apply]
      simp only [Complex.sub_re, Complex.sub_im, FiPt.goal]
      ring
    rw [List.map_cons, List.zipWith_cons_cons, List.all_cons, Bool.and_eq_true, conv_iff g tol ht ps, List.forall_mem_cons, hsq]
    refine and_congr ?_ Iff.rfl
    rw [decide_eq_true_eq]
    unfold FiPt.dist
    cases p.on with
    | true => simp
    | false => simpa using ht

variable (g : StrPol ℝ) (tol : ℝ) (ρ β L : FiPt ℝ → ℝ)

/-- One pass for all points. -/
theorem track_all (hx : 1 ≤ g.nx) (k : ℕ) (u : ℝ) (hu : 1 ≤ u) (hu3 : u ≤ 3) : ∀ (as ps : List (FiPt ℝ)),
    (∀ a ∈ as, 0 ≤ β a ∧ 0 ≤ L a ∧ a.Good g tol (ρ a) (β a) (L a)) → List.Forall₂ (fun a p => a.Track g (ρ a) (β a) (L a) k p) as ps →
    ∃ qs, newtonAll g.nx u ps (ps.map fun p => ((g.at 0 0 p.idx).re, (g.at 0 0 p.idx).im))
      (ps.map fun p => ((g.at 1 0 p.idx).re, (g.at 1 0 p.idx).im)) (ps.map fun p => ((g.at 0 1 p.idx).re, (g.at 0 1 p.idx).im)) = .ok qs ∧
      List.Forall₂ (fun a p => a.Track g (ρ a) (β a) (L a) (k + 1) p) as qs ∧
      ((∀ p ∈ ps, p.on = true → p.resid g ^ 2 < tol) → ∀ p ∈ qs, p.on = true → p.resid g ^ 2 < tol)
  | [], _, _, h => by
    cases h
    exact ⟨[], rfl, .nil, fun h => h⟩
  | a :: as, _, hg, h => by
    obtain ⟨p, ps, h1, h2, rfl⟩ := List.forall₂_cons_left_iff.1 h
    obtain ⟨b0, l0, ga⟩ := hg a List.mem_cons_self
    obtain ⟨q, q1, q2, q3, q4⟩ := track_step hx b0 l0 ga h1 u hu hu3
    obtain ⟨qs, r1, r2, r3⟩ := track_all hx k u hu hu3 as ps (fun b hb => hg b (List.mem_cons_of_mem _ hb)) h2
    refine ⟨q :: qs, ?_, .cons q2 r2, ?_⟩
    · simp only [List.map_cons, newtonAll]
      rw [q1, r1]
      rfl
    · intro hc p' hp'
      rw [List.forall_mem_cons] at hc
      rcases List.mem_cons.1 hp' with rfl | hm
      · intro hon
        have h0 : 0 ≤ p'.resid g := norm_nonneg _
        exact lt_of_le_of_lt (pow_le_pow_left₀ h0 q3 2) (hc.1 (q4 ▸ hon))
      · exact r3 hc.2 p' hm

/-- After 990 passes all points are close enough. -/
theorem track_conv (ht : 0 < tol) (k : ℕ) (hk : 990 ≤ k) : ∀ (as ps : List (FiPt ℝ)),
    (∀ a ∈ as, 0 ≤ β a ∧ 0 ≤ L a ∧ a.Good g tol (ρ a) (β a) (L a)) → List.Forall₂ (fun a p => a.Track g (ρ a) (β a) (L a) k p) as ps →
    ∀ p ∈ ps, p.on = true → p.resid g ^ 2 < tol
  | [], _, _, h => by cases h; simp
  | a :: as, _, hg, h => by
    obtain ⟨p, ps, h1, h2, rfl⟩ := List.forall₂_cons_left_iff.1 h
    rw [List.forall_mem_cons]
    refine ⟨fun hon => ?_, track_conv ht k hk as ps (fun b hb => hg b (List.mem_cons_of_mem _ hb)) h2⟩
    cases ha : a.on with
    | false =>
      rw [h1.off ha, ha] at hon
      cases hon
    | true =>
      obtain ⟨_, _, ga⟩ := hg a List.mem_cons_self
      obtain ⟨_, _, h3, _⟩ := h1.on ha
      have h4 := ga.size ha
      have h0 : 0 ≤ p.resid g := norm_nonneg _
      have ha0 : 0 ≤ a.resid g := norm_nonneg _
      have h5 : ((13 : ℝ) / 18) ^ k ≤ (13 / 18) ^ 990 := pow_le_pow_of_le_one (by norm_num) (by norm_num) hk
      have h22 : ((13 : ℝ) / 18) ^ 990 ≤ (1 / 1000) ^ 45 := by
        rw [show 990 = 22 * 45 by norm_num, pow_mul]
        exact pow_le_pow_left₀ (by positivity) (by norm_num) 45
      have hsmall : (((13 : ℝ) / 18) ^ 990) ^ 2 * 10 ^ 200 < 1 := by
        have := mul_le_mul_of_nonneg_right (pow_le_pow_left₀ (by positivity) h22 2) (by positivity : (0 : ℝ) ≤ 10 ^ 200)
        exact lt_of_le_of_lt this (by norm_num)
      calc p.resid g ^ 2 ≤ ((13 / 18) ^ 990 * a.resid g) ^ 2 := pow_le_pow_left₀ h0 (h3.trans (mul_le_mul_of_nonneg_right h5 ha0)) 2
        _ = ((13 / 18) ^ 990) ^ 2 * a.resid g ^ 2 := by ring
        _ ≤ ((13 / 18) ^ 990) ^ 2 * (10 ^ 200 * tol) := mul_le_mul_of_nonneg_left h4 (by positivity)
        _ = (((13 / 18) ^ 990) ^ 2 * 10 ^ 200) * tol := by ring
        _ < 1 * tol := mul_lt_mul_of_pos_right hsmall ht
        _ = tol := one_mul _

theorem track_inv (k : ℕ) : ∀ (as ps : List (FiPt ℝ)),
    (∀ a ∈ as, 0 ≤ β a ∧ 0 ≤ L a ∧ a.Good g tol (ρ a) (β a) (L a)) → List.Forall₂ (fun a p => a.Track g (ρ a) (β a) (L a) k p) as ps →
    ∀ p ∈ ps, p.Inv g.nx
  | [], _, _, h => by cases h; simp
  | a :: as, _, hg, h => by
    obtain ⟨p, ps, h1, h2, rfl⟩ := List.forall₂_cons_left_iff.1 h
    rw [List.forall_mem_cons]
    obtain ⟨b0, _, ga⟩ := hg a List.mem_cons_self
    exact ⟨Track.inv b0 ga h1, track_inv k as ps (fun b hb => hg b (List.mem_cons_of_mem _ hb)) h2⟩

/-- The loop. -/
theorem track_loop (hx : 1 ≤ g.nx) (ht : 0 < tol) (as : List (FiPt ℝ)) (hne : as ≠ [])
    (hg : ∀ a ∈ as, 0 ≤ β a ∧ 0 ≤ L a ∧ a.Good g tol (ρ a) (β a) (L a)) : ∀ fuel cnt extra (ps : List (FiPt ℝ)),
    List.Forall₂ (fun a p => a.Track g (ρ a) (β a) (L a) cnt p) as ps → fuel + cnt = 1000 → extra ≤ 3 →
    (0 < extra → ∀ p ∈ ps, p.on = true → p.resid g ^ 2 < tol) → cnt ≤ 990 + extra →
    ∃ qs k, g.fiLoop tol fuel cnt extra ps = .ok qs ∧ List.Forall₂ (fun a p => a.Track g (ρ a) (β a) (L a) k p) as qs ∧
      ∀ p ∈ qs, p.on = true → p.resid g ^ 2 < tol
  | 0, cnt, extra, ps, _, h1, h2, _, h3 => by omega
  | fuel + 1, cnt, extra, ps, h, h1, h2, hc, h3 => by
    have hps : ps ≠ [] := by
      intro h0
      rw [h0, List.forall₂_nil_right_iff] at h
      exact hne h
    have hinv := track_inv g tol ρ β L cnt as ps hg h
    have ec : ∀ dx dz, g.coords ps dx dz = .ok (ps.map fun p => ((g.at dx dz p.idx).re, (g.at dx dz p.idx).im)) := coords_inv hps hinv
    obtain ⟨u1, u3⟩ := underrelax_range (cnt + 1)
    obtain ⟨qs, q1, q2, q3⟩ := track_all g tol ρ β L hx cnt (underrelax (cnt + 1)) u1 u3 as ps hg h
    have hcv := conv_iff g tol ht ps
    simp only [StrPol.fiLoop, ec, bind, Except.bind, q1]
    by_cases hconv : ∀ p ∈ ps, p.on = true → p.resid g ^ 2 < tol
    · rw [hcv.2 hconv]
      by_cases he : extra + 1 > 3
      · rw [if_pos ⟨rfl, he⟩]
        exact ⟨ps, cnt, rfl, h, hconv⟩
      · rw [if_neg (fun hh => he hh.2), if_neg (fun hh => hh.1 rfl), if_neg (by omega)]
        simp only [if_true]
        exact track_loop hx ht as hne hg fuel (cnt + 1) (extra + 1) qs q2 (by omega) (by omega) (fun _ => q3 hconv) (by omega)
    · have hf : ((List.zipWith FiPt.dist ps (ps.map fun p => ((g.at 0 0 p.idx).re, (g.at 0 0 p.idx).im))).all fun v => decide (v < tol)) = false := by
        rw [← Bool.not_eq_true]
        exact fun hh => hconv (hcv.1 hh)
      have he : extra = 0 := by
        by_contra h0
        exact hconv (hc (by omega))
      have hcnt : cnt < 990 := by
        by_contra h0
        exact hconv (track_conv g tol ρ β L ht cnt (by omega) as ps hg h)
      subst he
      rw [hf, if_neg (by simp), if_neg (by simp), if_neg (by omega)]
      simp only [Bool.false_eq_true, if_false]
      exact track_loop hx ht as hne hg fuel (cnt + 1) 0 qs q2 (by omega) (by omega) (fun h0 => absurd h0 (lt_irrefl _)) (by omega)

/-- **C233 (partial).** Where the grid lines are not too curved for the distance from the nearest grid point, `findIndex` does not fail and finds, near the index of that
point, an index of which the coordinates are those looked for, up to the tolerance.  Positions nearest to a point of the first or last row count as outside. -/
theorem C233_partial (ht : 0 < tol) (nearest : ℝ → ℝ → ℕ) (hn : ∀ R Z, nearest R Z < g.nx * g.nz) (ps : List (ℝ × ℝ)) (hne : ps ≠ [])
    (hg : ∀ q ∈ ps, 0 ≤ β (.start g.nx g.nz nearest q) ∧ 0 ≤ L (.start g.nx g.nz nearest q) ∧
      (FiPt.start g.nx g.nz nearest q).Good g tol (ρ (.start g.nx g.nz nearest q)) (β (.start g.nx g.nz nearest q)) (L (.start g.nx g.nz nearest q))) :
    ∃ r, g.findIndex nearest tol 1000 ps = .ok r ∧ List.Forall₂ (fun (q t : ℝ × ℝ) =>
      ((FiPt.start g.nx g.nz nearest q).on = false → t.1 = -1 ∨ t.1 = g.nx) ∧
      ((FiPt.start g.nx g.nz nearest q).on = true → 1 / 2 ≤ t.1 ∧ t.1 ≤ (g.nx : ℝ) - 3 / 2 ∧
        ‖(⟨t.1, t.2⟩ : ℂ) - (FiPt.start g.nx g.nz nearest q).idx‖ ≤ ρ (.start g.nx g.nz nearest q) ∧
        ‖g.at 0 0 ⟨t.1, t.2⟩ - ⟨q.1, q.2⟩‖ ^ 2 < tol)) ps r := by
  have hx : 1 ≤ g.nx := by
    rcases Nat.eq_zero_or_pos g.nx with e | e
    · have := hn 0 0; rw [e] at this; simp at this
    · exact e
  have hx' : (1 : ℝ) ≤ g.nx := by exact_mod_cast hx
  set as := ps.map (FiPt.start g.nx g.nz nearest) with has
  have hga : ∀ a ∈ as, 0 ≤ β a ∧ 0 ≤ L a ∧ a.Good g tol (ρ a) (β a) (L a) := by
    intro a ha
    obtain ⟨q, hq, rfl⟩ := List.mem_map.1 ha
    exact hg q hq
  have h0 : List.Forall₂ (fun a p => a.Track g (ρ a) (β a) (L a) 0 p) as as := by
    rw [List.forall₂_same]
    intro a _
    exact ⟨fun _ => rfl, fun h => ⟨h, rfl, by simp, by simp⟩⟩
  obtain ⟨qs, k, l1, l2, l3⟩ := track_loop g tol ρ β L hx ht as (by simpa [has] using hne) hga 1000 0 0 as h0 rfl (by omega) (fun h => absurd h (lt_irrefl _)) (by omega)
  refine ⟨qs.map (FiPt.result g.nx), by unfold StrPol.findIndex; rw [l1]; rfl, ?_⟩
  rw [List.forall₂_map_right_iff]
  rw [has, List.forall₂_map_left_iff] at l2
  clear_value as
  clear l1 h0 has hne
  have hga' := hg
  clear hg hga
  induction l2 with
  | nil => exact .nil
  | @cons q p qs' ps' h1 h2 ih =>
    refine .cons ?_ (ih (fun p hp => l3 p (List.mem_cons_of_mem _ hp)) fun q hq => hga' q (List.mem_cons_of_mem _ hq))
    obtain ⟨b0, _, ga⟩ := hga' q List.mem_cons_self
    have hinv := Track.inv b0 ga h1
    constructor
    · intro hoff
      rw [h1.off hoff]
      rcases (ga.off hoff).edge hoff with e | e
      · unfold FiPt.result
        rw [e]
        dsimp only
        rw [if_pos (show (0 : ℝ) < 1 / 2 by norm_num)]
        by_cases hb : (-1 : ℝ) > (g.nx : ℝ) - 3 / 2
        · rw [if_pos hb]
          exact Or.inr rfl
        · rw [if_neg hb]
          exact Or.inl rfl
      · unfold FiPt.result
        rw [e]
        dsimp only
        split_ifs <;> first | exact Or.inr rfl | exact Or.inl rfl | (exfalso; linarith)
    · intro hon
      obtain ⟨t1, t2, _, _⟩ := h1.on hon
      obtain ⟨i1, i2⟩ := hinv.on t1
      have hr : FiPt.result g.nx p = (p.x, p.z) := by
        unfold FiPt.result
        dsimp only
        rw [if_neg (not_lt.2 i1), if_neg (not_lt.2 i2)]
      rw [hr]
      refine ⟨i1, i2, Track.idx_le b0 ga h1 hon, ?_⟩
      have := l3 p List.mem_cons_self t1
      unfold FiPt.resid at this
      rw [t2] at this
      exact this

/-- Indices with nearly the same coordinates are close to each other. -/
theorem tame_unique (p0 t r : ℂ) (ρ β L : ℝ) (h : g.Tame p0 ρ β L) (hβ : 0 ≤ β) (hL : 0 ≤ L) (hs : 2 * β * L * ρ ≤ 1) (ht : ‖t - p0‖ ≤ ρ) (hr : ‖r - p0‖ ≤ ρ) :
    ‖r - t‖ ≤ 2 * β * ‖g.at 0 0 r - g.at 0 0 t‖ := by
  have h1 := h.inv t ht (r - t)
  have h2 := h.curv t r ht hr
  have h3 : ‖g.lin t (r - t)‖ ≤ ‖g.at 0 0 r - g.at 0 0 t‖ + L / 2 * ‖r - t‖ ^ 2 := by
    have e : g.lin t (r - t) = (g.at 0 0 r - g.at 0 0 t) - (g.at 0 0 r - g.at 0 0 t - g.lin t (r - t)) := by ring
    calc ‖g.lin t (r - t)‖ = ‖(g.at 0 0 r - g.at 0 0 t) - (g.at 0 0 r - g.at 0 0 t - g.lin t (r - t))‖ := by rw [← e]
      _ ≤ ‖g.at 0 0 r - g.at 0 0 t‖ + ‖g.at 0 0 r - g.at 0 0 t - g.lin t (r - t)‖ := norm_sub_le _ _
      _ ≤ _ := by linarith
  have h4 : ‖r - t‖ ≤ 2 * ρ := by
    have e : r - t = (r - p0) - (t - p0) := by ring
    rw [e]
    exact (norm_sub_le _ _).trans (by linarith)
  have h5 : β * (L / 2 * ‖r - t‖ ^ 2) ≤ 1 / 2 * ‖r - t‖ := by
    have h6 : β * L * ‖r - t‖ ≤ 1 := (mul_le_mul_of_nonneg_left h4 (mul_nonneg hβ hL)).trans (by linarith)
    have := mul_le_mul_of_nonneg_right h6 (norm_nonneg (r - t))
    nlinarith
  have h7 := mul_le_mul_of_nonneg_left h3 hβ
  linarith

/-- **C233 (partial).** If the position is that of an index near the one of the nearest grid point, that index is found, up to the tolerance. -/
theorem C233_roundtrip_partial (ht : 0 < tol) (nearest : ℝ → ℝ → ℕ) (hn : ∀ R Z, nearest R Z < g.nx * g.nz) (ps : List (ℝ × ℝ)) (hne : ps ≠ [])
    (hg : ∀ q ∈ ps, 0 ≤ β (.start g.nx g.nz nearest q) ∧ 0 ≤ L (.start g.nx g.nz nearest q) ∧
      (FiPt.start g.nx g.nz nearest q).Good g tol (ρ (.start g.nx g.nz nearest q)) (β (.start g.nx g.nz nearest q)) (L (.start g.nx g.nz nearest q)))
    (hs : ∀ q ∈ ps, 2 * β (.start g.nx g.nz nearest q) * L (.start g.nx g.nz nearest q) * ρ (.start g.nx g.nz nearest q) ≤ 1) :
    ∃ r, g.findIndex nearest tol 1000 ps = .ok r ∧ List.Forall₂ (fun (q t : ℝ × ℝ) => (FiPt.start g.nx g.nz nearest q).on = true →
      ∀ t0 : ℂ, ‖t0 - (FiPt.start g.nx g.nz nearest q).idx‖ ≤ ρ (.start g.nx g.nz nearest q) → g.at 0 0 t0 = ⟨q.1, q.2⟩ →
        ‖(⟨t.1, t.2⟩ : ℂ) - t0‖ ≤ 2 * β (.start g.nx g.nz nearest q) * Real.sqrt tol) ps r := by
  obtain ⟨r, h1, h2⟩ := C233_partial g tol ρ β L ht nearest hn ps hne hg
  refine ⟨r, h1, ?_⟩
  clear h1 hne
  induction h2 with
  | nil => exact .nil
  | @cons q t qs ts h3 h4 ih =>
    refine .cons ?_ (ih (fun q hq => hg q (List.mem_cons_of_mem _ hq)) fun q hq => hs q (List.mem_cons_of_mem _ hq))
    intro hon t0 ht0 hq
    obtain ⟨b0, l0, ga⟩ := hg q List.mem_cons_self
    obtain ⟨_, _, k1, k2⟩ := h3.2 hon
    refine (tame_unique g _ t0 ⟨t.1, t.2⟩ _ _ _ (ga.tame hon) b0 l0 (hs q List.mem_cons_self) ht0 k1).trans ?_
    refine mul_le_mul_of_nonneg_left ?_ (by positivity)
    rw [hq]
    exact Real.le_sqrt_of_sq_le k2.le

/-- The full claim: what `getCoordinate` gives for an index is found by `findIndex`, at least to within half a cell. -/
def Inverts (g : StrPol ℝ) (nearest : ℝ → ℝ → ℕ) (tol : ℝ) : Prop :=
  ∀ x z R Z : ℝ, 0 ≤ x → x ≤ (g.nx : ℝ) - 1 → 0 ≤ z → z < g.nz → g.getCoordinate x z 0 0 = .ok (R, Z) →
    ∃ r, g.findIndex nearest tol 1000 [(R, Z)] = .ok [r] ∧ |r.1 - x| < 1 / 2

/-- **C233 is false for every grid**: positions in the outer half of the first or last cell are never found where they are. -/
theorem C233_fails (g : StrPol ℝ) (nearest : ℝ → ℝ → ℕ) (hn : ∀ R Z, nearest R Z < g.nx * g.nz) (tol : ℝ) : ¬ Inverts g nearest tol := by
  intro h
  have hx : 1 ≤ g.nx := by
    rcases Nat.eq_zero_or_pos g.nx with e | e
    · have := hn 0 0; rw [e] at this; simp at this
    · exact e
  have hz : 0 < g.nz := by
    rcases Nat.eq_zero_or_pos g.nz with e | e
    · have := hn 0 0; rw [e] at this; simp at this
    · exact e
  have hx' : (1 : ℝ) ≤ g.nx := by exact_mod_cast hx
  have hz' : (0 : ℝ) < g.nz := by exact_mod_cast hz
  obtain ⟨r, h1, h2⟩ := h 0 0 _ _ (le_refl _) (by linarith) (le_refl _) hz' (by
    unfold StrPol.getCoordinate
    rw [if_neg (by rw [not_or, not_lt, not_lt]; exact ⟨le_refl _, by linarith⟩)])
  obtain ⟨_, h3⟩ := C47_converged g nearest hn tol 1000 _ _ h1
  have h4 := (h3 0 (by simp) (by simp)).1
  simp only [List.getElem_cons_zero] at h4
  rw [sub_zero, abs_lt] at h2
  rcases h4 with h4 | h4 | h4 <;> linarith [h4]

/-! ## Example -/

/-- A grid of which the lines become less dense outwards. -/
noncomputable def bentPol : StrPol ℝ :=
  ⟨5, 8, fun _ _ => 0, fun _ _ => 0,
    fun a b x _ => if b = 0 then (if a = 0 then x + x ^ 2 / 100 else 1 + x / 50) else 0,
    fun a b _ z => if a = 0 then (if b = 0 then z else 1) else 0⟩

theorem bent_at (p : ℂ) : bentPol.at 0 0 p = ⟨p.re + p.re ^ 2 / 100, npRem p.im 8 + 8⟩ ∧ bentPol.at 1 0 p = ⟨1 + p.re / 50, 0⟩ ∧ bentPol.at 0 1 p = ⟨0, 1⟩ := by
  refine ⟨?_, ?_, ?_⟩ <;> simp [StrPol.at, bentPol]

theorem bent_tame : bentPol.Tame ⟨2, 5⟩ (1 / 2) 1 (1 / 50) := by
  have hrange : ∀ p : ℂ, ‖p - ⟨2, 5⟩‖ ≤ 1 / 2 → 3 / 2 ≤ p.re ∧ npRem p.im 8 = p.im := by
    intro p hp
    have h1 := (Complex.abs_re_le_norm (p - ⟨2, 5⟩)).trans hp
    have h2 := (Complex.abs_im_le_norm (p - ⟨2, 5⟩)).trans hp
    simp only [Complex.sub_re, Complex.sub_im] at h1 h2
    rw [abs_le] at h1 h2
    refine ⟨by linarith, ?_⟩
    have := npRem_self (x := p.im) (n := 8) (by linarith) (by push_cast; linarith)
    exact_mod_cast this
  constructor
  · intro p hp s
    obtain ⟨h1, _⟩ := hrange p hp
    obtain ⟨_, e1, e2⟩ := bent_at p
    rw [one_mul, ← sq_le_sq₀ (norm_nonneg _) (norm_nonneg _), ← Complex.normSq_eq_norm_sq, ← Complex.normSq_eq_norm_sq, Complex.normSq_apply, Complex.normSq_apply,
      lin_re, lin_im, e1, e2]
    simp only
    nlinarith [sq_nonneg s.re, mul_nonneg (sq_nonneg s.re) (by linarith : 0 ≤ p.re)]
  · intro p q hp hq
    obtain ⟨_, z1⟩ := hrange p hp
    obtain ⟨_, z2⟩ := hrange q hq
    obtain ⟨e0, e1, e2⟩ := bent_at p
    obtain ⟨f0, _, _⟩ := bent_at q
    have e : bentPol.at 0 0 q - bentPol.at 0 0 p - bentPol.lin p (q - p) = (((q.re - p.re) ^ 2 / 100 : ℝ) : ℂ) := by
      apply Complex.ext
      · rw [Complex.sub_re, Complex.sub_re, lin_re, e0, e1, e2, f0, Complex.ofReal_re]
        simp only [Complex.sub_re, Complex.sub_im]
        ring
      · rw [Complex.sub_im, Complex.sub_im, lin_im, e0, e1, e2, f0, z1, z2, Complex.ofReal_im]
        simp only [Complex.sub_re, Complex.sub_im]
        ring
    rw [e, Complex.norm_real, Real.norm_eq_abs, abs_of_nonneg (by positivity)]
    have h3 := Complex.abs_re_le_norm (q - p)
    rw [Complex.sub_re] at h3
    have := pow_le_pow_left₀ (abs_nonneg _) h3 2
    rw [sq_abs] at this
    linarith

/-- The position of the index (2.25, 5.25) is found. -/
example : ∃ r, bentPol.findIndex (fun _ _ => 21) (1 / 10 ^ 12) 1000 [(9 / 4 + (9 / 4) ^ 2 / 100, 53 / 4)] = .ok [r] ∧
    ‖(⟨r.1, r.2⟩ : ℂ) - ⟨9 / 4, 21 / 4⟩‖ ≤ 2 * Real.sqrt (1 / 10 ^ 12) := by
  have hst : FiPt.start bentPol.nx bentPol.nz (fun _ _ => 21) ((9 / 4 + (9 / 4) ^ 2 / 100 : ℝ), (53 / 4 : ℝ)) =
      ⟨9 / 4 + (9 / 4) ^ 2 / 100, 53 / 4, 2, 5, true⟩ := by
    norm_num [FiPt.start, bentPol]
  have h5 : npRem (5 : ℝ) 8 = 5 := by
    have := npRem_self (x := (5 : ℝ)) (n := 8) (by norm_num) (by norm_num)
    exact_mod_cast this
  have h54 : npRem (21 / 4 : ℝ) 8 = 21 / 4 := by
    have := npRem_self (x := (21 / 4 : ℝ)) (n := 8) (by norm_num) (by norm_num)
    exact_mod_cast this
  have hsq : FiPt.resid bentPol ⟨9 / 4 + (9 / 4) ^ 2 / 100, 53 / 4, 2, 5, true⟩ ^ 2 = (417 / 1600) ^ 2 + 1 / 16 := by
    rw [FiPt.resid, ← Complex.normSq_eq_norm_sq, Complex.normSq_apply, FiPt.idx, (bent_at _).1, FiPt.goal]
    simp only [Complex.sub_re, Complex.sub_im, h5]
    norm_num
  have h0 : 0 ≤ FiPt.resid bentPol ⟨9 / 4 + (9 / 4) ^ 2 / 100, 53 / 4, 2, 5, true⟩ := norm_nonneg _
  have hle : FiPt.resid bentPol ⟨9 / 4 + (9 / 4) ^ 2 / 100, 53 / 4, 2, 5, true⟩ ≤ 2 / 5 := by
    rw [← sq_le_sq₀ h0 (by norm_num), hsq]
    norm_num
  obtain ⟨r, h1, h2⟩ := C233_roundtrip_partial bentPol (1 / 10 ^ 12) (fun _ => 1 / 2) (fun _ => 1) (fun _ => 1 / 50) (by norm_num) (fun _ _ => 21)
    (fun _ _ => by norm_num [bentPol]) [(9 / 4 + (9 / 4) ^ 2 / 100, 53 / 4)] (by simp) (by
      intro q hq
      rw [List.mem_singleton] at hq
      subst hq
      rw [hst]
      refine ⟨by norm_num, by norm_num, ⟨⟨⟨by norm_num, by norm_num [bentPol]⟩, fun _ => ⟨by norm_num, by norm_num [bentPol]⟩, fun h => by cases h⟩,
        (fun h => by cases h), fun _ => bent_tame, fun _ => by linarith, fun _ => by linarith, fun _ => ⟨by norm_num, by norm_num [bentPol]⟩, fun _ => ?_⟩⟩
      rw [hsq]
      norm_num) (by intro q _; norm_num)
  obtain ⟨t, ts, h3, h4, rfl⟩ := List.forall₂_cons_left_iff.1 h2
  cases h4
  refine ⟨t, h1, ?_⟩
  have := h3 (by rw [hst]) ⟨9 / 4, 21 / 4⟩ (by
    rw [hst, ← sq_le_sq₀ (norm_nonneg _) (by norm_num), ← Complex.normSq_eq_norm_sq, Complex.normSq_apply]
    simp only [FiPt.idx, Complex.sub_re, Complex.sub_im]
    norm_num) (by
    rw [(bent_at _).1]
    simp only [h54]
    norm_num)
  simpa using this

end Zoidberg
