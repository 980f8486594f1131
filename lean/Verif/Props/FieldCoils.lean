import Verif.Model.FieldCoils
import Verif.Props.Field
import Mathlib.Analysis.SpecialFunctions.Log.Deriv
import Mathlib.Analysis.SpecialFunctions.Sqrt
import Mathlib.Analysis.Calculus.Deriv.Pow
import Mathlib.Analysis.Calculus.Deriv.Inv
import Mathlib.Analysis.ODE.ExistUnique
import Mathlib.Analysis.Calculus.ContDiff.Operations
import Mathlib.Analysis.SpecialFunctions.Pow.Deriv
import Mathlib.Tactic.LinearCombination

/-!
# C79, C80, C136-C138: fields of coils and the screw pinch
-/

set_option linter.unusedSectionVars false

namespace Zoidberg

open Real

theorem sin_atan2R (z x : ℝ) : sin (atan2R z x) = z / sqrt (x ^ 2 + z ^ 2) := by
  unfold atan2R
  rw [Complex.sin_arg, Complex.norm_def, Complex.normSq_mk]
  simp only [pow_two]

theorem cos_atan2R (z x : ℝ) (h : 0 < x ^ 2 + z ^ 2) : cos (atan2R z x) = x / sqrt (x ^ 2 + z ^ 2) := by
  unfold atan2R
  rw [Complex.cos_arg, Complex.norm_def, Complex.normSq_mk]
  · simp only [pow_two]
  · intro h0
    rw [Complex.ext_iff] at h0
    simp only [Complex.zero_re, Complex.zero_im] at h0
    rw [h0.1, h0.2] at h
    norm_num at h

/-- The point is not on a coil. -/
def OffCoils (cs : List Coil) (x z : ℝ) : Prop := ∀ c ∈ cs, x ≠ c.x ∨ z ≠ c.z

theorem Coil.r2_pos {c : Coil} {x z : ℝ} (h : x ≠ c.x ∨ z ≠ c.z) : 0 < c.r2 x z := by
  unfold Coil.r2
  rcases h with h | h
  · have := pow_pos (abs_pos.2 (sub_ne_zero.2 h)) 2
    rw [sq_abs] at this
    nlinarith [sq_nonneg (z - c.z)]
  · have := pow_pos (abs_pos.2 (sub_ne_zero.2 h)) 2
    rw [sq_abs] at this
    nlinarith [sq_nonneg (x - c.x)]

theorem coil_term_x {c : Coil} {x z : ℝ} (h : x ≠ c.x ∨ z ≠ c.z) :
    c.I * (1 / 5) / sqrt (c.r2 x z) * sin (atan2R (z - c.z) (x - c.x)) = c.I / 5 * ((z - c.z) / c.r2 x z) := by
  rw [sin_atan2R]
  have h1 := Coil.r2_pos h
  change c.I * (1 / 5) / sqrt (c.r2 x z) * ((z - c.z) / sqrt (c.r2 x z)) = _
  have h2 : sqrt (c.r2 x z) * sqrt (c.r2 x z) = c.r2 x z := Real.mul_self_sqrt h1.le
  rw [div_mul_div_comm, h2]
  ring

theorem coil_term_z {c : Coil} {x z : ℝ} (h : x ≠ c.x ∨ z ≠ c.z) :
    c.I * (1 / 5) / sqrt (c.r2 x z) * cos (atan2R (z - c.z) (x - c.x)) = c.I / 5 * ((x - c.x) / c.r2 x z) := by
  have h1 := Coil.r2_pos h
  rw [cos_atan2R _ _ h1]
  change c.I * (1 / 5) / sqrt (c.r2 x z) * ((x - c.x) / sqrt (c.r2 x z)) = _
  have h2 : sqrt (c.r2 x z) * sqrt (c.r2 x z) = c.r2 x z := Real.mul_self_sqrt h1.le
  rw [div_mul_div_comm, h2]
  ring

theorem foldl_add_sum {α : Type} (g : α → ℝ) : ∀ (l : List α) (a : ℝ), l.foldl (fun B c => B + g c) a = a + (l.map g).sum
  | [], a => by simp
  | c :: l, a => by rw [List.foldl_cons, foldl_add_sum g l]; simp; ring

theorem foldl_sub_sum {α : Type} (g : α → ℝ) : ∀ (l : List α) (a : ℝ), l.foldl (fun B c => B - g c) a = a - (l.map g).sum
  | [], a => by simp
  | c :: l, a => by rw [List.foldl_cons, foldl_sub_sum g l]; simp; ring

theorem coilBx_eq {cs : List Coil} {x z : ℝ} (h : OffCoils cs x z) : coilBx cs x z = (cs.map fun c => c.I / 5 * ((z - c.z) / c.r2 x z)).sum := by
  unfold coilBx
  rw [foldl_add_sum, zero_add, List.map_congr_left fun c hc => coil_term_x (h c hc)]

theorem coilBz_eq {cs : List Coil} {x z : ℝ} (h : OffCoils cs x z) : coilBz cs x z = -(cs.map fun c => c.I / 5 * ((x - c.x) / c.r2 x z)).sum := by
  unfold coilBz
  rw [foldl_sub_sum, zero_sub, List.map_congr_left fun c hc => coil_term_z (h c hc)]

theorem hasDerivAt_listSum {α : Type} (g : α → ℝ → ℝ) (g' : α → ℝ) (x : ℝ) : ∀ l : List α, (∀ c ∈ l, HasDerivAt (g c) (g' c) x) →
    HasDerivAt (fun t => (l.map fun c => g c t).sum) (l.map g').sum x
  | [], _ => by simpa using hasDerivAt_const x (0 : ℝ)
  | c :: l, h => by
    simp only [List.map_cons, List.sum_cons]
    exact (h c (by simp)).add (hasDerivAt_listSum g g' x l fun d hd => h d (by simp [hd]))

theorem r2_deriv_x (c : Coil) (x z : ℝ) : HasDerivAt (fun t => c.r2 t z) (2 * (x - c.x)) x := by
  unfold Coil.r2
  have := (((hasDerivAt_id x).sub_const c.x).pow 2).add_const ((z - c.z) ^ 2)
  simpa using this

theorem r2_deriv_z (c : Coil) (x z : ℝ) : HasDerivAt (fun t => c.r2 x t) (2 * (z - c.z)) z := by
  unfold Coil.r2
  have := (((hasDerivAt_id z).sub_const c.z).pow 2).const_add ((x - c.x) ^ 2)
  simpa using this

/-- **C79.** Away from the coils the field is that of the potential `A`, for every list of coils. -/
theorem C79_potential (cs : List Coil) (x z : ℝ) (h : OffCoils cs x z) :
    HasDerivAt (fun t => coilA cs x t) (-coilBx cs x z) z ∧ HasDerivAt (fun t => coilA cs t z) (coilBz cs x z) x := by
  unfold coilA
  simp only [foldl_sub_sum, zero_sub]
  rw [coilBx_eq h, coilBz_eq h]
  constructor
  · refine (hasDerivAt_listSum (fun c t => c.I * (1 / 10) * log (c.r2 x t)) (fun c => c.I / 5 * ((z - c.z) / c.r2 x z)) z cs fun c hc => ?_).neg
    have h1 := Coil.r2_pos (h c hc)
    have := ((r2_deriv_z c x z).log h1.ne').const_mul (c.I * (1 / 10))
    refine this.congr_deriv ?_
    ring
  · refine (hasDerivAt_listSum (fun c t => c.I * (1 / 10) * log (c.r2 t z)) (fun c => c.I / 5 * ((x - c.x) / c.r2 x z)) x cs fun c hc => ?_).neg
    have h1 := Coil.r2_pos (h c hc)
    have := ((r2_deriv_x c x z).log h1.ne').const_mul (c.I * (1 / 10))
    refine this.congr_deriv ?_
    ring

theorem offCoils_near_x {cs : List Coil} {x z : ℝ} (h : OffCoils cs x z) : ∀ᶠ t in nhds x, OffCoils cs t z := by
  unfold OffCoils at *
  induction cs with
  | nil => simp
  | cons c cs ih =>
    have h1 : ∀ᶠ t in nhds x, t ≠ c.x ∨ z ≠ c.z := by
      rcases h c (by simp) with h1 | h1
      · exact (eventually_ne_nhds h1).mono fun t ht => Or.inl ht
      · exact Filter.Eventually.of_forall fun t => Or.inr h1
    filter_upwards [h1, ih fun d hd => h d (by simp [hd])] with t h2 h3 d hd
    rcases List.mem_cons.1 hd with rfl | hd
    · exact h2
    · exact h3 d hd

theorem offCoils_near_z {cs : List Coil} {x z : ℝ} (h : OffCoils cs x z) : ∀ᶠ t in nhds z, OffCoils cs x t := by
  unfold OffCoils at *
  induction cs with
  | nil => simp
  | cons c cs ih =>
    have h1 : ∀ᶠ t in nhds z, x ≠ c.x ∨ t ≠ c.z := by
      rcases h c (by simp) with h1 | h1
      · exact Filter.Eventually.of_forall fun t => Or.inl h1
      · exact (eventually_ne_nhds h1).mono fun t ht => Or.inr ht
    filter_upwards [h1, ih fun d hd => h d (by simp [hd])] with t h2 h3 d hd
    rcases List.mem_cons.1 hd with rfl | hd
    · exact h2
    · exact h3 d hd

/-- **C79.** The planar divergence vanishes away from the coils. -/
theorem C79_divergence (cs : List Coil) (x z : ℝ) (h : OffCoils cs x z) :
    ∃ d, HasDerivAt (fun t => coilBx cs t z) d x ∧ HasDerivAt (fun t => coilBz cs x t) (-d) z := by
  refine ⟨(cs.map fun c => c.I / 5 * (-(2 * (x - c.x) * (z - c.z)) / c.r2 x z ^ 2)).sum, ?_, ?_⟩
  · refine HasDerivAt.congr_of_eventuallyEq ?_ ((offCoils_near_x h).mono fun t ht => coilBx_eq ht)
    refine hasDerivAt_listSum (fun c t => c.I / 5 * ((z - c.z) / c.r2 t z)) _ x cs fun c hc => ?_
    have h1 := Coil.r2_pos (h c hc)
    have := ((hasDerivAt_const x (z - c.z)).div (r2_deriv_x c x z) h1.ne').const_mul (c.I / 5)
    refine this.congr_deriv ?_
    ring
  · refine HasDerivAt.congr_of_eventuallyEq ?_ ((offCoils_near_z h).mono fun t ht => coilBz_eq ht)
    refine (hasDerivAt_listSum (fun c t => c.I / 5 * ((x - c.x) / c.r2 x t)) _ z cs fun c hc => ?_).neg
    have h1 := Coil.r2_pos (h c hc)
    have := ((hasDerivAt_const z (x - c.x)).div (r2_deriv_z c x z) h1.ne').const_mul (c.I / 5)
    refine this.congr_deriv ?_
    ring

/-- **C79.** The coils return after `yperiod`. -/
theorem C79_period (xc zc r yperiod I phi : ℝ) (h : yperiod ≠ 0) :
    coilList xc zc r yperiod I (phi + yperiod) = coilList xc zc r yperiod I phi := by
  unfold coilList coilAt
  refine List.map_congr_left fun i _ => ?_
  have e : (i : ℝ) / 2 * π + 2 * π / yperiod * (phi + yperiod) = ((i : ℝ) / 2 * π + 2 * π / yperiod * phi) + 2 * π := by
    field_simp
    ring
  rw [e, cos_add_two_pi, sin_add_two_pi]

/-- **C79.** So do the fields. -/
theorem C79_fields (xc zc r yperiod I Btor : ℝ) (h : yperiod ≠ 0) (x z phi : ℝ) :
    (straightStellarator xc zc r yperiod I).Bx x z (phi + yperiod) = (straightStellarator xc zc r yperiod I).Bx x z phi ∧
      (straightStellarator xc zc r yperiod I).Bz x z (phi + yperiod) = (straightStellarator xc zc r yperiod I).Bz x z phi ∧
      (rotatingEllipse xc zc r yperiod I Btor).Bx x z (phi + yperiod) = (rotatingEllipse xc zc r yperiod I Btor).Bx x z phi ∧
      (rotatingEllipse xc zc r yperiod I Btor).Bz x z (phi + yperiod) = (rotatingEllipse xc zc r yperiod I Btor).Bz x z phi := by
  unfold straightStellarator rotatingEllipse
  simp only [C79_period _ _ _ _ _ _ h, and_self]

theorem coilList_start (xc zc r yperiod I : ℝ) :
    coilList xc zc r yperiod I 0 = [⟨xc + r, zc, I⟩, ⟨xc, zc + r, -I⟩, ⟨xc - r, zc, I⟩, ⟨xc, zc - r, -I⟩] := by
  unfold coilList coilAt
  have h3 : (3 : ℝ) / 2 * π = π / 2 + π := by ring
  have h1 : (1 : ℝ) / 2 * π = π / 2 := by ring
  have h2 : (2 : ℝ) / 2 * π = π := by ring
  simp only [List.range_succ, List.range_zero, List.nil_append, List.cons_append, List.map_cons, List.map_nil, mul_zero, add_zero, Nat.cast_zero, zero_div,
    zero_mul, cos_zero, sin_zero, Nat.cast_one, Nat.cast_ofNat, h1, h2, h3, cos_pi_div_two, sin_pi_div_two, cos_pi, sin_pi, cos_add_pi, sin_add_pi]
  norm_num
  constructor <;> ring

/-- A point between the coils. -/
example : OffCoils (coilList 2 0 1 π 5 0) 3 1 ∧ coilBx (coilList 2 0 1 π 5 0) 3 1 = 4 / 5 := by
  have h : OffCoils (coilList 2 0 1 π 5 0) 3 1 := by
    rw [coilList_start]; unfold OffCoils; simp
  refine ⟨h, ?_⟩
  rw [coilBx_eq h, coilList_start]
  unfold Coil.r2
  norm_num

/-! ### C136: divergence in cylindrical coordinates -/

/-- What the statement says: `1/R d(R B_R)/dR + dB_Z/dZ + 1/R dB_phi/dphi = 0` (the last term is zero). -/
def EllipseDivFree : Prop :=
  ∀ (xc zc r yperiod I Btor x z phi d e : ℝ), 0 < x → 0 < yperiod → OffCoils (coilList xc zc r yperiod I phi) x z →
    HasDerivAt (fun t => t * (rotatingEllipse xc zc r yperiod I Btor).Bx t z phi) d x →
    HasDerivAt (fun t => (rotatingEllipse xc zc r yperiod I Btor).Bz x t phi) e z → d / x + e = 0

/-- **C136 (partial).** The divergence is `B_R / R`: it vanishes where `B_R` does.  Missing: elsewhere (`C136_fails`). -/
theorem C136_value_partial (xc zc r yperiod I Btor x z phi d e : ℝ) (hx : 0 < x) (h : OffCoils (coilList xc zc r yperiod I phi) x z)
    (hd : HasDerivAt (fun t => t * (rotatingEllipse xc zc r yperiod I Btor).Bx t z phi) d x)
    (he : HasDerivAt (fun t => (rotatingEllipse xc zc r yperiod I Btor).Bz x t phi) e z) :
    d / x + e = (rotatingEllipse xc zc r yperiod I Btor).Bx x z phi / x := by
  obtain ⟨k, h1, h2⟩ := C79_divergence _ x z h
  have h3 := he.unique h2
  have h4 := hd.unique ((hasDerivAt_id x).mul h1)
  rw [h3, h4]
  unfold rotatingEllipse
  dsimp only [id]
  field_simp
  ring

/-- **C136 (refutation).** -/
theorem C136_fails : ¬ EllipseDivFree := by
  intro h
  have ho : OffCoils (coilList 2 0 1 1 5 0) 3 1 := by
    rw [coilList_start]; unfold OffCoils; simp
  obtain ⟨k, h1, h2⟩ := C79_divergence _ 3 1 ho
  have h3 := h 2 0 1 1 5 1 3 1 0 _ _ (by norm_num) (by norm_num) ho ((hasDerivAt_id 3).mul h1) h2
  have h4 : coilBx (coilList 2 0 1 1 5 0) 3 1 = 4 / 5 := by
    rw [coilBx_eq ho, coilList_start]
    unfold Coil.r2
    norm_num
  change (1 * coilBx (coilList 2 0 1 1 5 0) 3 1 + 3 * k) / 3 + -k = 0 at h3
  rw [h4] at h3
  have h5 : ((1 : ℝ) * (4 / 5) + 3 * k) / 3 + -k = 4 / 15 := by ring
  rw [h5] at h3
  norm_num at h3

/-! ### C137: half a period -/

/-- **C137.** The coils come back with the same currents after half of `yperiod`, in another order. -/
theorem C137_coils (xc zc r yperiod I phi : ℝ) (h : yperiod ≠ 0) :
    (coilList xc zc r yperiod I (phi + yperiod / 2)).Perm (coilList xc zc r yperiod I phi) := by
  have e : ∀ a : ℝ, a + 2 * π / yperiod * (phi + yperiod / 2) = (a + 2 * π / yperiod * phi) + π := by
    intro a
    field_simp
    ring
  unfold coilList coilAt
  simp only [e, List.range_succ, List.range_zero, List.nil_append, List.cons_append, List.map_cons, List.map_nil, cos_add_pi, sin_add_pi]
  have e2 : ∀ a : ℝ, ((2 : ℕ) : ℝ) / 2 * π + a = (((0 : ℕ) : ℝ) / 2 * π + a) + π := by intro a; push_cast; ring
  have e3 : ∀ a : ℝ, ((3 : ℕ) : ℝ) / 2 * π + a = (((1 : ℕ) : ℝ) / 2 * π + a) + π := by intro a; push_cast; ring
  simp only [e2, e3, cos_add_pi, sin_add_pi, neg_neg]
  exact (List.perm_append_comm (l₁ := [_, _]) (l₂ := [_, _]))

/-- **C137.** So the period of both fields is half of `yperiod`. -/
theorem C137_fields (xc zc r yperiod I Btor : ℝ) (h : yperiod ≠ 0) (x z phi : ℝ) :
    (straightStellarator xc zc r yperiod I).Bx x z (phi + yperiod / 2) = (straightStellarator xc zc r yperiod I).Bx x z phi ∧
      (straightStellarator xc zc r yperiod I).Bz x z (phi + yperiod / 2) = (straightStellarator xc zc r yperiod I).Bz x z phi ∧
      (rotatingEllipse xc zc r yperiod I Btor).Bx x z (phi + yperiod / 2) = (rotatingEllipse xc zc r yperiod I Btor).Bx x z phi ∧
      (rotatingEllipse xc zc r yperiod I Btor).Bz x z (phi + yperiod / 2) = (rotatingEllipse xc zc r yperiod I Btor).Bz x z phi := by
  have h1 : coilBx (coilList xc zc r yperiod I (phi + yperiod / 2)) x z = coilBx (coilList xc zc r yperiod I phi) x z := by
    unfold coilBx
    rw [foldl_add_sum, foldl_add_sum, ((C137_coils xc zc r yperiod I phi h).map _).sum_eq]
  have h2 : coilBz (coilList xc zc r yperiod I (phi + yperiod / 2)) x z = coilBz (coilList xc zc r yperiod I phi) x z := by
    unfold coilBz
    rw [foldl_sub_sum, foldl_sub_sum, ((C137_coils xc zc r yperiod I phi h).map _).sum_eq]
  exact ⟨h1, h2, h1, h2⟩

/-! ### C80, C138: the screw pinch -/

theorem pinch_Bx (xc zc a b x z y : ℝ) : (screwpinch xc zc a b).Bx x z y = -a * pinchR xc zc x z * (z - zc) := by
  unfold screwpinch
  dsimp only
  rw [sin_atan2R]
  change -a * pinchR xc zc x z * pinchR xc zc x z * ((z - zc) / pinchR xc zc x z) = _
  by_cases h : pinchR xc zc x z = 0
  · rw [h]; ring
  · field_simp

theorem pinch_Bz (xc zc a b x z y : ℝ) : (screwpinch xc zc a b).Bz x z y = a * pinchR xc zc x z * (x - xc) := by
  unfold screwpinch
  dsimp only
  by_cases h : 0 < (x - xc) ^ 2 + (z - zc) ^ 2
  · rw [cos_atan2R _ _ h]
    change a * pinchR xc zc x z * pinchR xc zc x z * ((x - xc) / pinchR xc zc x z) = _
    have : pinchR xc zc x z ≠ 0 := (Real.sqrt_pos.2 h).ne'
    field_simp
  · have h2 : pinchR xc zc x z = 0 := by
      unfold pinchR
      exact Real.sqrt_eq_zero_of_nonpos (not_lt.1 h)
    rw [h2]; ring

/-- **C80.** The field is tangent to the circles about the axis. -/
theorem C80_tangent (xc zc a b x z y : ℝ) :
    (x - xc) * (screwpinch xc zc a b).Bx x z y + (z - zc) * (screwpinch xc zc a b).Bz x z y = 0 := by
  rw [pinch_Bx, pinch_Bz]; ring

/-- **C80.** The radius is the same everywhere on a field line. -/
theorem C80_radius (xc zc a b : ℝ) (x z : ℝ → ℝ) (y0 y1 : ℝ) (h : FieldLineOn (screwpinch xc zc a b) (Set.Icc y0 y1) x z) :
    ∀ y ∈ Set.Icc y0 y1, pinchR xc zc (x y) (z y) = pinchR xc zc (x y0) (z y0) := by
  intro y hy
  have h1 := const_on_Icc (g := fun t => (x t - xc) ^ 2 + (z t - zc) ^ 2) (a := y0) (b := y1) (fun t ht => by
    obtain ⟨_, hx, hz⟩ := h.deriv ht
    have h2 := ((hx.sub_const xc).pow 2).add ((hz.sub_const zc).pow 2)
    refine h2.congr_deriv ?_
    have h3 := C80_tangent xc zc a b (x t) (z t) t
    simp only [Nat.cast_ofNat, Nat.add_one_sub_one, pow_one]
    linear_combination (2 * (screwpinch xc zc a b).Rmaj (x t) (z t) t / (screwpinch xc zc a b).By (x t) (z t) t) * h3) y hy
  unfold pinchR
  exact congrArg sqrt h1

/-- There are such lines through every point off the axis where `By` is not refused. -/
theorem pinch_line_exists (xc zc a b x0 z0 : ℝ) (h0 : x0 ≠ 0) (h1 : x0 ≠ xc ∨ z0 ≠ zc) (hb : 1 / 100000000 < |b / x0|) :
    ∃ ε > 0, ∃ x z : ℝ → ℝ, x 0 = x0 ∧ z 0 = z0 ∧ FieldLineOn (screwpinch xc zc a b) (Set.Icc 0 ε) x z := by
  have hb0 : b ≠ 0 := by
    rintro rfl
    rw [zero_div, abs_zero] at hb
    norm_num at hb
  have hr : 0 < (x0 - xc) ^ 2 + (z0 - zc) ^ 2 := Coil.r2_pos (c := ⟨xc, zc, 0⟩) h1
  let v : ℝ × ℝ → ℝ × ℝ := fun p =>
    (p.1 * (-a * sqrt ((p.1 - xc) ^ 2 + (p.2 - zc) ^ 2) * (p.2 - zc)) / (b / p.1), p.1 * (a * sqrt ((p.1 - xc) ^ 2 + (p.2 - zc) ^ 2) * (p.1 - xc)) / (b / p.1))
  have hs : ContDiffAt ℝ 1 (fun p : ℝ × ℝ => sqrt ((p.1 - xc) ^ 2 + (p.2 - zc) ^ 2)) (x0, z0) := by
    refine ContDiffAt.sqrt ?_ hr.ne'
    fun_prop
  have hd : ContDiffAt ℝ 1 (fun p : ℝ × ℝ => b / p.1) (x0, z0) := by
    refine ContDiffAt.div ?_ ?_ h0 <;> fun_prop
  have hbx : b / x0 ≠ 0 := div_ne_zero hb0 h0
  have hv : ContDiffAt ℝ 1 v (x0, z0) := by
    refine ContDiffAt.prodMk (ContDiffAt.div (ContDiffAt.mul ?_ (ContDiffAt.mul (ContDiffAt.mul ?_ hs) ?_)) hd hbx)
      (ContDiffAt.div (ContDiffAt.mul ?_ (ContDiffAt.mul (ContDiffAt.mul ?_ hs) ?_)) hd hbx) <;> fun_prop
  obtain ⟨α, hα, ε, hε, hα'⟩ := hv.exists_forall_mem_closedBall_exists_eq_forall_mem_Ioo_hasDerivAt₀ 0
  have hc : ContinuousAt (fun t => |b / (α t).1|) 0 := by
    have h2 := (hα' 0 (by simp [hε])).continuousAt
    refine ContinuousAt.abs (ContinuousAt.div continuousAt_const h2.fst ?_)
    rw [hα]; exact h0
  have h3 : ∀ᶠ t in nhds (0 : ℝ), 1 / 100000000 < |b / (α t).1| := by
    refine hc.eventually (lt_mem_nhds ?_)
    dsimp only
    rw [hα]; exact hb
  obtain ⟨δ, hδ, h4⟩ := Metric.eventually_nhds_iff.1 h3
  refine ⟨min ε δ / 2, by positivity, fun t => (α t).1, fun t => (α t).2, by dsimp only; rw [hα], by dsimp only; rw [hα], fun y hy => ?_⟩
  have hm : 0 < min ε δ := lt_min hε hδ
  have hy1 : y < ε := by have := hy.2; have := min_le_left ε δ; linarith
  have hy2 : y < δ := by have := hy.2; have := min_le_right ε δ; linarith
  have hd1 := hα' y ⟨by have := hy.1; linarith, by linarith⟩
  refine ⟨_, _, (direction_one _ _ _ _ _ _).2 ⟨?_, rfl, rfl⟩, ?_, ?_⟩
  · refine (h4 (y := y) ?_).le
    rw [Real.dist_eq, sub_zero, abs_of_nonneg hy.1]
    exact hy2
  · rw [pinch_Bx]
    exact hd1.fst
  · rw [pinch_Bz]
    exact hd1.snd

/-- A line at the distance one from the axis. -/
example : ∃ ε > 0, ∃ x z : ℝ → ℝ, x 0 = 5 / 2 ∧ z 0 = 0 ∧ FieldLineOn (screwpinch (3 / 2) 0 2 1) (Set.Icc 0 ε) x z :=
  pinch_line_exists _ _ _ _ _ _ (by norm_num) (Or.inl (by norm_num)) (by norm_num [abs_of_pos])

/-- What the statement says: the field is that of the potential `A`. -/
def PinchPotential : Prop :=
  ∀ xc zc a b x z y : ℝ, HasDerivAt (fun t => pinchA xc zc a x t) (-(screwpinch xc zc a b).Bx x z y) z ∧
    HasDerivAt (fun t => pinchA xc zc a t z) ((screwpinch xc zc a b).Bz x z y) x

theorem pinchA_eq (xc zc a x z : ℝ) : pinchA xc zc a x z = a * ((x - xc) ^ 2 + (z - zc) ^ 2) := by
  unfold pinchA pinchR
  rw [Real.sq_sqrt (by positivity)]

/-- **C138 (partial).** It is so at the axis and at the distance two from it: the field of `A` is `2 a` times the radius vector, turned by a right angle.  Missing:
everywhere else (`C138_fails`). -/
theorem C138_potential_partial (xc zc a b x z y : ℝ) (h : pinchR xc zc x z = 2) :
    HasDerivAt (fun t => pinchA xc zc a x t) (-(screwpinch xc zc a b).Bx x z y) z ∧
      HasDerivAt (fun t => pinchA xc zc a t z) ((screwpinch xc zc a b).Bz x z y) x := by
  rw [pinch_Bx, pinch_Bz, h]
  simp only [pinchA_eq]
  constructor
  · have := ((((hasDerivAt_id z).sub_const zc).pow 2).const_add ((x - xc) ^ 2)).const_mul a
    refine this.congr_deriv ?_
    simp; ring
  · have := ((((hasDerivAt_id x).sub_const xc).pow 2).add_const ((z - zc) ^ 2)).const_mul a
    refine this.congr_deriv ?_
    simp; ring

/-- **C138 (refutation).** -/
theorem C138_fails : ¬ PinchPotential := by
  intro h
  have h1 := (h 0 0 1 1 1 0 0).2
  rw [pinch_Bz] at h1
  simp only [pinchA_eq] at h1
  have h2 := ((((hasDerivAt_id (1 : ℝ)).sub_const 0).pow 2).add_const (((0 : ℝ) - 0) ^ 2)).const_mul 1
  have h3 := h1.unique h2
  unfold pinchR at h3
  simp at h3

/-- **C138.** The planar divergence vanishes away from the axis. -/
theorem C138_divergence (xc zc a b x z y : ℝ) (h : x ≠ xc ∨ z ≠ zc) :
    ∃ d, HasDerivAt (fun t => (screwpinch xc zc a b).Bx t z y) d x ∧ HasDerivAt (fun t => (screwpinch xc zc a b).Bz x t y) (-d) z := by
  have h1 : 0 < (x - xc) ^ 2 + (z - zc) ^ 2 := Coil.r2_pos (c := ⟨xc, zc, 0⟩) h
  refine ⟨-a * ((x - xc) / pinchR xc zc x z) * (z - zc), ?_, ?_⟩
  · simp only [pinch_Bx]
    have h2 := ((((hasDerivAt_id x).sub_const xc).pow 2).add_const ((z - zc) ^ 2)).sqrt h1.ne'
    have h3 := (h2.const_mul (-a)).mul_const (z - zc)
    refine h3.congr_deriv ?_
    change -a * ((2 : ℕ) * (x - xc) ^ (2 - 1) * 1 / (2 * pinchR xc zc x z)) * (z - zc) = _
    rw [Nat.cast_ofNat, mul_one, mul_div_mul_left _ _ two_ne_zero]
    simp
  · simp only [pinch_Bz]
    have h2 := ((((hasDerivAt_id z).sub_const zc).pow 2).const_add ((x - xc) ^ 2)).sqrt h1.ne'
    have h3 := (h2.const_mul a).mul_const (x - xc)
    refine h3.congr_deriv ?_
    change a * ((2 : ℕ) * (z - zc) ^ (2 - 1) * 1 / (2 * pinchR xc zc x z)) * (x - xc) = _
    rw [Nat.cast_ofNat, mul_one, mul_div_mul_left _ _ two_ne_zero]
    simp
    ring

end Zoidberg
