import Verif.Props.Volume

/-! # Property C263: `J` for fields that are not in cylindrical coordinates

`field.py:34` says that `y` is in metres if `Rfunc` is `None`, and `get_metric` (zoidberg.py:440-449) uses `Rfunc` for `g_yy`.  The loop of `make_maps` for `J`
(zoidberg.py:408-411) multiplies with `coords[..., 0]` for every field. -/

set_option linter.unusedSectionVars false

namespace Zoidberg

open Set Filter Topology Interval

/-- The factor of `dy` for the length in the direction of `y`: `Rfunc`, or 1 if it is `None`, along the line, over the field. -/
noncomputable def scaleOverField (e : MmEnv ℝ) (rfunc : Option (ℝ → ℝ → ℝ → ℝ)) (φ : ℝ → ℝ → ℝ → ℝ → ℝ × ℝ) (R Z y s : ℝ) : ℝ :=
  (match rfunc with
    | some g => g (φ R Z y s).1 (φ R Z y s).2 s
    | none => 1) / e.byfunc (φ R Z y s).1 (φ R Z y s).2 s

/-- The claim for one cell: `J dy` is area times field times the integral of the length of `dy` over the field. -/
def ScaledVolumeOk (e : MmEnv ℝ) (rfunc : Option (ℝ → ℝ → ℝ → ℝ)) (φ : ℝ → ℝ → ℝ → ℝ → ℝ × ℝ) (c : Cell) (pol : MapPol ℝ) (y ylow yhigh A : ℝ) : Prop :=
  ∃ C, ∀ r : ℕ, 1 ≤ r → ∀ v, JIs e r c v →
    |v * ((yhigh - ylow) / 2) - A * fieldAt e φ (pol.R c.1 c.2.2) (pol.Z c.1 c.2.2) y *
      ∫ s in ((ylow + y) / 2)..((y + yhigh) / 2), scaleOverField e rfunc φ (pol.R c.1 c.2.2) (pol.Z c.1 c.2.2) y s| ≤ C / (r : ℝ) ^ 2

/-- `J` has only one limit. -/
theorem J_limit_unique (e : MmEnv ℝ) (hf : FollowOk e) (hg : GridOk e) (φ : ℝ → ℝ → ℝ → ℝ → ℝ × ℝ) (hφ : PointTracer e φ) (hs : e.isSlab = false)
    (first : MapPol ℝ) (y0 : ℝ) (h0 : e.grid.getPoloidalGrid ((0 : ℕ) : ℝ) = .ok (some first, y0)) (c : Cell) (d u v C D : ℝ)
    (hC : ∀ r : ℕ, 1 ≤ r → ∀ w, JIs e r c w → |w * d - u| ≤ C / (r : ℝ) ^ 2) (hD : ∀ r : ℕ, 1 ≤ r → ∀ w, JIs e r c w → |w * d - v| ≤ D / (r : ℝ) ^ 2) : u = v := by
  have hsmall : ∀ r : ℕ, 1 ≤ r → |u - v| ≤ (C + D) / (r : ℝ) ^ 2 := by
    intro r hr
    obtain ⟨m, hm⟩ := makeMaps_succeeds e hf hg 1 1 1 r 1 le_rfl (by intro h; omega) hr le_rfl ⟨fun _ => 0, fun _ _ => 0, fun _ _ => 0⟩
    obtain ⟨a, ha, -⟩ := C36_values e hf hg φ hφ 1 1 1 r 1 hr le_rfl _ m hm first y0 h0 0 "J" rfl (Or.inl hs)
    have hv : JIs e r c (a c) := ⟨1, 1, 1, 1, _, m, a, le_rfl, hm, ha, rfl⟩
    have b1 := hC r hr _ hv
    have b2 := hD r hr _ hv
    rw [show u - v = (a c * d - v) - (a c * d - u) by ring, add_div, add_comm]
    exact (abs_sub _ _).trans (add_le_add b2 b1)
  by_contra hne
  have hpos : 0 < |u - v| := abs_pos.2 (sub_ne_zero.2 hne)
  obtain ⟨r, hr⟩ := exists_nat_gt (max 1 ((C + D) / |u - v|))
  have r1 : (1 : ℝ) < r := (le_max_left _ _).trans_lt hr
  have r2 : (C + D) / |u - v| < r := (le_max_right _ _).trans_lt hr
  have h1 := hsmall r (by have : 1 < r := by exact_mod_cast r1
                          omega)
  rw [le_div_iff₀ (by positivity)] at h1
  rw [div_lt_iff₀ hpos] at r2
  nlinarith [mul_pos hpos (by linarith : (0 : ℝ) < r), mul_le_mul_of_nonneg_left r1.le (mul_pos hpos (by linarith : (0 : ℝ) < r)).le]

section
variable (e : MmEnv ℝ) (hf : FollowOk e) (hg : GridOk e) (rfunc : Option (ℝ → ℝ → ℝ → ℝ)) (φ : ℝ → ℝ → ℝ → ℝ → ℝ × ℝ) (hφ : PointTracer e φ) (hs : e.isSlab = false)
  (first : MapPol ℝ) (y0 : ℝ) (h0 : e.grid.getPoloidalGrid ((0 : ℕ) : ℝ) = .ok (some first, y0)) (x j z : ℕ) (hx : x < first.nx) (hj : j < e.grid.ny)
  (pol : MapPol ℝ) (y ylow yhigh A : ℝ) (hp : PlaneAt e j pol y ylow yhigh) (hA : AreaAt e pol x z A) (hl : ylow ≠ y) (hu : yhigh - y = y - ylow)
  (d : ContDiffOn ℝ 2 (radiusOverField e φ (pol.R x z) (pol.Z x z) y) [[(ylow + y) / 2, (y + yhigh) / 2]])

include hf hg hφ hs h0 hx hj hp hA hl hu d

/-- **C263.** Exactly when the claim holds for a cell between planes at the same distance: the integrals of `x / B` and of `Rfunc / B` (or `1 / B`) along the line are the same
(or the area or the field is zero). -/
theorem C263_iff : ScaledVolumeOk e rfunc φ (x, j, z) pol y ylow yhigh A ↔
    (A * fieldAt e φ (pol.R x z) (pol.Z x z) y = 0 ∨
      (∫ s in ((ylow + y) / 2)..((y + yhigh) / 2), radiusOverField e φ (pol.R x z) (pol.Z x z) y s) =
        ∫ s in ((ylow + y) / 2)..((y + yhigh) / 2), scaleOverField e rfunc φ (pol.R x z) (pol.Z x z) y s) := by
  obtain ⟨C, hC⟩ := C222_uniform_partial e hf hg φ hφ hs first y0 h0 x j z hx hj pol y ylow yhigh A hp hA hl hu d
  constructor
  · rintro ⟨D, hD⟩
    have h := J_limit_unique e hf hg φ hφ hs first y0 h0 (x, j, z) _ _ _ C D hC hD
    rcases mul_eq_mul_left_iff.1 h with h | h
    · exact Or.inr h
    · exact Or.inl h
  · intro h
    refine ⟨C, fun r hr v hv => ?_⟩
    have h1 := hC r hr v hv
    have h2 := mul_eq_mul_left_iff.2 h.symm
    rw [h2] at h1
    exact h1

/-- **C263 (partial).** The claim holds for the fields whose `Rfunc` is `x`.  Missing: fields with `Rfunc` `None` or a constant (`C263_straight`, `C263_fails`), and planes at different
distances (C222). -/
theorem C263_cylindrical_partial (hr : ∃ g, rfunc = some g ∧ ∀ a b s, g a b s = a) : ScaledVolumeOk e rfunc φ (x, j, z) pol y ylow yhigh A := by
  rw [C263_iff e hf hg rfunc φ hφ hs first y0 h0 x j z hx hj pol y ylow yhigh A hp hA hl hu d]
  obtain ⟨g, rfl, hg'⟩ := hr
  refine Or.inr (intervalIntegral.integral_congr fun s _ => ?_)
  simp only [radiusOverField, scaleOverField, hg']

/-- **C263.** If `Rfunc` is a constant `c` (1 for `None`) and the line keeps its `x`, the value written times `c` converges to the right value times `x`; so it is right exactly at
`x = c` (or where there is no volume).  At `x = 0` it is zero and for `x < 0` it has the wrong sign. -/
theorem C263_straight (c : ℝ) (hr : rfunc = none ∧ c = 1 ∨ rfunc = some fun _ _ _ => c) (hx' : ∀ s, (φ (pol.R x z) (pol.Z x z) y s).1 = pol.R x z) :
    (∃ C, ∀ r : ℕ, 1 ≤ r → ∀ v, JIs e r (x, j, z) v →
      |v * ((yhigh - ylow) / 2) * c - pol.R x z * (A * fieldAt e φ (pol.R x z) (pol.Z x z) y *
        ∫ s in ((ylow + y) / 2)..((y + yhigh) / 2), scaleOverField e rfunc φ (pol.R x z) (pol.Z x z) y s)| ≤ C / (r : ℝ) ^ 2) ∧
    (A * fieldAt e φ (pol.R x z) (pol.Z x z) y * (∫ s in ((ylow + y) / 2)..((y + yhigh) / 2), 1 / e.byfunc (φ (pol.R x z) (pol.Z x z) y s).1 (φ (pol.R x z) (pol.Z x z) y s).2 s) ≠ 0 →
      (ScaledVolumeOk e rfunc φ (x, j, z) pol y ylow yhigh A ↔ pol.R x z = c)) := by
  have h1 : (∫ s in ((ylow + y) / 2)..((y + yhigh) / 2), radiusOverField e φ (pol.R x z) (pol.Z x z) y s) =
      pol.R x z * ∫ s in ((ylow + y) / 2)..((y + yhigh) / 2), 1 / e.byfunc (φ (pol.R x z) (pol.Z x z) y s).1 (φ (pol.R x z) (pol.Z x z) y s).2 s := by
    rw [← intervalIntegral.integral_const_mul]
    refine intervalIntegral.integral_congr fun s _ => ?_
    simp only [radiusOverField, hx', div_eq_mul_inv, one_mul]
  have h2 : (∫ s in ((ylow + y) / 2)..((y + yhigh) / 2), scaleOverField e rfunc φ (pol.R x z) (pol.Z x z) y s) =
      c * ∫ s in ((ylow + y) / 2)..((y + yhigh) / 2), 1 / e.byfunc (φ (pol.R x z) (pol.Z x z) y s).1 (φ (pol.R x z) (pol.Z x z) y s).2 s := by
    rw [← intervalIntegral.integral_const_mul]
    refine intervalIntegral.integral_congr fun s _ => ?_
    rcases hr with ⟨rfl, rfl⟩ | rfl <;> simp only [scaleOverField, div_eq_mul_inv, one_mul]
  constructor
  · obtain ⟨C, hC⟩ := C222_uniform_partial e hf hg φ hφ hs first y0 h0 x j z hx hj pol y ylow yhigh A hp hA hl hu d
    refine ⟨C * |c|, fun r hr v hv => ?_⟩
    have h := hC r hr v hv
    simp only at h
    rw [h1] at h
    rw [h2, mul_div_right_comm]
    refine le_trans (le_of_eq ?_) (mul_le_mul_of_nonneg_right h (abs_nonneg c))
    rw [← abs_mul]
    congr 1
    ring
  · intro hne
    rw [C263_iff e hf hg rfunc φ hφ hs first y0 h0 x j z hx hj pol y ylow yhigh A hp hA hl hu d, h1, h2]
    have n1 : A * fieldAt e φ (pol.R x z) (pol.Z x z) y ≠ 0 := left_ne_zero_of_mul hne
    have n2 := right_ne_zero_of_mul hne
    simp only [n1, false_or]
    exact ⟨fun h => mul_right_cancel₀ n2 h, fun h => by rw [h]⟩

end

/-! ## A straight field at `x = -1` -/

/-- One cell at `x = q`. -/
noncomputable def radPol (q : ℝ) : MapPol ℝ := { volPol with R := fun _ _ => q }

/-- Planes at 0, 1 and 2 metres, a field 1 along `y`. -/
noncomputable def radMm (q : ℝ) : MmEnv ℝ := { volMm 2 with grid := ⟨[radPol q, radPol q, radPol q], [0, 1, 2], 4, false, 1, 1⟩, byfunc := fun _ _ _ => 1 }

theorem radMm_follow (q : ℝ) : FollowOk (radMm q) := by
  intro n m R Z ys
  simp [radMm, volMm]

theorem radMm_grid (q : ℝ) : GridOk (radMm q) := by
  refine ⟨by simp [radMm], by simp [radMm], ?_⟩
  intro p hp
  have : p = radPol q := by simpa [radMm] using hp
  subst this
  exact ⟨fun _ _ => 1, fun _ _ => 1, fun _ _ => 0, rfl, rfl, rfl⟩

theorem radMm_point (q : ℝ) : PointTracer (radMm q) fun R Z _ _ => (R, Z) := by
  intro n m R Z y ys
  rfl

theorem radMm_init (q : ℝ) : Grid.init (fun _ => (1, 1)) (.many [radPol q, radPol q, radPol q]) [0, 1, 2] 4 false = .ok (radMm q).grid := rfl

theorem radMm_first (q : ℝ) : (radMm q).grid.getPoloidalGrid ((0 : ℕ) : ℝ) = .ok (some (radPol q), 0) := by
  obtain ⟨h, -, -⟩ := C21_ends _ _ _ _ _ (radMm_init q)
  obtain ⟨p, hp, h⟩ := h 0 (by norm_num)
  cases hp
  exact h

theorem radMm_plane (q : ℝ) : PlaneAt (radMm q) 1 (radPol q) 1 0 2 := by
  obtain ⟨h, -, -⟩ := C21_ends _ _ _ _ _ (radMm_init q)
  obtain ⟨p0, hp0, h0⟩ := h 0 (by norm_num)
  obtain ⟨p1, hp1, h1⟩ := h 1 (by norm_num)
  obtain ⟨p2, hp2, h2⟩ := h 2 (by norm_num)
  cases hp0
  cases hp1
  cases hp2
  refine ⟨h1, ⟨some (radPol q), ?_⟩, ⟨some (radPol q), ?_⟩⟩
  · rw [show ((1 : ℕ) : ℝ) + -1 = ((0 : ℕ) : ℝ) by norm_num]
    exact h0
  · rw [show ((1 : ℕ) : ℝ) + 1 = ((2 : ℕ) : ℝ) by norm_num]
    exact h2

theorem radMm_area (q : ℝ) : AreaAt (radMm q) (radPol q) 0 0 1 :=
  ⟨fun _ _ => 1, fun _ _ => 1, fun _ _ => 0, rfl, rfl, rfl, by simp [radMm, volMm]⟩

theorem radMm_smooth (q : ℝ) (S : Set ℝ) :
    ContDiffOn ℝ 2 (radiusOverField (radMm q) (fun R Z _ _ => (R, Z)) ((radPol q).R 0 0) ((radPol q).Z 0 0) 1) S := by
  have : radiusOverField (radMm q) (fun R Z _ _ => (R, Z)) ((radPol q).R 0 0) ((radPol q).Z 0 0) 1 = fun _ => q := by
    funext s
    simp [radiusOverField, radMm, radPol]
  rw [this]
  exact contDiff_const.contDiffOn

/-- For this field the claim holds exactly at `x = 1`. -/
theorem radMm_iff (q : ℝ) : ScaledVolumeOk (radMm q) none (fun R Z _ _ => (R, Z)) (0, 1, 0) (radPol q) 1 0 2 1 ↔ q = 1 := by
  have h := (C263_straight (radMm q) (radMm_follow q) (radMm_grid q) none _ (radMm_point q) rfl (radPol q) 0 (radMm_first q) 0 1 0 Nat.one_pos
    (by simp [radMm, Grid.ny]) (radPol q) 1 0 2 1 (radMm_plane q) (radMm_area q) (by norm_num) (by norm_num) (radMm_smooth q _) 1 (Or.inl ⟨rfl, rfl⟩) fun s => rfl).2
  have h' := h (by
    simp only [fieldAt, radMm]
    norm_num)
  simpa [radPol] using h'

/-- **C263 (refutation).** A straight field with `Rfunc` `None` and a cell at `x = -1`: the claim is false, and `J` tends to a negative number. -/
theorem C263_fails : ∃ (e : MmEnv ℝ) (φ : ℝ → ℝ → ℝ → ℝ → ℝ × ℝ) (pol : MapPol ℝ) (y ylow yhigh A : ℝ), FollowOk e ∧ GridOk e ∧ PointTracer e φ ∧
    e.isSlab = false ∧ PlaneAt e 1 pol y ylow yhigh ∧ AreaAt e pol 0 0 A ∧ 0 < A ∧ (∀ a b s, e.byfunc a b s = 1) ∧ ylow < y ∧ yhigh - y = y - ylow ∧
    (∃ C, ∀ r : ℕ, 1 ≤ r → ∀ v, JIs e r (0, 1, 0) v → |v - -1| ≤ C / (r : ℝ) ^ 2) ∧ ¬ ScaledVolumeOk e none φ (0, 1, 0) pol y ylow yhigh A := by
  refine ⟨radMm (-1), fun R Z _ _ => (R, Z), radPol (-1), 1, 0, 2, 1, radMm_follow _, radMm_grid _, radMm_point _, rfl, radMm_plane _, radMm_area _, by norm_num,
    fun _ _ _ => rfl, by norm_num, by norm_num, ?_, fun h => by have := (radMm_iff (-1)).1 h; norm_num at this⟩
  obtain ⟨C, hC⟩ := C222_uniform_partial (radMm (-1)) (radMm_follow _) (radMm_grid _) _ (radMm_point _) rfl (radPol (-1)) 0 (radMm_first _) 0 1 0 (by decide)
    (by simp [radMm, Grid.ny]) (radPol (-1)) 1 0 2 1 (radMm_plane _) (radMm_area _) (by norm_num) (by norm_num) (radMm_smooth _ _)
  refine ⟨C, fun r hr v hv => ?_⟩
  have h := hC r hr v hv
  have e1 : radiusOverField (radMm (-1)) (fun R Z _ _ => (R, Z)) ((radPol (-1)).R 0 0) ((radPol (-1)).Z 0 0) 1 = fun _ => -1 := by
    funext s
    simp [radiusOverField, radMm, radPol]
  simp only [e1, fieldAt] at h
  simp only [radMm, intervalIntegral.integral_const, smul_eq_mul] at h
  norm_num at h
  norm_num
  exact h

/-- A case for `C263_cylindrical_partial`. -/
example : ScaledVolumeOk (volMm 2) (some fun x _ _ => x) (fun R Z _ _ => (R, Z)) (0, 1, 0) volPol 1 0 2 1 :=
  C263_cylindrical_partial (volMm 2) (volMm_follow 2) (volMm_grid 2) _ _ (volMm_point 2) rfl volPol 0 (volMm_first 2) 0 1 0 (by decide) (by simp [volMm, Grid.ny])
    volPol 1 0 2 1 (volMm_plane 2) (volMm_area 2) (by norm_num) (by norm_num) (volMm_smooth 2 _) ⟨_, rfl, fun _ _ _ => rfl⟩

end Zoidberg
