import Verif.Props.GridVolume
import Verif.Props.VolumeCurve

/-!
# The volume test for circles (C294)

`test_run` compares the volumes of three grids with that of polygons.  Where the lines are circles its assertion holds.
-/

set_option linter.unusedSectionVars false

namespace Zoidberg

open Finset

/-- **C294.** The reference of the test for circles, with both ways to add up the sections. -/
theorem C294_reference (R0 a b symmetry : ℝ) (hs : symmetry ≠ 0) (ha : 0 < a) (hb : 0 < b) (n ny : ℕ) (hn : 3 ≤ n) (hny : 2 ≤ ny) (angles : List ℝ) (hl : angles.length = ny) (y0 : ℝ)
    (hu : ∀ i < ny, angles.getD i 0 = y0 + (i : ℝ) * (2 * Real.pi / symmetry / ny)) (mode : ℤ) (hm : mode = 0 ∨ mode = 1) :
    shellVolume Real.pi (List.replicate ny (regularSection R0 b n)) (List.replicate ny (regularSection R0 a n)) angles symmetry mode =
      .ok (some (n / 2 * Real.sin (2 * Real.pi / n) * (b ^ 2 - a ^ 2) * (2 * Real.pi * R0 / symmetry))) := by
  unfold shellVolume
  have hny' : (ny : ℝ) ≠ 0 := by
    have : ny ≠ 0 := by omega
    exact_mod_cast this
  have h : ∀ c, 0 < c → torusVolume Real.pi ((List.replicate ny (regularSection R0 c n)).map fun p => (secArea p, secR p)) angles symmetry mode =
      .ok (some (n / 2 * c ^ 2 * Real.sin (2 * Real.pi / n) * (2 * Real.pi * R0 / symmetry))) := by
    intro c hc
    rw [C274_equal Real.pi symmetry y0 Real.pi_pos.ne' hs _ angles (by simpa using hny) (by simpa using hl) (by simpa using hu) mode hm]
    congr 2
    rw [List.map_replicate, List.length_replicate, Finset.sum_congr rfl fun i hi => show secAR _ = n / 2 * c ^ 2 * Real.sin (2 * Real.pi / n) * R0 by
      rw [List.getD_eq_getElem _ _ (by rw [List.length_replicate]; exact mem_range.1 hi), List.getElem_replicate]
      unfold secAR
      rw [(C292_area R0 c n hn hc).1, (C292_area R0 c n hn hc).2], Finset.sum_const, card_range, nsmul_eq_mul]
    field_simp
  rw [h b hb, h a ha]
  show Except.ok (some _) = Except.ok (some _)
  congr 2
  ring

/-- A volume of a grid with `nx` rows at equal distances between two circles, at equally spaced planes in an axisymmetric toroidal field, with any numbers of planes, points and options. -/
def CircleGridVolume (nx : ℕ) (R0 a b Ly V : ℝ) : Prop :=
  ∃ (g : StrPol ℝ) (p : MapPol ℝ) (ys : List ℝ) (B : ℝ → ℝ → ℝ) (e : MmEnv ℝ) (y0 : ℝ) (k : ℕ), TorusEnv g p ys Ly B e ∧ g.nx = nx ∧
    CircleRows g R0 (fun x => a + x * ((b - a) / (g.nx - 1))) (fun _ => (b - a) / (g.nx - 1)) ∧ 2 ≤ g.nz ∧ (∀ x < g.nx, ∀ z < g.nz, B (g.R x z) (g.Z x z) ≠ 0) ∧
    (∀ i < ys.length, ys.getD i 0 = y0 + i * (Ly / ys.length)) ∧ 1 ≤ k ∧ GridVolumeIs e g.nx g.nz k V

/-- **C294.** `test_run` passes where the lines are circles: the three grids of the test with any numbers of planes and points, and a reference with at least 100 angles (500 in the test). -/
theorem C294_passes (R0 a b symmetry : ℝ) (hR : 0 < R0) (hs : 0 < symmetry) (ha : 0 < a) (hb : a < b) (n ny : ℕ) (hn : 100 ≤ n) (hny : 2 ≤ ny) (angles : List ℝ) (hl : angles.length = ny)
    (y0 : ℝ) (hu : ∀ i < ny, angles.getD i 0 = y0 + (i : ℝ) * (2 * Real.pi / symmetry / ny)) (mode : ℤ) (hm : mode = 0 ∨ mode = 1) (W : ℝ)
    (hW : shellVolume Real.pi (List.replicate ny (regularSection R0 b n)) (List.replicate ny (regularSection R0 a n)) angles symmetry mode = .ok (some W))
    (V0 V1 V2 : ℝ) (h0 : CircleGridVolume 16 R0 a b (2 * Real.pi / symmetry) V0) (h2 : CircleGridVolume 64 R0 a b (2 * Real.pi / symmetry) V2) :
    dommaschkPasses [|V0 - W|, |V1 - W|, |V2 - W|] := by
  have hval : ∀ nx V, 2 ≤ nx → CircleGridVolume nx R0 a b (2 * Real.pi / symmetry) V → V = circleShell R0 a b (2 * Real.pi / symmetry) * ((nx : ℝ) / (nx - 1)) := by
    rintro nx V hx ⟨g, p, ys, B, e, y0, k, c1, rfl, c3, c4, c5, c6, c7, c8⟩
    exact C294_linear c1 R0 a b hx c3 c4 c5 y0 c6 k c7 V c8
  rw [C294_reference R0 a b symmetry hs.ne' ha (ha.trans hb) n ny (by omega) hny angles hl y0 hu mode hm] at hW
  have hW' := Option.some.inj (Except.ok.inj hW)
  have e0 := hval 16 V0 (by norm_num) h0
  have e2 := hval 64 V2 (by norm_num) h2
  have hpi := Real.pi_pos
  have hn' : (100 : ℝ) ≤ n := by exact_mod_cast hn
  have hn0 : (0 : ℝ) < n := by linarith
  set S := circleShell R0 a b (2 * Real.pi / symmetry) with hS
  have hSpos : 0 < S := by
    rw [hS]
    unfold circleShell
    have : 0 < b ^ 2 - a ^ 2 := by nlinarith
    positivity
  have hx : 0 < 2 * Real.pi / n := by positivity
  have u := Real.sin_lt hx
  have l := Real.sin_gt_sub_cube hx
  set t := 2 * Real.pi / (n : ℝ) with ht
  have hsum : W = S * (Real.sin t / t) := by
    rw [← hW', hS]
    unfold circleShell
    have : (n : ℝ) = 2 * Real.pi / t := by rw [ht]; field_simp
    rw [this]
    field_simp
  have ht2 : t ≤ 64 / 1000 := by
    rw [ht, div_le_iff₀ hn0]
    have := Real.pi_lt_d2
    nlinarith
  have hq1 : Real.sin t / t < 1 := by rw [div_lt_one hx]; exact u
  have hq2 : 1 - 1 / 1000 < Real.sin t / t := by
    rw [lt_div_iff₀ hx]
    have h3 : t ^ 3 / 6 ≤ t * (1 / 1000) := by
      have : t ^ 2 ≤ 6 / 1000 := by nlinarith
      nlinarith
    linarith
  set q := Real.sin t / t
  clear_value q S t
  norm_num at e0 e2
  have p0 : V0 - W = S * (16 / 15 - q) := by rw [e0, hsum]; ring
  have p2 : V2 - W = S * (64 / 63 - q) := by rw [e2, hsum]; ring
  have d0 : 0 < S * (16 / 15 - q) := mul_pos hSpos (by linarith)
  have d2 : 0 < S * (64 / 63 - q) := mul_pos hSpos (by linarith)
  rw [p0, p2, abs_of_pos d0, abs_of_pos d2, C275_iff _ _ _ d0 d2]
  have h1 : (2 : ℝ) ^ (-2 : ℝ) ≤ (2 : ℝ) ^ (-1.8 : ℝ) := Real.rpow_le_rpow_of_exponent_le (by norm_num) (by norm_num)
  have h2' : (2 : ℝ) ^ (-2 : ℝ) = 1 / 4 := by
    rw [Real.rpow_neg (by norm_num)]
    norm_num
  rw [h2'] at h1
  refine le_trans ?_ (mul_le_mul_of_nonneg_left h1 d0.le)
  nlinarith

/-- There are such volumes for all numbers of rows. -/
theorem circleGridVolume_exists (nx : ℕ) (hx : 2 ≤ nx) (R0 a b Ly : ℝ) (ha : 0 < a) (hb : a < b) (hR : b < R0) : ∃ V, CircleGridVolume nx R0 a b Ly V := by
  have hn : (0 : ℝ) < (nx : ℝ) - 1 := by
    have : (2 : ℝ) ≤ nx := by exact_mod_cast hx
    linarith
  have hd : 0 < (b - a) / ((nx : ℝ) - 1) := div_pos (by linarith) hn
  have hr : ∀ x : ℕ, x < nx → 0 < a + (x : ℝ) * ((b - a) / ((nx : ℝ) - 1)) ∧ 0 < (b - a) / ((nx : ℝ) - 1) := fun x _ => ⟨by positivity, hd⟩
  have he := annulusMm_env nx 32 R0 (fun x => a + x * ((b - a) / ((nx : ℝ) - 1))) (fun _ => (b - a) / ((nx : ℝ) - 1)) (by norm_num) hr [0, Ly / 2] (by simp) Ly
  obtain ⟨V, hV⟩ := torus_total he
  refine ⟨V, _, _, _, _, _, 0, 1, he, rfl, annulus_rows _ _ _ _ _ (by norm_num) hr, by show 2 ≤ 32; norm_num, ?_, ?_, le_refl _, hV⟩
  · apply annulus_field
    intro x hx'
    refine ⟨(hr x hx').1, ?_⟩
    have h1 : (x : ℝ) ≤ (nx : ℝ) - 1 := by
      have : (x : ℝ) + 1 ≤ nx := by exact_mod_cast hx'
      linarith
    have h2 := mul_le_mul_of_nonneg_right h1 hd.le
    rw [mul_div_cancel₀ _ hn.ne'] at h2
    linarith
  · intro i hi
    have : i < 2 := hi
    interval_cases i
    · simp
    · simp

/-- The radii of the test. -/
example : ∃ V0 V1 V2 W, CircleGridVolume 16 2 0.03 0.08 (2 * Real.pi / 5) V0 ∧ CircleGridVolume 32 2 0.03 0.08 (2 * Real.pi / 5) V1 ∧ CircleGridVolume 64 2 0.03 0.08 (2 * Real.pi / 5) V2 ∧
    dommaschkPasses [|V0 - W|, |V1 - W|, |V2 - W|] := by
  obtain ⟨V0, h0⟩ := circleGridVolume_exists 16 (by norm_num) 2 0.03 0.08 (2 * Real.pi / 5) (by norm_num) (by norm_num) (by norm_num)
  obtain ⟨V1, h1⟩ := circleGridVolume_exists 32 (by norm_num) 2 0.03 0.08 (2 * Real.pi / 5) (by norm_num) (by norm_num) (by norm_num)
  obtain ⟨V2, h2⟩ := circleGridVolume_exists 64 (by norm_num) 2 0.03 0.08 (2 * Real.pi / 5) (by norm_num) (by norm_num) (by norm_num)
  have hu : ∀ i < 2, ([0, Real.pi / 5] : List ℝ).getD i 0 = 0 + (i : ℝ) * (2 * Real.pi / 5 / ((2 : ℕ) : ℝ)) := by
    intro i hi
    interval_cases i
    · simp
    · simp
      ring
  exact ⟨V0, V1, V2, _, h0, h1, h2, C294_passes 2 0.03 0.08 5 (by norm_num) (by norm_num) (by norm_num) (by norm_num) 500 2 (by norm_num) (by norm_num) [0, Real.pi / 5] rfl 0 hu 1 (Or.inr rfl) _
    (C294_reference 2 0.03 0.08 5 (by norm_num) (by norm_num) (by norm_num) 500 2 (by norm_num) (by norm_num) [0, Real.pi / 5] rfl 0 hu 1 (Or.inr rfl)) V0 V1 V2 h0 h2⟩

end Zoidberg
