import Verif.Props.Diff
import Verif.Props.PolRect
import Verif.Props.FieldTracer
import Verif.Props.TracePoincare
import Verif.Props.Laplace
import Verif.Props.Field
import Verif.Props.FieldCoils
import Mathlib.Tactic.IntervalCases

/-!
# Exact conditions for further properties
-/

set_option linter.unusedSectionVars false

namespace Zoidberg

open Polynomial

section
variable {K : Type} [Field K] [LinearOrder K] [IsStrictOrderedRing K]

/-- **C65**, exactly: among the quadratics the affine ones are those for which `c2` is right at every point. -/
theorem C65_iff (p : K[X]) (hp : p.natDegree ≤ 2) (n : ℕ) (hn : 3 ≤ n) : C2Exact p n ↔ p.natDegree ≤ 1 := by
  refine ⟨fun h => ?_, fun h => C65_affine_partial p h n hn⟩
  by_contra hc
  exact C65_fails p (by omega) n hn h

/-- **C46**, exactly: among the derivatives of second and higher order those of third and higher order vanish. -/
theorem C46_iff [FloorRing K] (g : RectPol K) (hR : g.dR ≠ 0) (dx dz : ℤ) (h1 : 0 ≤ dx) (h2 : 0 ≤ dz) (h : 2 ≤ dx + dz) :
    (∀ x z, g.getCoordinate x z dx dz = .ok (0, 0)) ↔ 3 ≤ dx + dz := by
  refine ⟨fun hv => ?_, fun h3 x z => C46_order_three_partial g x z dx dz h1 h2 h3⟩
  by_contra hc
  obtain ⟨-, f1, f2, f3⟩ := C46_fails g hR
  have cases : (dx = 1 ∧ dz = 1) ∨ (dx = 2 ∧ dz = 0) ∨ (dx = 0 ∧ dz = 2) := by omega
  have pos : ∀ x z, g.getCoordinate x z 0 0 = .ok (g.Rmin + x * g.dR, g.Zmin + z * g.dZ) := fun x z => by simp [RectPol.getCoordinate]
  have no : ¬ ∀ x z, g.getCoordinate x z 0 0 = .ok (0, 0) := by
    intro hp
    have a := hp 0 0
    have b := hp 1 0
    rw [pos] at a b
    simp only [Except.ok.injEq, Prod.mk.injEq, zero_mul, add_zero, one_mul] at a b
    rw [a.1, zero_add] at b
    exact hR b.1
  rcases cases with ⟨rfl, rfl⟩ | ⟨rfl, rfl⟩ | ⟨rfl, rfl⟩
  · have := hv 0 0
    rw [f1] at this
    simp only [Except.ok.injEq, Prod.mk.injEq] at this
    exact hR this.1
  · exact no fun x z => by rw [← f2]; exact hv x z
  · exact no fun x z => by rw [← f3]; exact hv x z

/-- **C69**, exactly: for an integrator that works, a `ValueError` is raised for invalid inputs and in the one case of a one-dimensional
`x_values` with a scalar `z_values` of more than one axis. -/
theorem C69_iff (ode : List K → List K → Except Err (List (List K))) (line : K × K → List K → ℕ → K × K)
    (ho : LineWise ode line) (x z y : FArr K) (hx : x.Ok) (hz : z.Ok) (hy : y.Ok) :
    (∃ m, followFieldLines ode x z y = .error (.value m)) ↔ ¬ ValidInput x z y ∨ OddScalar x z := by
  by_cases hs : OddScalar x z
  · refine ⟨fun _ => Or.inr hs, fun _ => ?_⟩
    by_cases hv : ValidInput x z y
    · obtain ⟨x', z', he, -, hodd, -⟩ := checkInputs_valid hx hz hv
      refine ⟨"all the input array dimensions except for the concatenation axis must match exactly", ?_⟩
      unfold followFieldLines
      rw [he]
      simp only [Except.bind]
      rw [if_pos (hodd.2 hs)]
    · exact C69_invalid ode x z y hx hz hv
  · rw [C69_validation_partial ode line ho x z y hx hz hy hs]
    simp [hs]

/-- **C78**, exactly: `field_direction` returns if there is a point and no `By` is small. -/
theorem C78_iff (f : FieldFns K) (pts : List (K × K)) (y : K) :
    (∃ r, f.directionFlat (interleave pts) y = .ok r) ↔ pts ≠ [] ∧ ∀ p ∈ pts, 1 / 100000000 ≤ |f.By p.1 p.2 y| := by
  by_cases hne : pts = []
  · subst hne
    refine ⟨?_, fun h => absurd rfl h.1⟩
    rintro ⟨r, hr⟩
    rw [show ([] : List (K × K)) = ([] : List K).zip ([] : List K) from rfl, C78_pair] at hr
    cases hr
  · rw [(C78_direction_partial f pts hne y).1]
    simp [hne]

/-- **C72**, exactly: with an integrator that works and starting points that fit, `trace_poincare` returns if there are slices, `revs` and
`nover` are not zero, and there is more than one plane altogether. -/
theorem C72_iff (ode : List K → List K → Except Err (List (List K))) (line : K × K → List K → ℕ → K × K) (ho : LineWise ode line)
    (x z : FArr K) (hx : x.Ok) (hz : z.Ok) (hshape : shape1 x = shape1 z) (T : K) (nplot : Option ℕ) (slices : Option (List K)) (s : List K)
    (hs : poincareSlices T nplot slices = .ok s) (revs nover : ℕ) :
    (∃ r, tracePoincare (poincareFollow ode x z) T nplot slices revs nover = .ok r) ↔ 1 ≤ nover ∧ 2 ≤ revs * s.length := by
  have hodd : ¬ OddScalar x z := by
    rintro ⟨h1, -, -, h2⟩
    rw [hshape] at h1
    omega
  unfold tracePoincare
  rw [hs]
  simp only [Except.bind]
  by_cases h0 : nover = 0 ∨ revs = 0 ∨ s = []
  · rw [if_pos h0]
    constructor
    · rintro ⟨r, hr⟩; cases hr
    · rintro ⟨h1, h2⟩
      exfalso
      rcases h0 with h | h | h
      · omega
      · rw [h] at h2; omega
      · rw [h] at h2; simp at h2
  · rw [if_neg h0]
    push Not at h0
    obtain ⟨hn, hr, hne⟩ := h0
    have hn : 0 < nover := Nat.pos_of_ne_zero hn
    have hpos : 0 < revs * s.length := Nat.mul_pos (by omega) (List.length_pos_iff.2 hne)
    have hlen : (overSample (poincareYs T s revs) nover).length = revs * s.length * nover - (nover - 1) := by
      rw [overSample_length, poincareYs_length T s revs (by omega)]
    set ys := overSample (poincareYs T s revs) nover
    have htwo : 2 ≤ ys.length ↔ 2 ≤ revs * s.length := by
      rw [hlen]
      constructor
      · intro h
        by_contra hc
        have : revs * s.length = 1 := by omega
        rw [this] at h
        omega
      · intro h
        have : 2 * nover ≤ revs * s.length * nover := Nat.mul_le_mul_right _ h
        omega
    have hvalid : ValidInput x z ⟨[ys.length], ys⟩ ↔ 2 ≤ ys.length := by
      constructor
      · rintro ⟨⟨n, h1, h2⟩, -⟩
        simp only [List.cons.injEq, and_true] at h2
        omega
      · exact fun h => ⟨⟨_, h, rfl⟩, Or.inl hshape⟩
    by_cases h2 : 2 ≤ ys.length
    · have hf := follow_valid ho hx hz (y := ⟨[ys.length], ys⟩) (by simp [FArr.Ok]) (hvalid.2 h2) hodd
      refine ⟨fun _ => ⟨hn, htwo.1 h2⟩, fun _ => ?_⟩
      unfold poincareFollow
      rw [hf]
      simp only [Except.map]
      rw [if_neg]
      · exact ⟨_, rfl⟩
      · rw [not_not]
        exact (strided_spec _ hn hpos (by rw [List.length_map, List.length_range, hlen])).1
    · obtain ⟨m, hm⟩ := C69_invalid ode x z ⟨[ys.length], ys⟩ hx hz (fun h => h2 (hvalid.1 h))
      unfold poincareFollow
      rw [hm]
      constructor
      · rintro ⟨r, hr⟩; cases hr
      · rintro ⟨-, h⟩
        exact absurd (htwo.2 h) h2
end

section
variable {K : Type} [Field K] [LinearOrder K] [IsStrictOrderedRing K] [FloorRing K]

theorem npRem_congr {a b m : K} (hm : 0 < m) : npRem a m = npRem b m ↔ ∃ k : ℤ, a = b + m * k := by
  constructor
  · intro h
    unfold npRem at h
    refine ⟨⌊a / m⌋ - ⌊b / m⌋, ?_⟩
    push_cast
    linear_combination h
  · rintro ⟨k, rfl⟩
    unfold npRem
    have : (b + m * k) / m = b / m + k := by field_simp
    rw [this, Int.floor_add_intCast]
    push_cast
    ring

/-- **C113**, exactly: the angles stay as they are if they all have, modulo whole turns, the distance of the last from the first. -/
theorem C113_iff (pi : K) (hpi : 0 < pi) (x : List K) (hne : x ≠ []) :
    KeepsAngles pi x ↔ ∀ i, i + 1 < x.length → ∃ k : ℤ, x.getD (i + 1) 0 - x.getD i 0 = x.getD 0 0 - x.getD (x.length - 1) 0 + 2 * pi * k := by
  obtain ⟨h1, h2, h3⟩ := C113_moved_partial pi x hne
  have hm : 0 < pi * 2 := by linarith
  have key : ∀ i, i + 1 < x.length → (fftSmooth pi id x).getD (i + 1) 0 = npRem (x.getD 0 0 + (x.getD i 0 - x.getD (x.length - 1) 0)) (pi * 2) := by
    intro i hi
    obtain ⟨k, hk⟩ := h3 i hi
    have hr : (fftSmooth pi id x).getD (i + 1) 0 = npRem ((fftSmooth pi id x).getD (i + 1) 0) (pi * 2) := by
      unfold fftSmooth
      rw [getD_map_range _ _ hi]
      symm
      rw [npRem_congr hm]
      refine ⟨-⌊fsSum (x.getD 0 0) (id (fsDx pi x)) (i + 1) / (pi * 2)⌋, ?_⟩
      conv_lhs => unfold npRem
      push_cast
      ring
    rw [hr, npRem_congr hm]
    exact ⟨k, by rw [hk]; ring⟩
  have hmap : ∀ i, i < x.length → (x.map fun v => npRem v (pi * 2)).getD i 0 = npRem (x.getD i 0) (pi * 2) := by
    intro i hi
    rw [List.getD_eq_getElem _ _ (by simpa using hi), List.getD_eq_getElem _ _ hi, List.getElem_map]
  have step : ∀ i, i + 1 < x.length → ((fftSmooth pi id x).getD (i + 1) 0 = (x.map fun v => npRem v (pi * 2)).getD (i + 1) 0 ↔
      ∃ k : ℤ, x.getD (i + 1) 0 - x.getD i 0 = x.getD 0 0 - x.getD (x.length - 1) 0 + 2 * pi * k) := by
    intro i hi
    rw [key i hi, hmap _ hi, npRem_congr hm]
    constructor
    · rintro ⟨k, hk⟩
      exact ⟨-k, by push_cast; linear_combination -hk⟩
    · rintro ⟨k, hk⟩
      exact ⟨-k, by push_cast; linear_combination -hk⟩
  constructor
  · intro h i hi
    rw [← step i hi]
    unfold KeepsAngles at h
    rw [h]
  · intro h
    unfold KeepsAngles
    apply List.ext_getElem
    · simp [h1]
    · intro i g1 g2
      rw [← List.getD_eq_getElem _ 0 g1, ← List.getD_eq_getElem _ 0 g2]
      cases i with
      | zero => rw [h2, hmap 0 (by rw [h1] at g1; exact g1)]
      | succ i => exact (step i (by rw [h1] at g1; exact g1)).2 (h i (by rw [h1] at g1; exact g1))
end

/-- **C136**, exactly: away from the coils the divergence vanishes where the radial component does. -/
theorem C136_iff (xc zc r yperiod I Btor x z phi d e : ℝ) (hx : 0 < x) (h : OffCoils (coilList xc zc r yperiod I phi) x z)
    (hd : HasDerivAt (fun t => t * (rotatingEllipse xc zc r yperiod I Btor).Bx t z phi) d x)
    (he : HasDerivAt (fun t => (rotatingEllipse xc zc r yperiod I Btor).Bz x t phi) e z) :
    d / x + e = 0 ↔ (rotatingEllipse xc zc r yperiod I Btor).Bx x z phi = 0 := by
  rw [C136_value_partial xc zc r yperiod I Btor x z phi d e hx h hd he, div_eq_zero_iff]
  simp [hx.ne']

/-! Cases of these conditions. -/

/-- `X` is fine, `X²` is not. -/
example : C2Exact (X : ℚ[X]) 5 ∧ ¬ C2Exact (X ^ 2 : ℚ[X]) 5 := by
  constructor
  · rw [C65_iff _ (by rw [natDegree_X]; norm_num) _ (by norm_num)]
    rw [natDegree_X]
  · rw [C65_iff _ (by rw [natDegree_X_pow]) _ (by norm_num), natDegree_X_pow]
    norm_num

/-- The second derivative of a grid of nine points does not vanish, the third does. -/
example : (¬ ∀ x z, (⟨3, 3, 1, 1, 0, 0⟩ : RectPol ℚ).getCoordinate x z 1 1 = .ok (0, 0)) ∧
    ∀ x z, (⟨3, 3, 1, 1, 0, 0⟩ : RectPol ℚ).getCoordinate x z 2 1 = .ok (0, 0) := by
  constructor
  · rw [C46_iff _ (by norm_num) 1 1 (by norm_num) (by norm_num) (by norm_num)]
    norm_num
  · rw [C46_iff _ (by norm_num) 2 1 (by norm_num) (by norm_num) (by norm_num)]
    norm_num

/-- Two starting points with the wrong shape of `y`, and the odd scalar. -/
example : (∃ m, followFieldLines stillOde ⟨[2], [(0 : ℚ), 1]⟩ ⟨[2], [5, 6]⟩ ⟨[1], [0]⟩ = .error (.value m)) ∧
    ∃ m, followFieldLines stillOde ⟨[2], [(0 : ℚ), 1]⟩ ⟨[1, 1], [5]⟩ ⟨[2], [0, 1]⟩ = .error (.value m) := by
  constructor
  · rw [C69_iff stillOde _ stillOde_lineWise _ _ _ (by exact rfl) (by exact rfl) (by exact rfl)]
    left
    rintro ⟨⟨n, h, h'⟩, -⟩
    simp only [List.cons.injEq, and_true] at h'
    omega
  · rw [C69_iff stillOde _ stillOde_lineWise _ _ _ (by exact rfl) (by exact rfl) (by exact rfl)]
    right
    simp [OddScalar, shape1]

/-- Two planes are enough, one is not. -/
example : (∃ r, tracePoincare (poincareFollow stillOde ⟨[], [(3 : ℚ)]⟩ ⟨[], [5]⟩) 7 (some 1) none 2 1 = .ok r) ∧
    ¬ ∃ r, tracePoincare (poincareFollow stillOde ⟨[], [(3 : ℚ)]⟩ ⟨[], [5]⟩) 7 (some 1) none 1 1 = .ok r := by
  constructor
  · rw [C72_iff stillOde _ stillOde_lineWise _ _ (by exact rfl) (by exact rfl) (by exact rfl) (7 : ℚ) (some 1) none _ rfl 2 1]
    exact ⟨by norm_num, by decide +kernel⟩
  · rw [C72_iff stillOde _ stillOde_lineWise _ _ (by exact rfl) (by exact rfl) (by exact rfl) (7 : ℚ) (some 1) none _ rfl 1 1]
    rintro ⟨-, h⟩
    revert h
    decide +kernel

/-- Equally spaced angles stay, others do not. -/
example : KeepsAngles (2 : ℚ) [0, 1, 2, 3] ∧ ¬ KeepsAngles (2 : ℚ) [0, 1, 3] := by
  constructor
  · rw [C113_iff 2 (by norm_num) _ (by simp)]
    intro i hi
    simp only [List.length_cons, List.length_nil] at hi
    refine ⟨1, ?_⟩
    have : i < 3 := by omega
    interval_cases i <;> norm_num
  · rw [C113_iff 2 (by norm_num) _ (by simp)]
    intro h
    obtain ⟨k, hk⟩ := h 1 (by simp)
    norm_num at hk
    have h2 : (5 : ℤ) = 4 * k := by
      have : (5 : ℚ) = 4 * k := by linarith
      exact_mod_cast this
    omega

end Zoidberg
