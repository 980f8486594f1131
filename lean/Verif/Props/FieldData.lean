import Verif.Model.FieldData
import Verif.Props.Field
import Mathlib.Analysis.SpecialFunctions.Trigonometric.Deriv
import Mathlib.Analysis.Calculus.FDeriv.Comp
import Mathlib.Analysis.Calculus.FDeriv.Prod
import Mathlib.Analysis.Calculus.Deriv.Prod
import Mathlib.Data.List.GetD
import Mathlib.Tactic.LinearCombination
import Mathlib.Tactic.IntervalCases

/-!
# C82, C139-C149: fields from data
-/

set_option linter.unusedSectionVars false

namespace Zoidberg

open Real

/-! ### C82: attributes -/

/-- What the statement says: the construction of a field does not change the attributes of the fields that there are already. -/
def NoLeak (V : Type) : Prop :=
  ∀ (h : FieldHeap V) (c : FieldNew V) (i : ℕ), i < h.fields.length → (h.construct c).attributes i = h.attributes i

/-- **C82 (partial).** It is so for the attributes of a field with its own dictionary, for all constructions but that of a `GEQDSK` field, and for
all names but `psi`.  Missing: `psi` (`C82_fails`). -/
theorem C82_attributes_partial {V : Type} (h : FieldHeap V) (c : FieldNew V) (i : ℕ) (hi : i < h.fields.length) :
    (∀ n, n ≠ "psi" → (h.construct c).attributes i n = h.attributes i n) ∧
      ((∃ d, h.fields[i]? = some (some d)) → (h.construct c).attributes i = h.attributes i) ∧
      ((∀ p, c ≠ .geqdsk p) → (h.construct c).attributes i = h.attributes i) := by
  have e : ∀ d : Option (Dict V), (h.fields ++ [d]).getD i none = h.fields.getD i none := by
    intro d
    rw [List.getD_append _ _ _ _ hi]
  refine ⟨fun n hn => ?_, ?_, ?_⟩
  · unfold FieldHeap.attributes FieldHeap.construct
    cases c <;> dsimp only <;> rw [e] <;> cases h.fields.getD i none ; all_goals try rfl
    exact Function.update_of_ne hn _ _
  · rintro ⟨d, hd⟩
    have hd2 : h.fields.getD i none = some d := by rw [List.getD_eq_getElem?_getD, hd]; rfl
    unfold FieldHeap.attributes FieldHeap.construct
    cases c <;> dsimp only <;> rw [e, hd2]
  · intro hc
    unfold FieldHeap.attributes FieldHeap.construct
    cases c with
    | geqdsk p => exact absurd rfl (hc p)
    | plain => dsimp only; rw [e]
    | own => dsimp only; rw [e]

/-- **C82 (refutation).** The psi of a field becomes that of the field constructed after it. -/
theorem C82_fails : ¬ NoLeak ℕ := by
  intro h
  have h1 := h ((FieldHeap.mk (fun _ => none) []).construct (.geqdsk 1)) (.geqdsk 2) 0 (by simp [FieldHeap.construct])
  have h2 := congrFun h1 "psi"
  simp [FieldHeap.attributes, FieldHeap.construct, Dict.set] at h2

/-- **C82.** A field without psi gets one. -/
theorem C82_slab : ((FieldHeap.mk (fun _ => none) []).construct .plain).attributes 0 "psi" = (none : Option ℕ) ∧
    (((FieldHeap.mk (fun _ => none) []).construct .plain).construct (.geqdsk 2)).attributes 0 "psi" = some 2 := by
  simp [FieldHeap.attributes, FieldHeap.construct, Dict.set]

/-! ### C139: GEQDSK -/

/-- **C139.** psi is the same everywhere on a field line. -/
theorem C139_surfaces (psi psiR psiZ psinorm : ℝ → ℝ → ℝ) (fpol : ℝ → ℝ)
    (hp : ∀ x z, HasFDerivAt (fun p : ℝ × ℝ => psi p.1 p.2)
      (psiR x z • ContinuousLinearMap.fst ℝ ℝ ℝ + psiZ x z • ContinuousLinearMap.snd ℝ ℝ ℝ) (x, z))
    (x z : ℝ → ℝ) (y0 y1 : ℝ) (h : FieldLineOn (geqdskField psiR psiZ psinorm fpol) (Set.Icc y0 y1) x z) :
    ∀ y ∈ Set.Icc y0 y1, psi (x y) (z y) = psi (x y0) (z y0) := by
  refine const_on_Icc (g := fun t => psi (x t) (z t)) fun t ht => ?_
  obtain ⟨_, hx, hz⟩ := h.deriv ht
  have h2 := (hp (x t) (z t)).comp_hasDerivAt t (hx.prodMk hz)
  refine h2.congr_deriv ?_
  simp only [add_apply, smul_apply, ContinuousLinearMap.coe_fst', ContinuousLinearMap.coe_snd', smul_eq_mul]
  unfold geqdskField FieldFns.Rmaj
  dsimp only
  ring

/-- **C139.** The divergence in cylindrical coordinates vanishes. -/
theorem C139_divergence (psiR psiZ psinorm : ℝ → ℝ → ℝ) (fpol : ℝ → ℝ) (x z phi m : ℝ) (hx : x ≠ 0)
    (h1 : HasDerivAt (fun t => psiZ t z) m x) (h2 : HasDerivAt (fun t => psiR x t) m z) :
    ∃ d e, HasDerivAt (fun t => t * (geqdskField psiR psiZ psinorm fpol).Bx t z phi) d x ∧
      HasDerivAt (fun t => (geqdskField psiR psiZ psinorm fpol).Bz x t phi) e z ∧
      HasDerivAt (fun t => (geqdskField psiR psiZ psinorm fpol).By x z t) 0 phi ∧ d / x + e = 0 := by
  refine ⟨-m, m / x, ?_, ?_, ?_, by ring⟩
  · refine HasDerivAt.congr_of_eventuallyEq h1.neg ?_
    filter_upwards [eventually_ne_nhds hx] with t ht
    unfold geqdskField
    dsimp only
    field_simp
    rfl
  · exact h2.div_const x
  · exact hasDerivAt_const phi _

/-- **C139.** The normalised psi: zero on the axis, one on the boundary and outside the core. -/
theorem C139_psinorm (axis bndry psi : ℝ) (h : axis ≠ bndry) : psinormNode axis bndry axis false = 0 ∧ psinormNode axis bndry bndry false = 1 ∧
    psinormNode axis bndry psi true = 1 := by
  have h2 : bndry - axis ≠ 0 := sub_ne_zero.2 h.symm
  unfold psinormNode
  simp [h2]

/-- psi = R^2 + Z^2 at a point, and a field line on the axis. -/
example : FieldLineOn (geqdskField (fun x _ => 2 * (x - 1)) (fun _ z => 2 * z) (fun _ _ => 0) (fun _ => 3)) (Set.Icc 0 1) (fun _ => 1) fun _ => 0 := by
  intro y _
  refine ⟨0, 0, (direction_one _ _ _ _ _ _).2 ⟨?_, ?_, ?_⟩, hasDerivAt_const _ _, hasDerivAt_const _ _⟩ <;> norm_num [geqdskField, FieldFns.Rmaj]

/-! ### C140: VMEC -/

theorem list_sum_sub (l : List VMode) (f g : VMode → ℝ) : (l.map f).sum - (l.map g).sum = (l.map fun k => f k - g k).sum := by
  induction l with
  | nil => simp
  | cons a l ih => simp only [List.map_cons, List.sum_cons, ← ih]; ring

theorem list_sum_add (l : List VMode) (f g : VMode → ℝ) : (l.map f).sum + (l.map g).sum = (l.map fun k => f k + g k).sum := by
  induction l with
  | nil => simp
  | cons a l ih => simp only [List.map_cons, List.sum_cons, ← ih]; ring

/-- **C140.** `cfunct` is the sum of the cosines of `m theta + n zeta`. -/
theorem C140_cos (ms : List VMode) (c : VMode → ℝ) (theta zeta : ℝ) :
    cfunct ms c theta zeta = (ms.map fun k => c k * cos (k.m * theta + k.n * zeta)).sum := by
  unfold cfunct
  rw [list_sum_sub]
  refine congrArg List.sum (List.map_congr_left fun k _ => ?_)
  rw [cos_add]; ring

/-- **C140.** `sfunct` is the sum of the sines. -/
theorem C140_sin (ms : List VMode) (c : VMode → ℝ) (theta zeta : ℝ) :
    sfunct ms c theta zeta = (ms.map fun k => c k * sin (k.m * theta + k.n * zeta)).sum := by
  unfold sfunct
  rw [list_sum_add]
  refine congrArg List.sum (List.map_congr_left fun k _ => ?_)
  rw [sin_add]; ring

theorem hasDerivAt_modes (g : VMode → ℝ → ℝ) (g' : VMode → ℝ) (x : ℝ) : ∀ l : List VMode, (∀ c ∈ l, HasDerivAt (g c) (g' c) x) →
    HasDerivAt (fun t => (l.map fun c => g c t).sum) (l.map g').sum x
  | [], _ => by simpa using hasDerivAt_const x (0 : ℝ)
  | c :: l, h => by
    simp only [List.map_cons, List.sum_cons]
    exact (h c (by simp)).add (hasDerivAt_modes g g' x l fun d hd => h d (by simp [hd]))

theorem arg_deriv_theta (m n theta zeta : ℝ) : HasDerivAt (fun t => m * t + n * zeta) m theta := by
  simpa using ((hasDerivAt_id theta).const_mul m).add_const (n * zeta)

theorem arg_deriv_zeta (m n theta zeta : ℝ) : HasDerivAt (fun t => m * theta + n * t) n zeta := by
  simpa using ((hasDerivAt_id zeta).const_mul n).const_add (m * theta)

/-- **C140.** The derivatives of the transforms are transforms of the coefficients times the mode numbers. -/
theorem C140_derivatives (ms : List VMode) (c : VMode → ℝ) (theta zeta : ℝ) :
    HasDerivAt (fun t => cfunct ms c t zeta) (sfunct ms (fun k => -c k * k.m) theta zeta) theta ∧
      HasDerivAt (fun t => cfunct ms c theta t) (sfunct ms (fun k => -c k * k.n) theta zeta) zeta ∧
      HasDerivAt (fun t => sfunct ms c t zeta) (cfunct ms (fun k => c k * k.m) theta zeta) theta ∧
      HasDerivAt (fun t => sfunct ms c theta t) (cfunct ms (fun k => c k * k.n) theta zeta) zeta := by
  simp only [C140_cos, C140_sin]
  refine ⟨?_, ?_, ?_, ?_⟩
  · refine hasDerivAt_modes (fun k t => c k * cos (k.m * t + k.n * zeta)) _ theta ms fun k _ => ?_
    refine (((arg_deriv_theta k.m k.n theta zeta).cos).const_mul (c k)).congr_deriv ?_
    ring
  · refine hasDerivAt_modes (fun k t => c k * cos (k.m * theta + k.n * t)) _ zeta ms fun k _ => ?_
    refine (((arg_deriv_zeta k.m k.n theta zeta).cos).const_mul (c k)).congr_deriv ?_
    ring
  · refine hasDerivAt_modes (fun k t => c k * sin (k.m * t + k.n * zeta)) _ theta ms fun k _ => ?_
    refine (((arg_deriv_theta k.m k.n theta zeta).sin).const_mul (c k)).congr_deriv ?_
    ring
  · refine hasDerivAt_modes (fun k t => c k * sin (k.m * theta + k.n * t)) _ zeta ms fun k _ => ?_
    refine (((arg_deriv_zeta k.m k.n theta zeta).sin).const_mul (c k)).congr_deriv ?_
    ring

/-- The field at the point with these angles is `b^u dr/du + b^v dr/dv` for the positions `R` and `Z` of the same result, in cylindrical coordinates
where the angle is `zeta`. -/
def VmecTangent (ms : List VMode) (iasym : Bool) (theta zeta : ℝ) : Prop :=
  ∃ Ru Rv Zu Zv, HasDerivAt (fun t => (readVmec ms iasym t zeta).r) Ru theta ∧ HasDerivAt (fun t => (readVmec ms iasym theta t).r) Rv zeta ∧
    HasDerivAt (fun t => (readVmec ms iasym t zeta).z) Zu theta ∧ HasDerivAt (fun t => (readVmec ms iasym theta t).z) Zv zeta ∧
    (readVmec ms iasym theta zeta).br = cfunct ms (·.bu) theta zeta * Ru + cfunct ms (·.bv) theta zeta * Rv ∧
    (readVmec ms iasym theta zeta).bz = cfunct ms (·.bu) theta zeta * Zu + cfunct ms (·.bv) theta zeta * Zv ∧
    (readVmec ms iasym theta zeta).bphi = (readVmec ms iasym theta zeta).r * cfunct ms (·.bv) theta zeta

/-- **C140 (partial).** It is so for symmetric equilibria.  Missing: those with `iasym` (`C140_fails`). -/
theorem C140_symmetric_partial (ms : List VMode) (theta zeta : ℝ) : VmecTangent ms false theta zeta := by
  have h1 := C140_derivatives ms (·.rmnc) theta zeta
  have h2 := C140_derivatives ms (·.zmns) theta zeta
  exact ⟨_, _, _, _, h1.1, h1.2.1, h2.2.2.1, h2.2.2.2, rfl, rfl, rfl⟩

/-- **C140 (refutation).** With `iasym` the derivatives are not those of the positions. -/
theorem C140_fails : ¬ ∀ (ms : List VMode) (iasym : Bool) (theta zeta : ℝ), VmecTangent ms iasym theta zeta := by
  intro h
  obtain ⟨Ru, Rv, Zu, Zv, h1, h2, -, -, h3, -, -⟩ := h [⟨0, 0, 0, 0, 0, 0, 1, 0⟩, ⟨1, 0, 0, 0, 1, 0, 0, 0⟩] true 0 0
  unfold readVmec at h1 h2 h3
  simp only [C140_cos, C140_sin] at h1 h2 h3
  simp at h1 h2 h3
  have h4 := h1.unique (hasDerivAt_const (0 : ℝ) (0 : ℝ))
  rw [h4] at h3
  norm_num at h3

/-! ### C141: the average over the surfaces -/

section
variable {K : Type} [Field K] [LinearOrder K] [IsStrictOrderedRing K]

/-- What the statement says: every value between the first and the last one is the mean of two neighbouring ones. -/
def AverageRight (K : Type) [Field K] : Prop :=
  ∀ (f r : List K), rollingAverage f = .ok r → ∀ i, 1 ≤ i → i + 1 < f.length → r.getD i 0 = (f.getD i 0 + f.getD (i + 1) 0) / 2

/-- **C141 (partial).** It is so from the third to the last but two.  Missing: the second value and the last but one (`C141_fails`). -/
theorem C141_mean_partial (f r : List K) (h : rollingAverage f = .ok r) : r.length = f.length ∧
    ∀ i, 2 ≤ i → i + 2 < f.length → r.getD i 0 = (f.getD i 0 + f.getD (i + 1) 0) / 2 := by
  unfold rollingAverage at h
  split_ifs at h with hl
  cases h
  refine ⟨by simp, fun i h1 h2 => ?_⟩
  rw [List.getD_eq_getElem _ _ (by simp; omega)]
  simp only [List.getElem_map, List.getElem_range]
  rw [if_neg (by omega), if_pos ⟨h1, h2⟩]
  ring

/-- **C141.** The second value and the last but one are always zero. -/
theorem C141_zero (f r : List K) (h : rollingAverage f = .ok r) : 3 ≤ f.length ∧ r.getD 1 0 = 0 ∧ r.getD (f.length - 2) 0 = 0 := by
  unfold rollingAverage at h
  split_ifs at h with hl
  cases h
  refine ⟨by omega, ?_, ?_⟩ <;> rw [List.getD_eq_getElem _ _ (by simp; omega)] <;> simp only [List.getElem_map, List.getElem_range] <;>
    rw [if_neg (by omega), if_neg (by omega), if_neg (by omega)]

/-- **C141 (refutation).** -/
theorem C141_fails : ¬ AverageRight ℚ := by
  intro h
  have h1 : (rollingAverage (K := ℚ) [1, 1, 1, 1]).toOption = some [1 / 2, 0, 0, 1] := by decide +kernel
  cases hr : rollingAverage (K := ℚ) [1, 1, 1, 1] with
  | error e => rw [hr] at h1; cases h1
  | ok r =>
    rw [hr] at h1
    have h2 : r = [1 / 2, 0, 0, 1] := by injection h1
    have h3 := h _ r hr 1 le_rfl (by simp)
    rw [h2] at h3
    norm_num at h3

/-- What the statement says of a quantity that is the same on all surfaces. -/
def AverageConst (K : Type) [Field K] : Prop :=
  ∀ (c : K) (n : ℕ), 3 ≤ n → rollingAverage (List.replicate n c) = .ok (List.replicate n c)

/-- **C141 (refutation).** A constant does not stay one: the first value is half of it. -/
theorem C141_fails_constant : ¬ AverageConst ℚ := by
  intro h
  have h1 := h 1 3 le_rfl
  have h2 : (rollingAverage (K := ℚ) [1, 1, 1]).toOption = some [1 / 2, 0, 1] := by decide +kernel
  change rollingAverage [1, 1, 1] = _ at h1
  rw [h1] at h2
  have h3 : List.replicate 3 (1 : ℚ) = [1 / 2, 0, 1] := by injection h2
  have h4 : (1 : ℚ) = 1 / 2 := by injection h3
  norm_num at h4

end

/-! ### C142: periodic fields -/

theorem npRem_turns (phi : ℝ) (n : ℤ) : npRem (phi + n * (2 * π)) (2 * π) = npRem phi (2 * π) := by
  unfold npRem
  have h : (2 : ℝ) * π ≠ 0 := by positivity
  rw [add_div, mul_div_cancel_right₀ _ h, Int.floor_add_intCast]
  push_cast
  ring

/-- **C142.** The interpolated fields have the period 2 pi, for any data. -/
theorem C142_periodic (br bphi bz : ℝ → ℝ → ℝ → ℝ) (x z phi : ℝ) (n : ℤ) :
    (interpField br bphi bz).Bx x z (phi + n * (2 * π)) = (interpField br bphi bz).Bx x z phi ∧
      (interpField br bphi bz).By x z (phi + n * (2 * π)) = (interpField br bphi bz).By x z phi ∧
      (interpField br bphi bz).Bz x z (phi + n * (2 * π)) = (interpField br bphi bz).Bz x z phi := by
  unfold interpField
  simp only [npRem_turns, and_self]

/-- **C142.** The interpolators are asked only for angles of the first turn, where they have the given values. -/
theorem C142_range (br bphi bz br' bphi' bz' : ℝ → ℝ → ℝ → ℝ)
    (h : ∀ x z phi, 0 ≤ phi → phi < 2 * π → br x z phi = br' x z phi ∧ bphi x z phi = bphi' x z phi ∧ bz x z phi = bz' x z phi) :
    interpField br bphi bz = interpField br' bphi' bz' := by
  have hp : (0 : ℝ) < 2 * π := by positivity
  have h0 : ∀ phi : ℝ, 0 ≤ npRem phi (2 * π) ∧ npRem phi (2 * π) < 2 * π := by
    intro phi
    unfold npRem
    have h1 := Int.floor_le (phi / (2 * π))
    have h2 := Int.lt_floor_add_one (phi / (2 * π))
    rw [le_div_iff₀ hp] at h1
    rw [div_lt_iff₀ hp] at h2
    constructor <;> nlinarith
  unfold interpField
  congr 1 <;> funext x z phi
  · exact (h x z _ (h0 phi).1 (h0 phi).2).1
  · exact (h x z _ (h0 phi).1 (h0 phi).2).2.1
  · exact (h x z _ (h0 phi).1 (h0 phi).2).2.2

/-- **C142.** Inside the first turn they are the interpolators. -/
theorem C142_inside (br bphi bz : ℝ → ℝ → ℝ → ℝ) (x z phi : ℝ) (h0 : 0 ≤ phi) (h1 : phi < 2 * π) :
    (interpField br bphi bz).Bx x z phi = br x z phi ∧ (interpField br bphi bz).By x z phi = bphi x z phi ∧
      (interpField br bphi bz).Bz x z phi = bz x z phi := by
  have hp : (0 : ℝ) < 2 * π := by positivity
  have : npRem phi (2 * π) = phi := by
    unfold npRem
    have : ⌊phi / (2 * π)⌋ = 0 := by
      rw [Int.floor_eq_zero_iff]
      exact ⟨by positivity, (div_lt_one hp).2 h1⟩
    rw [this]; simp
  unfold interpField
  simp only [this, and_self]

/-! ### C143: damping -/

section
variable {K : Type} [Field K] [LinearOrder K] [IsStrictOrderedRing K]

/-- The inner box is inside the outer one. -/
structure Limits.Nested (l : Limits K) : Prop where
  hx : l.xl_outer < l.xl_inner
  hx2 : l.xl_inner ≤ l.xr_inner
  hx3 : l.xr_inner < l.xr_outer
  hz : l.zb_outer < l.zb_inner
  hz2 : l.zb_inner ≤ l.zt_inner
  hz3 : l.zt_inner < l.zt_outer

theorem left_le (a i o : K) (h : o < i) (ha : a < i) : (a - i) / (i - o) + 1 < 1 := by
  have : (a - i) / (i - o) < 0 := div_neg_of_neg_of_pos (sub_neg.2 ha) (sub_pos.2 h)
  linarith

theorem right_le (a i o : K) (h : i < o) (ha : i ≤ a) : (a - i) / (i - o) + 1 ≤ 1 := by
  have : (a - i) / (i - o) ≤ 0 := div_nonpos_of_nonneg_of_nonpos (sub_nonneg.2 ha) (sub_neg.2 h).le
  linarith

theorem smooth_range_of {P : K} (h : P ≤ 1) : 0 ≤ (if P < 0 then (0 : K) else P) ∧ (if P < 0 then (0 : K) else P) ≤ 1 := by
  split_ifs with h2
  · exact ⟨le_rfl, zero_le_one⟩
  · exact ⟨not_lt.1 h2, h⟩

/-- **C143.** The factor is between zero and one. -/
theorem C143_range (l : Limits K) (h : l.Nested) (xa za : K) : 0 ≤ l.smooth xa za ∧ l.smooth xa za ≤ 1 := by
  unfold Limits.smooth
  dsimp only
  refine smooth_range_of ?_
  split_ifs with h1 h2 h3 h4 h5 h6 h7 h8
  · exact (min_le_left _ _).trans (left_le _ _ _ h.hx h1).le
  · exact (min_le_left _ _).trans (left_le _ _ _ h.hx h1).le
  · exact (left_le _ _ _ h.hx h1).le
  · exact (min_le_left _ _).trans (right_le _ _ _ h.hx3 h4)
  · exact (min_le_left _ _).trans (right_le _ _ _ h.hx3 h4)
  · exact right_le _ _ _ h.hx3 h4
  · exact (left_le _ _ _ h.hz h7).le
  · exact right_le _ _ _ h.hz3 h8.le
  · exact le_rfl

/-- **C143.** It is one in the inner box. -/
theorem C143_inner (l : Limits K) (xa za : K) (h1 : l.xl_inner ≤ xa) (h2 : xa ≤ l.xr_inner) (h3 : l.zb_inner ≤ za) (h4 : za ≤ l.zt_inner) :
    l.smooth xa za = 1 := by
  unfold Limits.smooth
  dsimp only
  rw [if_neg (not_lt.2 h1), if_neg (not_lt.2 h3), if_neg (not_lt.2 h3), if_neg (not_lt.2 h4)]
  by_cases h5 : xa ≥ l.xr_inner
  · have h6 : xa = l.xr_inner := le_antisymm h2 h5
    rw [if_pos h5, h6, sub_self, zero_div, zero_add]
    by_cases h7 : za ≥ l.zt_inner
    · have h8 : za = l.zt_inner := le_antisymm h4 h7
      rw [if_pos h7, h8, sub_self, zero_div, zero_add, min_self, if_neg (by norm_num)]
    · rw [if_neg h7, if_neg (by norm_num)]
  · rw [if_neg h5, if_neg (by norm_num)]

theorem zero_left (a i o : K) (h : o < i) (ha : a ≤ o) : (a - i) / (i - o) + 1 ≤ 0 := by
  have : (a - i) / (i - o) ≤ -1 := by rw [div_le_iff₀ (sub_pos.2 h)]; linarith
  linarith

theorem zero_right (a i o : K) (h : i < o) (ha : o ≤ a) : (a - i) / (i - o) + 1 ≤ 0 := by
  have : (a - i) / (i - o) ≤ -1 := by rw [div_le_iff_of_neg (sub_neg.2 h)]; linarith
  linarith

theorem smooth_zero_of {P : K} (h : P ≤ 0) : (if P < 0 then (0 : K) else P) = 0 := by
  split_ifs with h2
  · rfl
  · exact le_antisymm h (not_lt.1 h2)

/-- **C143.** It is zero on the outer box and outside of it. -/
theorem C143_outer (l : Limits K) (h : l.Nested) (xa za : K) (ho : xa ≤ l.xl_outer ∨ l.xr_outer ≤ xa ∨ za ≤ l.zb_outer ∨ l.zt_outer ≤ za) :
    l.smooth xa za = 0 := by
  have := h.hx; have := h.hx2; have := h.hx3; have := h.hz; have := h.hz2; have := h.hz3
  unfold Limits.smooth
  dsimp only
  refine smooth_zero_of ?_
  rcases ho with ho | ho | ho | ho
  · have hx : xa < l.xl_inner := by linarith
    have := zero_left xa l.xl_inner l.xl_outer h.hx ho
    rw [if_pos hx]
    split_ifs
    · exact (min_le_left _ _).trans this
    · exact (min_le_left _ _).trans this
    · exact this
  · have hx : ¬ xa < l.xl_inner := by rw [not_lt]; linarith
    have hx2 : xa ≥ l.xr_inner := by linarith
    have := zero_right xa l.xr_inner l.xr_outer h.hx3 ho
    rw [if_neg hx, if_pos hx2]
    split_ifs
    · exact (min_le_left _ _).trans this
    · exact (min_le_left _ _).trans this
    · exact this
  · have hz : za < l.zb_inner := by linarith
    have := zero_left za l.zb_inner l.zb_outer h.hz ho
    rw [if_pos hz, if_pos hz, if_pos hz]
    split_ifs
    · exact (min_le_right _ _).trans this
    · exact (min_le_right _ _).trans this
    · exact this
  · have hz : ¬ za < l.zb_inner := by rw [not_lt]; linarith
    have hz2 : za ≥ l.zt_inner := by linarith
    have hz3 : za > l.zt_inner := by linarith
    have := zero_right za l.zt_inner l.zt_outer h.hz3 ho
    rw [if_neg hz, if_neg hz, if_neg hz, if_pos hz2, if_pos hz2, if_pos hz3]
    split_ifs
    · exact (min_le_right _ _).trans this
    · exact (min_le_right _ _).trans this
    · exact this

/-- What the statement says of the objects: the damping can be computed. -/
def SmoothingWorks (K : Type) [Field K] [LinearOrder K] : Prop :=
  ∀ (xb zb : Option K) (xa za : K), (smoothFieldLine (smoothedAttrs xb zb) xa za).toBool = true

/-- **C143 (partial).** If the limits are set by hand the factor is computed.  Missing: the limits, which are never set (`C143_fails`). -/
theorem C143_set_partial (attrs : Dict K) (l : Limits K) (h1 : attrs "xl_inner" = some l.xl_inner) (h2 : attrs "xl_outer" = some l.xl_outer)
    (h3 : attrs "xr_inner" = some l.xr_inner) (h4 : attrs "xr_outer" = some l.xr_outer) (h5 : attrs "zt_inner" = some l.zt_inner)
    (h6 : attrs "zt_outer" = some l.zt_outer) (h7 : attrs "zb_inner" = some l.zb_inner) (h8 : attrs "zb_outer" = some l.zb_outer) (xa za : K) :
    smoothFieldLine attrs xa za = .ok (l.smooth xa za) := by
  unfold smoothFieldLine
  simp only [readAttrs, h1, h2, h3, h4, h5, h6, h7, h8]
  rfl

/-- **C143 (refutation).** A constructed object raises an `AttributeError`. -/
theorem C143_fails : ¬ SmoothingWorks ℚ := by
  intro h
  have h1 := h none none 0 0
  unfold smoothFieldLine at h1
  simp [readAttrs, smoothedAttrs, Except.map] at h1
  cases h1

example : (⟨0, -1, 4, 5, 3, 4, 0, -1⟩ : Limits ℚ).Nested ∧ (⟨0, -1, 4, 5, 3, 4, 0, -1⟩ : Limits ℚ).smooth (9 / 2) (7 / 2) = 1 / 2 := by
  refine ⟨⟨by norm_num, by norm_num, by norm_num, by norm_num, by norm_num, by norm_num⟩, ?_⟩
  unfold Limits.smooth
  norm_num

end

/-! ### C144: saved fields -/

/-- What the statement says: over any history that starts without files every call gives the field for its arguments. -/
def SavedRight : Prop :=
  ∀ (fmt : ℚ → String) (compute : W7Args ℚ → Except Err (W7Args ℚ)) (calls : List (W7Args ℚ)),
    fieldValuesCalls fmt compute (fun _ => none) calls = calls.map compute

/-- The files hold the right fields. -/
def SavedFiles {K B : Type} (fmt : K → String) (compute : W7Args K → Except Err B) (S : W7Args K → Prop) (files : Dict B) : Prop :=
  ∀ a, S a → (∀ b, files (a.fname fmt) = some b → compute a = .ok b) ∧ files (a.fnameOld fmt) = none

/-- **C144 (partial).** If the names of the files differ for different arguments, and there are no old files.  Missing: limits that agree to two decimals
(`C144_fails`) and old files (`C144_fails_old`). -/
theorem C144_saved_partial {K B : Type} (fmt : K → String) (compute : W7Args K → Except Err B) (S : W7Args K → Prop)
    (hinj : ∀ a b, S a → S b → a.fname fmt = b.fname fmt → a = b) (hold : ∀ a b, S a → S b → a.fname fmt ≠ b.fnameOld fmt) :
    ∀ (calls : List (W7Args K)) (files : Dict B), SavedFiles fmt compute S files → (∀ a ∈ calls, S a) →
      fieldValuesCalls fmt compute files calls = calls.map compute
  | [], _, _, _ => rfl
  | a :: l, files, hf, hc => by
    have ha := hc a (by simp)
    have h1 := hf a ha
    have key : (fieldValues fmt compute files a).2 = compute a ∧ SavedFiles fmt compute S (fieldValues fmt compute files a).1 := by
      unfold fieldValues
      rw [h1.2]
      cases h2 : files (a.fname fmt) with
      | some b => exact ⟨(h1.1 b h2).symm, hf⟩
      | none =>
        dsimp only
        cases h3 : compute a with
        | error e => exact ⟨rfl, hf⟩
        | ok b =>
          refine ⟨rfl, fun c hcS => ⟨fun b' hb' => ?_, ?_⟩⟩
          · dsimp only [Dict.set] at hb'
            by_cases h4 : c.fname fmt = a.fname fmt
            · have h5 := hinj c a hcS ha h4
              subst h5
              rw [Function.update_self] at hb'
              cases hb'
              exact h3
            · rw [Function.update_of_ne h4] at hb'
              exact (hf c hcS).1 b' hb'
          · dsimp only [Dict.set]
            rw [Function.update_of_ne (hold a c ha hcS).symm]
            exact (hf c hcS).2
    rw [fieldValuesCalls, List.map_cons, key.1, C144_saved_partial fmt compute S hinj hold l _ key.2 fun b hb => hc b (by simp [hb])]

/-- **C144 (refutation).** If the limits are formatted in the same way, the second field is the first one. -/
theorem C144_fails : ¬ SavedRight := by
  intro h
  have h1 := h (fun _ => "0.00") .ok [⟨0, 2, 2, 2, (0, 0), (0, 0), (0, 0)⟩, ⟨0, 2, 2, 2, (1 / 1000, 0), (0, 0), (0, 0)⟩]
  simp [fieldValuesCalls, fieldValues, Dict.set, W7Args.fname, W7Args.stem] at h1

/-- **C144 (refutation).** A file of the old kind is used for every configuration. -/
theorem C144_fails_old (fmt : ℚ → String) (b : ℕ) (compute : W7Args ℚ → Except Err ℕ) (a : W7Args ℚ) (n : ℤ) :
    (fieldValues fmt compute (Dict.set (fun _ => none) (a.fnameOld fmt) b) { a with configuration := n }).2 = .ok b := by
  unfold fieldValues
  have h1 : ({ a with configuration := n } : W7Args ℚ).fnameOld fmt = a.fnameOld fmt := rfl
  rw [h1]
  have h2 : (Dict.set (fun _ => none) (a.fnameOld fmt) b) (a.fnameOld fmt) = some b := by unfold Dict.set; rw [Function.update_self]
  rw [h2]
  cases h3 : (Dict.set (fun _ => none) (a.fnameOld fmt) b) (({ a with configuration := n } : W7Args ℚ).fname fmt) with
  | none => rfl
  | some c =>
    unfold Dict.set at h3
    by_cases h4 : ({ a with configuration := n } : W7Args ℚ).fname fmt = a.fnameOld fmt
    · rw [h4, Function.update_self] at h3
      cases h3
      rfl
    · rw [Function.update_of_ne h4] at h3
      cases h3

/-! ### C145: two attempts -/

/-- **C145.** The first attempt counts if it succeeds, otherwise the second one, with its exception. -/
theorem C145_attempts {α : Type} (attempt : ℕ → Except Err α) :
    calcChunk attempt 2 0 = match attempt 0 with
      | .ok a => .ok a
      | .error _ => attempt 1 := by
  rw [calcChunk]
  cases attempt 0 with
  | ok a => rfl
  | error e =>
    dsimp only
    rw [if_neg (by norm_num), calcChunk]
    cases attempt 1 with
    | ok a => rfl
    | error e => rfl

/-! ### C146: Cartesian fields -/

/-- **C146.** The components are those of the same vector in the directions of `R` and `phi`. -/
theorem C146_components (B : ℝ → ℝ → ℝ → ℝ × ℝ × ℝ) (x z phi : ℝ) :
    (cartesianField B).Bx x z phi * cos phi - (cartesianField B).By x z phi * sin phi = (B (x * cos phi) (x * sin phi) z).1 ∧
      (cartesianField B).Bx x z phi * sin phi + (cartesianField B).By x z phi * cos phi = (B (x * cos phi) (x * sin phi) z).2.1 ∧
      (cartesianField B).Bz x z phi = (B (x * cos phi) (x * sin phi) z).2.2 := by
  unfold cartesianField
  dsimp only
  have h := sin_sq_add_cos_sq phi
  generalize (B (x * cos phi) (x * sin phi) z).1 = a
  generalize (B (x * cos phi) (x * sin phi) z).2.1 = b
  refine ⟨?_, ?_, rfl⟩
  · linear_combination a * h
  · linear_combination b * h

/-- **C146.** Their own `Bmag` is that of the base class. -/
theorem C146_magnitude (B : ℝ → ℝ → ℝ → ℝ × ℝ × ℝ) (x z phi : ℝ) : cartesianBmag B x z phi = (cartesianField B).Bmag sqrt x z phi := by
  unfold cartesianBmag FieldFns.Bmag cartesianField
  dsimp only
  have h := sin_sq_add_cos_sq phi
  generalize (B (x * cos phi) (x * sin phi) z).1 = a
  generalize (B (x * cos phi) (x * sin phi) z).2.1 = b
  congr 1
  linear_combination -(a ^ 2 + b ^ 2) * h

/-! ### C147: the default range of W7X -/

/-- What the statement says: the default grid goes from -1.35 to 1.35. -/
def DefaultZRight : Prop := ∀ nz : ℕ, 2 ≤ nz → ∀ a ∈ defaultZ (K := ℚ) nz, -135 / 100 ≤ a ∧ a ≤ 135 / 100

/-- **C147 (partial).** It starts at -1.35, and the points are equally spaced up to 35.  Missing: the end (`C147_fails`). -/
theorem C147_points_partial (nz i : ℕ) (h : 2 ≤ nz) (hi : i < nz) : (defaultZ (K := ℚ) nz).getD i 0 = -135 / 100 + (i : ℚ) * ((35 + 135 / 100) / ((nz : ℚ) - 1)) := by
  unfold defaultZ linspaceClosed
  dsimp only
  rw [List.getD_eq_getElem _ _ (by simpa using hi)]
  simp only [List.getElem_map, List.getElem_range]
  rw [if_neg (by omega)]
  norm_num

/-- **C147 (refutation).** -/
theorem C147_fails : ¬ DefaultZRight := by
  intro h
  have h1 := (h 2 le_rfl 35 (by unfold defaultZ linspaceClosed; decide +kernel)).2
  norm_num at h1

/-! ### C148: configurations -/

/-- **C148.** A configuration is passed on if it is a non-negative number; otherwise it must be known, and then there is one current for each
of the first seventy coils. -/
theorem C148_config (c : W7Conf) (s : W7Set) (h : setConfig c = .ok s) :
    (∃ n : ℤ, 0 ≤ n ∧ c = .int n ∧ s = .configIds n) ∨
      ((c = .int (-1) ∨ c = .str "FMM002") ∧ ∃ cur, s = .coils (w7coils.take 70) cur ∧ cur.length = (w7coils.take 70).length) := by
  have h1 : setConfig (.int (-1)) = .ok (.coils (w7coils.take 70) (List.replicate 50 108 ++ List.replicate 20 36)) := by rfl
  have h2 : setConfig (.str "FMM002") = .ok (.coils (w7coils.take 70) (List.replicate 50 (108 * 13423) ++ List.replicate 20 (36 * -3544))) := by rfl
  cases c with
  | int n =>
    by_cases hn : 0 ≤ n
    · left
      unfold setConfig at h
      dsimp only at h
      rw [if_pos hn] at h
      cases h
      exact ⟨n, hn, rfl, rfl⟩
    · right
      by_cases hm : n = -1
      · subst hm
        rw [h1] at h
        cases h
        exact ⟨Or.inl rfl, _, rfl, by decide⟩
      · exfalso
        unfold setConfig at h
        dsimp only at h
        rw [if_neg hn] at h
        have : w7known (.int n) = none := by
          unfold w7known
          split
          · rename_i hh; cases hh; exact absurd rfl hm
          · rename_i hh; cases hh
          · rfl
        rw [this] at h
        cases h
  | str t =>
    right
    by_cases ht : t = "FMM002"
    · subst ht
      rw [h2] at h
      cases h
      exact ⟨Or.inr rfl, _, rfl, by decide⟩
    · exfalso
      unfold setConfig at h
      dsimp only at h
      have : w7known (.str t) = none := by
        unfold w7known
        split
        · rename_i hh; cases hh
        · rename_i hh; cases hh; exact absurd rfl ht
        · rfl
      rw [this] at h
      cases h

/-- **C148.** No coil is named twice. -/
theorem C148_coils : w7coils.Nodup := by decide

/-- **C148.** All these configurations are accepted. -/
theorem C148_accepted : (∀ n : ℤ, 0 ≤ n → setConfig (.int n) = .ok (.configIds n)) ∧
    setConfig (.int (-1)) = .ok (.coils (w7coils.take 70) (List.replicate 50 108 ++ List.replicate 20 36)) ∧
    setConfig (.str "FMM002") = .ok (.coils (w7coils.take 70) (List.replicate 50 1449684 ++ List.replicate 20 (-127584))) := by
  refine ⟨fun n hn => ?_, rfl, rfl⟩
  unfold setConfig
  dsimp only
  rw [if_pos hn]

/-! ### C149: EMC3.Bmag -/

section
variable {K : Type} [Field K]

/-- **C149.** Values that are there stay, and none are missing afterwards. -/
theorem C149_filled (sq : K → K) (spline : List K → List K → Except Err (K → K)) (p : List (K × K)) (v r : List (Option K)) (hl : p.length = v.length)
    (h : fillNans sq spline p v = .ok r) :
    r.length = v.length ∧ ∀ (i : ℕ) (_ : i < v.length), (∃ a, r[i]? = some (some a)) ∧ ∀ a, v[i]? = some (some a) → r[i]? = some (some a) := by
  unfold fillNans at h
  by_cases hall : v.all Option.isSome = true
  · rw [if_pos hall] at h
    cases h
    refine ⟨rfl, fun i hi => ⟨?_, fun a ha => ha⟩⟩
    have := (List.all_eq_true.1 hall) v[i] (List.getElem_mem hi)
    obtain ⟨a, ha⟩ := Option.isSome_iff_exists.1 this
    exact ⟨a, by rw [List.getElem?_eq_getElem hi, ha]⟩
  · rw [if_neg hall] at h
    dsimp only at h
    have hlen : ((arcLength sq p).zip v).length = v.length := by
      rw [List.length_zip]; unfold arcLength; simp [hl]
    cases hs : spline (((arcLength sq p).zip v).filterMap fun q => q.2.map fun _ => q.1) (((arcLength sq p).zip v).filterMap fun q => q.2) with
    | error e => rw [hs] at h; cases h
    | ok f =>
      rw [hs] at h
      cases h
      refine ⟨by rw [List.length_map, hlen], fun i hi => ?_⟩
      have hi2 : i < ((arcLength sq p).zip v).length := by rw [hlen]; exact hi
      rw [List.getElem?_map, List.getElem?_eq_getElem hi2, List.getElem_zip, Option.map_some]
      refine ⟨⟨_, rfl⟩, fun a ha => ?_⟩
      rw [List.getElem?_eq_getElem hi] at ha
      have ha := Option.some.inj ha
      rw [ha]
      rfl

/-- **C149.** The spline is made from all values that are there, each at its distance along the column; missing ones are taken from it. -/
theorem C149_missing (sq : K → K) (spline : List K → List K → Except Err (K → K)) (f : K → K) (p : List (K × K)) (v : List (Option K))
    (hl : p.length = v.length) (hv : v.all Option.isSome = false)
    (hs : spline (((arcLength sq p).zip v).filterMap fun q => q.2.map fun _ => q.1) (v.filterMap id) = .ok f) (i : ℕ) (hi : v[i]? = some none) :
    ∃ r, fillNans sq spline p v = .ok r ∧ r[i]? = some (some (f (((List.range i).map fun j =>
      sq (((p.getD (j + 1) (0, 0)).1 - (p.getD j (0, 0)).1) ^ 2 + ((p.getD (j + 1) (0, 0)).2 - (p.getD j (0, 0)).2) ^ 2)).sum))) := by
  have hz : ((arcLength sq p).zip v).filterMap (fun q => q.2) = v.filterMap id := by
    have h1 : (((arcLength sq p).zip v).map Prod.snd) = v := by
      rw [List.map_snd_zip]
      unfold arcLength; simp [hl]
    conv_rhs => rw [← h1]
    rw [List.filterMap_map]
    rfl
  have hi2 : i < v.length := by
    by_contra hc
    rw [List.getElem?_eq_none (not_lt.1 hc)] at hi
    cases hi
  have hlen : ((arcLength sq p).zip v).length = v.length := by
    rw [List.length_zip]; unfold arcLength; simp [hl]
  unfold fillNans
  rw [if_neg (by rw [hv]; simp)]
  dsimp only
  rw [hz, hs]
  refine ⟨_, rfl, ?_⟩
  rw [List.getElem?_map, List.getElem?_eq_getElem (by rw [hlen]; exact hi2), List.getElem_zip, Option.map_some]
  rw [List.getElem?_eq_getElem hi2] at hi
  rw [Option.some.inj hi]
  unfold arcLength
  simp

example : (fillNans (K := ℚ) id (fun _ _ => .ok fun s => s) [(0, 0), (1, 0), (1, 2)] [some 5, none, some 7]).toOption = some [some 5, some 1, some 7] := by decide +kernel

end

end Zoidberg
