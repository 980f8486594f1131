import Verif.Props.FieldData
import Verif.Props.FluxTube
import Verif.Props.FieldCoils
import Verif.Props.Exact3

/-! # Further theorems for mutations that survived (C72, C136, C143, C148) -/

set_option linter.unusedSectionVars false

namespace Zoidberg

/-- **C143 (refutation).** Every object, with boundaries or without, raises the `AttributeError` for `xl_inner`, at every point. -/
theorem C143_fails_all {K : Type} [Field K] [LinearOrder K] (xb zb : Option K) (xa za : K) :
    smoothFieldLine (smoothedAttrs xb zb) xa za = .error (.attribute "xl_inner") := by
  unfold smoothFieldLine
  simp [readAttrs, smoothedAttrs, Except.map]

/-- **C148.** The list has 50 main coils, 20 planar coils, 10 control coils and 5 trim coils, each once; the first 70 are those with numbers from 160 to 229. -/
theorem C148_list : w7coils.length = 50 + 20 + 10 + 5 ∧ w7coils.Nodup ∧ (∀ n : ℤ, n ∈ w7coils.take 70 ↔ 160 ≤ n ∧ n < 230) ∧
    ∀ n : ℤ, n ∈ w7coils.drop 70 ↔ (230 ≤ n ∧ n < 240) ∨ n = 241 ∨ 350 ≤ n ∧ n ≤ 353 := by
  refine ⟨by decide, by decide, ?_, ?_⟩
  · intro n
    constructor
    · have : ∀ m ∈ w7coils.take 70, 160 ≤ m ∧ m < 230 := by decide
      exact this n
    · rintro ⟨h1, h2⟩
      have : ∀ k ∈ List.range 70, (160 : ℤ) + k ∈ w7coils.take 70 := by decide
      have h := this (n - 160).toNat (List.mem_range.2 (by omega))
      rwa [show (160 : ℤ) + ((n - 160).toNat : ℤ) = n by omega] at h
  · intro n
    constructor
    · have : ∀ m ∈ w7coils.drop 70, (230 ≤ m ∧ m < 240) ∨ m = 241 ∨ 350 ≤ m ∧ m ≤ 353 := by decide
      exact this n
    · intro h
      have h0 : w7coils.drop 70 = [230, 231, 232, 233, 234, 235, 236, 237, 238, 239, 350, 241, 351, 352, 353] := by decide
      rw [h0]
      simp only [List.mem_cons, List.not_mem_nil, or_false]
      omega

/-- **C136.** The divergence of the field of RotatingEllipse in cylindrical coordinates is that of its part in the plane, `B_R / R`; so by `C262_iff` the factor `B0 / Bpar` is not the
change of the areas wherever a line has `B_R` different from zero.  The toroidal field is that of a current along the axis: `R B` is the same everywhere. -/
theorem C136_cylindrical (xc zc r yperiod I Btor x z phi : ℝ) (hx : 0 < x) (h : OffCoils (coilList xc zc r yperiod I phi) x z) :
    divCyl (rotatingEllipse xc zc r yperiod I Btor) x z phi = (rotatingEllipse xc zc r yperiod I Btor).Bx x z phi / x ∧
      x * (rotatingEllipse xc zc r yperiod I Btor).By x z phi = Btor := by
  obtain ⟨k, h1, h2⟩ := C79_divergence _ x z h
  have d1 : HasDerivAt (fun t => t * (rotatingEllipse xc zc r yperiod I Btor).Bx t z phi) _ x := (hasDerivAt_id x).mul h1
  have d2 : HasDerivAt (fun t => (rotatingEllipse xc zc r yperiod I Btor).Bz x t phi) _ z := h2
  have h3 := C136_value_partial xc zc r yperiod I Btor x z phi _ _ hx h d1 d2
  constructor
  · unfold divCyl
    rw [d1.deriv, d2.deriv, ← h3]
    have : deriv (fun s => (rotatingEllipse xc zc r yperiod I Btor).By x z s) phi = 0 := by
      simp only [rotatingEllipse]
      simp
    rw [this]
    ring
  · simp only [rotatingEllipse]
    exact mul_div_cancel₀ Btor hx.ne'

/-- **C72.** From the starting points to the result: for an integrator that treats the lines one by one, entry `(r, p)` has two numbers for each starting point, the position
of its line at the value of `y` number `(r * nplot + p) * nover`, which is `y_slices[p] + r * yperiod`. -/
theorem C72_lines {K : Type} [Field K] [LinearOrder K] [IsStrictOrderedRing K] [FloorRing K] (ode : List K → List K → Except Err (List (List K)))
    (line : K × K → List K → ℕ → K × K) (ho : LineWise ode line) (x z : FArr K) (hx : x.Ok) (hz : z.Ok) (hshape : shape1 x = shape1 z) (T : K) (nplot : Option ℕ)
    (slices : Option (List K)) (revs nover : ℕ) (res : List (List (List K))) (s : List K)
    (h : tracePoincare (poincareFollow ode x z) T nplot slices revs nover = .ok (res, s)) :
    ∃ ys : List K, ys.length = revs * s.length * nover - (nover - 1) ∧ ∀ r < revs, ∀ p < s.length, ys[(r * s.length + p) * nover]? = some (s.getD p 0 + (r : K) * T) ∧
      ((res.getD r []).getD p []).length = 2 * (commonShape x z).prod ∧ ∀ j < (commonShape x z).prod,
        ((res.getD r []).getD p []).getD (2 * j) 0 = (line (startPoint x z j) ys ((r * s.length + p) * nover)).1 ∧
        ((res.getD r []).getD p []).getD (2 * j + 1) 0 = (line (startPoint x z j) ys ((r * s.length + p) * nover)).2 := by
  have hodd : ¬ OddScalar x z := by
    rintro ⟨h1, -, -, h2⟩
    rw [hshape] at h1
    omega
  have hlen : ∀ ys rows, poincareFollow ode x z ys = .ok rows → rows.length = ys.length := by
    intro ys rows hr
    unfold poincareFollow at hr
    cases hf : followFieldLines ode x z ⟨[ys.length], ys⟩ with
    | error e => rw [hf] at hr; cases hr
    | ok q =>
      rw [hf] at hr
      simp only [Except.map] at hr
      cases hr
      simp
  obtain ⟨-, -, -, ys, rows, hr, hl, hv⟩ := C72_rows _ hlen T nplot slices revs nover res s h
  refine ⟨ys, hl, fun r hr' p hp => ?_⟩
  obtain ⟨g1, g2, -⟩ := hv r hr' p hp
  have hi : (r * s.length + p) * nover < ys.length := (List.getElem?_eq_some_iff.1 g1).1
  refine ⟨g1, ?_⟩
  generalize (r * s.length + p) * nover = i at g1 g2 hi ⊢
  have hvalid : ValidInput x z ⟨[ys.length], ys⟩ := by
    by_contra hc
    obtain ⟨m, hm⟩ := C69_invalid ode x z ⟨[ys.length], ys⟩ hx hz hc
    unfold poincareFollow at hr
    rw [hm] at hr
    cases hr
  obtain ⟨q, e1, e2, e3, e4⟩ := C68_lines ode line ho x z ⟨[ys.length], ys⟩ hx hz (by simp [FArr.Ok]) hvalid hodd
  have ht : q.shape.tail.prod = 2 * (commonShape x z).prod := by
    rw [e3]
    simp [mul_comm]
  have hq : q.data.length = ys.length * (2 * (commonShape x z).prod) := by
    rw [e2, e3]
    simp [mul_comm]
  unfold poincareFollow at hr
  rw [e1] at hr
  simp only [Except.map] at hr
  cases hr
  rw [ht] at g2
  have hres : (res.getD r []).getD p [] = (q.data.drop (i * (2 * (commonShape x z).prod))).take (2 * (commonShape x z).prod) := by
    rw [List.getElem?_map, List.getElem?_range hi, Option.map_some] at g2
    cases ha : res[r]? with
    | none => rw [ha] at g2; cases g2
    | some a =>
      rw [ha, Option.bind_some] at g2
      rw [List.getD_eq_getElem?_getD, List.getD_eq_getElem?_getD, ha, Option.getD_some, g2, Option.getD_some]
  have hle : (i + 1) * (2 * (commonShape x z).prod) ≤ ys.length * (2 * (commonShape x z).prod) := Nat.mul_le_mul_right _ hi
  rw [Nat.succ_mul] at hle
  rw [hres]
  generalize commonShape x z = sh at *
  refine ⟨by rw [List.length_take, List.length_drop, hq]; omega, fun j hj => ?_⟩
  obtain ⟨f1, f2⟩ := e4 i hi j hj
  have hg : ∀ k < 2 * sh.prod, ((q.data.drop (i * (2 * sh.prod))).take (2 * sh.prod)).getD k 0 = q.data.getD (i * (2 * sh.prod) + k) 0 := by
    intro k hk
    rw [List.getD_eq_getElem?_getD, List.getElem?_take_of_lt hk, List.getElem?_drop, ← List.getD_eq_getElem?_getD]
  rw [hg _ (by omega), hg _ (by omega)]
  rw [show 2 * (i * sh.prod + j) = i * (2 * sh.prod) + 2 * j by ring] at f1 f2
  exact ⟨f1, f2⟩

example : (tracePoincare (poincareFollow stillOde ⟨[2], [(3 : ℚ), 4]⟩ ⟨[2], [5, 6]⟩) 7 (some 2) none 2 3).toBool = true := by decide +kernel

end Zoidberg
