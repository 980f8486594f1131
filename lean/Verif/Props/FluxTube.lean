import Verif.Props.Field
import Verif.Props.Volume
import Mathlib.Analysis.Calculus.FDeriv.Symmetric
import Mathlib.Analysis.Calculus.MeanValue
import Mathlib.Analysis.Calculus.ContDiff.Basic
import Mathlib.MeasureTheory.Function.Jacobian
import Mathlib.MeasureTheory.Integral.Prod
import Mathlib.MeasureTheory.Integral.IntervalIntegral.Basic
import Mathlib.Analysis.Normed.Module.FiniteDimension
import Mathlib.Tactic.LinearCombination
import Mathlib.Tactic.FieldSimp

/-!
# C262: what the factor `B0 / Bpar` in `J` means

`make_maps` takes the area of a cell times `By` at the start over `By` on the line for the cross-section of the flux tube (zoidberg.py:405-412).
-/

set_option linter.unusedSectionVars false

namespace Zoidberg

open Set Real MeasureTheory

/-- The divergence of a field in cylindrical coordinates. -/
noncomputable def divCyl (f : FieldFns ℝ) (x z s : ℝ) : ℝ :=
  deriv (fun t => t * f.Bx t z s) x / x + deriv (fun t => f.By x z t) s / x + deriv (fun t => f.Bz x t s) z

/-- The map along the field lines: `Φ p s` is the position at the angle `s` of the line that starts at `p` at the angle `y`; it is smooth for starts in the open set `U` and
angles in the open set `S`. -/
structure LineMap (f : FieldFns ℝ) (U : Set (ℝ × ℝ)) (S : Set ℝ) (y : ℝ) (Φ : ℝ × ℝ → ℝ → ℝ × ℝ) : Prop where
  openU : IsOpen U
  openS : IsOpen S
  conn : S.OrdConnected
  mem : y ∈ S
  smooth : ContDiffOn ℝ 2 (fun q : (ℝ × ℝ) × ℝ => Φ q.1 q.2) (U ×ˢ S)
  start : ∀ p ∈ U, Φ p y = p
  line : ∀ p ∈ U, FieldLineOn f S (fun s => (Φ p s).1) (fun s => (Φ p s).2)
  cyl : f.R = some fun x _ _ => x
  dBx : ∀ p ∈ U, ∀ s ∈ S, DifferentiableAt ℝ (fun r : (ℝ × ℝ) × ℝ => f.Bx r.1.1 r.1.2 r.2) (Φ p s, s)
  dBy : ∀ p ∈ U, ∀ s ∈ S, DifferentiableAt ℝ (fun r : (ℝ × ℝ) × ℝ => f.By r.1.1 r.1.2 r.2) (Φ p s, s)
  dBz : ∀ p ∈ U, ∀ s ∈ S, DifferentiableAt ℝ (fun r : (ℝ × ℝ) × ℝ => f.Bz r.1.1 r.1.2 r.2) (Φ p s, s)

/-- The derivative of a mixed kind: along `s` of the derivative in the direction `a` of the start. -/
theorem mixed_deriv (G : (ℝ × ℝ) × ℝ → ℝ) (O : Set ((ℝ × ℝ) × ℝ)) (hO : IsOpen O) (hG : ContDiffOn ℝ 2 G O) (v : (ℝ × ℝ) × ℝ → ℝ)
    (hv : ∀ q ∈ O, fderiv ℝ G q (0, 1) = v q) (p a : ℝ × ℝ) (s : ℝ) (hq : (p, s) ∈ O) :
    HasDerivAt (fun t => fderiv ℝ G (p, t) (a, 0)) (fderiv ℝ v (p, s) (a, 0)) s := by
  have hc : ContDiffAt ℝ 2 G (p, s) := hG.contDiffAt (hO.mem_nhds hq)
  have hsym := hc.isSymmSndFDerivAt (by simp)
  have hd : DifferentiableAt ℝ (fderiv ℝ G) (p, s) := (hc.fderiv_right (m := 1) (by norm_num)).differentiableAt (by norm_num)
  have h1 : HasDerivAt (fun t : ℝ => (p, t)) ((0 : ℝ × ℝ), (1 : ℝ)) s := (hasDerivAt_const s p).prodMk (hasDerivAt_id s)
  have h2 : HasDerivAt (fun t => fderiv ℝ G (p, t)) (fderiv ℝ (fderiv ℝ G) (p, s) (0, 1)) s := by
    have := HasFDerivAt.comp_hasDerivAt s (f := fun t : ℝ => (p, t)) hd.hasFDerivAt h1
    exact this
  have h3 : HasDerivAt (fun t => fderiv ℝ G (p, t) (a, 0)) (fderiv ℝ (fderiv ℝ G) (p, s) (0, 1) (a, 0)) s := by
    have := h2.clm_apply (hasDerivAt_const s ((a, 0) : (ℝ × ℝ) × ℝ))
    simpa using this
  have h4 : fderiv ℝ v (p, s) (a, 0) = fderiv ℝ (fderiv ℝ G) (p, s) (a, 0) (0, 1) := by
    have he : v =ᶠ[nhds (p, s)] fun q => fderiv ℝ G q (0, 1) := by
      filter_upwards [hO.mem_nhds hq] with q hq
      exact (hv q hq).symm
    rw [he.fderiv_eq, fderiv_clm_apply hd (differentiableAt_const _)]
    simp
  rw [h4, hsym.eq (a, 0) (0, 1)]
  exact h3

section
variable {f : FieldFns ℝ} {U : Set (ℝ × ℝ)} {S : Set ℝ} {y : ℝ} {Φ : ℝ × ℝ → ℝ → ℝ × ℝ}

theorem LineMap.openO (h : LineMap f U S y Φ) : IsOpen (U ×ˢ S) := h.openU.prod h.openS

theorem LineMap.smooth1 (h : LineMap f U S y Φ) : ContDiffOn ℝ 2 (fun q : (ℝ × ℝ) × ℝ => (Φ q.1 q.2).1) (U ×ˢ S) := h.smooth.fst

theorem LineMap.smooth2 (h : LineMap f U S y Φ) : ContDiffOn ℝ 2 (fun q : (ℝ × ℝ) × ℝ => (Φ q.1 q.2).2) (U ×ˢ S) := h.smooth.snd

/-- The field line equations. -/
theorem LineMap.eqs (h : LineMap f U S y Φ) {p : ℝ × ℝ} (hp : p ∈ U) {s : ℝ} (hs : s ∈ S) :
    f.By (Φ p s).1 (Φ p s).2 s ≠ 0 ∧
      HasDerivAt (fun s => (Φ p s).1) ((Φ p s).1 * f.Bx (Φ p s).1 (Φ p s).2 s / f.By (Φ p s).1 (Φ p s).2 s) s ∧
      HasDerivAt (fun s => (Φ p s).2) ((Φ p s).1 * f.Bz (Φ p s).1 (Φ p s).2 s / f.By (Φ p s).1 (Φ p s).2 s) s := by
  obtain ⟨dx, dz, h1, h2, h3⟩ := h.line p hp s hs
  obtain ⟨k1, k2, k3⟩ := (direction_one f _ _ _ _ _).1 h1
  have hR : f.Rmaj (Φ p s).1 (Φ p s).2 s = (Φ p s).1 := by
    unfold FieldFns.Rmaj
    rw [h.cyl]
  rw [hR] at k2 k3
  subst k2 k3
  refine ⟨?_, h2, h3⟩
  intro h0
  rw [h0, abs_zero] at k1
  norm_num at k1

/-- The right hand side of the equation for `R`. -/
noncomputable def velR (f : FieldFns ℝ) (r : (ℝ × ℝ) × ℝ) : ℝ := r.1.1 * f.Bx r.1.1 r.1.2 r.2 / f.By r.1.1 r.1.2 r.2

/-- The right hand side of the equation for `Z`. -/
noncomputable def velZ (f : FieldFns ℝ) (r : (ℝ × ℝ) × ℝ) : ℝ := r.1.1 * f.Bz r.1.1 r.1.2 r.2 / f.By r.1.1 r.1.2 r.2

theorem LineMap.diff (h : LineMap f U S y Φ) {p : ℝ × ℝ} (hp : p ∈ U) {s : ℝ} (hs : s ∈ S) :
    DifferentiableAt ℝ (fun q : (ℝ × ℝ) × ℝ => Φ q.1 q.2) (p, s) :=
  (h.smooth.contDiffAt (h.openO.mem_nhds ⟨hp, hs⟩)).differentiableAt (by norm_num)

theorem LineMap.dvelR (h : LineMap f U S y Φ) {p : ℝ × ℝ} (hp : p ∈ U) {s : ℝ} (hs : s ∈ S) : DifferentiableAt ℝ (velR f) (Φ p s, s) := by
  unfold velR
  simp only [div_eq_mul_inv]
  exact ((differentiableAt_fst.fst).mul (h.dBx p hp s hs)).mul ((h.dBy p hp s hs).inv (h.eqs hp hs).1)

theorem LineMap.dvelZ (h : LineMap f U S y Φ) {p : ℝ × ℝ} (hp : p ∈ U) {s : ℝ} (hs : s ∈ S) : DifferentiableAt ℝ (velZ f) (Φ p s, s) := by
  unfold velZ
  simp only [div_eq_mul_inv]
  exact ((differentiableAt_fst.fst).mul (h.dBz p hp s hs)).mul ((h.dBy p hp s hs).inv (h.eqs hp hs).1)

/-- The derivative of the position in the direction `a` of the start. -/
noncomputable def dStart (Φ : ℝ × ℝ → ℝ → ℝ × ℝ) (p a : ℝ × ℝ) (s : ℝ) : ℝ × ℝ :=
  (fderiv ℝ (fun q : (ℝ × ℝ) × ℝ => (Φ q.1 q.2).1) (p, s) (a, 0), fderiv ℝ (fun q : (ℝ × ℝ) × ℝ => (Φ q.1 q.2).2) (p, s) (a, 0))

theorem fderiv_vel (h : LineMap f U S y Φ) (v : (ℝ × ℝ) × ℝ → ℝ) {p : ℝ × ℝ} (hp : p ∈ U) {s : ℝ} (hs : s ∈ S) (hv : DifferentiableAt ℝ v (Φ p s, s)) (a : ℝ × ℝ) :
    fderiv ℝ (fun q : (ℝ × ℝ) × ℝ => v (Φ q.1 q.2, q.2)) (p, s) (a, 0) =
      fderiv ℝ v (Φ p s, s) ((1, 0), 0) * (dStart Φ p a s).1 + fderiv ℝ v (Φ p s, s) ((0, 1), 0) * (dStart Φ p a s).2 := by
  have hd := h.diff hp hs
  have hF : HasFDerivAt (fun q : (ℝ × ℝ) × ℝ => (Φ q.1 q.2, q.2))
      ((fderiv ℝ (fun q : (ℝ × ℝ) × ℝ => Φ q.1 q.2) (p, s)).prod (ContinuousLinearMap.snd ℝ (ℝ × ℝ) ℝ)) (p, s) :=
    hd.hasFDerivAt.prodMk hasFDerivAt_snd
  have hc := HasFDerivAt.comp (p, s) (f := fun q : (ℝ × ℝ) × ℝ => (Φ q.1 q.2, q.2)) (g := v) hv.hasFDerivAt hF
  have e : fderiv ℝ (fun q : (ℝ × ℝ) × ℝ => v (Φ q.1 q.2, q.2)) (p, s) =
      (fderiv ℝ v (Φ p s, s)).comp ((fderiv ℝ (fun q : (ℝ × ℝ) × ℝ => Φ q.1 q.2) (p, s)).prod (ContinuousLinearMap.snd ℝ (ℝ × ℝ) ℝ)) := hc.fderiv
  rw [e]
  have e1 : fderiv ℝ (fun q : (ℝ × ℝ) × ℝ => Φ q.1 q.2) (p, s) (a, 0) = dStart Φ p a s := by
    unfold dStart
    have h1 := hd.fst.hasFDerivAt
    have h2 := hd.snd.hasFDerivAt
    have h3 := (h1.prodMk h2).fderiv
    have h4 : (fun q : (ℝ × ℝ) × ℝ => ((Φ q.1 q.2).1, (Φ q.1 q.2).2)) = fun q : (ℝ × ℝ) × ℝ => Φ q.1 q.2 := rfl
    rw [h4] at h3
    rw [h3]
    rfl
  simp only [ContinuousLinearMap.comp_apply, ContinuousLinearMap.prod_apply, ContinuousLinearMap.coe_snd', e1]
  have e2 : ((dStart Φ p a s, (0 : ℝ)) : (ℝ × ℝ) × ℝ) = (dStart Φ p a s).1 • ((1, 0), 0) + (dStart Φ p a s).2 • ((0, 1), 0) := by
    simp
  rw [e2, map_add, map_smul, map_smul]
  simp only [smul_eq_mul]
  ring

theorem along {p : ℝ × ℝ} {s : ℝ} (G : (ℝ × ℝ) × ℝ → ℝ) (hG : DifferentiableAt ℝ G (p, s)) :
    HasDerivAt (fun t => G (p, t)) (fderiv ℝ G (p, s) (0, 1)) s := by
  have h1 : HasDerivAt (fun t : ℝ => (p, t)) ((0 : ℝ × ℝ), (1 : ℝ)) s := (hasDerivAt_const s p).prodMk (hasDerivAt_id s)
  exact HasFDerivAt.comp_hasDerivAt s (f := fun t : ℝ => (p, t)) hG.hasFDerivAt h1

theorem dStart_deriv1 (h : LineMap f U S y Φ) {p : ℝ × ℝ} (hp : p ∈ U) {s : ℝ} (hs : s ∈ S) (a : ℝ × ℝ) :
    HasDerivAt (fun t => (dStart Φ p a t).1)
      (fderiv ℝ (velR f) (Φ p s, s) ((1, 0), 0) * (dStart Φ p a s).1 + fderiv ℝ (velR f) (Φ p s, s) ((0, 1), 0) * (dStart Φ p a s).2) s := by
  rw [← fderiv_vel h (velR f) hp hs (h.dvelR hp hs) a]
  refine mixed_deriv _ _ h.openO h.smooth1 _ ?_ p a s ⟨hp, hs⟩
  rintro ⟨p', s'⟩ ⟨hp', hs'⟩
  exact (along _ (h.diff hp' hs').fst).unique (h.eqs hp' hs').2.1

theorem dStart_deriv2 (h : LineMap f U S y Φ) {p : ℝ × ℝ} (hp : p ∈ U) {s : ℝ} (hs : s ∈ S) (a : ℝ × ℝ) :
    HasDerivAt (fun t => (dStart Φ p a t).2)
      (fderiv ℝ (velZ f) (Φ p s, s) ((1, 0), 0) * (dStart Φ p a s).1 + fderiv ℝ (velZ f) (Φ p s, s) ((0, 1), 0) * (dStart Φ p a s).2) s := by
  rw [← fderiv_vel h (velZ f) hp hs (h.dvelZ hp hs) a]
  refine mixed_deriv _ _ h.openO h.smooth2 _ ?_ p a s ⟨hp, hs⟩
  rintro ⟨p', s'⟩ ⟨hp', hs'⟩
  exact (along _ (h.diff hp' hs').snd).unique (h.eqs hp' hs').2.2

/-- By how much the map enlarges areas: the determinant of its derivative. -/
noncomputable def spread (Φ : ℝ × ℝ → ℝ → ℝ × ℝ) (p : ℝ × ℝ) (s : ℝ) : ℝ :=
  (dStart Φ p (1, 0) s).1 * (dStart Φ p (0, 1) s).2 - (dStart Φ p (0, 1) s).1 * (dStart Φ p (1, 0) s).2

theorem spread_deriv (h : LineMap f U S y Φ) {p : ℝ × ℝ} (hp : p ∈ U) {s : ℝ} (hs : s ∈ S) :
    HasDerivAt (spread Φ p) ((fderiv ℝ (velR f) (Φ p s, s) ((1, 0), 0) + fderiv ℝ (velZ f) (Φ p s, s) ((0, 1), 0)) * spread Φ p s) s := by
  have h1 := ((dStart_deriv1 h hp hs (1, 0)).mul (dStart_deriv2 h hp hs (0, 1))).sub
    ((dStart_deriv1 h hp hs (0, 1)).mul (dStart_deriv2 h hp hs (1, 0)))
  refine HasDerivAt.congr_deriv (f := spread Φ p) h1 ?_
  unfold spread
  ring

/-- Partial derivatives from the derivative. -/
theorem part (g : (ℝ × ℝ) × ℝ → ℝ) (x z s : ℝ) (hg : DifferentiableAt ℝ g ((x, z), s)) :
    HasDerivAt (fun t => g ((t, z), s)) (fderiv ℝ g ((x, z), s) ((1, 0), 0)) x ∧ HasDerivAt (fun t => g ((x, t), s)) (fderiv ℝ g ((x, z), s) ((0, 1), 0)) z ∧
      HasDerivAt (fun t => g ((x, z), t)) (fderiv ℝ g ((x, z), s) ((0, 0), 1)) s := by
  refine ⟨?_, ?_, ?_⟩
  · have h1 : HasDerivAt (fun t : ℝ => ((t, z), s)) (((1 : ℝ), (0 : ℝ)), (0 : ℝ)) x := ((hasDerivAt_id x).prodMk (hasDerivAt_const x z)).prodMk (hasDerivAt_const x s)
    exact HasFDerivAt.comp_hasDerivAt x (f := fun t : ℝ => ((t, z), s)) hg.hasFDerivAt h1
  · have h1 : HasDerivAt (fun t : ℝ => ((x, t), s)) (((0 : ℝ), (1 : ℝ)), (0 : ℝ)) z := ((hasDerivAt_const z x).prodMk (hasDerivAt_id z)).prodMk (hasDerivAt_const z s)
    exact HasFDerivAt.comp_hasDerivAt z (f := fun t : ℝ => ((x, t), s)) hg.hasFDerivAt h1
  · have h1 : HasDerivAt (fun t : ℝ => ((x, z), t)) (((0 : ℝ), (0 : ℝ)), (1 : ℝ)) s := ((hasDerivAt_const s x).prodMk (hasDerivAt_const s z)).prodMk (hasDerivAt_id s)
    exact HasFDerivAt.comp_hasDerivAt s (f := fun t : ℝ => ((x, z), t)) hg.hasFDerivAt h1

/-- The area times the field changes along the line by the divergence. -/
theorem spread_field_deriv (h : LineMap f U S y Φ) {p : ℝ × ℝ} (hp : p ∈ U) {s : ℝ} (hs : s ∈ S) (hx : (Φ p s).1 ≠ 0) :
    HasDerivAt (fun t => spread Φ p t * f.By (Φ p t).1 (Φ p t).2 t) (spread Φ p s * ((Φ p s).1 * divCyl f (Φ p s).1 (Φ p s).2 s)) s := by
  obtain ⟨hB, e1, e2⟩ := h.eqs hp hs
  have hline : HasDerivAt (fun t : ℝ => (((Φ p t).1, (Φ p t).2), t)) _ s := (e1.prodMk e2).prodMk (hasDerivAt_id s)
  have hBy := HasFDerivAt.comp_hasDerivAt s (f := fun t : ℝ => (((Φ p t).1, (Φ p t).2), t)) (l := fun r : (ℝ × ℝ) × ℝ => f.By r.1.1 r.1.2 r.2)
    (h.dBy p hp s hs).hasFDerivAt hline
  have hm := (spread_deriv h hp hs).mul hBy
  refine HasDerivAt.congr_deriv (f := fun t => spread Φ p t * f.By (Φ p t).1 (Φ p t).2 t) hm ?_
  obtain ⟨x1, -, -⟩ := part _ _ _ _ (h.dBx p hp s hs)
  obtain ⟨y1, y2, y3⟩ := part _ _ _ _ (h.dBy p hp s hs)
  obtain ⟨-, z2, -⟩ := part _ _ _ _ (h.dBz p hp s hs)
  have v1 := (part _ _ _ _ (h.dvelR hp hs)).1.unique (((hasDerivAt_id (Φ p s).1).mul x1).div y1 hB)
  have v2 := (part _ _ _ _ (h.dvelZ hp hs)).2.1.unique (((hasDerivAt_const (Φ p s).2 (Φ p s).1).mul z2).div y2 hB)
  have d1 := ((hasDerivAt_id (Φ p s).1).mul x1).deriv
  have d2 := y3.deriv
  have d3 := z2.deriv
  have e3 : fderiv ℝ (fun r : (ℝ × ℝ) × ℝ => f.By r.1.1 r.1.2 r.2) (Φ p s, s)
      (((Φ p s).1 * f.Bx (Φ p s).1 (Φ p s).2 s / f.By (Φ p s).1 (Φ p s).2 s, (Φ p s).1 * f.Bz (Φ p s).1 (Φ p s).2 s / f.By (Φ p s).1 (Φ p s).2 s), 1) =
      (Φ p s).1 * f.Bx (Φ p s).1 (Φ p s).2 s / f.By (Φ p s).1 (Φ p s).2 s * fderiv ℝ (fun r : (ℝ × ℝ) × ℝ => f.By r.1.1 r.1.2 r.2) (Φ p s, s) ((1, 0), 0) +
      (Φ p s).1 * f.Bz (Φ p s).1 (Φ p s).2 s / f.By (Φ p s).1 (Φ p s).2 s * fderiv ℝ (fun r : (ℝ × ℝ) × ℝ => f.By r.1.1 r.1.2 r.2) (Φ p s, s) ((0, 1), 0) +
      fderiv ℝ (fun r : (ℝ × ℝ) × ℝ => f.By r.1.1 r.1.2 r.2) (Φ p s, s) ((0, 0), 1) := by
    generalize (Φ p s).1 * f.Bx (Φ p s).1 (Φ p s).2 s / f.By (Φ p s).1 (Φ p s).2 s = u
    generalize (Φ p s).1 * f.Bz (Φ p s).1 (Φ p s).2 s / f.By (Φ p s).1 (Φ p s).2 s = w
    have : (((u, w), (1 : ℝ)) : (ℝ × ℝ) × ℝ) = u • ((1, 0), 0) + w • ((0, 1), 0) + ((0, 0), 1) := by simp
    rw [this, map_add, map_add, map_smul, map_smul]
    rfl
  unfold divCyl
  have d1' : deriv (fun t => t * f.Bx t (Φ p s).2 s) (Φ p s).1 = _ := d1
  have d2' : deriv (fun t => f.By (Φ p s).1 (Φ p s).2 t) s = _ := d2
  have d3' : deriv (fun t => f.Bz (Φ p s).1 t s) (Φ p s).2 = _ := d3
  have v1' : fderiv ℝ (velR f) (Φ p s, s) ((1, 0), 0) = _ := v1
  have v2' : fderiv ℝ (velZ f) (Φ p s, s) ((0, 1), 0) = _ := v2
  rw [d1', d2', d3', v1', v2']
  simp only [Function.comp_apply, Pi.mul_apply, id_eq, Prod.mk.eta]
  rw [e3]
  generalize fderiv ℝ (fun r : (ℝ × ℝ) × ℝ => f.By r.1.1 r.1.2 r.2) (Φ p s, s) ((1, 0), 0) = a1
  generalize fderiv ℝ (fun r : (ℝ × ℝ) × ℝ => f.By r.1.1 r.1.2 r.2) (Φ p s, s) ((0, 1), 0) = a2
  generalize fderiv ℝ (fun r : (ℝ × ℝ) × ℝ => f.By r.1.1 r.1.2 r.2) (Φ p s, s) ((0, 0), 1) = a3
  generalize fderiv ℝ (fun r : (ℝ × ℝ) × ℝ => f.Bx r.1.1 r.1.2 r.2) (Φ p s, s) ((1, 0), 0) = a4
  generalize fderiv ℝ (fun r : (ℝ × ℝ) × ℝ => f.Bz r.1.1 r.1.2 r.2) (Φ p s, s) ((0, 1), 0) = a5
  revert hB hx
  generalize f.By (Φ p s).1 (Φ p s).2 s = b
  generalize f.Bx (Φ p s).1 (Φ p s).2 s = c
  generalize f.Bz (Φ p s).1 (Φ p s).2 s = d
  generalize (Φ p s).1 = x
  intro hB hx
  field_simp
  ring

theorem dStart_start (h : LineMap f U S y Φ) {p : ℝ × ℝ} (hp : p ∈ U) (a : ℝ × ℝ) : dStart Φ p a y = a := by
  have hd := h.diff hp h.mem
  have hline : HasFDerivAt (fun q : ℝ × ℝ => (q, y)) ((ContinuousLinearMap.id ℝ (ℝ × ℝ)).prod (0 : (ℝ × ℝ) →L[ℝ] ℝ)) p :=
    (hasFDerivAt_id p).prodMk (hasFDerivAt_const y p)
  have hc := HasFDerivAt.comp p (f := fun q : ℝ × ℝ => (q, y)) (g := fun q : (ℝ × ℝ) × ℝ => Φ q.1 q.2) hd.hasFDerivAt hline
  have he : ((fun q : (ℝ × ℝ) × ℝ => Φ q.1 q.2) ∘ fun q : ℝ × ℝ => (q, y)) =ᶠ[nhds p] id := by
    filter_upwards [h.openU.mem_nhds hp] with q hq
    exact h.start q hq
  have hu := (hc.congr_of_eventuallyEq he.symm).unique (hasFDerivAt_id p)
  have e := congrArg (fun L : (ℝ × ℝ) →L[ℝ] (ℝ × ℝ) => L a) hu
  simp only [ContinuousLinearMap.comp_apply, ContinuousLinearMap.prod_apply, ContinuousLinearMap.id_apply, zero_apply] at e
  unfold dStart
  have h3 := (hd.fst.hasFDerivAt.prodMk hd.snd.hasFDerivAt).fderiv
  have h4 : (fun q : (ℝ × ℝ) × ℝ => ((Φ q.1 q.2).1, (Φ q.1 q.2).2)) = fun q : (ℝ × ℝ) × ℝ => Φ q.1 q.2 := rfl
  rw [h4] at h3
  rw [h3] at e
  exact e

theorem spread_start (h : LineMap f U S y Φ) {p : ℝ × ℝ} (hp : p ∈ U) : spread Φ p y = 1 := by
  unfold spread
  rw [dStart_start h hp, dStart_start h hp]
  norm_num

/-- The lines stay away from the axis. -/
def OffAxis (U : Set (ℝ × ℝ)) (S : Set ℝ) (Φ : ℝ × ℝ → ℝ → ℝ × ℝ) : Prop := ∀ p ∈ U, ∀ s ∈ S, 0 < (Φ p s).1

/-- The field has no sources on the lines. -/
def SourceFree (f : FieldFns ℝ) (U : Set (ℝ × ℝ)) (S : Set ℝ) (Φ : ℝ × ℝ → ℝ → ℝ × ℝ) : Prop := ∀ p ∈ U, ∀ s ∈ S, divCyl f (Φ p s).1 (Φ p s).2 s = 0

/-- **C262.** For a field without sources the factor `B0 / Bpar` is by how much the map along the field lines enlarges areas. -/
theorem C262_spread (h : LineMap f U S y Φ) (ha : OffAxis U S Φ) (hd : SourceFree f U S Φ) (p : ℝ × ℝ) (hp : p ∈ U) (s : ℝ) (hs : s ∈ S) :
    spread Φ p s = f.By p.1 p.2 y / f.By (Φ p s).1 (Φ p s).2 s := by
  rw [eq_div_iff (h.eqs hp hs).1]
  have hder : ∀ t ∈ S, HasDerivAt (fun t => spread Φ p t * f.By (Φ p t).1 (Φ p t).2 t) 0 t := by
    intro t ht
    have := spread_field_deriv h hp ht (ha p hp t ht).ne'
    rw [hd p hp t ht, mul_zero, mul_zero] at this
    exact this
  have h0 : spread Φ p y * f.By (Φ p y).1 (Φ p y).2 y = f.By p.1 p.2 y := by
    rw [spread_start h hp, one_mul, h.start p hp]
  rw [← h0]
  rcases le_total y s with hle | hle
  · exact const_on_Icc (g := fun t => spread Φ p t * f.By (Φ p t).1 (Φ p t).2 t) (fun t ht => hder t (h.conn.out h.mem hs ht)) s ⟨hle, le_rfl⟩
  · exact (const_on_Icc (g := fun t => spread Φ p t * f.By (Φ p t).1 (Φ p t).2 t) (fun t ht => hder t (h.conn.out hs h.mem ht)) y ⟨hle, le_rfl⟩).symm

/-- **C262**, exactly: the factor is right for all lines only if the field has no sources on them. -/
theorem C262_iff (h : LineMap f U S y Φ) (ha : OffAxis U S Φ) :
    (∀ p ∈ U, ∀ s ∈ S, spread Φ p s = f.By p.1 p.2 y / f.By (Φ p s).1 (Φ p s).2 s) ↔ SourceFree f U S Φ := by
  refine ⟨fun hsp p hp s hs => ?_, fun hd p hp s hs => C262_spread h ha hd p hp s hs⟩
  have hby : f.By p.1 p.2 y ≠ 0 := by
    have := (h.eqs hp h.mem).1
    rwa [h.start p hp] at this
  have h1 := spread_field_deriv h hp hs (ha p hp s hs).ne'
  have he : (fun t => spread Φ p t * f.By (Φ p t).1 (Φ p t).2 t) =ᶠ[nhds s] fun _ => f.By p.1 p.2 y := by
    filter_upwards [h.openS.mem_nhds hs] with t ht
    rw [hsp p hp t ht, div_mul_cancel₀ _ (h.eqs hp ht).1]
  have h2 := (h1.congr_of_eventuallyEq he.symm).unique (hasDerivAt_const s _)
  have h3 : spread Φ p s ≠ 0 := by
    rw [hsp p hp s hs]
    exact div_ne_zero hby (h.eqs hp hs).1
  rcases mul_eq_zero.1 h2 with h4 | h4
  · exact absurd h4 h3
  · exact (mul_eq_zero.1 h4).resolve_left (ha p hp s hs).ne'

/-- The factor is positive. -/
theorem ratio_pos (h : LineMap f U S y Φ) {p : ℝ × ℝ} (hp : p ∈ U) {s : ℝ} (hs : s ∈ S) : 0 < f.By p.1 p.2 y / f.By (Φ p s).1 (Φ p s).2 s := by
  have hcont : ContinuousOn (fun t => f.By (Φ p t).1 (Φ p t).2 t) S := by
    intro t ht
    obtain ⟨-, e1, e2⟩ := h.eqs hp ht
    have hl : ContinuousAt (fun t : ℝ => (Φ p t, t)) t := (e1.continuousAt.prodMk e2.continuousAt).prodMk continuousAt_id
    exact (ContinuousAt.comp (f := fun t : ℝ => (Φ p t, t)) (g := fun r : (ℝ × ℝ) × ℝ => f.By r.1.1 r.1.2 r.2) (h.dBy p hp t ht).continuousAt hl).continuousWithinAt
  have hne : ∀ t ∈ S, f.By (Φ p t).1 (Φ p t).2 t ≠ 0 := fun t ht => (h.eqs hp ht).1
  have e0 : f.By p.1 p.2 y = f.By (Φ p y).1 (Φ p y).2 y := by rw [h.start p hp]
  rw [e0]
  by_contra hn
  have hpre : IsPreconnected S := h.conn.isPreconnected
  rcases lt_or_gt_of_ne (hne y h.mem) with h1 | h1 <;> rcases lt_or_gt_of_ne (hne s hs) with h2 | h2
  · exact hn (div_pos_of_neg_of_neg h1 h2)
  · obtain ⟨t, ht, h0⟩ := hpre.intermediate_value h.mem hs hcont ⟨h1.le, h2.le⟩
    exact hne t ht h0
  · obtain ⟨t, ht, h0⟩ := hpre.intermediate_value hs h.mem hcont ⟨h2.le, h1.le⟩
    exact hne t ht h0
  · exact hn (div_pos h1 h2)

/-- The map to the angle `s` is differentiable. -/
theorem mapAt_fderiv (h : LineMap f U S y Φ) {p : ℝ × ℝ} (hp : p ∈ U) {s : ℝ} (hs : s ∈ S) :
    HasFDerivAt (fun q => Φ q s) (LinearMap.toContinuousLinearMap (Matrix.toLin (Module.Basis.finTwoProd ℝ) (Module.Basis.finTwoProd ℝ)
      !![(dStart Φ p (1, 0) s).1, (dStart Φ p (0, 1) s).1; (dStart Φ p (1, 0) s).2, (dStart Φ p (0, 1) s).2])) p := by
  have hd := h.diff hp hs
  have hline : HasFDerivAt (fun q : ℝ × ℝ => (q, s)) ((ContinuousLinearMap.id ℝ (ℝ × ℝ)).prod (0 : (ℝ × ℝ) →L[ℝ] ℝ)) p :=
    (hasFDerivAt_id p).prodMk (hasFDerivAt_const s p)
  have hc := HasFDerivAt.comp p (f := fun q : ℝ × ℝ => (q, s)) (g := fun q : (ℝ × ℝ) × ℝ => Φ q.1 q.2) hd.hasFDerivAt hline
  refine HasFDerivAt.congr_fderiv (f := fun q => Φ q s) hc ?_
  have h3 := (hd.fst.hasFDerivAt.prodMk hd.snd.hasFDerivAt).fderiv
  have h4 : (fun q : (ℝ × ℝ) × ℝ => ((Φ q.1 q.2).1, (Φ q.1 q.2).2)) = fun q : (ℝ × ℝ) × ℝ => Φ q.1 q.2 := rfl
  rw [h4] at h3
  have e1 : ∀ a : ℝ × ℝ, fderiv ℝ (fun q : (ℝ × ℝ) × ℝ => Φ q.1 q.2) (p, s) (a, 0) = dStart Φ p a s := by
    intro a
    rw [h3]
    rfl
  rw [Matrix.toLin_finTwoProd_toContinuousLinearMap]
  ext
  all_goals
    simp [e1]

theorem mapAt_det (Φ : ℝ × ℝ → ℝ → ℝ × ℝ) (p : ℝ × ℝ) (s : ℝ) :
    (LinearMap.toContinuousLinearMap (Matrix.toLin (Module.Basis.finTwoProd ℝ) (Module.Basis.finTwoProd ℝ)
      !![(dStart Φ p (1, 0) s).1, (dStart Φ p (0, 1) s).1; (dStart Φ p (1, 0) s).2, (dStart Φ p (0, 1) s).2])).det = spread Φ p s := by
  rw [LinearMap.det_toContinuousLinearMap, LinearMap.det_toLin, Matrix.det_fin_two_of]
  unfold spread
  ring

/-- **C262.** The cross-section at the angle `s` of the flux tube through the part `A` of the plane, weighted with `R` as in a volume. -/
theorem C262_section (h : LineMap f U S y Φ) (ha : OffAxis U S Φ) (hd : SourceFree f U S Φ) (A : Set (ℝ × ℝ)) (hA : MeasurableSet A) (hAU : A ⊆ U) (s : ℝ) (hs : s ∈ S)
    (hi : InjOn (fun p => Φ p s) A) :
    ∫ q in (fun p => Φ p s) '' A, q.1 = ∫ p in A, f.By p.1 p.2 y * ((Φ p s).1 / f.By (Φ p s).1 (Φ p s).2 s) := by
  have : (volume : Measure (ℝ × ℝ)).IsAddHaarMeasure := Measure.prod.instIsAddHaarMeasure volume volume
  rw [integral_image_eq_integral_abs_det_fderiv_smul volume hA (fun p hp => (mapAt_fderiv h (hAU hp) hs).hasFDerivWithinAt) hi]
  refine setIntegral_congr_fun hA fun p hp => ?_
  simp only [mapAt_det, smul_eq_mul]
  rw [C262_spread h ha hd p (hAU hp) s hs, abs_of_pos (ratio_pos h (hAU hp) hs)]
  ring

/-- `R / By` along the lines is continuous in start and angle. -/
theorem over_continuous (h : LineMap f U S y Φ) :
    ContinuousOn (fun q : (ℝ × ℝ) × ℝ => f.By q.1.1 q.1.2 y * ((Φ q.1 q.2).1 / f.By (Φ q.1 q.2).1 (Φ q.1 q.2).2 q.2)) (U ×ˢ S) := by
  rintro ⟨p, s⟩ ⟨hp, hs⟩
  have hc := (h.diff hp hs).continuousAt
  have h1 : ContinuousAt (fun q : (ℝ × ℝ) × ℝ => f.By q.1.1 q.1.2 y) (p, s) := by
    have h0 := (h.dBy p hp y h.mem).continuousAt
    rw [h.start p hp] at h0
    exact ContinuousAt.comp (f := fun q : (ℝ × ℝ) × ℝ => (q.1, y)) (g := fun r : (ℝ × ℝ) × ℝ => f.By r.1.1 r.1.2 r.2) (x := (p, s)) h0
      (continuousAt_fst.prodMk continuousAt_const)
  have h2 : ContinuousAt (fun q : (ℝ × ℝ) × ℝ => f.By (Φ q.1 q.2).1 (Φ q.1 q.2).2 q.2) (p, s) :=
    ContinuousAt.comp (f := fun q : (ℝ × ℝ) × ℝ => (Φ q.1 q.2, q.2)) (g := fun r : (ℝ × ℝ) × ℝ => f.By r.1.1 r.1.2 r.2) (x := (p, s)) (h.dBy p hp s hs).continuousAt
      (hc.prodMk continuousAt_snd)
  exact (h1.mul (hc.fst.div h2 (h.eqs hp hs).1)).continuousWithinAt

theorem over_integrable (h : LineMap f U S y Φ) (A : Set (ℝ × ℝ)) (hA : IsCompact A) (hAU : A ⊆ U) (a b : ℝ) (hab : uIcc a b ⊆ S) :
    Integrable (Function.uncurry fun (s : ℝ) (p : ℝ × ℝ) => f.By p.1 p.2 y * ((Φ p s).1 / f.By (Φ p s).1 (Φ p s).2 s))
      ((volume.restrict (uIoc a b)).prod (volume.restrict A)) := by
  have hcomp : IsCompact (uIcc a b ×ˢ A) := isCompact_uIcc.prod hA
  have hc : ContinuousOn (Function.uncurry fun (s : ℝ) (p : ℝ × ℝ) => f.By p.1 p.2 y * ((Φ p s).1 / f.By (Φ p s).1 (Φ p s).2 s)) (uIcc a b ×ˢ A) :=
    (over_continuous h).comp (f := Prod.swap) continuous_swap.continuousOn fun q hq => ⟨hAU hq.2, hab hq.1⟩
  have hint := hc.integrableOn_compact (μ := volume) hcomp
  rw [Measure.prod_restrict]
  exact hint.mono_set (prod_mono uIoc_subset_uIcc subset_rfl)

/-- **C262.** The volume of the flux tube through the compact part `A` of the plane, between the angles `a` and `b`, is the integral over `A` of `B0 ∫ R / Bpar`, which is
what `J dy` is proportional to (C222). -/
theorem C262_volume (h : LineMap f U S y Φ) (ha : OffAxis U S Φ) (hd : SourceFree f U S Φ) (A : Set (ℝ × ℝ)) (hA : IsCompact A) (hAU : A ⊆ U) (a b : ℝ) (hab : uIcc a b ⊆ S)
    (hi : ∀ s ∈ uIcc a b, InjOn (fun p => Φ p s) A) :
    ∫ s in a..b, ∫ q in (fun p => Φ p s) '' A, q.1 =
      ∫ p in A, f.By p.1 p.2 y * ∫ s in a..b, (Φ p s).1 / f.By (Φ p s).1 (Φ p s).2 s := by
  have e1 : ∫ s in a..b, ∫ q in (fun p => Φ p s) '' A, q.1 =
      ∫ s in a..b, ∫ p in A, f.By p.1 p.2 y * ((Φ p s).1 / f.By (Φ p s).1 (Φ p s).2 s) := by
    refine intervalIntegral.integral_congr fun s hs => ?_
    exact C262_section h ha hd A hA.measurableSet hAU s (hab hs) (hi s hs)
  rw [e1]
  rw [intervalIntegral_integral_swap]
  · refine setIntegral_congr_fun hA.measurableSet fun p _ => ?_
    exact intervalIntegral.integral_const_mul _ _
  · exact over_integrable h A hA hAU a b hab

theorem section_integrable (h : LineMap f U S y Φ) (ha : OffAxis U S Φ) (hd : SourceFree f U S Φ) (A : Set (ℝ × ℝ)) (hA : IsCompact A) (hAU : A ⊆ U) (a b : ℝ)
    (hab : uIcc a b ⊆ S) (hi : ∀ s ∈ uIcc a b, InjOn (fun p => Φ p s) A) :
    IntervalIntegrable (fun s => ∫ q in (fun p => Φ p s) '' A, q.1) volume a b := by
  rw [intervalIntegrable_iff]
  have h1 := (over_integrable h A hA hAU a b hab).integral_prod_left
  refine IntegrableOn.congr_fun (f := fun s => ∫ p in A, f.By p.1 p.2 y * ((Φ p s).1 / f.By (Φ p s).1 (Φ p s).2 s)) h1 (fun s hs => ?_) measurableSet_uIoc
  have hs' := uIoc_subset_uIcc hs
  exact (C262_section h ha hd A hA.measurableSet hAU s (hab hs') (hi s hs')).symm

/-- **C262.** If the lines map the part `Ω (y j)` of each plane onto the parts `Ω s` for the angles up to the borders between the planes, the integrals for all the planes add up to
the volume of `Ω`. -/
theorem C262_total (n : ℕ) (f : FieldFns ℝ) (ys m : ℕ → ℝ) (Ω : ℝ → Set (ℝ × ℝ)) (U : ℕ → Set (ℝ × ℝ)) (S : ℕ → Set ℝ) (Φ : ℕ → ℝ × ℝ → ℝ → ℝ × ℝ)
    (h : ∀ j < n, LineMap f (U j) (S j) (ys j) (Φ j)) (ha : ∀ j < n, OffAxis (U j) (S j) (Φ j)) (hd : ∀ j < n, SourceFree f (U j) (S j) (Φ j))
    (hA : ∀ j < n, IsCompact (Ω (ys j))) (hAU : ∀ j < n, Ω (ys j) ⊆ U j) (hab : ∀ j < n, uIcc (m j) (m (j + 1)) ⊆ S j)
    (hi : ∀ j < n, ∀ s ∈ uIcc (m j) (m (j + 1)), InjOn (fun p => Φ j p s) (Ω (ys j)) ∧ (fun p => Φ j p s) '' Ω (ys j) = Ω s) :
    ∑ j ∈ Finset.range n, ∫ p in Ω (ys j), f.By p.1 p.2 (ys j) * ∫ s in (m j)..(m (j + 1)), (Φ j p s).1 / f.By (Φ j p s).1 (Φ j p s).2 s =
      ∫ s in (m 0)..(m n), ∫ q in Ω s, q.1 := by
  have hii : ∀ j < n, IntervalIntegrable (fun s => ∫ q in Ω s, q.1) volume (m j) (m (j + 1)) := by
    intro j hj
    have h1 := section_integrable (h j hj) (ha j hj) (hd j hj) (Ω (ys j)) (hA j hj) (hAU j hj) (m j) (m (j + 1)) (hab j hj) fun s hs => (hi j hj s hs).1
    rw [intervalIntegrable_iff] at h1 ⊢
    refine h1.congr_fun (fun s hs => ?_) measurableSet_uIoc
    simp only
    rw [(hi j hj s (uIoc_subset_uIcc hs)).2]
  rw [← intervalIntegral.sum_integral_adjacent_intervals hii]
  refine Finset.sum_congr rfl fun j hj => ?_
  have hj := Finset.mem_range.1 hj
  rw [← C262_volume (h j hj) (ha j hj) (hd j hj) (Ω (ys j)) (hA j hj) (hAU j hj) (m j) (m (j + 1)) (hab j hj) fun s hs => (hi j hj s hs).1]
  refine intervalIntegral.integral_congr fun s hs => ?_
  rw [(hi j hj s hs).2]

/-- **C262.** So `J dy` converges to the area of the cell times a density of which the integral over any compact part of the plane is the volume of the flux tube through that part, from
halfway to the previous plane to halfway to the next. -/
theorem C262_J (e : MmEnv ℝ) (hf : FollowOk e) (hg : GridOk e) (φ : ℝ → ℝ → ℝ → ℝ → ℝ × ℝ) (hφ : PointTracer e φ) (hs : e.isSlab = false)
    (first : MapPol ℝ) (y0 : ℝ) (h0 : e.grid.getPoloidalGrid ((0 : ℕ) : ℝ) = .ok (some first, y0)) (j : ℕ) (hj : j < e.grid.ny)
    (pol : MapPol ℝ) (yj ylow yhigh : ℝ) (hp : PlaneAt e j pol yj ylow yhigh) (hl : ylow ≠ yj) (hu : yhigh - yj = yj - ylow)
    (f : FieldFns ℝ) (hby : e.byfunc = f.By) (U : Set (ℝ × ℝ)) (S : Set ℝ) (h : LineMap f U S yj fun p s => φ p.1 p.2 yj s)
    (ha : OffAxis U S fun p s => φ p.1 p.2 yj s) (hd : SourceFree f U S fun p s => φ p.1 p.2 yj s) (hab : uIcc ((ylow + yj) / 2) ((yj + yhigh) / 2) ⊆ S) :
    ∃ density : ℝ × ℝ → ℝ,
      (∀ A ⊆ U, IsCompact A → (∀ s ∈ uIcc ((ylow + yj) / 2) ((yj + yhigh) / 2), InjOn (fun p : ℝ × ℝ => φ p.1 p.2 yj s) A) →
        ∫ p in A, density p = ∫ s in ((ylow + yj) / 2)..((yj + yhigh) / 2), ∫ q in (fun p : ℝ × ℝ => φ p.1 p.2 yj s) '' A, q.1) ∧
      ∀ x < first.nx, ∀ z area, AreaAt e pol x z area → (pol.R x z, pol.Z x z) ∈ U →
        ContDiffOn ℝ 2 (radiusOverField e φ (pol.R x z) (pol.Z x z) yj) (uIcc ((ylow + yj) / 2) ((yj + yhigh) / 2)) →
        ∃ C, ∀ r : ℕ, 1 ≤ r → ∀ v, JIs e r (x, j, z) v → |v * ((yhigh - ylow) / 2) - area * density (pol.R x z, pol.Z x z)| ≤ C / (r : ℝ) ^ 2 := by
  refine ⟨fun p => f.By p.1 p.2 yj * ∫ s in ((ylow + yj) / 2)..((yj + yhigh) / 2), (φ p.1 p.2 yj s).1 / f.By (φ p.1 p.2 yj s).1 (φ p.1 p.2 yj s).2 s, ?_, ?_⟩
  · intro A hAU hA hi
    exact (C262_volume h ha hd A hA hAU _ _ hab hi).symm
  · intro x hx z area hA hU d
    obtain ⟨C, hC⟩ := C222_uniform_partial e hf hg φ hφ hs first y0 h0 x j z hx hj pol yj ylow yhigh area hp hA hl hu d
    refine ⟨C, fun r hr v hv => ?_⟩
    have h1 := hC r hr v hv
    have e1 : fieldAt e φ (pol.R x z) (pol.Z x z) yj = f.By (pol.R x z) (pol.Z x z) yj := by
      unfold fieldAt
      have := h.start _ hU
      simp only at this
      rw [this, hby]
    rw [e1] at h1
    unfold radiusOverField at h1
    rw [hby] at h1
    rw [mul_assoc] at h1
    exact h1

end

/-! ### A field without sources whose tubes change their width -/

/-- The toroidal field changes with the angle, and the lines move in `Z` accordingly. -/
noncomputable def breathing : FieldFns ℝ := ⟨fun _ _ _ => 0, fun _ _ s => 2 + sin s, fun x z s => -z * cos s / x, some fun x _ _ => x⟩

noncomputable def breathingMap (p : ℝ × ℝ) (s : ℝ) : ℝ × ℝ := (p.1, p.2 * 2 / (2 + sin s))

theorem two_add_sin_pos (s : ℝ) : 0 < 2 + sin s := by linarith [neg_one_le_sin s]

theorem breathing_lineMap : LineMap breathing {p | 1 < p.1} univ 0 breathingMap where
  openU := isOpen_lt continuous_const continuous_fst
  openS := isOpen_univ
  conn := ordConnected_univ
  mem := mem_univ _
  smooth := by
    apply ContDiff.contDiffOn
    unfold breathingMap
    refine ContDiff.prodMk (contDiff_fst.fst) (ContDiff.div ((contDiff_fst.snd).mul contDiff_const) ?_ fun q => (two_add_sin_pos _).ne')
    exact contDiff_const.add (contDiff_sin.comp contDiff_snd)
  start := by
    intro p _
    unfold breathingMap
    simp
  line := by
    intro p hp s _
    refine ⟨_, _, (direction_one _ _ _ _ _ _).2 ⟨?_, rfl, rfl⟩, ?_, ?_⟩
    · change 1 / 100000000 ≤ |2 + sin s|
      rw [abs_of_pos (two_add_sin_pos s)]
      linarith [neg_one_le_sin s]
    · simp only [breathingMap, breathing, mul_zero, zero_div]
      exact hasDerivAt_const _ _
    · have hx : p.1 ≠ 0 := by
        have : 1 < p.1 := hp
        linarith
      have h1 := (hasDerivAt_const s (p.2 * 2)).div ((hasDerivAt_sin s).const_add 2) (two_add_sin_pos s).ne'
      refine HasDerivAt.congr_deriv (f := fun s => (breathingMap p s).2) h1 ?_
      have := (two_add_sin_pos s).ne'
      simp only [breathingMap, breathing, FieldFns.Rmaj]
      field_simp
      ring
  cyl := rfl
  dBx := by
    intro p _ s _
    exact differentiableAt_const _
  dBy := by
    intro p _ s _
    exact (differentiableAt_const _).add (differentiable_sin.differentiableAt.comp _ differentiableAt_snd)
  dBz := by
    intro p hp s _
    have hx : (breathingMap p s).1 ≠ 0 := by
      have : 1 < p.1 := hp
      unfold breathingMap
      simp only
      linarith
    simp only [breathing, div_eq_mul_inv]
    exact ((differentiableAt_fst.snd.neg).mul (differentiable_cos.differentiableAt.comp _ differentiableAt_snd)).mul (differentiableAt_fst.fst.inv hx)

theorem breathing_free : SourceFree breathing {p | 1 < p.1} univ breathingMap := by
  intro p hp s _
  have hx : p.1 ≠ 0 := by
    have : 1 < p.1 := hp
    linarith
  unfold divCyl
  simp only [breathing, breathingMap, mul_zero]
  have h1 : deriv (fun t : ℝ => 2 + sin t) s = cos s := ((hasDerivAt_sin s).const_add 2).deriv
  have h2 : deriv (fun t : ℝ => -t * cos s / p.1) (p.2 * 2 / (2 + sin s)) = -1 * cos s / p.1 := by
    have := (((hasDerivAt_id (p.2 * 2 / (2 + sin s))).neg).mul_const (cos s)).div_const p.1
    exact this.deriv
  rw [h1, h2]
  simp
  field_simp
  ring

/-- The hypotheses are met by this field, and the factor is not 1: at the angle 1 the tubes are narrower. -/
example : LineMap breathing {p | 1 < p.1} univ 0 breathingMap ∧ OffAxis {p | 1 < p.1} univ breathingMap ∧ SourceFree breathing {p | 1 < p.1} univ breathingMap ∧
    breathing.By 2 1 0 / breathing.By (breathingMap (2, 1) 1).1 (breathingMap (2, 1) 1).2 1 = 2 / (2 + sin 1) ∧ ∀ s, Function.Injective fun p => breathingMap p s := by
  refine ⟨breathing_lineMap, ?_, breathing_free, ?_, ?_⟩
  · intro p hp s _
    have : 1 < p.1 := hp
    unfold breathingMap
    simp only
    linarith
  · simp [breathing]
  · intro s p q hpq
    simp only [breathingMap, Prod.mk.injEq] at hpq
    have := (two_add_sin_pos s).ne'
    refine Prod.ext hpq.1 ?_
    have h2 := hpq.2
    field_simp at h2
    exact h2

end Zoidberg
