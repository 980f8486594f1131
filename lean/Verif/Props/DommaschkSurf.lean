import Verif.Props.DommaschkField

/-!
# C213: the surface invariant of the Dommaschk fields
-/

set_option linter.unusedSectionVars false

namespace Zoidberg

open Real Finset

/-- A harmonic function times a number. -/
def Harmonic.smul {P : ℝ → ℝ → ℝ → ℝ} (c : ℝ) (a : Harmonic P) : Harmonic (fun R p Z => c * P R p Z) where
  PR R p Z := c * a.PR R p Z
  Pp R p Z := c * a.Pp R p Z
  PZ R p Z := c * a.PZ R p Z
  PRR R p Z := c * a.PRR R p Z
  PRp R p Z := c * a.PRp R p Z
  PRZ R p Z := c * a.PRZ R p Z
  Ppp R p Z := c * a.Ppp R p Z
  PpZ R p Z := c * a.PpZ R p Z
  PZZ R p Z := c * a.PZZ R p Z
  hR R p Z h := (a.hR R p Z h).const_mul c
  hp R p Z h := (a.hp R p Z h).const_mul c
  hZ R p Z h := (a.hZ R p Z h).const_mul c
  hRR R p Z h := (a.hRR R p Z h).const_mul c
  hRp R p Z h := (a.hRp R p Z h).const_mul c
  hRZ R p Z h := (a.hRZ R p Z h).const_mul c
  hpR R p Z h := (a.hpR R p Z h).const_mul c
  hpp R p Z h := (a.hpp R p Z h).const_mul c
  hpZ R p Z h := (a.hpZ R p Z h).const_mul c
  hZR R p Z h := (a.hZR R p Z h).const_mul c
  hZp R p Z h := (a.hZp R p Z h).const_mul c
  hZZ R p Z h := (a.hZZ R p Z h).const_mul c
  lap R p Z h := by linear_combination c * a.lap R p Z h

/-- The same function, written in another way. -/
def Harmonic.copy {P Q : ℝ → ℝ → ℝ → ℝ} (a : Harmonic P) (e : P = Q) : Harmonic Q where
  PR := a.PR
  Pp := a.Pp
  PZ := a.PZ
  PRR := a.PRR
  PRp := a.PRp
  PRZ := a.PRZ
  Ppp := a.Ppp
  PpZ := a.PpZ
  PZZ := a.PZZ
  hR := e ▸ a.hR
  hp := e ▸ a.hp
  hZ := e ▸ a.hZ
  hRR := a.hRR
  hRp := a.hRp
  hRZ := a.hRZ
  hpR := a.hpR
  hpp := a.hpp
  hpZ := a.hpZ
  hZR := a.hZR
  hZp := a.hZp
  hZZ := a.hZZ
  lap := a.lap

/-- The angle times a function without it. -/
noncomputable def Harmonic.angleTerm (C : ℕ → ℝ → ℝ) (S : RadSol 0 C) (v : ℤ) : Harmonic (fun R p Z => p * polSum C v 0 R Z) where
  PR R p Z := p * polSum S.C1 v 0 R Z
  Pp R _ Z := polSum C v 0 R Z
  PZ R p Z := p * polSum C v 1 R Z
  PRR R p Z := p * polSum S.C2 v 0 R Z
  PRp R _ Z := polSum S.C1 v 0 R Z
  PRZ R p Z := p * polSum S.C1 v 1 R Z
  Ppp _ _ _ := 0
  PpZ R _ Z := polSum C v 1 R Z
  PZZ R p Z := p * polSum C v 2 R Z
  hR R p Z h := (polSum_R C S.C1 R (fun k => S.d1 k R h) v 0 Z).const_mul _
  hp R p Z h := by simpa using (hasDerivAt_id p).mul_const (polSum C v 0 R Z)
  hZ R p Z h := (polSum_Z C v 0 R Z).const_mul _
  hRR R p Z h := (polSum_R S.C1 S.C2 R (fun k => S.d2 k R h) v 0 Z).const_mul _
  hRp R p Z h := by simpa using (hasDerivAt_id p).mul_const (polSum S.C1 v 0 R Z)
  hRZ R p Z h := (polSum_Z S.C1 v 0 R Z).const_mul _
  hpR R p Z h := polSum_R C S.C1 R (fun k => S.d1 k R h) v 0 Z
  hpp R p Z h := hasDerivAt_const _ _
  hpZ R p Z h := polSum_Z C v 0 R Z
  hZR R p Z h := (polSum_R C S.C1 R (fun k => S.d1 k R h) v 1 Z).const_mul _
  hZp R p Z h := by simpa using (hasDerivAt_id p).mul_const (polSum C v 1 R Z)
  hZZ R p Z h := (polSum_Z C v 1 R Z).const_mul _
  lap R p Z h := by
    have := polSum_eq 0 C S v R Z h
    simp only [Nat.cast_zero, ne_eq, OfNat.ofNat_ne_zero, not_false_eq_true, zero_pow, zero_div, zero_mul, sub_zero] at this
    linear_combination p * this

/-- `cos(n phi - pi / 2)` and `sin(n phi - pi / 2)`. -/
theorem dmVhat_eq (n m : ℕ) (q : DmMode) (R phi Z : ℝ) :
    dmVhat n m q R phi Z = harmT n (-q.b) q.a phi * dmD n m R Z + harmT n (-q.d) q.c phi * dmN n ((m : ℤ) - 1) R Z := by
  unfold dmVhat harmT
  rw [cos_sub_pi_div_two, sin_sub_pi_div_two]
  ring

/-- One term of `U_hat`. -/
theorem Harmonic.hatMode (i j : ℕ) (q : DmMode) : Nonempty (Harmonic (fun R p Z => dmVhat i j q R p Z * dmFactor i p)) := by
  by_cases hi : i = 0
  · subst hi
    have e : (fun R p Z => dmVhat 0 j q R p Z * dmFactor 0 p) =
        fun R p Z => -q.b * (p * polSum (dmCD 0) j 0 R Z) + -q.d * (p * polSum (dmCN 0) ((j : ℤ) - 1) 0 R Z) := by
      funext R p Z
      rw [dmVhat_eq, dmD_pol, dmN_pol]
      simp only [harmT, dmFactor, Nat.cast_zero, zero_mul, cos_zero, sin_zero, if_true]
      ring
    rw [e]
    exact ⟨((Harmonic.angleTerm (dmCD 0) (radCD 0) j).smul (-q.b)).add ((Harmonic.angleTerm (dmCN 0) (radCN 0) ((j : ℤ) - 1)).smul (-q.d))⟩
  · have e : (fun R p Z => dmVhat i j q R p Z * dmFactor i p) =
        fun R p Z => 1 / (i : ℝ) * (harmT i (-q.b) q.a p * polSum (dmCD i) j 0 R Z) + 1 / (i : ℝ) * (harmT i (-q.d) q.c p * polSum (dmCN i) ((j : ℤ) - 1) 0 R Z) := by
      funext R p Z
      rw [dmVhat_eq, dmD_pol, dmN_pol]
      simp only [dmFactor, if_neg hi]
      ring
    rw [e]
    exact ⟨((Harmonic.term i (-q.b) q.a (dmCD i) (radCD i) j).smul (1 / i)).add ((Harmonic.term i (-q.d) q.c (dmCN i) (radCN i) ((j : ℤ) - 1)).smul (1 / i))⟩

/-- Modes without coefficients can be added as well. -/
theorem dmUhat_all (M L : ℕ) (A : ℕ → ℕ → DmMode) (R phi Z : ℝ) :
    dmUhat M L A R phi Z = ∑ i ∈ range M, ∑ j ∈ range L, dmVhat i j (A i j) R phi Z * dmFactor i phi := by
  unfold dmUhat
  refine sum_congr rfl fun i _ => sum_congr rfl fun j _ => ?_
  split_ifs with h
  · rfl
  · push Not at h
    obtain ⟨h1, h2, h3, h4⟩ := h
    unfold dmVhat
    rw [h1, h2, h3, h4]
    ring

/-- The sum of all modes, that is the potential without the angle. -/
noncomputable def dmModes (M L : ℕ) (A : ℕ → ℕ → DmMode) (R phi Z : ℝ) : ℝ := ∑ i ∈ range M, ∑ j ∈ range L, dmV i j (A i j) R phi Z

/-- What is wrong about the modes without toroidal number. -/
noncomputable def dmAxi (M L : ℕ) (A : ℕ → ℕ → DmMode) (R Z : ℝ) : ℝ :=
  ∑ i ∈ range M, ∑ j ∈ range L, if i = 0 then ((A i j).a + (A i j).b) * dmD 0 j R Z + ((A i j).c + (A i j).d) * dmN 0 ((j : ℤ) - 1) R Z else 0

theorem harmonic_hat (M L : ℕ) (A : ℕ → ℕ → DmMode) : Nonempty (Harmonic (dmUhat M L A)) := by
  have e : dmUhat M L A = fun R p Z => ∑ i ∈ range M, ∑ j ∈ range L, dmVhat i j (A i j) R p Z * dmFactor i p := by
    funext R p Z
    exact dmUhat_all M L A R p Z
  rw [e]
  exact Harmonic.sum (fun i R p Z => ∑ j ∈ range L, dmVhat i j (A i j) R p Z * dmFactor i p)
    (fun i => Harmonic.sum (fun j R p Z => dmVhat i j (A i j) R p Z * dmFactor i p) (fun j => Harmonic.hatMode i j (A i j)) L) M

theorem harmonic_modes (M L : ℕ) (A : ℕ → ℕ → DmMode) : Nonempty (Harmonic (dmModes M L A)) :=
  Harmonic.sum (fun i R p Z => ∑ j ∈ range L, dmV i j (A i j) R p Z)
    (fun i => Harmonic.sum (fun j => dmV i j (A i j)) (fun j => ⟨Harmonic.mode i j (A i j)⟩) L) M

theorem harmonic_axi (M L : ℕ) (A : ℕ → ℕ → DmMode) : Nonempty (Harmonic (fun R _ Z => dmAxi M L A R Z)) := by
  refine Harmonic.sum (fun i R _ Z => ∑ j ∈ range L, if i = 0 then ((A i j).a + (A i j).b) * dmD 0 j R Z + ((A i j).c + (A i j).d) * dmN 0 ((j : ℤ) - 1) R Z else 0)
    (fun i => Harmonic.sum (fun j R _ Z => if i = 0 then ((A i j).a + (A i j).b) * dmD 0 j R Z + ((A i j).c + (A i j).d) * dmN 0 ((j : ℤ) - 1) R Z else 0)
      (fun j => ?_) L) M
  by_cases hi : i = 0
  · have e : (fun R (_ : ℝ) Z => if i = 0 then ((A i j).a + (A i j).b) * dmD 0 j R Z + ((A i j).c + (A i j).d) * dmN 0 ((j : ℤ) - 1) R Z else 0) =
        fun R p Z => ((A i j).a + (A i j).b) * (harmT 0 1 0 p * polSum (dmCD 0) j 0 R Z) +
          ((A i j).c + (A i j).d) * (harmT 0 1 0 p * polSum (dmCN 0) ((j : ℤ) - 1) 0 R Z) := by
      funext R p Z
      rw [if_pos hi, dmD_pol, dmN_pol]
      simp [harmT]
    rw [e]
    exact ⟨((Harmonic.term 0 1 0 (dmCD 0) (radCD 0) j).smul _).add ((Harmonic.term 0 1 0 (dmCN 0) (radCN 0) ((j : ℤ) - 1)).smul _)⟩
  · simp only [if_neg hi]
    exact ⟨Harmonic.zero⟩

/-- The derivative of `U_hat` with respect to the angle: the modes, but those without toroidal number are wrong. -/
theorem hat_angle (M L : ℕ) (A : ℕ → ℕ → DmMode) (R phi Z : ℝ) :
    HasDerivAt (fun t => dmUhat M L A R t Z) (dmModes M L A R phi Z - dmAxi M L A R Z) phi := by
  have e : (fun t => dmUhat M L A R t Z) = fun t => ∑ i ∈ range M, ∑ j ∈ range L, dmVhat i j (A i j) R t Z * dmFactor i t := by
    funext t
    exact dmUhat_all M L A R t Z
  rw [e]
  unfold dmModes dmAxi
  simp only [← sum_sub_distrib]
  refine HasDerivAt.fun_sum fun i _ => HasDerivAt.fun_sum fun j _ => ?_
  by_cases hi : i = 0
  · subst hi
    have h : HasDerivAt (fun t : ℝ => t * (-(A 0 j).b * dmD 0 j R Z + -(A 0 j).d * dmN 0 ((j : ℤ) - 1) R Z))
        (-(A 0 j).b * dmD 0 j R Z + -(A 0 j).d * dmN 0 ((j : ℤ) - 1) R Z) phi := by
      simpa using (hasDerivAt_id phi).mul_const _
    refine (h.congr_deriv ?_).congr_of_eventuallyEq (Filter.Eventually.of_forall fun t => ?_)
    · simp only [dmV, Nat.cast_zero, zero_mul, cos_zero, sin_zero, if_true]
      ring
    · simp only [dmVhat_eq, harmT, dmFactor, Nat.cast_zero, zero_mul, cos_zero, sin_zero, if_true]
      ring
  · have hi' : (i : ℝ) ≠ 0 := Nat.cast_ne_zero.mpr hi
    have h := (((harmT_deriv i (-(A i j).b) (A i j).a phi).mul_const (dmD i j R Z)).add
      ((harmT_deriv i (-(A i j).d) (A i j).c phi).mul_const (dmN i ((j : ℤ) - 1) R Z))).mul_const (1 / (i : ℝ))
    refine (h.congr_deriv ?_).congr_of_eventuallyEq (Filter.Eventually.of_forall fun t => ?_)
    · simp only [dmV, if_neg hi, harmT]
      field_simp
      ring
    · simp only [dmVhat_eq, dmFactor, if_neg hi]
      rfl

/-- All coefficients times a number. -/
def dmScale (t : ℝ) (A : ℕ → ℕ → DmMode) : ℕ → ℕ → DmMode := fun i j => ⟨t * (A i j).a, t * (A i j).b, t * (A i j).c, t * (A i j).d⟩

theorem dmU_scale (M L : ℕ) (A : ℕ → ℕ → DmMode) (t : ℝ) : dmU M L (dmScale t A) = fun R p Z => p + t * dmModes M L A R p Z := by
  funext R p Z
  rw [dmU_all]
  unfold dmModes
  rw [mul_sum]
  simp only [mul_sum]
  congr 1
  refine sum_congr rfl fun i _ => sum_congr rfl fun j _ => ?_
  simp only [dmV, dmScale]
  ring

theorem dmUhat_scale (M L : ℕ) (A : ℕ → ℕ → DmMode) (t : ℝ) : dmUhat M L (dmScale t A) = fun R p Z => t * dmUhat M L A R p Z := by
  funext R p Z
  rw [dmUhat_all, dmUhat_all, mul_sum]
  simp only [mul_sum]
  refine sum_congr rfl fun i _ => sum_congr rfl fun j _ => ?_
  simp only [dmVhat, dmScale]
  ring

/-- The sum of the coefficients in the norm. -/
theorem dmNorm_scale (M L : ℕ) (A : ℕ → ℕ → DmMode) (t : ℝ) :
    dmNorm M L (dmScale t A) = 1 + t * ∑ i ∈ range M, if 0 < L then (i : ℝ) * (A i 0).b else 0 := by
  unfold dmNorm
  rw [mul_sum]
  congr 1
  refine sum_congr rfl fun i _ => ?_
  split_ifs
  · simp only [dmScale]
    ring
  · ring

/-- `S` in the normalised coordinates. -/
theorem dmS_eq (M L : ℕ) (A : ℕ → ℕ → DmMode) (u : Harmonic (dmUhat M L A)) (R0 R phi Z : ℝ) (h0 : 0 < R0) (h : 0 < R) :
    dmS M L A R0 R phi Z = 1 / 2 * (log (R / R0) ^ 2 + (Z / R0) ^ 2) -
      R / R0 * (log (R / R0) * u.PR (R / R0) phi (Z / R0) + Z / R0 * (R / R0) * u.PZ (R / R0) phi (Z / R0)) := by
  have hp : 0 < R / R0 := by positivity
  unfold dmS dmPhat
  rw [(scale_deriv (fun t => dmUhat M L A t phi (Z / R0)) _ R0 R (u.hR _ phi (Z / R0) hp)).deriv,
    (scale_deriv (fun t => dmUhat M L A (R / R0) phi t) _ R0 Z (u.hZ _ phi (Z / R0) hp)).deriv]
  field_simp

/-- The derivatives of `S`. -/
theorem dmS_deriv (M L : ℕ) (A : ℕ → ℕ → DmMode) (u : Harmonic (dmUhat M L A)) (R0 R phi Z : ℝ) (h0 : 0 < R0) (h : 0 < R) :
    let r := R / R0
    let z := Z / R0
    HasDerivAt (fun s => dmS M L A R0 s phi Z)
      ((log r / r - (log r * u.PR r phi z + z * r * u.PZ r phi z) -
        r * (1 / r * u.PR r phi z + log r * u.PRR r phi z + (z * u.PZ r phi z + z * r * u.PRZ r phi z))) / R0) R ∧
    HasDerivAt (fun s => dmS M L A R0 R s Z) (-(r * (log r * u.PRp r phi z + z * r * u.PpZ r phi z))) phi ∧
    HasDerivAt (fun s => dmS M L A R0 R phi s)
      ((z - r * (log r * u.PRZ r phi z + (r * u.PZ r phi z + z * r * u.PZZ r phi z))) / R0) Z := by
  intro r z
  have hp : 0 < r := by positivity
  refine ⟨?_, ?_, ?_⟩
  · have hl : HasDerivAt log (1 / r) r := by simpa using hasDerivAt_log hp.ne'
    have h1 : HasDerivAt (fun s => 1 / 2 * (log s ^ 2 + z ^ 2) - s * (log s * u.PR s phi z + z * s * u.PZ s phi z))
        (log r / r - (log r * u.PR r phi z + z * r * u.PZ r phi z) -
          r * (1 / r * u.PR r phi z + log r * u.PRR r phi z + (z * u.PZ r phi z + z * r * u.PRZ r phi z))) r := by
      have hz : HasDerivAt (fun s : ℝ => z * s) z r := by simpa using (hasDerivAt_id r).const_mul z
      refine ((((hl.pow 2).add_const (z ^ 2)).const_mul (1 / 2)).sub
        ((hasDerivAt_id r).mul ((hl.mul (u.hRR r phi z hp)).add (hz.mul (u.hZR r phi z hp))))).congr_deriv ?_
      simp only [id]
      field_simp
      simp
      ring
    refine (scale_deriv _ _ R0 R h1).congr_of_eventuallyEq ?_
    filter_upwards [lt_mem_nhds h] with s hs
    exact dmS_eq M L A u R0 s phi Z h0 hs
  · have h1 : HasDerivAt (fun s => 1 / 2 * (log r ^ 2 + z ^ 2) - r * (log r * u.PR r s z + z * r * u.PZ r s z))
        (-(r * (log r * u.PRp r phi z + z * r * u.PpZ r phi z))) phi := by
      refine ((((u.hRp r phi z hp).const_mul (log r)).add ((u.hZp r phi z hp).const_mul (z * r))).const_mul r).const_sub _ |>.congr_deriv ?_
      ring
    refine h1.congr_of_eventuallyEq (Filter.Eventually.of_forall fun s => ?_)
    exact dmS_eq M L A u R0 R s Z h0 h
  · have h1 : HasDerivAt (fun s => 1 / 2 * (log r ^ 2 + s ^ 2) - r * (log r * u.PR r phi s + s * r * u.PZ r phi s))
        (z - r * (log r * u.PRZ r phi z + (r * u.PZ r phi z + z * r * u.PZZ r phi z))) z := by
      have hz : HasDerivAt (fun s : ℝ => s * r) r z := by simpa using (hasDerivAt_id z).mul_const r
      refine (((((hasDerivAt_id z).pow 2).const_add (log r ^ 2)).const_mul (1 / 2)).sub
        ((((u.hRZ r phi z hp).const_mul (log r)).add (hz.mul (u.hZZ r phi z hp))).const_mul r)).congr_deriv ?_
      simp only [id]
      ring
    refine (scale_deriv _ _ R0 Z h1).congr_of_eventuallyEq (Filter.Eventually.of_forall fun s => ?_)
    exact dmS_eq M L A u R0 R phi s h0 h

/-- `x`, `phi` and `z` derivatives `sx`, `sp`, `sz` of `Sfunc`, and the rate of change along the field. -/
def SurfRate (M L : ℕ) (A : ℕ → ℕ → DmMode) (R0 B0 x z phi rate : ℝ) : Prop :=
  ∃ sx sp sz : ℝ, HasDerivAt (fun s => dmSfunc M L A R0 s z phi) sx x ∧ HasDerivAt (fun s => dmSfunc M L A R0 x z s) sp phi ∧
    HasDerivAt (fun s => dmSfunc M L A R0 x s phi) sz z ∧
    (dommaschk M L A R0 B0).Bx x z phi * sx + (dommaschk M L A R0 B0).By x z phi / x * sp + (dommaschk M L A R0 B0).Bz x z phi * sz = rate

/-- The rate of change of `Sfunc` along the field, for the coefficients times `t`: exact in `t`. -/
theorem surf_rate (M L : ℕ) (A : ℕ → ℕ → DmMode) (R0 B0 x z phi : ℝ) (h0 : 0 < R0) (hx : 0 < x) :
    ∃ q wR wZ : ℝ, HasDerivAt (fun s => dmAxi M L A s (z / R0)) wR (x / R0) ∧ HasDerivAt (fun s => dmAxi M L A (x / R0) s) wZ (z / R0) ∧
      ∀ t : ℝ, SurfRate M L (dmScale t A) R0 B0 x z phi
        ((t * (log (x / R0) / (x / R0) * wR + z / R0 * wZ) + t ^ 2 * q) / R0 / dmNorm M L (dmScale t A) * B0) := by
  obtain ⟨u⟩ := harmonic_hat M L A
  obtain ⟨v⟩ := harmonic_modes M L A
  obtain ⟨w⟩ := harmonic_axi M L A
  set r := x / R0 with hr
  set y := z / R0 with hy
  have hp : 0 < r := by positivity
  have hA : ∀ R p Z, 0 < R → u.Pp R p Z = dmModes M L A R p Z - dmAxi M L A R Z := fun R p Z h => (u.hp R p Z h).unique (hat_angle M L A R p Z)
  have hRp : u.PRp r phi y = v.PR r phi y - w.PR r phi y := by
    refine (u.hpR r phi y hp).unique (((v.hR r phi y hp).sub (w.hR r phi y hp)).congr_of_eventuallyEq ?_)
    filter_upwards [lt_mem_nhds hp] with s hs
    exact hA s phi y hs
  have hpZ : u.PpZ r phi y = v.PZ r phi y - w.PZ r phi y := by
    refine (u.hpZ r phi y hp).unique (((v.hZ r phi y hp).sub (w.hZ r phi y hp)).congr_of_eventuallyEq (Filter.Eventually.of_forall fun s => ?_))
    exact hA r phi s hp
  refine ⟨v.PR r phi y * (-(log r * u.PR r phi y + y * r * u.PZ r phi y) -
        r * (1 / r * u.PR r phi y + log r * u.PRR r phi y + (y * u.PZ r phi y + y * r * u.PRZ r phi y))) +
      v.Pp r phi y / r ^ 2 * (-(r * (log r * u.PRp r phi y + y * r * u.PpZ r phi y))) +
      v.PZ r phi y * (-(r * (log r * u.PRZ r phi y + (r * u.PZ r phi y + y * r * u.PZZ r phi y)))),
    w.PR r phi y, w.PZ r phi y, w.hR r phi y hp, w.hZ r phi y hp, fun t => ?_⟩
  obtain ⟨h1, h2, h3⟩ := dmS_deriv M L (dmScale t A) ((u.smul t).copy (dmUhat_scale M L A t).symm) R0 x phi z h0 hx
  obtain ⟨b1, b2, b3⟩ := dmB_eq M L (dmScale t A) ((Harmonic.angle.add (v.smul t)).copy (dmU_scale M L A t).symm) R0 x phi z h0 hx
  refine ⟨_, _, _, h1, h2, h3, ?_⟩
  simp only [dommaschk]
  rw [b1, b2, b3, C152_norm M L _ R0 h0]
  simp only [Harmonic.copy, Harmonic.smul, Harmonic.add, Harmonic.angle, ← hr, ← hy]
  have e : R0 / x = 1 / r := by rw [hr]; field_simp
  have e2 : x = r * R0 := by rw [hr]; field_simp
  rw [e, hRp, hpZ]
  clear_value r y
  subst e2
  generalize dmNorm M L (dmScale t A) = n
  rcases eq_or_ne n 0 with rfl | hn
  · simp
  · field_simp
    ring

/-- The coefficients of the modes without toroidal number cancel in pairs. -/
def AxiFree (M L : ℕ) (A : ℕ → ℕ → DmMode) : Prop :=
  0 < M → ∀ j, j < L → (A 0 j).a + (A 0 j).b = 0 ∧ (A 0 j).c + (A 0 j).d = 0

theorem dmAxi_free (M L : ℕ) (A : ℕ → ℕ → DmMode) (h : AxiFree M L A) (R Z : ℝ) : dmAxi M L A R Z = 0 := by
  unfold dmAxi
  refine sum_eq_zero fun i hi => sum_eq_zero fun j hj => ?_
  rw [mem_range] at hi hj
  split_ifs with h0
  · subst h0
    rw [(h hi j hj).1, (h hi j hj).2]
    ring
  · rfl

/-- **C213.** `Sfunc` is invariant along the field up to the second order in the coefficients, as long as there are no modes without toroidal number (`AxiFree`). -/
theorem C213_second_order_partial (M L : ℕ) (A : ℕ → ℕ → DmMode) (R0 B0 x z phi : ℝ) (h0 : 0 < R0) (hx : 0 < x) (hA : AxiFree M L A) :
    ∃ q c : ℝ, ∀ t : ℝ, 1 + t * c ≠ 0 → SurfRate M L (dmScale t A) R0 B0 x z phi (t ^ 2 * q / (1 + t * c)) := by
  obtain ⟨q, wR, wZ, hR, hZ, hs⟩ := surf_rate M L A R0 B0 x z phi h0 hx
  have e1 : wR = 0 := by
    simp only [dmAxi_free M L A hA] at hR
    exact hR.unique (hasDerivAt_const _ _)
  have e2 : wZ = 0 := by
    simp only [dmAxi_free M L A hA] at hZ
    exact hZ.unique (hasDerivAt_const _ _)
  refine ⟨q / R0 * B0, ∑ i ∈ range M, if 0 < L then (i : ℝ) * (A i 0).b else 0, fun t _ => ?_⟩
  have h := hs t
  rw [dmNorm_scale, e1, e2] at h
  convert h using 1
  ring

/-- The height. -/
def Harmonic.height : Harmonic (fun _ _ z => z) where
  PR _ _ _ := 0
  Pp _ _ _ := 0
  PZ _ _ _ := 1
  PRR _ _ _ := 0
  PRp _ _ _ := 0
  PRZ _ _ _ := 0
  Ppp _ _ _ := 0
  PpZ _ _ _ := 0
  PZZ _ _ _ := 0
  hR _ _ _ _ := hasDerivAt_const _ _
  hp _ _ _ _ := hasDerivAt_const _ _
  hZ _ _ z _ := hasDerivAt_id z
  hRR _ _ _ _ := hasDerivAt_const _ _
  hRp _ _ _ _ := hasDerivAt_const _ _
  hRZ _ _ _ _ := hasDerivAt_const _ _
  hpR _ _ _ _ := hasDerivAt_const _ _
  hpp _ _ _ _ := hasDerivAt_const _ _
  hpZ _ _ _ _ := hasDerivAt_const _ _
  hZR _ _ _ _ := hasDerivAt_const _ _
  hZp _ _ _ _ := hasDerivAt_const _ _
  hZZ _ _ _ _ := hasDerivAt_const _ _
  lap R _ _ _ := by simp

/-- The single mode `a * D_01`. -/
def verticalMode (a : ℝ) : ℕ → ℕ → DmMode := fun _ j => if j = 1 then ⟨a, 0, 0, 0⟩ else ⟨0, 0, 0, 0⟩

theorem dmCD_zero (R : ℝ) : dmCD 0 0 R = 1 := by
  simp [dmCD, dmAlpha, dmAlphaSt, dmDelta, dmDeltaSt, dmBeta, dmBetaSt]

theorem dmD_one (R Z : ℝ) : dmD 0 1 R Z = Z := by
  have h : dmTerms 1 = 1 := by decide
  simp [dmD, h, dmZ, dmCD_zero]

theorem dmU_vertical (a : ℝ) : dmU 1 2 (verticalMode a) = fun _ p Z => p + a * Z := by
  funext R p Z
  rw [dmU_all]
  simp [sum_range_succ, dmV, verticalMode, dmD_one]

theorem dmUhat_vertical (a : ℝ) : dmUhat 1 2 (verticalMode a) = fun _ _ _ => 0 := by
  funext R p Z
  rw [dmUhat_all]
  simp [sum_range_succ, dmVhat, verticalMode]

theorem verticalMode_scale (t a : ℝ) : dmScale t (verticalMode a) = verticalMode (t * a) := by
  funext i j
  unfold dmScale verticalMode
  split_ifs <;> simp

/-- **C213.** It is not for the modes without toroidal number: with the single mode `a * D_01` the rate of change is of the first order in `a`. -/
theorem C213_axisymmetric (a R0 B0 x z phi : ℝ) (h0 : 0 < R0) (hx : 0 < x) :
    SurfRate 1 2 (verticalMode a) R0 B0 x z phi (a * (z / R0 ^ 2 * B0)) := by
  obtain ⟨h1, h2, h3⟩ := dmS_deriv 1 2 (verticalMode a) (Harmonic.zero.copy (dmUhat_vertical a).symm) R0 x phi z h0 hx
  obtain ⟨b1, b2, b3⟩ := dmB_eq 1 2 (verticalMode a) ((Harmonic.angle.add (Harmonic.height.smul a)).copy (dmU_vertical a).symm) R0 x phi z h0 hx
  refine ⟨_, _, _, h1, h2, h3, ?_⟩
  have hn : dmNorm 1 2 (verticalMode a) = 1 := by simp [dmNorm]
  simp only [dommaschk]
  rw [b1, b2, b3, C152_norm _ _ _ R0 h0, hn]
  simp only [Harmonic.copy, Harmonic.smul, Harmonic.add, Harmonic.angle, Harmonic.zero, Harmonic.height]
  field_simp
  ring

theorem SurfRate.unique {M L : ℕ} {A : ℕ → ℕ → DmMode} {R0 B0 x z phi r r' : ℝ} (h : SurfRate M L A R0 B0 x z phi r)
    (h' : SurfRate M L A R0 B0 x z phi r') : r = r' := by
  obtain ⟨a, b, c, h1, h2, h3, h4⟩ := h
  obtain ⟨a', b', c', h1', h2', h3', h4'⟩ := h'
  rw [← h4, ← h4', h1.unique h1', h2.unique h2', h3.unique h3']

/-- **C213.** So the invariant fails to the first order for this mode, wherever `z` is not zero. -/
theorem C213_fails (a R0 B0 x z phi : ℝ) (h0 : 0 < R0) (hx : 0 < x) (ha : a ≠ 0) (hz : z ≠ 0) (hB : B0 ≠ 0) :
    ¬ ∃ q c : ℝ, ∀ t : ℝ, 1 + t * c ≠ 0 → SurfRate 1 2 (dmScale t (verticalMode a)) R0 B0 x z phi (t ^ 2 * q / (1 + t * c)) := by
  rintro ⟨q, c, h⟩
  have hK : a * (z / R0 ^ 2 * B0) ≠ 0 := by positivity
  have key : ∀ t : ℝ, t ≠ 0 → 1 + t * c ≠ 0 → a * (z / R0 ^ 2 * B0) + t * (a * (z / R0 ^ 2 * B0) * c - q) = 0 := by
    intro t ht hc
    have e := (h t hc).unique (by rw [verticalMode_scale]; exact C213_axisymmetric (t * a) R0 B0 x z phi h0 hx)
    rw [div_eq_iff hc] at e
    have : t * (a * (z / R0 ^ 2 * B0) + t * (a * (z / R0 ^ 2 * B0) * c - q)) = 0 := by linear_combination -e
    exact (mul_eq_zero.mp this).resolve_left ht
  generalize a * (z / R0 ^ 2 * B0) = k at hK key
  by_cases c1 : 1 + 1 * c = 0
  · have e1 := key 2 (by norm_num) (by intro h'; linarith)
    have e2 := key (-1) (by norm_num) (by intro h'; linarith)
    exact hK (by linarith)
  · have e1 := key 1 (by norm_num) c1
    by_cases c2 : 1 + 2 * c = 0
    · have e2 := key (-1) (by norm_num) (by intro h'; linarith)
      exact hK (by linarith)
    · have e2 := key 2 (by norm_num) c2
      exact hK (by linarith)

/-- A mode to which the theorem applies,  of the field: toroidal number 5. -/
example : AxiFree 6 3 (fun i j => if i = 5 ∧ j = 2 then ⟨1, 0, 2, 0⟩ else ⟨0, 0, 0, 0⟩) := by
  intro _ j _
  simp

end Zoidberg
