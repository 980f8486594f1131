import Verif.Props.Dommaschk
import Mathlib.Analysis.Calculus.Deriv.Shift

/-!
# C150-C153: the field of the Dommaschk potentials
-/

set_option linter.unusedSectionVars false

namespace Zoidberg

open Real Finset

/-- Functions `C k` with `C'' + C' / R - m^2 / R^2 C = - C (k - 1)`. -/
structure RadSol (m : ℕ) (C : ℕ → ℝ → ℝ) where
  C1 : ℕ → ℝ → ℝ
  C2 : ℕ → ℝ → ℝ
  d1 : ∀ k R, 0 < R → HasDerivAt (C k) (C1 k R) R
  d2 : ∀ k R, 0 < R → HasDerivAt (C1 k) (C2 k R) R
  eq : ∀ k R, 0 < R → C2 k R + C1 k R / R - (m : ℝ) ^ 2 / R ^ 2 * C k R = -prevOf C k R

noncomputable def radCN (m : ℕ) : RadSol m (dmCN m) where
  C1 := dmG1 m (fun i => dmu m i 1) (fun i => dmv m i 1)
  C2 := dmG2 m (fun i => dmu m i 1) (fun i => dmv m i 1)
  d1 k R h := by
    refine (dmG_deriv m _ _ k R h).congr_of_eventuallyEq ?_
    filter_upwards [lt_mem_nhds h] with t ht
    exact dmCN_eq m k t ht
  d2 k R h := dmG1_deriv m _ _ k R h
  eq k R h := by
    rw [dmCN_eq m k R h, dmG_eq m _ _ k R h]
    cases k with
    | zero => rfl
    | succ k => exact congrArg Neg.neg (dmCN_eq m k R h).symm

noncomputable def radCD (m : ℕ) : RadSol m (dmCD m) where
  C1 k R := -dmG1 m (fun i => dmu1 m i 1) (fun i => dmv1 m i 1) k R
  C2 k R := -dmG2 m (fun i => dmu1 m i 1) (fun i => dmv1 m i 1) k R
  d1 k R h := by
    refine (dmG_deriv m _ _ k R h).neg.congr_of_eventuallyEq ?_
    filter_upwards [lt_mem_nhds h] with t ht
    exact dmCD_eq m k t ht
  d2 k R h := (dmG1_deriv m _ _ k R h).neg
  eq k R h := by
    have h1 := dmG_eq m (fun i => dmu1 m i 1) (fun i => dmv1 m i 1) k R h
    have h2 : prevOf (dmCD m) k R = -prevOf (dmG m (fun i => dmu1 m i 1) fun i => dmv1 m i 1) k R := by
      cases k with
      | zero => exact neg_zero.symm
      | succ k => exact dmCD_eq m k R h
    rw [dmCD_eq m k R h, h2]
    linear_combination -h1

/-! ### Powers of `Z` -/

theorem dmZ_nat (n : ℕ) (Z : ℝ) : dmZ n Z = Z ^ n / (n.factorial : ℝ) := by
  unfold dmZ
  rw [if_neg (by omega), zpow_natCast, Int.toNat_natCast]

theorem dmZ_neg (e : ℤ) (h : e < 0) (Z : ℝ) : dmZ e Z = 0 := by unfold dmZ; rw [if_pos h]

theorem dmZ_deriv (e : ℤ) (Z : ℝ) : HasDerivAt (dmZ e) (dmZ (e - 1) Z) Z := by
  rcases lt_trichotomy e 0 with h | h | h
  · have : dmZ e = fun _ => 0 := funext fun Z => dmZ_neg e h Z
    rw [this, dmZ_neg _ (by omega)]
    exact hasDerivAt_const Z _
  · subst h
    have : dmZ 0 = fun _ => 1 := by
      funext Z
      have := dmZ_nat 0 Z
      simpa using this
    rw [this, dmZ_neg _ (by omega)]
    exact hasDerivAt_const Z _
  · obtain ⟨n, rfl⟩ : ∃ n : ℕ, e = ((n + 1 : ℕ) : ℤ) := ⟨(e - 1).toNat, by omega⟩
    have : dmZ ((n + 1 : ℕ) : ℤ) = fun Z => Z ^ (n + 1) / ((n + 1).factorial : ℝ) := funext fun Z => dmZ_nat (n + 1) Z
    rw [this, show (((n + 1 : ℕ) : ℤ) - 1) = (n : ℤ) by push_cast; ring, dmZ_nat]
    refine ((hasDerivAt_pow (n + 1) Z).div_const _).congr_deriv ?_
    rw [Nat.factorial_succ]
    have f2 : (n.factorial : ℝ) ≠ 0 := by positivity
    push_cast
    field_simp

/-! ### Functions of `R` and `Z` -/

/-- The sums of `D` and `N`. -/
noncomputable def polSum (C : ℕ → ℝ → ℝ) (v : ℤ) (s : ℤ) (R Z : ℝ) : ℝ := ∑ k ∈ range (dmTerms v), dmZ (v - 2 * k - s) Z * C k R

theorem polSum_R (C C1 : ℕ → ℝ → ℝ) (R : ℝ) (h : ∀ k, HasDerivAt (C k) (C1 k R) R) (v s : ℤ) (Z : ℝ) :
    HasDerivAt (fun t => polSum C v s t Z) (polSum C1 v s R Z) R := by
  unfold polSum
  exact HasDerivAt.fun_sum fun k _ => (h k).const_mul _

theorem polSum_Z (C : ℕ → ℝ → ℝ) (v s : ℤ) (R Z : ℝ) : HasDerivAt (fun t => polSum C v s R t) (polSum C v (s + 1) R Z) Z := by
  unfold polSum
  refine HasDerivAt.fun_sum fun k _ => ?_
  refine ((dmZ_deriv (v - 2 * k - s) Z).mul_const (C k R)).congr_deriv ?_
  rw [show v - 2 * (k : ℤ) - s - 1 = v - 2 * k - (s + 1) by ring]

theorem dmTerms_big (v : ℤ) (p : ℕ) (h : dmTerms v = p + 1) : v - 2 * (p : ℤ) - 2 < 0 := by
  unfold dmTerms at h
  have := Int.tdiv_eq_ediv_of_nonneg (a := v) (b := 2)
  rcases lt_or_ge v 0 with hv | hv
  · omega
  · rw [this hv] at h
    omega

theorem polSum_eq (m : ℕ) (C : ℕ → ℝ → ℝ) (S : RadSol m C) (v : ℤ) (R Z : ℝ) (h : 0 < R) :
    polSum S.C2 v 0 R Z + polSum S.C1 v 0 R Z / R - (m : ℝ) ^ 2 / R ^ 2 * polSum C v 0 R Z + polSum C v 2 R Z = 0 := by
  have h1 : polSum S.C2 v 0 R Z + polSum S.C1 v 0 R Z / R - (m : ℝ) ^ 2 / R ^ 2 * polSum C v 0 R Z = -∑ k ∈ range (dmTerms v), dmZ (v - 2 * k) Z * prevOf C k R := by
    unfold polSum
    rw [sum_div, mul_sum, ← sum_add_distrib, ← sum_sub_distrib, ← sum_neg_distrib]
    refine sum_congr rfl fun k _ => ?_
    have := S.eq k R h
    rw [sub_zero]
    linear_combination dmZ (v - 2 * k) Z * this
  rw [h1]
  unfold polSum
  cases ht : dmTerms v with
  | zero => simp
  | succ p =>
    rw [sum_range_succ', sum_range_succ, dmZ_neg _ (dmTerms_big v p ht)]
    simp only [prevOf, mul_zero, add_zero, zero_mul]
    rw [neg_add_eq_zero]
    refine sum_congr rfl fun k _ => ?_
    rw [show v - 2 * ((k + 1 : ℕ) : ℤ) = v - 2 * k - 2 by push_cast; ring]

/-! ### Harmonic functions in cylindrical coordinates -/

/-- A function of `R`, `phi`, `Z` with its derivatives, for positive `R`, with vanishing Laplacian. -/
structure Harmonic (P : ℝ → ℝ → ℝ → ℝ) where
  PR : ℝ → ℝ → ℝ → ℝ
  Pp : ℝ → ℝ → ℝ → ℝ
  PZ : ℝ → ℝ → ℝ → ℝ
  PRR : ℝ → ℝ → ℝ → ℝ
  PRp : ℝ → ℝ → ℝ → ℝ
  PRZ : ℝ → ℝ → ℝ → ℝ
  Ppp : ℝ → ℝ → ℝ → ℝ
  PpZ : ℝ → ℝ → ℝ → ℝ
  PZZ : ℝ → ℝ → ℝ → ℝ
  hR : ∀ R p Z, 0 < R → HasDerivAt (fun t => P t p Z) (PR R p Z) R
  hp : ∀ R p Z, 0 < R → HasDerivAt (fun t => P R t Z) (Pp R p Z) p
  hZ : ∀ R p Z, 0 < R → HasDerivAt (fun t => P R p t) (PZ R p Z) Z
  hRR : ∀ R p Z, 0 < R → HasDerivAt (fun t => PR t p Z) (PRR R p Z) R
  hRp : ∀ R p Z, 0 < R → HasDerivAt (fun t => PR R t Z) (PRp R p Z) p
  hRZ : ∀ R p Z, 0 < R → HasDerivAt (fun t => PR R p t) (PRZ R p Z) Z
  hpR : ∀ R p Z, 0 < R → HasDerivAt (fun t => Pp t p Z) (PRp R p Z) R
  hpp : ∀ R p Z, 0 < R → HasDerivAt (fun t => Pp R t Z) (Ppp R p Z) p
  hpZ : ∀ R p Z, 0 < R → HasDerivAt (fun t => Pp R p t) (PpZ R p Z) Z
  hZR : ∀ R p Z, 0 < R → HasDerivAt (fun t => PZ t p Z) (PRZ R p Z) R
  hZp : ∀ R p Z, 0 < R → HasDerivAt (fun t => PZ R t Z) (PpZ R p Z) p
  hZZ : ∀ R p Z, 0 < R → HasDerivAt (fun t => PZ R p t) (PZZ R p Z) Z
  lap : ∀ R p Z, 0 < R → PRR R p Z + PR R p Z / R + Ppp R p Z / R ^ 2 + PZZ R p Z = 0

def Harmonic.add {P Q : ℝ → ℝ → ℝ → ℝ} (a : Harmonic P) (b : Harmonic Q) : Harmonic (fun R p Z => P R p Z + Q R p Z) where
  PR R p Z := a.PR R p Z + b.PR R p Z
  Pp R p Z := a.Pp R p Z + b.Pp R p Z
  PZ R p Z := a.PZ R p Z + b.PZ R p Z
  PRR R p Z := a.PRR R p Z + b.PRR R p Z
  PRp R p Z := a.PRp R p Z + b.PRp R p Z
  PRZ R p Z := a.PRZ R p Z + b.PRZ R p Z
  Ppp R p Z := a.Ppp R p Z + b.Ppp R p Z
  PpZ R p Z := a.PpZ R p Z + b.PpZ R p Z
  PZZ R p Z := a.PZZ R p Z + b.PZZ R p Z
  hR R p Z h := (a.hR R p Z h).add (b.hR R p Z h)
  hp R p Z h := (a.hp R p Z h).add (b.hp R p Z h)
  hZ R p Z h := (a.hZ R p Z h).add (b.hZ R p Z h)
  hRR R p Z h := (a.hRR R p Z h).add (b.hRR R p Z h)
  hRp R p Z h := (a.hRp R p Z h).add (b.hRp R p Z h)
  hRZ R p Z h := (a.hRZ R p Z h).add (b.hRZ R p Z h)
  hpR R p Z h := (a.hpR R p Z h).add (b.hpR R p Z h)
  hpp R p Z h := (a.hpp R p Z h).add (b.hpp R p Z h)
  hpZ R p Z h := (a.hpZ R p Z h).add (b.hpZ R p Z h)
  hZR R p Z h := (a.hZR R p Z h).add (b.hZR R p Z h)
  hZp R p Z h := (a.hZp R p Z h).add (b.hZp R p Z h)
  hZZ R p Z h := (a.hZZ R p Z h).add (b.hZZ R p Z h)
  lap R p Z h := by linear_combination a.lap R p Z h + b.lap R p Z h

def Harmonic.zero : Harmonic (fun _ _ _ => 0) where
  PR _ _ _ := 0
  Pp _ _ _ := 0
  PZ _ _ _ := 0
  PRR _ _ _ := 0
  PRp _ _ _ := 0
  PRZ _ _ _ := 0
  Ppp _ _ _ := 0
  PpZ _ _ _ := 0
  PZZ _ _ _ := 0
  hR _ _ _ _ := hasDerivAt_const _ _
  hp _ _ _ _ := hasDerivAt_const _ _
  hZ _ _ _ _ := hasDerivAt_const _ _
  hRR _ _ _ _ := hasDerivAt_const _ _
  hRp _ _ _ _ := hasDerivAt_const _ _
  hRZ _ _ _ _ := hasDerivAt_const _ _
  hpR _ _ _ _ := hasDerivAt_const _ _
  hpp _ _ _ _ := hasDerivAt_const _ _
  hpZ _ _ _ _ := hasDerivAt_const _ _
  hZR _ _ _ _ := hasDerivAt_const _ _
  hZp _ _ _ _ := hasDerivAt_const _ _
  hZZ _ _ _ _ := hasDerivAt_const _ _
  lap R _ _ _ := by simp

/-- The angle. -/
def Harmonic.angle : Harmonic (fun _ p _ => p) where
  PR _ _ _ := 0
  Pp _ _ _ := 1
  PZ _ _ _ := 0
  PRR _ _ _ := 0
  PRp _ _ _ := 0
  PRZ _ _ _ := 0
  Ppp _ _ _ := 0
  PpZ _ _ _ := 0
  PZZ _ _ _ := 0
  hR _ _ _ _ := hasDerivAt_const _ _
  hp _ p _ _ := hasDerivAt_id p
  hZ _ _ _ _ := hasDerivAt_const _ _
  hRR _ _ _ _ := hasDerivAt_const _ _
  hRp _ _ _ _ := hasDerivAt_const _ _
  hRZ _ _ _ _ := hasDerivAt_const _ _
  hpR _ _ _ _ := hasDerivAt_const _ _
  hpp _ _ _ _ := hasDerivAt_const _ _
  hpZ _ _ _ _ := hasDerivAt_const _ _
  hZR _ _ _ _ := hasDerivAt_const _ _
  hZp _ _ _ _ := hasDerivAt_const _ _
  hZZ _ _ _ _ := hasDerivAt_const _ _
  lap R _ _ _ := by simp

/-- `a cos(n phi) + b sin(n phi)` and its derivative. -/
noncomputable def harmT (n : ℕ) (a b p : ℝ) : ℝ := a * cos (n * p) + b * sin (n * p)

theorem harmT_deriv (n : ℕ) (a b p : ℝ) : HasDerivAt (harmT n a b) (n * harmT n b (-a) p) p := by
  have h0 : HasDerivAt (fun t : ℝ => (n : ℝ) * t) n p := by simpa using (hasDerivAt_id p).const_mul (n : ℝ)
  refine ((h0.cos.const_mul a).add (h0.sin.const_mul b)).congr_deriv ?_
  unfold harmT
  ring

theorem harmT_neg (n : ℕ) (a b p : ℝ) : harmT n (-a) (-b) p = -harmT n a b p := by unfold harmT; ring

/-- One of the two terms of a mode. -/
noncomputable def Harmonic.term (n : ℕ) (a b : ℝ) (C : ℕ → ℝ → ℝ) (S : RadSol n C) (v : ℤ) : Harmonic (fun R p Z => harmT n a b p * polSum C v 0 R Z) where
  PR R p Z := harmT n a b p * polSum S.C1 v 0 R Z
  Pp R p Z := n * harmT n b (-a) p * polSum C v 0 R Z
  PZ R p Z := harmT n a b p * polSum C v 1 R Z
  PRR R p Z := harmT n a b p * polSum S.C2 v 0 R Z
  PRp R p Z := n * harmT n b (-a) p * polSum S.C1 v 0 R Z
  PRZ R p Z := harmT n a b p * polSum S.C1 v 1 R Z
  Ppp R p Z := n * (n * harmT n (-a) (-b) p) * polSum C v 0 R Z
  PpZ R p Z := n * harmT n b (-a) p * polSum C v 1 R Z
  PZZ R p Z := harmT n a b p * polSum C v 2 R Z
  hR R p Z h := (polSum_R C S.C1 R (fun k => S.d1 k R h) v 0 Z).const_mul _
  hp R p Z h := (harmT_deriv n a b p).mul_const _
  hZ R p Z h := (polSum_Z C v 0 R Z).const_mul _
  hRR R p Z h := (polSum_R S.C1 S.C2 R (fun k => S.d2 k R h) v 0 Z).const_mul _
  hRp R p Z h := (harmT_deriv n a b p).mul_const _
  hRZ R p Z h := (polSum_Z S.C1 v 0 R Z).const_mul _
  hpR R p Z h := (polSum_R C S.C1 R (fun k => S.d1 k R h) v 0 Z).const_mul _
  hpp R p Z h := ((harmT_deriv n b (-a) p).const_mul _).mul_const _
  hpZ R p Z h := (polSum_Z C v 0 R Z).const_mul _
  hZR R p Z h := (polSum_R C S.C1 R (fun k => S.d1 k R h) v 1 Z).const_mul _
  hZp R p Z h := (harmT_deriv n a b p).mul_const _
  hZZ R p Z h := (polSum_Z C v 1 R Z).const_mul _
  lap R p Z h := by
    rw [harmT_neg]
    have := polSum_eq n C S v R Z h
    have h2 := h.ne'
    linear_combination harmT n a b p * this

theorem dmD_pol (n : ℕ) (v : ℤ) (R Z : ℝ) : dmD n v R Z = polSum (dmCD n) v 0 R Z := by
  unfold dmD polSum
  simp only [sub_zero]

theorem dmN_pol (n : ℕ) (v : ℤ) (R Z : ℝ) : dmN n v R Z = polSum (dmCN n) v 0 R Z := by
  unfold dmN polSum
  simp only [sub_zero]

noncomputable def Harmonic.mode (n m : ℕ) (q : DmMode) : Harmonic (dmV n m q) := by
  have h := (Harmonic.term n q.a q.b (dmCD n) (radCD n) m).add (Harmonic.term n q.c q.d (dmCN n) (radCN n) ((m : ℤ) - 1))
  have e : dmV n m q = fun R p Z => harmT n q.a q.b p * polSum (dmCD n) m 0 R Z + harmT n q.c q.d p * polSum (dmCN n) ((m : ℤ) - 1) 0 R Z := by
    funext R p Z
    unfold dmV
    rw [dmD_pol, dmN_pol]
    rfl
  rw [e]
  exact h

theorem Harmonic.sum (F : ℕ → ℝ → ℝ → ℝ → ℝ) (h : ∀ i, Nonempty (Harmonic (F i))) : ∀ n, Nonempty (Harmonic (fun R p Z => ∑ i ∈ range n, F i R p Z))
  | 0 => by
    simp only [range_zero, sum_empty]
    exact ⟨Harmonic.zero⟩
  | n + 1 => by
    simp only [sum_range_succ]
    obtain ⟨a⟩ := Harmonic.sum F h n
    obtain ⟨b⟩ := h n
    exact ⟨a.add b⟩

/-- Modes without coefficients can be added as well. -/
theorem dmU_all (M L : ℕ) (A : ℕ → ℕ → DmMode) (R phi Z : ℝ) :
    dmU M L A R phi Z = phi + ∑ i ∈ range M, ∑ j ∈ range L, dmV i j (A i j) R phi Z := by
  unfold dmU
  congr 1
  refine sum_congr rfl fun i _ => sum_congr rfl fun j _ => ?_
  split_ifs with h
  · rfl
  · push Not at h
    obtain ⟨h1, h2, h3, h4⟩ := h
    unfold dmV
    rw [h1, h2, h3, h4]
    ring

theorem Harmonic.potential (M L : ℕ) (A : ℕ → ℕ → DmMode) : Nonempty (Harmonic (dmU M L A)) := by
  have e : dmU M L A = fun R p Z => p + ∑ i ∈ range M, ∑ j ∈ range L, dmV i j (A i j) R p Z := by
    funext R p Z
    exact dmU_all M L A R p Z
  rw [e]
  obtain ⟨a⟩ := Harmonic.sum (fun i R p Z => ∑ j ∈ range L, dmV i j (A i j) R p Z)
    (fun i => Harmonic.sum (fun j => dmV i j (A i j)) (fun j => ⟨Harmonic.mode i j (A i j)⟩) L) M
  exact ⟨Harmonic.angle.add a⟩

/-! ### The field -/

theorem scale_deriv (f : ℝ → ℝ) (d R0 x : ℝ) (h : HasDerivAt f d (x / R0)) : HasDerivAt (fun t => f (t / R0)) (d / R0) x := by
  have h1 := h.comp x ((hasDerivAt_id x).div_const R0)
  refine h1.congr_deriv ?_
  ring

theorem dmB_eq (M L : ℕ) (A : ℕ → ℕ → DmMode) (a : Harmonic (dmU M L A)) (R0 R phi Z : ℝ) (h0 : 0 < R0) (h : 0 < R) :
    dmBx M L A R0 R phi Z = a.PR (R / R0) phi (Z / R0) ∧ dmBy M L A R0 R phi Z = R0 / R * a.Pp (R / R0) phi (Z / R0) ∧
      dmBz M L A R0 R phi Z = a.PZ (R / R0) phi (Z / R0) := by
  have hp : 0 < R / R0 := by positivity
  refine ⟨?_, ?_, ?_⟩
  · unfold dmBx dmP
    rw [(scale_deriv (fun t => dmU M L A t phi (Z / R0)) _ R0 R (a.hR _ phi (Z / R0) hp)).deriv]
    field_simp
  · unfold dmBy dmP
    rw [(a.hp _ phi (Z / R0) hp).deriv]
  · unfold dmBz dmP
    rw [(scale_deriv (fun t => dmU M L A (R / R0) phi t) _ R0 Z (a.hZ _ phi (Z / R0) hp)).deriv]
    field_simp

/-- **C150.** The divergence in cylindrical coordinates vanishes, for all coefficients, at all points with positive radius. -/
theorem C150_divergence (M L : ℕ) (A : ℕ → ℕ → DmMode) (R0 B0 x z phi : ℝ) (h0 : 0 < R0) (hx : 0 < x) :
    ∃ d e f, HasDerivAt (fun t => t * (dommaschk M L A R0 B0).Bx t z phi) d x ∧ HasDerivAt (fun t => (dommaschk M L A R0 B0).By x z t) e phi ∧
      HasDerivAt (fun t => (dommaschk M L A R0 B0).Bz x t phi) f z ∧ d / x + e / x + f = 0 := by
  obtain ⟨a⟩ := Harmonic.potential M L A
  have hp : 0 < x / R0 := by positivity
  set c := dmBy M L A R0 R0 0 0 with hc
  refine ⟨(a.PR (x / R0) phi (z / R0) + x * (a.PRR (x / R0) phi (z / R0) / R0)) / c * B0, R0 / x * a.Ppp (x / R0) phi (z / R0) / c * B0,
    a.PZZ (x / R0) phi (z / R0) / R0 / c * B0, ?_, ?_, ?_, ?_⟩
  · have h1 := ((((hasDerivAt_id x).mul (scale_deriv (fun t => a.PR t phi (z / R0)) _ R0 x (a.hRR _ phi (z / R0) hp))).div_const c).mul_const B0)
    refine (h1.congr_of_eventuallyEq ?_).congr_deriv ?_
    · filter_upwards [lt_mem_nhds hx] with t ht
      change t * (dmBx M L A R0 t phi z / dmBy M L A R0 R0 0 0 * B0) = _
      rw [(dmB_eq M L A a R0 t phi z h0 ht).1, ← hc]
      simp only [Pi.mul_apply, id]
      ring
    · simp only [id]; ring
  · have h1 := (((a.hpp (x / R0) phi (z / R0) hp).const_mul (R0 / x)).div_const c).mul_const B0
    refine (h1.congr_of_eventuallyEq (Filter.Eventually.of_forall fun t => ?_))
    change dmBy M L A R0 x t z / dmBy M L A R0 R0 0 0 * B0 = _
    rw [(dmB_eq M L A a R0 x t z h0 hx).2.1, ← hc]
  · have h1 := ((scale_deriv (fun t => a.PZ (x / R0) phi t) _ R0 z (a.hZZ _ phi (z / R0) hp)).div_const c).mul_const B0
    refine (h1.congr_of_eventuallyEq (Filter.Eventually.of_forall fun t => ?_))
    change dmBz M L A R0 x phi t / dmBy M L A R0 R0 0 0 * B0 = _
    rw [(dmB_eq M L A a R0 x phi t h0 hx).2.2, ← hc]
  · have h2 := a.lap (x / R0) phi (z / R0) hp
    have h3 : (a.PR (x / R0) phi (z / R0) + x * (a.PRR (x / R0) phi (z / R0) / R0)) / x + R0 / x * a.Ppp (x / R0) phi (z / R0) / x + a.PZZ (x / R0) phi (z / R0) / R0 = 0 := by
      have e : (a.PR (x / R0) phi (z / R0) + x * (a.PRR (x / R0) phi (z / R0) / R0)) / x + R0 / x * a.Ppp (x / R0) phi (z / R0) / x + a.PZZ (x / R0) phi (z / R0) / R0 =
          (a.PRR (x / R0) phi (z / R0) + a.PR (x / R0) phi (z / R0) / (x / R0) + a.Ppp (x / R0) phi (z / R0) / (x / R0) ^ 2 + a.PZZ (x / R0) phi (z / R0)) / R0 := by
        field_simp
        ring
      rw [e, h2, zero_div]
    linear_combination B0 / c * h3

/-- **C150.** So does the curl. -/
theorem C150_curl (M L : ℕ) (A : ℕ → ℕ → DmMode) (R0 B0 x z phi : ℝ) (h0 : 0 < R0) (hx : 0 < x) :
    ∃ p q r, HasDerivAt (fun t => (dommaschk M L A R0 B0).Bx x t phi) p z ∧ HasDerivAt (fun t => (dommaschk M L A R0 B0).Bz t z phi) p x ∧
      HasDerivAt (fun t => (dommaschk M L A R0 B0).Bx x z t) q phi ∧ HasDerivAt (fun t => t * (dommaschk M L A R0 B0).By t z phi) q x ∧
      HasDerivAt (fun t => (dommaschk M L A R0 B0).By x t phi) r z ∧ HasDerivAt (fun t => (dommaschk M L A R0 B0).Bz x z t) (x * r) phi := by
  obtain ⟨a⟩ := Harmonic.potential M L A
  have hp : 0 < x / R0 := by positivity
  set c := dmBy M L A R0 R0 0 0 with hc
  refine ⟨a.PRZ (x / R0) phi (z / R0) / R0 / c * B0, a.PRp (x / R0) phi (z / R0) / c * B0, R0 / x * (a.PpZ (x / R0) phi (z / R0) / R0) / c * B0, ?_, ?_, ?_, ?_, ?_, ?_⟩
  · have h1 := ((scale_deriv (fun t => a.PR (x / R0) phi t) _ R0 z (a.hRZ _ phi (z / R0) hp)).div_const c).mul_const B0
    refine (h1.congr_of_eventuallyEq (Filter.Eventually.of_forall fun t => ?_))
    change dmBx M L A R0 x phi t / dmBy M L A R0 R0 0 0 * B0 = _
    rw [(dmB_eq M L A a R0 x phi t h0 hx).1, ← hc]
  · have h1 := ((scale_deriv (fun t => a.PZ t phi (z / R0)) _ R0 x (a.hZR _ phi (z / R0) hp)).div_const c).mul_const B0
    refine (h1.congr_of_eventuallyEq ?_)
    filter_upwards [lt_mem_nhds hx] with t ht
    change dmBz M L A R0 t phi z / dmBy M L A R0 R0 0 0 * B0 = _
    rw [(dmB_eq M L A a R0 t phi z h0 ht).2.2, ← hc]
  · have h1 := ((a.hRp (x / R0) phi (z / R0) hp).div_const c).mul_const B0
    refine (h1.congr_of_eventuallyEq (Filter.Eventually.of_forall fun t => ?_))
    change dmBx M L A R0 x t z / dmBy M L A R0 R0 0 0 * B0 = _
    rw [(dmB_eq M L A a R0 x t z h0 hx).1, ← hc]
  · have h1 := ((((scale_deriv (fun t => a.Pp t phi (z / R0)) _ R0 x (a.hpR _ phi (z / R0) hp)).const_mul R0).div_const c).mul_const B0)
    refine (h1.congr_of_eventuallyEq ?_).congr_deriv ?_
    · filter_upwards [lt_mem_nhds hx] with t ht
      change t * (dmBy M L A R0 t phi z / dmBy M L A R0 R0 0 0 * B0) = _
      rw [(dmB_eq M L A a R0 t phi z h0 ht).2.1, ← hc]
      field_simp
    · field_simp
  · have h1 := (((scale_deriv (fun t => a.Pp (x / R0) phi t) _ R0 z (a.hpZ _ phi (z / R0) hp)).const_mul (R0 / x)).div_const c).mul_const B0
    refine (h1.congr_of_eventuallyEq (Filter.Eventually.of_forall fun t => ?_))
    change dmBy M L A R0 x phi t / dmBy M L A R0 R0 0 0 * B0 = _
    rw [(dmB_eq M L A a R0 x phi t h0 hx).2.1, ← hc]
  · have h1 := ((a.hZp (x / R0) phi (z / R0) hp).div_const c).mul_const B0
    refine (h1.congr_of_eventuallyEq (Filter.Eventually.of_forall fun t => ?_)).congr_deriv ?_
    · change dmBz M L A R0 x t z / dmBy M L A R0 R0 0 0 * B0 = _
      rw [(dmB_eq M L A a R0 x t z h0 hx).2.2, ← hc]
    · field_simp

/-! ### C151: D and N at `R = 1` -/

theorem dmTerms_pos (n : ℕ) : ∃ p, dmTerms n = p + 1 := by
  unfold dmTerms
  have := Int.tdiv_eq_ediv_of_nonneg (a := (n : ℤ)) (b := 2) (by omega)
  rw [this]
  exact ⟨((n : ℤ) / 2).toNat, by omega⟩

/-- **C151.** On the cylinder `R = 1` the function `D` is `Z^v / v!` and its derivative zero. -/
theorem C151_D (n v : ℕ) (Z : ℝ) : dmD n v 1 Z = Z ^ v / (v.factorial : ℝ) ∧ HasDerivAt (fun t => dmD n v t Z) 0 1 := by
  obtain ⟨p, hp⟩ := dmTerms_pos v
  constructor
  · unfold dmD
    rw [hp, sum_range_succ', sum_eq_zero fun k _ => by rw [(C151_CD n (k + 1)).1, if_neg (by omega), mul_zero]]
    rw [(C151_CD n 0).1, if_pos rfl, zero_add, mul_one]
    have := dmZ_nat v Z
    simpa using this
  · unfold dmD
    refine (HasDerivAt.fun_sum fun k _ => ((C151_CD n k).2).const_mul (dmZ ((v : ℤ) - 2 * k) Z)).congr_deriv ?_
    simp

/-- **C151.** The function `N` is zero there and its derivative `Z^v / v!`. -/
theorem C151_N (n v : ℕ) (Z : ℝ) : dmN n v 1 Z = 0 ∧ HasDerivAt (fun t => dmN n v t Z) (Z ^ v / (v.factorial : ℝ)) 1 := by
  obtain ⟨p, hp⟩ := dmTerms_pos v
  constructor
  · unfold dmN
    exact sum_eq_zero fun k _ => by rw [(C151_CN n k).1, mul_zero]
  · unfold dmN
    refine (HasDerivAt.fun_sum fun k _ => ((C151_CN n k).2).const_mul (dmZ ((v : ℤ) - 2 * k) Z)).congr_deriv ?_
    rw [hp, sum_range_succ', sum_eq_zero fun k _ => by rw [if_neg (by omega), mul_zero]]
    rw [if_pos rfl, zero_add, mul_one]
    have := dmZ_nat v Z
    simpa using this

/-- The function `N` with the index -1 is zero. -/
theorem dmN_neg (n : ℕ) (R Z : ℝ) : dmN n (((0 : ℕ) : ℤ) - 1) R Z = 0 := by
  unfold dmN
  exact sum_eq_zero fun k _ => by rw [dmZ_neg _ (by omega), zero_mul]

/-! ### C152: the field at `R = R_0` -/

theorem dmN_one (n j : ℕ) (Z : ℝ) : dmN n ((j : ℤ) - 1) 1 Z = 0 := by
  cases j with
  | zero => exact dmN_neg n 1 Z
  | succ j => rw [show ((j + 1 : ℕ) : ℤ) - 1 = (j : ℤ) by push_cast; ring]; exact (C151_N n j Z).1

theorem dmU_one (M L : ℕ) (A : ℕ → ℕ → DmMode) (phi Z : ℝ) :
    dmU M L A 1 phi Z = phi + ∑ i ∈ range M, ∑ j ∈ range L, harmT i (A i j).a (A i j).b phi * (Z ^ j / (j.factorial : ℝ)) := by
  rw [dmU_all]
  congr 1
  refine sum_congr rfl fun i _ => sum_congr rfl fun j _ => ?_
  unfold dmV
  rw [(C151_D i j Z).1, dmN_one, mul_zero, add_zero]
  rfl

/-- The factor by which the field is divided. -/
noncomputable def dmNorm (M L : ℕ) (A : ℕ → ℕ → DmMode) : ℝ := 1 + ∑ i ∈ range M, if 0 < L then i * (A i 0).b else 0

theorem dmBy_cylinder (M L : ℕ) (A : ℕ → ℕ → DmMode) (R0 phi Z : ℝ) (h0 : 0 < R0) :
    dmBy M L A R0 R0 phi Z = 1 + ∑ i ∈ range M, ∑ j ∈ range L, i * harmT i (A i j).b (-(A i j).a) phi * ((Z / R0) ^ j / (j.factorial : ℝ)) := by
  unfold dmBy dmP
  rw [div_self h0.ne', one_mul]
  simp only [dmU_one]
  refine HasDerivAt.deriv ((hasDerivAt_id phi).add ?_)
  refine HasDerivAt.fun_sum fun i _ => HasDerivAt.fun_sum fun j _ => ?_
  exact (harmT_deriv i _ _ phi).mul_const _

/-- **C152.** The factor by which the field is divided. -/
theorem C152_norm (M L : ℕ) (A : ℕ → ℕ → DmMode) (R0 : ℝ) (h0 : 0 < R0) : dmBy M L A R0 R0 0 0 = dmNorm M L A := by
  rw [dmBy_cylinder M L A R0 0 0 h0]
  unfold dmNorm
  congr 1
  refine sum_congr rfl fun i _ => ?_
  cases L with
  | zero => simp
  | succ L =>
    rw [if_pos (by omega), sum_range_succ', sum_eq_zero fun j _ => by rw [zero_div, zero_pow (by omega), zero_div, mul_zero]]
    unfold harmT
    simp

/-- **C152.** On the axis the toroidal field is `B_0`. -/
theorem C152_axis (M L : ℕ) (A : ℕ → ℕ → DmMode) (R0 B0 : ℝ) (h0 : 0 < R0) (hn : dmNorm M L A ≠ 0) : (dommaschk M L A R0 B0).By R0 0 0 = B0 := by
  unfold dommaschk
  dsimp only
  rw [C152_norm M L A R0 h0, div_self hn, one_mul]

/-- `Z^(j-1) / (j-1)!`, zero for `j = 0`. -/
noncomputable def powPrev (Z : ℝ) : ℕ → ℝ
  | 0 => 0
  | j + 1 => Z ^ j / (j.factorial : ℝ)

theorem sum_from_one (f : ℕ → ℝ) (L : ℕ) (h : f 0 = 0) : ∑ j ∈ range L, f j = ∑ j ∈ range (L - 1), f (j + 1) := by
  cases L with
  | zero => simp
  | succ L => rw [sum_range_succ', h, add_zero]; rfl

/-- **C152.** The field at `R = R_0`. -/
theorem C152_cylinder (M L : ℕ) (A : ℕ → ℕ → DmMode) (R0 B0 z phi : ℝ) (h0 : 0 < R0) :
    (dommaschk M L A R0 B0).Bx R0 z phi = (∑ i ∈ range M, ∑ j ∈ range (L - 1),
        ((A i (j + 1)).c * cos (i * phi) + (A i (j + 1)).d * sin (i * phi)) * ((z / R0) ^ j / (j.factorial : ℝ))) / dmNorm M L A * B0 ∧
      (dommaschk M L A R0 B0).By R0 z phi = (1 + ∑ i ∈ range M, ∑ j ∈ range L,
        i * ((A i j).b * cos (i * phi) - (A i j).a * sin (i * phi)) * ((z / R0) ^ j / (j.factorial : ℝ))) / dmNorm M L A * B0 ∧
      (dommaschk M L A R0 B0).Bz R0 z phi = (∑ i ∈ range M, ∑ j ∈ range (L - 1),
        ((A i (j + 1)).a * cos (i * phi) + (A i (j + 1)).b * sin (i * phi)) * ((z / R0) ^ j / (j.factorial : ℝ))) / dmNorm M L A * B0 := by
  refine ⟨?_, ?_, ?_⟩
  · change dmBx M L A R0 R0 phi z / dmBy M L A R0 R0 0 0 * B0 = _
    rw [C152_norm M L A R0 h0]
    congr 2
    unfold dmBx dmP
    have h1 : HasDerivAt (fun t => dmU M L A t phi (z / R0)) (∑ i ∈ range M, ∑ j ∈ range (L - 1),
        ((A i (j + 1)).c * cos (i * phi) + (A i (j + 1)).d * sin (i * phi)) * ((z / R0) ^ j / (j.factorial : ℝ))) (R0 / R0) := by
      rw [div_self h0.ne']
      simp only [dmU_all]
      refine HasDerivAt.const_add _ ?_
      refine HasDerivAt.fun_sum fun i _ => ?_
      have h2 : HasDerivAt (fun t => ∑ j ∈ range L, dmV i j (A i j) t phi (z / R0))
          (∑ j ∈ range L, harmT i (A i j).c (A i j).d phi * powPrev (z / R0) j) 1 := by
        refine HasDerivAt.fun_sum fun j _ => ?_
        unfold dmV
        have h3 := ((C151_D i j (z / R0)).2).const_mul ((A i j).a * cos (i * phi) + (A i j).b * sin (i * phi))
        have h4 : HasDerivAt (fun t => dmN i ((j : ℤ) - 1) t (z / R0)) (powPrev (z / R0) j) 1 := by
          cases j with
          | zero =>
            simp only [dmN_neg]
            exact hasDerivAt_const _ _
          | succ j =>
            have := (C151_N i j (z / R0)).2
            rw [show ((j + 1 : ℕ) : ℤ) - 1 = (j : ℤ) by push_cast; ring]
            exact this
        refine (h3.add (h4.const_mul ((A i j).c * cos (i * phi) + (A i j).d * sin (i * phi)))).congr_deriv ?_
        rw [mul_zero, zero_add]
        rfl
      refine h2.congr_deriv ?_
      rw [sum_from_one _ L (by simp [powPrev])]
      rfl
    rw [(scale_deriv _ _ R0 R0 h1).deriv, mul_div_cancel₀ _ h0.ne']
  · change dmBy M L A R0 R0 phi z / dmBy M L A R0 R0 0 0 * B0 = _
    rw [C152_norm M L A R0 h0, dmBy_cylinder M L A R0 phi z h0]
    unfold harmT
    congr 3
    refine sum_congr rfl fun i _ => sum_congr rfl fun j _ => ?_
    ring
  · change dmBz M L A R0 R0 phi z / dmBy M L A R0 R0 0 0 * B0 = _
    rw [C152_norm M L A R0 h0]
    congr 2
    unfold dmBz dmP
    have h1 : HasDerivAt (fun t => dmU M L A (R0 / R0) phi t) (∑ i ∈ range M, ∑ j ∈ range (L - 1),
        ((A i (j + 1)).a * cos (i * phi) + (A i (j + 1)).b * sin (i * phi)) * ((z / R0) ^ j / (j.factorial : ℝ))) (z / R0) := by
      rw [div_self h0.ne']
      simp only [dmU_one]
      refine HasDerivAt.const_add _ ?_
      refine HasDerivAt.fun_sum fun i _ => ?_
      change HasDerivAt _ (∑ j ∈ range (L - 1), (fun j => harmT i (A i j).a (A i j).b phi * powPrev (z / R0) j) (j + 1)) _
      rw [← sum_from_one (fun j => harmT i (A i j).a (A i j).b phi * powPrev (z / R0) j) L (by simp [powPrev])]
      refine HasDerivAt.fun_sum fun j _ => ?_
      refine HasDerivAt.const_mul _ ?_
      cases j with
      | zero => simpa [powPrev] using hasDerivAt_const (z / R0) (1 : ℝ)
      | succ j =>
        have := dmZ_deriv ((j + 1 : ℕ) : ℤ) (z / R0)
        have e : dmZ ((j + 1 : ℕ) : ℤ) = fun Z => Z ^ (j + 1) / ((j + 1).factorial : ℝ) := funext fun Z => dmZ_nat (j + 1) Z
        rw [e, show ((j + 1 : ℕ) : ℤ) - 1 = (j : ℤ) by push_cast; ring, dmZ_nat] at this
        exact this
    rw [(scale_deriv _ _ R0 z h1).deriv, mul_div_cancel₀ _ h0.ne']

/-! ### C153: periods -/

/-- Only the modes whose number is divisible by `n` have coefficients. -/
def DmPeriods (M L : ℕ) (A : ℕ → ℕ → DmMode) (n : ℕ) : Prop :=
  ∀ i j, i < M → j < L → ¬ n ∣ i → A i j = ⟨0, 0, 0, 0⟩

theorem harmT_period (n k : ℕ) (hn : n ≠ 0) (a b p : ℝ) : harmT (n * k) a b (p + 2 * π / n) = harmT (n * k) a b p := by
  unfold harmT
  have h : ((n * k : ℕ) : ℝ) * (p + 2 * π / n) = ((n * k : ℕ) : ℝ) * p + k * (2 * π) := by
    have : (n : ℝ) ≠ 0 := by exact_mod_cast hn
    push_cast
    field_simp
  rw [h, cos_add_nat_mul_two_pi, sin_add_nat_mul_two_pi]

theorem dmU_period (M L : ℕ) (A : ℕ → ℕ → DmMode) (n : ℕ) (hn : n ≠ 0) (h : DmPeriods M L A n) (R phi Z : ℝ) :
    dmU M L A R (phi + 2 * π / n) Z = dmU M L A R phi Z + 2 * π / n := by
  rw [dmU_all, dmU_all]
  have : ∑ i ∈ range M, ∑ j ∈ range L, dmV i j (A i j) R (phi + 2 * π / n) Z = ∑ i ∈ range M, ∑ j ∈ range L, dmV i j (A i j) R phi Z := by
    refine sum_congr rfl fun i hi => sum_congr rfl fun j hj => ?_
    by_cases hd : n ∣ i
    · obtain ⟨k, rfl⟩ := hd
      have h1 := harmT_period n k hn (A (n * k) j).a (A (n * k) j).b phi
      have h2 := harmT_period n k hn (A (n * k) j).c (A (n * k) j).d phi
      unfold harmT at h1 h2
      unfold dmV
      rw [h1, h2]
    · rw [h i j (by simpa using hi) (by simpa using hj) hd]
      unfold dmV
      simp
  rw [this]
  ring

/-- **C153.** The field has `n` equal periods if the numbers of all modes are divisible by `n`. -/
theorem C153_periods (M L : ℕ) (A : ℕ → ℕ → DmMode) (n : ℕ) (hn : n ≠ 0) (h : DmPeriods M L A n) (R0 B0 x z phi : ℝ) :
    (dommaschk M L A R0 B0).Bx x z (phi + 2 * π / n) = (dommaschk M L A R0 B0).Bx x z phi ∧
      (dommaschk M L A R0 B0).By x z (phi + 2 * π / n) = (dommaschk M L A R0 B0).By x z phi ∧
      (dommaschk M L A R0 B0).Bz x z (phi + 2 * π / n) = (dommaschk M L A R0 B0).Bz x z phi := by
  have hP : ∀ R p Z, dmP M L A R0 R (p + 2 * π / n) Z = dmP M L A R0 R p Z + 2 * π / n := fun R p Z => dmU_period M L A n hn h _ p _
  unfold dommaschk
  dsimp only
  refine ⟨?_, ?_, ?_⟩
  · unfold dmBx
    simp only [hP, deriv_add_const]
  · unfold dmBy
    rw [← deriv_comp_add_const]
    simp only [hP, deriv_add_const]
  · unfold dmBz
    simp only [hP, deriv_add_const]

/-- **C153.** Always after a full turn. -/
theorem C153_turn (M L : ℕ) (A : ℕ → ℕ → DmMode) (R0 B0 x z phi : ℝ) :
    (dommaschk M L A R0 B0).Bx x z (phi + 2 * π) = (dommaschk M L A R0 B0).Bx x z phi ∧
      (dommaschk M L A R0 B0).By x z (phi + 2 * π) = (dommaschk M L A R0 B0).By x z phi ∧
      (dommaschk M L A R0 B0).Bz x z (phi + 2 * π) = (dommaschk M L A R0 B0).Bz x z phi := by
  have := C153_periods M L A 1 one_ne_zero (fun i j _ _ hd => absurd (one_dvd i) hd) R0 B0 x z phi
  simpa using this

/-- Five periods. -/
noncomputable example : DmPeriods 6 3 (fun i j => if i = 5 ∧ j = 2 then ⟨1, 2, 3, 4⟩ else ⟨0, 0, 0, 0⟩) 5 ∧
    dmNorm 6 3 (fun i j => if i = 5 ∧ j = 2 then ⟨1, 2, 3, 4⟩ else ⟨0, 0, 0, 0⟩) = 1 := by
  constructor
  · intro i j _ _ hd
    refine if_neg ?_
    rintro ⟨rfl, -⟩
    exact hd (dvd_refl 5)
  · unfold dmNorm
    simp

end Zoidberg
