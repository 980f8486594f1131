import Verif.Props.Reversible
import Mathlib.Algebra.Order.Archimedean.Basic

set_option linter.unusedSectionVars false

/-!
# C243: `FieldTracerReversible` for fields that are not affine
-/

namespace Zoidberg

variable {K : Type} [Field K] [LinearOrder K] [IsStrictOrderedRing K]

/-- Both coordinates differ by at most `e`. -/
def Near (e : K) (q q' : K × K) : Prop := |q.1 - q'.1| ≤ e ∧ |q.2 - q'.2| ≤ e

/-- The direction of the field is Lipschitz in the position, with the same constant at every `y`. -/
def Lip (f : K × K → K → K × K) (L : K) : Prop := ∀ (e : K) (q q' : K × K) (y : K), Near e q q' → Near (L * e) (f q y) (f q' y)

theorem Near.comm {e : K} {q q' : K × K} (h : Near e q q') : Near e q' q := by
  unfold Near at *
  rw [abs_sub_comm q'.1, abs_sub_comm q'.2]
  exact h

theorem Near.mono {e e' : K} {q q' : K × K} (h : Near e q q') (he : e ≤ e') : Near e' q q' := ⟨h.1.trans he, h.2.trans he⟩

/-! ## One iteration -/

theorem half_mul_le {h L k a e : K} (hk : |h| * L / 2 ≤ k) (ha : |a| ≤ L * e) (he : 0 ≤ e) : |1 / 2 * a * h| ≤ k * e := by
  have e1 : |1 / 2 * a * h| = 1 / 2 * |a| * |h| := by
    rw [abs_mul, abs_mul, abs_of_pos (by norm_num : (0 : K) < 1 / 2)]
  rw [e1]
  have h1 := abs_nonneg h
  have h2 := mul_le_mul_of_nonneg_right ha h1
  have h3 := mul_le_mul_of_nonneg_right hk he
  linarith

/-- The finite differences are at most `k`. -/
theorem jac_small {f : K × K → K → K × K} {L : K} (hf : Lip f L) {eps h k : K} (he : eps ≠ 0) (hk : |h| * L / 2 ≤ k) (y : K) (q : K × K) :
    ∃ a b c d : K, jac f eps h y q = ((a - 1, b), (c, d - 1)) ∧ |a| ≤ k ∧ |b| ≤ k ∧ |c| ≤ k ∧ |d| ≤ k := by
  have hp : 0 < |eps| := abs_pos.2 he
  have key : ∀ u v : K, |u - v| ≤ L * |eps| → |1 / 2 * ((u - v) / eps) * h| ≤ k := by
    intro u v huv
    have : |(u - v) / eps| ≤ L * 1 := by
      rw [abs_div, div_le_iff₀ hp, mul_one]
      exact huv
    have := half_mul_le hk this (zero_le_one)
    rwa [mul_one] at this
  have n1 := hf |eps| (q.1 + eps, q.2) q y ⟨by simp, by simp⟩
  have n2 := hf |eps| (q.1, q.2 + eps) q y ⟨by simp, by simp⟩
  exact ⟨_, _, _, _, rfl, key _ _ n1.1, key _ _ n2.1, key _ _ n1.2, key _ _ n2.2⟩

theorem abs_pair_le {a b x y k m : K} (ha : |a| ≤ k) (hb : |b| ≤ k) (hx : |x| ≤ m) (hy : |y| ≤ m) : |a * x + b * y| ≤ 2 * k * m := by
  have h0 : 0 ≤ k := (abs_nonneg a).trans ha
  have h1 : |a * x| ≤ k * m := by rw [abs_mul]; exact mul_le_mul ha hx (abs_nonneg _) h0
  have h2 : |b * y| ≤ k * m := by rw [abs_mul]; exact mul_le_mul hb hy (abs_nonneg _) h0
  have := abs_add_le (a * x) (b * y)
  linarith

/-- There is a change, and it is not larger than `4/3` of the residual. -/
theorem deltaAt_lip {f : K × K → K → K × K} {L : K} (hf : Lip f L) {eps h : K} (he : eps ≠ 0) (hk : |h| * L ≤ 1 / 4) (y : K) (half q : K × K) :
    ∃ d, deltaAt f eps h y half q = some d ∧
      ∀ r, |(residual f h y half q).1| ≤ r → |(residual f h y half q).2| ≤ r → |d.1| ≤ 4 / 3 * r ∧ |d.2| ≤ 4 / 3 * r := by
  obtain ⟨a, b, c, e, hj, ha, hb, hc, hd⟩ := jac_small hf he (show |h| * L / 2 ≤ 1 / 8 by linarith) y q
  have hdet : (a - 1) * (e - 1) - b * c ≠ 0 := by
    rw [abs_le] at ha hb hc hd
    have h1 : (7 / 8 : K) * (7 / 8) ≤ (1 - a) * (1 - e) := mul_le_mul (by linarith) (by linarith) (by norm_num) (by linarith)
    have h2 : b * c ≤ 1 / 8 * (1 / 8) := by
      have := abs_mul b c ▸ mul_le_mul (abs_le.2 hb) (abs_le.2 hc) (abs_nonneg c) (by norm_num : (0 : K) ≤ 1 / 8)
      exact (le_abs_self _).trans this
    intro h0
    have : (1 - a) * (1 - e) = b * c := by linear_combination h0
    rw [this] at h1
    have := h1.trans h2
    norm_num at this
  have hs : ∃ d, deltaAt f eps h y half q = some d := by
    unfold jac at hj
    unfold deltaAt newtonDelta
    dsimp only
    rw [Prod.mk.injEq, Prod.mk.injEq, Prod.mk.injEq] at hj
    rw [hj.1.1, hj.1.2, hj.2.1, hj.2.2, if_neg (by push Not; exact ⟨he, hdet⟩)]
    exact ⟨_, rfl⟩
  obtain ⟨d, hd'⟩ := hs
  refine ⟨d, hd', ?_⟩
  intro r hr1 hr2
  obtain ⟨s1, s2⟩ := deltaAt_solves hd'
  rw [hj] at s1 s2
  dsimp only at s1 s2
  set m := max |d.1| |d.2| with hm
  have m1 : |d.1| ≤ m := le_max_left _ _
  have m2 : |d.2| ≤ m := le_max_right _ _
  have b1 := abs_pair_le ha hb m1 m2
  have b2 := abs_pair_le hc hd m1 m2
  have c1 : |d.1| ≤ 2 * (1 / 8) * m + r := by
    have : d.1 = (a * d.1 + b * d.2) - (residual f h y half q).1 := by linear_combination s1
    have h3 := abs_sub (a * d.1 + b * d.2) (residual f h y half q).1
    rw [← this] at h3
    linarith
  have c2 : |d.2| ≤ 2 * (1 / 8) * m + r := by
    have : d.2 = (c * d.1 + e * d.2) - (residual f h y half q).2 := by linear_combination s2
    have h3 := abs_sub (c * d.1 + e * d.2) (residual f h y half q).2
    rw [← this] at h3
    linarith
  have c3 : m ≤ 2 * (1 / 8) * m + r := max_le c1 c2
  constructor <;> linarith

/-- After a change by `d` the residual is at most `3/8` of it. -/
theorem residual_next {f : K × K → K → K × K} {L : K} (hf : Lip f L) {eps h : K} (he : eps ≠ 0) (hk : |h| * L ≤ 1 / 4) (y : K) (half q d : K × K)
    (hd : deltaAt f eps h y half q = some d) (m : K) (h1 : |d.1| ≤ m) (h2 : |d.2| ≤ m) :
    |(residual f h y half (q.1 - d.1, q.2 - d.2)).1| ≤ 3 / 8 * m ∧ |(residual f h y half (q.1 - d.1, q.2 - d.2)).2| ≤ 3 / 8 * m := by
  obtain ⟨a, b, c, e, hj, ha, hb, hc, hd'⟩ := jac_small hf he (show |h| * L / 2 ≤ 1 / 8 by linarith) y q
  obtain ⟨s1, s2⟩ := deltaAt_solves hd
  rw [hj] at s1 s2
  dsimp only at s1 s2
  have hm : 0 ≤ m := (abs_nonneg _).trans h1
  have hn := hf m (q.1 - d.1, q.2 - d.2) q y ⟨by simpa using h1, by simpa using h2⟩
  have g1 := half_mul_le (show |h| * L / 2 ≤ 1 / 8 by linarith) hn.1 hm
  have g2 := half_mul_le (show |h| * L / 2 ≤ 1 / 8 by linarith) hn.2 hm
  have b1 := abs_pair_le ha hb h1 h2
  have b2 := abs_pair_le hc hd' h1 h2
  unfold residual at s1 s2 ⊢
  dsimp only at s1 s2 ⊢
  constructor
  · have : 1 / 2 * (f (q.1 - d.1, q.2 - d.2) y).1 * h - (q.1 - d.1) + half.1 =
        (a * d.1 + b * d.2) + 1 / 2 * ((f (q.1 - d.1, q.2 - d.2) y).1 - (f q y).1) * h := by linear_combination s1
    rw [this]
    have := abs_add_le (a * d.1 + b * d.2) (1 / 2 * ((f (q.1 - d.1, q.2 - d.2) y).1 - (f q y).1) * h)
    linarith
  · have : 1 / 2 * (f (q.1 - d.1, q.2 - d.2) y).2 * h - (q.2 - d.2) + half.2 =
        (c * d.1 + e * d.2) + 1 / 2 * ((f (q.1 - d.1, q.2 - d.2) y).2 - (f q y).2) * h := by linear_combination s2
    rw [this]
    have := abs_add_le (c * d.1 + e * d.2) (1 / 2 * ((f (q.1 - d.1, q.2 - d.2) y).2 - (f q y).2) * h)
    linarith

/-! ## The iteration ends -/

theorem newton_ends {f : K × K → K → K × K} {L : K} (hf : Lip f L) {dir : List (K × K) → K → Except Err (List (K × K))} (hdir : Pointwise dir f)
    {eps h : K} (he : eps ≠ 0) (hk : |h| * L ≤ 1 / 4) (rtol y : K) : ∀ (n : ℕ) (ps : List ((K × K) × (K × K))) (B : K), ps ≠ [] →
    (∀ s ∈ ps, |(residual f h y s.2 s.1).1| ≤ 3 / 4 * B ∧ |(residual f h y s.2 s.1).2| ≤ 3 / 4 * B) → 2 * (B / 2 ^ n) ^ 2 < rtol →
    ∃ r, newtonLoop false dir rtol eps h y (ps.map Prod.snd) (n + 1) (ps.map Prod.fst) = .ok r
  | n, ps, B, hne, hB, hn => by
    have hall := fun s : (K × K) × (K × K) => deltaAt_lip hf he hk y s.2 s.1
    choose δ hδ hδb using hall
    have hdb : ∀ s ∈ ps, |(δ s).1| ≤ B ∧ |(δ s).2| ≤ B := by
      intro s hs
      have := hδb s (3 / 4 * B) (hB s hs).1 (hB s hs).2
      have e : 4 / 3 * (3 / 4 * B) = B := by ring
      rwa [e] at this
    rw [newtonLoop_succ hdir rtol eps h y ps n hne δ fun s _ => hδ s]
    by_cases hc : ∀ s ∈ ps, (δ s).1 ^ 2 + (δ s).2 ^ 2 < rtol
    · exact ⟨_, if_pos hc⟩
    · rw [if_neg hc]
      cases n with
      | zero =>
        exfalso
        apply hc
        intro s hs
        have h1 := sq_le_sq' (by linarith [neg_abs_le (δ s).1, (hdb s hs).1]) ((le_abs_self _).trans (hdb s hs).1)
        have h2 := sq_le_sq' (by linarith [neg_abs_le (δ s).2, (hdb s hs).2]) ((le_abs_self _).trans (hdb s hs).2)
        rw [pow_zero, div_one] at hn
        linarith
      | succ n =>
        set qs := ps.map fun s => (((s.1.1 - (δ s).1, s.1.2 - (δ s).2) : K × K), s.2) with hqs
        have e2 : ps.map Prod.snd = qs.map Prod.snd := by rw [hqs, List.map_map]; rfl
        have e1 : (ps.map fun s => ((s.1.1 - (δ s).1, s.1.2 - (δ s).2) : K × K)) = qs.map Prod.fst := by rw [hqs, List.map_map]; rfl
        rw [e2, e1]
        refine newton_ends hf hdir he hk rtol y n qs (B / 2) (by rw [hqs]; simpa using hne) ?_ ?_
        · intro s hs
          rw [hqs, List.mem_map] at hs
          obtain ⟨t, ht, rfl⟩ := hs
          have := residual_next hf he hk y t.2 t.1 (δ t) (hδ t) B (hdb t ht).1 (hdb t ht).2
          dsimp only
          have e : 3 / 4 * (B / 2) = 3 / 8 * B := by ring
          rw [e]
          exact this
        · have : B / 2 / 2 ^ n = B / 2 ^ (n + 1) := by rw [pow_succ]; field_simp
          rw [this]
          exact hn

theorem exists_halving [Archimedean K] (B rtol : K) (hr : 0 < rtol) : ∃ n : ℕ, 2 * (B / 2 ^ n) ^ 2 < rtol := by
  obtain ⟨n, hn⟩ := pow_unbounded_of_one_lt (2 * B ^ 2 / rtol) (by norm_num : (1 : K) < 2)
  refine ⟨n, ?_⟩
  have h1 : (1 : K) ≤ 2 ^ n := one_le_pow₀ (by norm_num)
  have h2 : (2 : K) ^ n ≤ (2 ^ n) ^ 2 := by nlinarith
  rw [div_lt_iff₀ hr] at hn
  rw [div_pow, ← mul_div_assoc, div_lt_iff₀ (by positivity)]
  nlinarith

theorem exists_bound {α : Type} (l : List α) (g : α → K) : ∃ B, ∀ s ∈ l, g s ≤ B := by
  induction l with
  | nil => exact ⟨0, by simp⟩
  | cons a l ih =>
    obtain ⟨B, hB⟩ := ih
    refine ⟨max (g a) B, ?_⟩
    intro s hs
    rcases List.mem_cons.1 hs with rfl | hs
    · exact le_max_left _ _
    · exact (hB s hs).trans (le_max_right _ _)

/-- The points and half-step values of a step. -/
def stepPts (f : K × K → K → K × K) (h y : K) (p : List (K × K)) : List ((K × K) × (K × K)) :=
  p.map fun q => ((q.1 + (f q y).1 * h, q.2 + (f q y).2 * h), (q.1 + 1 / 2 * (f q y).1 * h, q.2 + 1 / 2 * (f q y).2 * h))

theorem revStep_eq {f : K × K → K → K × K} {dir : List (K × K) → K → Except Err (List (K × K))} (hdir : Pointwise dir f)
    (rtol eps : K) (fuel : ℕ) (h y : K) (p : List (K × K)) (hp : p ≠ []) :
    revStep false revGood dir rtol eps fuel h p y =
      newtonLoop false dir rtol eps h (y + h) ((stepPts f h y p).map Prod.snd) fuel ((stepPts f h y p).map Prod.fst) := by
  unfold revStep
  rw [hdir _ _ hp]
  simp only [Except.bind, RevBad.check, revGood, Bool.false_eq_true, if_false, List.map_map]
  have e0 := addXZ_map p ((fun e : K × K => e.1 * h) ∘ fun q => f q y) ((fun e : K × K => e.2 * h) ∘ fun q => f q y)
  rw [e0]
  have e2 : List.zipWith (fun q e : K × K => (q.1 + 1 / 2 * e.1 * h, q.2 + 1 / 2 * e.2 * h)) p (p.map fun q => f q y) =
      (stepPts f h y p).map Prod.snd := by
    unfold stepPts
    rw [List.map_map, List.zipWith_map_right]
    clear e0 hp
    induction p with
    | nil => rfl
    | cons a p ih => simp only [List.zipWith_cons_cons, List.map_cons] at ih ⊢; rw [ih]; rfl
  rw [e2]
  unfold stepPts
  simp only [List.map_map]
  rfl

/-- A step ends. -/
theorem revStep_ends [Archimedean K] {f : K × K → K → K × K} {L : K} (hf : Lip f L) {dir : List (K × K) → K → Except Err (List (K × K))}
    (hdir : Pointwise dir f) {rtol eps h : K} (hr : 0 < rtol) (he : eps ≠ 0) (hk : |h| * L ≤ 1 / 4) (p : List (K × K)) (hp : p ≠ []) (y : K) :
    ∃ fuel r, revStep false revGood dir rtol eps fuel h p y = .ok r := by
  obtain ⟨B1, hB1⟩ := exists_bound (stepPts f h y p) fun s => |(residual f h (y + h) s.2 s.1).1|
  obtain ⟨B2, hB2⟩ := exists_bound (stepPts f h y p) fun s => |(residual f h (y + h) s.2 s.1).2|
  obtain ⟨n, hn⟩ := exists_halving (4 / 3 * max B1 B2) rtol hr
  have e : 3 / 4 * (4 / 3 * max B1 B2) = max B1 B2 := by ring
  obtain ⟨r, h1⟩ := newton_ends hf hdir he hk rtol (y + h) n (stepPts f h y p) (4 / 3 * max B1 B2) (by unfold stepPts; simpa using hp)
    (fun s hs => by rw [e]; exact ⟨(hB1 s hs).trans (le_max_left _ _), (hB2 s hs).trans (le_max_right _ _)⟩) hn
  exact ⟨n + 1, r, by rw [revStep_eq hdir _ _ _ _ _ _ hp]; exact h1⟩

/-! ## More iterations do not change what has ended -/

theorem newtonLoop_mono {same : Bool} {dir : List (K × K) → K → Except Err (List (K × K))} {rtol eps dy y : K} {half : List (K × K)} :
    ∀ (fuel : ℕ) (p r : List (K × K)), newtonLoop same dir rtol eps dy y half fuel p = .ok r → ∀ m, newtonLoop same dir rtol eps dy y half (fuel + m) p = .ok r
  | 0, p, r, h, m => by cases h
  | fuel + 1, p, r, h, m => by
    have e : fuel + 1 + m = (fuel + m) + 1 := by omega
    rw [e]
    rw [newtonLoop] at h ⊢
    cases h1 : dir p y with
    | error x => rw [h1] at h; cases h
    | ok d =>
      rw [h1] at h
      cases h2 : dir (p.map fun q => (q.1 + eps, q.2)) y with
      | error x => simp only [Except.bind, h2] at h; cases h
      | ok dx =>
        cases h3 : dir (p.map fun q => (q.1, q.2 + eps)) y with
        | error x => simp only [Except.bind, h2, h3] at h; cases h
        | ok dz =>
          simp only [Except.bind, h2, h3] at h ⊢
          by_cases hp : p = []
          · rw [if_pos hp] at h; cases h
          · rw [if_neg hp] at h ⊢
            split_ifs at h ⊢ with g1 g2
            · exact h
            · exact newtonLoop_mono fuel _ r h m

theorem revStep_mono {same : Bool} {bad : RevBad} {dir : List (K × K) → K → Except Err (List (K × K))} {rtol eps dy y : K} {fuel : ℕ} {p r : List (K × K)}
    (h : revStep same bad dir rtol eps fuel dy p y = .ok r) (m : ℕ) : revStep same bad dir rtol eps (fuel + m) dy p y = .ok r := by
  unfold revStep at h ⊢
  cases h1 : dir p y with
  | error x => rw [h1] at h; cases h
  | ok d =>
    rw [h1] at h
    cases h2 : bad.check with
    | error x => simp only [Except.bind, h2] at h; cases h
    | ok u =>
      simp only [Except.bind, h2] at h ⊢
      exact newtonLoop_mono _ _ _ h m

/-- All sub-steps between two values of `y` end. -/
theorem revSteps_ends [Archimedean K] {f : K × K → K → K × K} {L : K} (hf : Lip f L) {dir : List (K × K) → K → Except Err (List (K × K))}
    (hdir : Pointwise dir f) {rtol eps h : K} (hr : 0 < rtol) (he : eps ≠ 0) (hk : |h| * L ≤ 1 / 4) : ∀ (n : ℕ) (p : List (K × K)) (y : K), p ≠ [] →
    ∃ fuel r, r.length = p.length ∧ ∀ m, revSteps (revStep false revGood dir rtol eps (fuel + m) h) h n p y = .ok (r, y + (n : K) * h)
  | 0, p, y, _ => ⟨0, p, rfl, fun m => by simp [revSteps]⟩
  | n + 1, p, y, hp => by
    obtain ⟨f1, r1, h1⟩ := revStep_ends hf hdir hr he hk p hp y
    have hl := (C70_residual f dir hdir rtol eps h y p r1 f1 h1).1
    obtain ⟨f2, r2, h2l, h2⟩ := revSteps_ends hf hdir hr he hk n r1 (y + h) (by
      intro h0; rw [h0] at hl; exact hp (List.length_eq_zero_iff.1 hl.symm))
    refine ⟨f1 + f2, r2, by rw [h2l, hl], ?_⟩
    intro m
    rw [revSteps]
    have e1 := revStep_mono h1 (f2 + m)
    rw [← add_assoc] at e1
    rw [e1]
    simp only [Except.bind]
    have e2 := h2 (f1 + m)
    have e3 : f2 + (f1 + m) = f1 + f2 + m := by omega
    rw [e3] at e2
    rw [e2]
    congr 2
    push_cast
    ring

/-- All distances are covered by sub-steps that are small enough. -/
def SmallSteps (L : K) (N : ℕ) (a b : K) : Prop := |(b - a) / (N : K)| * L ≤ 1 / 4

/-- The rows of a trace end. -/
theorem revRows_ends [Archimedean K] {f : K × K → K → K × K} {L : K} (hf : Lip f L) {dir : List (K × K) → K → Except Err (List (K × K))}
    (hdir : Pointwise dir f) {rtol eps : K} (hr : 0 < rtol) (he : eps ≠ 0) {N : ℕ} (hN : N ≠ 0) : ∀ (l : List K) (a : K) (p : List (K × K)), p ≠ [] →
    (a :: l).IsChain (SmallSteps L N) → ∃ fuel rs, ∀ m, revRows (fun dy => revStep false revGood dir rtol eps (fuel + m) dy) N l p a = .ok rs
  | [], a, p, _, _ => ⟨0, [], fun m => rfl⟩
  | b :: l, a, p, hp, hc => by
    have hN' : (N : K) ≠ 0 := Nat.cast_ne_zero.2 hN
    obtain ⟨h1, h2⟩ := List.isChain_cons_cons.1 hc
    obtain ⟨f1, r1, hl, e1⟩ := revSteps_ends hf hdir hr he h1 N p a hp
    obtain ⟨f2, rs, e2⟩ := revRows_ends hf hdir hr he hN l b r1 (by
      intro h0; rw [h0] at hl; exact hp (List.length_eq_zero_iff.1 hl.symm)) h2
    refine ⟨f1 + f2, r1 :: rs, ?_⟩
    intro m
    rw [revRows]
    have g1 := e1 (f2 + m)
    have g2 := e2 (f1 + m)
    have e3 : f1 + (f2 + m) = f1 + f2 + m := by omega
    have e4 : f2 + (f1 + m) = f1 + f2 + m := by omega
    rw [e3] at g1
    rw [e4] at g2
    rw [g1]
    simp only [Except.bind]
    have e : a + (N : K) * ((b - a) / (N : K)) = b := by field_simp; ring
    rw [e, g2]
    rfl

/-! ## Back again -/

/-- The trapezoidal relation up to `e`. -/
def NearTrap (f : K × K → K → K × K) (e y h : K) (q q' : K × K) : Prop :=
  |q'.1 - q.1 - h / 2 * ((f q y).1 + (f q' (y + h)).1)| ≤ e ∧ |q'.2 - q.2 - h / 2 * ((f q y).2 + (f q' (y + h)).2)| ≤ e

theorem NearTrap.symm {f : K × K → K → K × K} {e y h : K} {q q' : K × K} (t : NearTrap f e y h q q') : NearTrap f e (y + h) (-h) q' q := by
  unfold NearTrap at *
  rw [add_neg_cancel_right]
  constructor
  · rw [← abs_neg]
    convert t.1 using 2
    ring
  · rw [← abs_neg]
    convert t.2 using 2
    ring

/-- Two steps from points that are near. -/
theorem NearTrap.stable {f : K × K → K → K × K} {L : K} (hf : Lip f L) {y h k : K} (hk : |h| * L / 2 ≤ k) (hk1 : k < 1) {e e1 e2 : K} {q q' p p' : K × K}
    (t1 : NearTrap f e1 y h q q') (t2 : NearTrap f e2 y h p p') (hn : Near e q p) : Near (((1 + k) * e + (e1 + e2)) / (1 - k)) q' p' := by
  have he : 0 ≤ e := (abs_nonneg _).trans hn.1
  set m := max |q'.1 - p'.1| |q'.2 - p'.2| with hm
  have hm0 : 0 ≤ m := (abs_nonneg _).trans (le_max_left _ _)
  have hq' : Near m q' p' := ⟨le_max_left _ _, le_max_right _ _⟩
  have a := hf e q p y hn
  have b := hf m q' p' (y + h) hq'
  have key : ∀ u v w x s t s' t' : K, |u - v - h / 2 * (s + t)| ≤ e1 → |w - x - h / 2 * (s' + t')| ≤ e2 → |v - x| ≤ e → |s - s'| ≤ L * e →
      |t - t'| ≤ L * m → |u - w| ≤ (1 + k) * e + k * m + (e1 + e2) := by
    intro u v w x s t s' t' h1 h2 h3 h4 h5
    have g1 := half_mul_le hk h4 he
    have g2 := half_mul_le hk h5 hm0
    have e' : u - w = (u - v - h / 2 * (s + t)) - (w - x - h / 2 * (s' + t')) + (v - x) + 1 / 2 * (s - s') * h + 1 / 2 * (t - t') * h := by ring
    rw [e']
    have i1 := abs_add_le ((u - v - h / 2 * (s + t)) - (w - x - h / 2 * (s' + t')) + (v - x) + 1 / 2 * (s - s') * h) (1 / 2 * (t - t') * h)
    have i2 := abs_add_le ((u - v - h / 2 * (s + t)) - (w - x - h / 2 * (s' + t')) + (v - x)) (1 / 2 * (s - s') * h)
    have i3 := abs_add_le ((u - v - h / 2 * (s + t)) - (w - x - h / 2 * (s' + t'))) (v - x)
    have i4 := abs_sub (u - v - h / 2 * (s + t)) (w - x - h / 2 * (s' + t'))
    linarith
  have c1 := key _ _ _ _ _ _ _ _ t1.1 t2.1 hn.1 a.1 b.1
  have c2 := key _ _ _ _ _ _ _ _ t1.2 t2.2 hn.2 a.2 b.2
  have c3 : m ≤ (1 + k) * e + k * m + (e1 + e2) := max_le c1 c2
  have c4 : m ≤ ((1 + k) * e + (e1 + e2)) / (1 - k) := by
    rw [le_div_iff₀ (by linarith)]
    linarith
  exact hq'.mono c4

/-- What a step returns satisfies the trapezoidal relation up to three times `k` times the root of the tolerance. -/
theorem revStep_near {f : K × K → K → K × K} {L : K} (hf : Lip f L) {dir : List (K × K) → K → Except Err (List (K × K))} (hdir : Pointwise dir f)
    {rtol eps h y k δ : K} (he : eps ≠ 0) (hk : |h| * L / 2 ≤ k) (hδ : 0 ≤ δ) (hr : rtol ≤ δ ^ 2) {p p' : List (K × K)} {fuel : ℕ}
    (hs : revStep false revGood dir rtol eps fuel h p y = .ok p') :
    p'.length = p.length ∧ ∀ i < p.length, NearTrap f (3 * k * δ) y h (p.getD i (0, 0)) (p'.getD i (0, 0)) := by
  obtain ⟨hl, hi⟩ := C70_residual f dir hdir rtol eps h y p p' fuel hs
  refine ⟨hl, ?_⟩
  intro i hlt
  obtain ⟨q, d, hq, hd, r1, r2, -⟩ := hi i hlt
  obtain ⟨a, b, c, e, hj, ha, hb, hc, he'⟩ := jac_small hf he hk (y + h) q
  rw [hj] at r1 r2
  dsimp only at r1 r2
  have hd1 : |d.1| ≤ δ := abs_le_of_sq_le_sq (by nlinarith [sq_nonneg d.2]) hδ
  have hd2 : |d.2| ≤ δ := abs_le_of_sq_le_sq (by nlinarith [sq_nonneg d.1]) hδ
  have hn := hf δ (q.1 - d.1, q.2 - d.2) q (y + h) ⟨by simpa using hd1, by simpa using hd2⟩
  have g1 := half_mul_le hk hn.1 hδ
  have g2 := half_mul_le hk hn.2 hδ
  have b1 := abs_pair_le ha hb hd1 hd2
  have b2 := abs_pair_le hc he' hd1 hd2
  rw [hq]
  unfold NearTrap
  dsimp only
  constructor
  · rw [← abs_neg]
    have : -(q.1 - d.1 - (p.getD i (0, 0)).1 - h / 2 * ((f (p.getD i (0, 0)) y).1 + (f (q.1 - d.1, q.2 - d.2) (y + h)).1)) =
        (a * d.1 + b * d.2) + 1 / 2 * ((f (q.1 - d.1, q.2 - d.2) (y + h)).1 - (f q (y + h)).1) * h := by linear_combination r1
    rw [this]
    have := abs_add_le (a * d.1 + b * d.2) (1 / 2 * ((f (q.1 - d.1, q.2 - d.2) (y + h)).1 - (f q (y + h)).1) * h)
    linarith
  · rw [← abs_neg]
    have : -(q.2 - d.2 - (p.getD i (0, 0)).2 - h / 2 * ((f (p.getD i (0, 0)) y).2 + (f (q.1 - d.1, q.2 - d.2) (y + h)).2)) =
        (c * d.1 + e * d.2) + 1 / 2 * ((f (q.1 - d.1, q.2 - d.2) (y + h)).2 - (f q (y + h)).2) * h := by linear_combination r2
    rw [this]
    have := abs_add_le (c * d.1 + e * d.2) (1 / 2 * ((f (q.1 - d.1, q.2 - d.2) (y + h)).2 - (f q (y + h)).2) * h)
    linarith

end Zoidberg
