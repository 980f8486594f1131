import Verif.Model.GridGen
import Mathlib.Analysis.Real.Pi.Bounds
import Mathlib.Tactic.FieldSimp
import Mathlib.Tactic.LinearCombination
import Mathlib.Algebra.BigOperators.Ring.Finset
import Mathlib.Algebra.Order.BigOperators.Group.Finset

/-!
# C113-C116: the angles of the inner points in `grid_elliptic`
-/

set_option linter.unusedSectionVars false

namespace Zoidberg

variable {K : Type} [Field K] [LinearOrder K] [IsStrictOrderedRing K] [FloorRing K]

/-- An angle moved to the interval from `-pi` to `pi`. -/
def wrapPi (pi v : K) : K := npRem (v + pi) (2 * pi) - pi

theorem wrapPi_eq (pi v : K) : ∃ k : ℤ, wrapPi pi v = v + 2 * pi * k := by
  refine ⟨-⌊(v + pi) / (2 * pi)⌋, ?_⟩
  unfold wrapPi npRem
  push_cast
  ring

theorem wrapPi_range {pi : K} (h : 0 < pi) (v : K) : -pi ≤ wrapPi pi v ∧ wrapPi pi v < pi := by
  unfold wrapPi npRem
  have h2 : (0 : K) < 2 * pi := by linarith
  have a := Int.floor_le ((v + pi) / (2 * pi))
  have b := Int.lt_floor_add_one ((v + pi) / (2 * pi))
  rw [le_div_iff₀ h2] at a
  rw [div_lt_iff₀ h2] at b
  constructor <;> nlinarith

theorem wrapPi_unique {pi : K} (h : 0 < pi) {u v : K} (k : ℤ) (h1 : -pi ≤ u) (h2 : u < pi)
    (e : v = u + 2 * pi * k) : wrapPi pi v = u := by
  have hp : (0 : K) < 2 * pi := by linarith
  unfold wrapPi npRem
  have : (v + pi) / (2 * pi) = (u + pi) / (2 * pi) + (k : K) := by
    rw [e]; field_simp; ring
  rw [this, Int.floor_add_intCast]
  have h0 : ⌊(u + pi) / (2 * pi)⌋ = 0 := by
    rw [Int.floor_eq_zero_iff]
    exact ⟨div_nonneg (by linarith) hp.le, (div_lt_one hp).2 (by linarith)⟩
  rw [h0, e]
  push_cast
  ring

/-- The distance from point `i` to the next. -/
def angleStep (pi : K) (x : List K) (i : ℕ) : K :=
  wrapPi pi (x.getD ((i + 1) % x.length) 0 - x.getD (i % x.length) 0)

theorem getD_map_range {α : Type} (f : ℕ → α) (d : α) {n i : ℕ} (h : i < n) : ((List.range n).map f).getD i d = f i := by
  rw [List.getD_eq_getElem?_getD, List.getElem?_map, List.getElem?_range h]
  rfl

theorem lapNext_eq (pi : K) (x : List K) : lapNext pi x = (List.range x.length).map (angleStep pi x) := by
  unfold lapNext lapDx angleStep wrapPi
  apply List.map_congr_left
  intro i hi
  rw [List.mem_range] at hi
  rw [Nat.mod_eq_of_lt hi]

theorem lapStep_length (pi fac : K) (x : List K) : (lapStep pi fac x).length = x.length := by
  simp [lapStep, lapPrev, lapNext, lapDx]

theorem lapStep_getD (pi fac : K) (x : List K) {i : ℕ} (h : i < x.length) : (lapStep pi fac x).getD i 0 =
    x.getD i 0 + fac * (wrapPi pi (x.getD ((i + x.length - 1) % x.length) 0 - x.getD i 0) + angleStep pi x i) := by
  have e : ∀ i, i < x.length → (lapStep pi fac x)[i]? = some (x.getD i 0 + fac *
      (wrapPi pi (x.getD ((i + x.length - 1) % x.length) 0 - x.getD i 0) + angleStep pi x i)) := by
    intro i h
    unfold lapStep
    rw [lapNext_eq]
    unfold lapPrev lapDx
    rw [List.getElem?_zipWith, List.getElem?_zipWith, List.getElem?_map, List.getElem?_map, List.getElem?_range h,
      List.getElem?_eq_getElem h]
    simp only [Option.map_some, wrapPi]
    rw [List.getD_eq_getElem?_getD (l := x) (i := i), List.getElem?_eq_getElem h]
    rfl
  rw [List.getD_eq_getElem?_getD, e i h]
  rfl

/-- **C115.** One step of the smoothing replaces every distance by a weighted mean of it and its
neighbours, as long as no two neighbouring points are opposite. -/
theorem C115_step (pi fac : K) (hpi : 0 < pi) (hf0 : 0 ≤ fac) (hf1 : fac ≤ 1 / 2) (x : List K)
    (h : ∀ i < x.length, -pi < angleStep pi x i) (i : ℕ) (hi : i < x.length) :
    angleStep pi (lapStep pi fac x) i = (1 - 2 * fac) * angleStep pi x i +
      fac * (angleStep pi x ((i + x.length - 1) % x.length) + angleStep pi x ((i + 1) % x.length)) := by
  set n := x.length with hn
  have hn0 : 0 < n := by omega
  have hi1 : (i + 1) % n < n := Nat.mod_lt _ hn0
  have him : (i + n - 1) % n < n := Nat.mod_lt _ hn0
  have hprev : ∀ k < n, wrapPi pi (x.getD ((k + n - 1) % n) 0 - x.getD k 0) = -angleStep pi x ((k + n - 1) % n) := by
    intro k hk
    have hm : (k + n - 1) % n < n := Nat.mod_lt _ hn0
    have hs : ((k + n - 1) % n + 1) % n = k := by
      rw [Nat.mod_add_mod, show k + n - 1 + 1 = k + n by omega, Nat.add_mod_right, Nat.mod_eq_of_lt hk]
    obtain ⟨l, e⟩ := wrapPi_eq pi (x.getD k 0 - x.getD ((k + n - 1) % n) 0)
    have ea : angleStep pi x ((k + n - 1) % n) = wrapPi pi (x.getD k 0 - x.getD ((k + n - 1) % n) 0) := by
      unfold angleStep
      rw [← hn, hs, Nat.mod_mod]
    have r := wrapPi_range hpi (x.getD k 0 - x.getD ((k + n - 1) % n) 0)
    have hgt := h _ hm
    rw [ea] at hgt ⊢
    apply wrapPi_unique hpi l (by linarith [r.2]) (by linarith)
    rw [e]
    ring
  have hsucc : ((i + 1) % n + n - 1) % n = i := by
    rcases Nat.lt_or_ge (i + 1) n with h1 | h1
    · rw [Nat.mod_eq_of_lt h1, show i + 1 + n - 1 = i + n by omega, Nat.add_mod_right, Nat.mod_eq_of_lt hi]
    · have : i + 1 = n := by omega
      rw [this, Nat.mod_self, Nat.zero_add, Nat.mod_eq_of_lt (by omega)]
      omega
  obtain ⟨l, e⟩ := wrapPi_eq pi (x.getD ((i + 1) % n) 0 - x.getD i 0)
  have ea : angleStep pi x i = wrapPi pi (x.getD ((i + 1) % n) 0 - x.getD i 0) := by
    unfold angleStep
    rw [← hn, Nat.mod_eq_of_lt hi]
  have ub : ∀ k, angleStep pi x k < pi := fun k => (wrapPi_range hpi _).2
  have b0 := h i hi
  have b1 := h _ hi1
  have b2 := h _ him
  have c0 := ub i
  have c1 := ub ((i + 1) % n)
  have c2 := ub ((i + n - 1) % n)
  conv_lhs => unfold angleStep
  rw [lapStep_length, ← hn, Nat.mod_eq_of_lt hi, lapStep_getD pi fac x hi1, lapStep_getD pi fac x hi, ← hn,
    hprev _ hi1, hprev _ hi, hsucc]
  apply wrapPi_unique hpi (-l)
  · nlinarith
  · rcases hf0.eq_or_lt with hf | hf
    · rw [← hf]; linarith
    · have := mul_pos hf (sub_pos.2 c1)
      nlinarith
  · rw [← ea] at e
    push_cast
    linear_combination -e

/-- The sum of all distances: `2 pi` times the number of turns. -/
def totalAngle (pi : K) (x : List K) : K := ∑ i ∈ Finset.range x.length, angleStep pi x i

theorem sum_next (n : ℕ) (f : ℕ → K) : ∑ i ∈ Finset.range n, f ((i + 1) % n) = ∑ i ∈ Finset.range n, f i := by
  cases n with
  | zero => simp
  | succ m =>
    rw [Finset.sum_range_succ, Finset.sum_range_succ' f, Nat.mod_self]
    congr 1
    apply Finset.sum_congr rfl
    intro i hi
    rw [Finset.mem_range] at hi
    rw [Nat.mod_eq_of_lt (by omega)]

theorem sum_prev (n : ℕ) (f : ℕ → K) : ∑ i ∈ Finset.range n, f ((i + n - 1) % n) = ∑ i ∈ Finset.range n, f i := by
  rw [← sum_next n fun i => f ((i + n - 1) % n)]
  apply Finset.sum_congr rfl
  intro i hi
  rw [Finset.mem_range] at hi
  congr 1
  rcases Nat.lt_or_ge (i + 1) n with h1 | h1
  · rw [Nat.mod_eq_of_lt h1, show i + 1 + n - 1 = i + n by omega, Nat.add_mod_right, Nat.mod_eq_of_lt hi]
  · have : i + 1 = n := by omega
    rw [this, Nat.mod_self, Nat.zero_add, Nat.mod_eq_of_lt (by omega)]
    omega

/-- Every distance is between two bounds. -/
def StepsIn (pi : K) (x : List K) (lo hi : K) : Prop := ∀ i < x.length, lo ≤ angleStep pi x i ∧ angleStep pi x i ≤ hi

theorem lapStep_keeps {pi fac : K} (hpi : 0 < pi) (hf0 : 0 ≤ fac) (hf1 : fac ≤ 1 / 2) {lo hi : K} (hlo : -pi < lo)
    {x : List K} (h : StepsIn pi x lo hi) :
    StepsIn pi (lapStep pi fac x) lo hi ∧ totalAngle pi (lapStep pi fac x) = totalAngle pi x := by
  have hs : ∀ i < x.length, -pi < angleStep pi x i := fun i hi => lt_of_lt_of_le hlo (h i hi).1
  constructor
  · intro i hi
    rw [lapStep_length] at hi
    rw [C115_step pi fac hpi hf0 hf1 x hs i hi]
    have hn0 : 0 < x.length := by omega
    obtain ⟨a1, a2⟩ := h i hi
    obtain ⟨b1, b2⟩ := h _ (Nat.mod_lt (i + x.length - 1) hn0)
    obtain ⟨c1, c2⟩ := h _ (Nat.mod_lt (i + 1) hn0)
    constructor <;> nlinarith
  · unfold totalAngle
    rw [lapStep_length]
    rw [Finset.sum_congr rfl fun i hi => C115_step pi fac hpi hf0 hf1 x hs i (Finset.mem_range.1 hi)]
    rw [Finset.sum_add_distrib, ← Finset.mul_sum, ← Finset.mul_sum, Finset.sum_add_distrib, sum_next, sum_prev]
    ring

theorem lapSteps_keeps {pi fac : K} (hpi : 0 < pi) (hf0 : 0 ≤ fac) (hf1 : fac ≤ 1 / 2) {lo hi : K} (hlo : -pi < lo)
    (n : ℕ) {x : List K} (h : StepsIn pi x lo hi) :
    StepsIn pi ((lapStep pi fac)^[n] x) lo hi ∧ totalAngle pi ((lapStep pi fac)^[n] x) = totalAngle pi x ∧
      ((lapStep pi fac)^[n] x).length = x.length := by
  induction n generalizing x with
  | zero => exact ⟨h, rfl, rfl⟩
  | succ n ih =>
    rw [Function.iterate_succ_apply]
    obtain ⟨a, b⟩ := lapStep_keeps hpi hf0 hf1 hlo h
    obtain ⟨c, d, e⟩ := ih a
    exact ⟨c, d.trans b, e.trans (lapStep_length _ _ _)⟩

/-- The loop does some number of steps; when it ends, its condition is false. -/
theorem lapWhile_ok {pi fac : K} {cond : List K → Bool} : ∀ {fuel : ℕ} {x y : List K},
    lapWhile pi fac cond fuel x = .ok y → cond y = false ∧ ∃ n, y = (lapStep pi fac)^[n] x
  | 0, _, _, h => by cases h
  | fuel + 1, x, y, h => by
    unfold lapWhile at h
    split at h
    · obtain ⟨a, n, b⟩ := lapWhile_ok h
      exact ⟨a, n + 1, by rw [b, Function.iterate_succ_apply]⟩
    · rename_i hc
      injection h with h
      subst h
      exact ⟨by simpa using hc, 0, rfl⟩

theorem laplace_ok {pi fac : K} {steps : ℕ} {maxfac : Option K} {fuel : ℕ} {x0 y : List K}
    (h : laplace pi fac steps maxfac fuel x0 = .ok y) : lapMono pi y = true ∧
      (maxfac ≠ some 1 → ∃ n, y = (lapStep pi fac)^[n] x0) ∧
      (∀ m, maxfac = some m → m ≠ 0 → m ≠ 1 → ¬ lapFac pi y > m) ∧
      (maxfac = some 1 → ∃ n, lapUniform pi x0 ((lapStep pi fac)^[n] x0) = .ok y) := by
  unfold laplace at h
  simp only [bind, Except.bind] at h
  split at h
  · cases h
  · rename_i x1 h1
    obtain ⟨c1, n1, e1⟩ := lapWhile_ok h1
    have hx1 : ∃ n, x1 = (lapStep pi fac)^[n] x0 :=
      ⟨n1 + steps, by rw [e1, ← Function.iterate_add_apply]⟩
    split at h
    · cases h
    · rename_i x2 h2
      split at h
      · cases h
      · rename_i hm
        injection h with h
        subst h
        refine ⟨by simpa using hm, ?_⟩
        unfold lapLimit at h2
        cases maxfac with
        | none =>
          injection h2 with h2
          subst h2
          exact ⟨fun _ => hx1, by simp, by simp⟩
        | some m =>
          simp only at h2
          split at h2
          · rename_i h0
            injection h2 with h2
            subst h2
            refine ⟨fun _ => hx1, ?_, ?_⟩
            · rintro m' hm' hne
              injection hm' with hm'
              exact absurd (hm'.symm.trans h0) hne
            · intro hm'
              injection hm' with hm'
              rw [h0] at hm'
              exact absurd hm' zero_ne_one
          · split at h2
            · rename_i h1
              refine ⟨fun hne => absurd (by rw [h1]) hne, ?_, fun _ => by obtain ⟨n, hn⟩ := hx1; exact ⟨n, by rw [← hn]; exact h2⟩⟩
              rintro m' hm' _ hne
              injection hm' with hm'
              exact absurd (hm'.symm.trans h1) hne
            · rename_i h1
              obtain ⟨c2, n2, e2⟩ := lapWhile_ok h2
              refine ⟨fun _ => ?_, ?_, ?_⟩
              · obtain ⟨n, hn⟩ := hx1
                exact ⟨n2 + n, by rw [e2, hn, ← Function.iterate_add_apply]⟩
              · rintro m' hm' _ _
                injection hm' with hm'
                rw [← hm']
                simpa using c2
              · intro hm'
                injection hm' with hm'
                exact absurd hm' h1

theorem foldl_max_spec : ∀ (l : List K) (a : K), a ≤ l.foldl max a ∧ ∀ d ∈ l, d ≤ l.foldl max a
  | [], a => ⟨le_refl _, by simp⟩
  | b :: l, a => by
    obtain ⟨h1, h2⟩ := foldl_max_spec l (max a b)
    refine ⟨le_trans (le_max_left _ _) h1, ?_⟩
    intro d hd
    rcases List.mem_cons.1 hd with rfl | hd
    · exact le_trans (le_max_right _ _) h1
    · exact h2 d hd

theorem foldl_min_spec : ∀ (l : List K) (a : K), l.foldl min a ≤ a ∧ (∀ d ∈ l, l.foldl min a ≤ d) ∧
    (l.foldl min a = a ∨ l.foldl min a ∈ l)
  | [], a => ⟨le_refl _, by simp, Or.inl rfl⟩
  | b :: l, a => by
    obtain ⟨h1, h2, h3⟩ := foldl_min_spec l (min a b)
    refine ⟨le_trans h1 (min_le_left _ _), ?_, ?_⟩
    · intro d hd
      rcases List.mem_cons.1 hd with rfl | hd
      · exact le_trans h1 (min_le_right _ _)
      · exact h2 d hd
    · rcases h3 with h3 | h3
      · rcases min_choice a b with e | e
        · left; rw [List.foldl_cons, h3, e]
        · right; rw [List.foldl_cons, h3, e]; exact List.mem_cons_self
      · right; exact List.mem_cons_of_mem _ h3

/-- **C114.** The angles that `laplace` returns increase from each point to the next, by less than
`pi`; and if `maxfac_inner` is given (not 1) no distance is larger than `maxfac_inner` times any
other. -/
theorem C114_monotonic (pi fac : K) (hpi : 0 < pi) (steps : ℕ) (maxfac : Option K) (fuel : ℕ) (x0 y : List K)
    (h : laplace pi fac steps maxfac fuel x0 = .ok y) :
    (∀ i < y.length, 0 < angleStep pi y i ∧ angleStep pi y i < pi) ∧
    ∀ m, maxfac = some m → m ≠ 0 → m ≠ 1 → ∀ i < y.length, ∀ k < y.length,
      angleStep pi y i ≤ m * angleStep pi y k := by
  obtain ⟨h1, -, h3, -⟩ := laplace_ok h
  have hpos : ∀ i < y.length, 0 < angleStep pi y i := by
    unfold lapMono at h1
    rw [lapNext_eq, List.all_eq_true] at h1
    intro i hi
    have := h1 (angleStep pi y i) (List.mem_map.2 ⟨i, List.mem_range.2 hi, rfl⟩)
    simpa using this
  refine ⟨fun i hi => ⟨hpos i hi, (wrapPi_range hpi _).2⟩, ?_⟩
  intro m hm hm0 hm1 i hi k hk
  have hf := not_lt.1 (h3 m hm hm0 hm1)
  unfold lapFac at hf
  simp only at hf
  set d := lapNext pi y with hd
  have hmem : ∀ i < y.length, angleStep pi y i ∈ d := by
    intro i hi
    rw [hd, lapNext_eq]
    exact List.mem_map.2 ⟨i, List.mem_range.2 hi, rfl⟩
  have hdpos : ∀ v ∈ d, 0 < v := by
    intro v hv
    rw [hd, lapNext_eq] at hv
    obtain ⟨i, hi, rfl⟩ := List.mem_map.1 hv
    exact hpos i (List.mem_range.1 hi)
  have hne : d ≠ [] := List.ne_nil_of_mem (hmem i hi)
  have h0 : d.getD 0 0 ∈ d := by
    cases hd' : d with
    | nil => exact absurd hd' hne
    | cons a l => simp
  have hmin : 0 < d.foldl min (d.getD 0 0) := by
    rcases (foldl_min_spec d (d.getD 0 0)).2.2 with e | e
    · rw [e]; exact hdpos _ h0
    · exact hdpos _ e
  rw [div_le_iff₀ hmin] at hf
  have h5 := (foldl_max_spec d (d.getD 0 0)).2 _ (hmem i hi)
  have h6 := (foldl_min_spec d (d.getD 0 0)).2.1 _ (hmem k hk)
  have hm' : 0 ≤ m := by
    by_contra hc
    have := (foldl_max_spec d (d.getD 0 0)).2 _ h0
    have h7 := hdpos _ h0
    nlinarith
  exact le_trans h5 (le_trans hf (mul_le_mul_of_nonneg_left h6 hm'))

/-- **C115.** If `maxfac_inner` is not 1: there are as many angles as before, the distances are
between the smallest and the largest of the distances before, and together they go round as often
as before, in particular exactly once if they did before. -/
theorem C115_laplace (pi fac : K) (hpi : 0 < pi) (hf0 : 0 ≤ fac) (hf1 : fac ≤ 1 / 2) (steps : ℕ)
    (maxfac : Option K) (hm : maxfac ≠ some 1) (fuel : ℕ) (x0 y : List K)
    (h : laplace pi fac steps maxfac fuel x0 = .ok y) (lo hi : K) (hlo : -pi < lo) (hs : StepsIn pi x0 lo hi) :
    y.length = x0.length ∧ StepsIn pi y lo hi ∧ totalAngle pi y = totalAngle pi x0 := by
  obtain ⟨n, rfl⟩ := (laplace_ok h).2.1 hm
  obtain ⟨a, b, c⟩ := lapSteps_keeps hpi hf0 hf1 hlo n hs
  exact ⟨c, a, b⟩

/-! ## `maxfac_inner = 1` -/

/-- **C116**, the claim: with `maxfac_inner = 1` angles that increase are replaced by equally
spaced ones. -/
def Equalises (pi fac : K) (steps fuel : ℕ) (x0 : List K) : Prop :=
  ∃ y, laplace pi fac steps (some 1) fuel x0 = .ok y ∧ y.length = x0.length ∧
    ∀ i < y.length, angleStep pi y i = 2 * pi / y.length

theorem lapUnroll_length (pi : K) : ∀ (a : K) (l : List K), (lapUnroll pi a l).length = l.length
  | _, [] => rfl
  | a, b :: l => by simp [lapUnroll, lapUnroll_length pi _ l]

theorem iterate_length (pi fac : K) (n : ℕ) (x : List K) : ((lapStep pi fac)^[n] x).length = x.length := by
  induction n generalizing x with
  | zero => rfl
  | succ n ih => rw [Function.iterate_succ_apply, ih, lapStep_length]

/-- **C116** as far as angles are returned.  Missing: that they are returned, which is false if the
angles are equally spaced already, see `C116_fails`. -/
theorem C116_equal_partial (pi fac : K) (hpi : 0 < pi) (steps fuel : ℕ) (x0 y : List K)
    (h : laplace pi fac steps (some 1) fuel x0 = .ok y) :
    y.length = x0.length ∧ ∀ i < y.length, angleStep pi y i = 2 * pi / y.length := by
  obtain ⟨n, hu⟩ := (laplace_ok h).2.2.2 rfl
  have hmono := (C114_monotonic pi fac hpi steps _ fuel x0 y h).1
  unfold lapUniform at hu
  simp only at hu
  split at hu
  · cases hu
  · injection hu with hu
    have hl1 : (lapUnrollAll pi ((lapStep pi fac)^[n] x0)).length = x0.length := by
      rw [← iterate_length pi fac n x0]
      cases (lapStep pi fac)^[n] x0 with
      | nil => rfl
      | cons a l => simp [lapUnrollAll, lapUnroll_length]
    generalize lapUnrollAll pi ((lapStep pi fac)^[n] x0) = x1 at hu hl1
    have hlen : y.length = x0.length := by
      rw [← hu]
      simp [linspaceOpen, hl1]
    refine ⟨hlen, ?_⟩
    have hval : ∀ i < y.length, ∃ k : ℤ, y.getD i 0 = x1.sum / (x1.length : K) + (-pi + i * ((pi - -pi) / (x0.length : K))) +
        pi / (x0.length : K) + 2 * pi * k := by
      intro i hi
      have hi' : i < x0.length := by omega
      have : y[i]? = some (npRem (x1.sum / (x1.length : K) + (-pi + i * ((pi - -pi) / (x0.length : K))) +
          pi / (x0.length : K)) (2 * pi)) := by
        rw [← hu, List.getElem?_map, List.getElem?_zipWith, List.getElem?_map]
        unfold linspaceOpen
        rw [List.getElem?_map, List.getElem?_range hi', List.getElem?_eq_getElem (by omega)]
        simp
      rw [List.getD_eq_getElem?_getD, this]
      refine ⟨-⌊(x1.sum / (x1.length : K) + (-pi + i * ((pi - -pi) / (x0.length : K))) +
          pi / (x0.length : K)) / (2 * pi)⌋, ?_⟩
      simp only [Option.getD_some, npRem]
      push_cast
      ring
    intro i hi
    have hn0 : 0 < x0.length := by omega
    have hnK : (0 : K) < x0.length := by exact_mod_cast hn0
    have hnK1 : (1 : K) ≤ x0.length := by exact_mod_cast hn0
    obtain ⟨m1, m2⟩ := hmono i hi
    have hk : ∃ k : ℤ, angleStep pi y i = 2 * pi / (x0.length : K) + 2 * pi * k := by
      unfold angleStep
      rw [Nat.mod_eq_of_lt hi]
      obtain ⟨k0, e0⟩ := wrapPi_eq pi (y.getD ((i + 1) % y.length) 0 - y.getD i 0)
      obtain ⟨k1, e1⟩ := hval i hi
      obtain ⟨k2, e2⟩ := hval ((i + 1) % y.length) (Nat.mod_lt _ (by omega))
      rw [e0, e1, e2]
      rcases Nat.lt_or_ge (i + 1) y.length with hb | hb
      · rw [Nat.mod_eq_of_lt hb]
        refine ⟨k2 - k1 + k0, ?_⟩
        push_cast
        field_simp
        ring
      · have : i + 1 = y.length := by omega
        rw [this, Nat.mod_self]
        refine ⟨k2 - k1 + k0 - 1, ?_⟩
        have hiK : (i : K) = (x0.length : K) - 1 := by
          have : (i : K) + 1 = (x0.length : K) := by exact_mod_cast (by omega : i + 1 = x0.length)
          linarith
        rw [hiK]
        push_cast
        field_simp
        ring
    obtain ⟨k, hk⟩ := hk
    rw [hlen]
    have hle : 2 * pi / (x0.length : K) ≤ 2 * pi := by
      rw [div_le_iff₀ hnK]
      nlinarith
    have hpos : 0 < 2 * pi / (x0.length : K) := by positivity
    have hk0 : k = 0 := by
      have b1 : (-1 : K) < k := by nlinarith
      have b2 : (k : K) < 1 := by nlinarith
      have c1 : (-1 : ℤ) < k := by exact_mod_cast b1
      have c2 : k < (1 : ℤ) := by exact_mod_cast b2
      omega
    rw [hk, hk0]
    simp

/-- **C116** is false for equally spaced angles: the division of zero by zero makes the function
fail, for any numbers of points and steps. -/
theorem C116_fails (pi fac : K) (hpi : 0 < pi) (hf0 : 0 ≤ fac) (hf1 : fac ≤ 1 / 2) (steps fuel : ℕ)
    (x0 : List K) (hne : x0 ≠ []) (d : K) (hd : 0 < d) (h : ∀ i < x0.length, angleStep pi x0 i = d) :
    laplace pi fac steps (some 1) (fuel + 1) x0 = .error (.assertion "Not monotonic!") ∧
      ¬ Equalises pi fac steps (fuel + 1) x0 := by
  have hn : 0 < x0.length := List.length_pos_of_ne_nil hne
  have hs : StepsIn pi x0 d d := fun i hi => by rw [h i hi]; exact ⟨le_refl _, le_refl _⟩
  obtain ⟨k1, -, k3⟩ := lapSteps_keeps hpi hf0 hf1 (by linarith) steps hs
  have hmono : lapMono pi ((lapStep pi fac)^[steps] x0) = true := by
    unfold lapMono
    rw [lapNext_eq, List.all_eq_true]
    intro v hv
    obtain ⟨i, hi, rfl⟩ := List.mem_map.1 hv
    rw [decide_eq_true_eq]
    exact lt_of_lt_of_le hd (k1 i (List.mem_range.1 hi)).1
  have hfac : lapFac pi x0 - 1 = 0 := by
    have hall : ∀ v ∈ lapNext pi x0, v = d := by
      intro v hv
      rw [lapNext_eq] at hv
      obtain ⟨i, hi, rfl⟩ := List.mem_map.1 hv
      exact h i (List.mem_range.1 hi)
    have hl : lapNext pi x0 ≠ [] := by
      rw [lapNext_eq]
      intro hc
      rw [List.map_eq_nil_iff, List.range_eq_nil] at hc
      omega
    unfold lapFac
    simp only
    have h0 : (lapNext pi x0).getD 0 0 = d := by
      cases hl' : lapNext pi x0 with
      | nil => exact absurd hl' hl
      | cons a l => exact hall a (by rw [hl']; simp)
    rw [h0]
    have hmax : (lapNext pi x0).foldl max d = d := by
      generalize lapNext pi x0 = l at hall
      induction l with
      | nil => rfl
      | cons a l ih =>
        rw [List.foldl_cons, hall a List.mem_cons_self, max_self]
        exact ih fun v hv => hall v (List.mem_cons_of_mem _ hv)
    have hmin : (lapNext pi x0).foldl min d = d := by
      generalize lapNext pi x0 = l at hall
      induction l with
      | nil => rfl
      | cons a l ih =>
        rw [List.foldl_cons, hall a List.mem_cons_self, min_self]
        exact ih fun v hv => hall v (List.mem_cons_of_mem _ hv)
    rw [hmax, hmin, div_self hd.ne', sub_self]
  have herr : laplace pi fac steps (some 1) (fuel + 1) x0 = .error (.assertion "Not monotonic!") := by
    unfold laplace lapWhile
    rw [hmono]
    simp only [Bool.not_true, Bool.false_eq_true, if_false, bind, Except.bind]
    unfold lapLimit
    simp only [one_ne_zero, if_false, if_true]
    unfold lapUniform
    simp only [hfac, if_true]
  refine ⟨herr, ?_⟩
  rintro ⟨y, hy, -⟩
  rw [herr] at hy
  cases hy

/-! ## `fft_smooth` -/

/-- **C113**, the claim: if all modes are kept, the angles stay the same. -/
def KeepsAngles (pi : K) (x : List K) : Prop := fftSmooth pi id x = x.map fun v => npRem v (pi * 2)

/-- **C113.** What is true: the result begins with the first angle, and otherwise the distances are
those of the argument moved by one place.  Missing: that they are not moved, which is false, see
`C113_fails`. -/
theorem C113_moved_partial (pi : K) (x : List K) (hne : x ≠ []) :
    (fftSmooth pi id x).length = x.length ∧ (fftSmooth pi id x).getD 0 0 = npRem (x.getD 0 0) (pi * 2) ∧
    ∀ i, i + 1 < x.length → ∃ k : ℤ, (fftSmooth pi id x).getD (i + 1) 0 =
      x.getD 0 0 + (x.getD i 0 - x.getD (x.length - 1) 0) + 2 * pi * k := by
  have hn : 0 < x.length := List.length_pos_of_ne_nil hne
  refine ⟨by simp [fftSmooth], ?_, ?_⟩
  · unfold fftSmooth
    rw [getD_map_range _ _ hn]
    rfl
  · intro i hi
    have hsum : ∀ i, i < x.length → ∃ k : ℤ, fsSum (x.getD 0 0) (fsDx pi x) (i + 1) =
        x.getD 0 0 + (x.getD i 0 - x.getD (x.length - 1) 0) + 2 * pi * k := by
      have hd : ∀ i < x.length, ∃ k : ℤ, (fsDx pi x).getD i 0 =
          x.getD i 0 - x.getD ((i + x.length - 1) % x.length) 0 + 2 * pi * k := by
        intro i hi
        unfold fsDx
        rw [getD_map_range _ _ hi]
        simp only
        split
        · split
          · exact ⟨0, by push_cast; ring⟩
          · exact ⟨1, by push_cast; ring⟩
        · split
          · exact ⟨-1, by push_cast; ring⟩
          · exact ⟨0, by push_cast; ring⟩
      intro i
      induction i with
      | zero =>
        intro hi
        obtain ⟨k, e⟩ := hd 0 hi
        refine ⟨k, ?_⟩
        simp only [fsSum]
        rw [e, Nat.zero_add, Nat.mod_eq_of_lt (by omega)]
        ring
      | succ i ih =>
        intro hi
        obtain ⟨k, e⟩ := hd (i + 1) hi
        obtain ⟨l, e2⟩ := ih (by omega)
        refine ⟨k + l, ?_⟩
        have hmod : (i + 1 + x.length - 1) % x.length = i := by
          rw [show i + 1 + x.length - 1 = i + x.length by omega, Nat.add_mod_right, Nat.mod_eq_of_lt (by omega)]
        rw [hmod] at e
        unfold fsSum
        rw [e, e2]
        push_cast
        ring
    obtain ⟨k, e⟩ := hsum i (by omega)
    unfold fftSmooth
    rw [getD_map_range _ _ hi]
    refine ⟨k - ⌊fsSum (x.getD 0 0) (fsDx pi x) (i + 1) / (pi * 2)⌋, ?_⟩
    simp only [id, npRem]
    push_cast
    linear_combination e

/-- **C113** is false: for the angles 0, 1 and 3 the second angle of the result is `2 π - 3`. -/
theorem C113_fails : ¬ KeepsAngles Real.pi [0, 1, 3] := by
  intro h
  have hpi := Real.pi_gt_three
  have hpi2 := Real.pi_le_four
  have h1 : (fftSmooth Real.pi id [0, 1, 3]).getD 1 0 = ([(0 : ℝ), 1, 3].map fun v => npRem v (Real.pi * 2)).getD 1 0 := by
    unfold KeepsAngles at h
    rw [h]
  have hr : npRem (1 : ℝ) (Real.pi * 2) = 1 := by
    unfold npRem
    have : ⌊(1 : ℝ) / (Real.pi * 2)⌋ = 0 := by
      rw [Int.floor_eq_zero_iff]
      exact ⟨by positivity, (div_lt_one (by positivity)).2 (by linarith)⟩
    rw [this]
    simp
  obtain ⟨-, -, h2⟩ := C113_moved_partial Real.pi [0, 1, 3] (by simp)
  obtain ⟨k, hk⟩ := h2 0 (by simp)
  rw [Nat.zero_add, h1] at hk
  simp [hr] at hk
  have hk4 : 2 * Real.pi * (k : ℝ) = 4 := by linarith
  rcases lt_trichotomy k 0 with hz | hz | hz
  · have : (k : ℝ) ≤ -1 := by exact_mod_cast (by omega : k ≤ -1)
    nlinarith
  · rw [hz] at hk4; norm_num at hk4
  · have : (1 : ℝ) ≤ k := by exact_mod_cast (by omega : 1 ≤ k)
    nlinarith

/-! ## Examples -/

theorem ok_of_toBool {α : Type} {e : Except Err α} (h : e.toBool = true) : ∃ y, e = .ok y := by
  cases e with
  | ok y => exact ⟨y, rfl⟩
  | error e => cases h

/-- Angles of which one is smaller than the one before, with 3 for `pi`. -/
def exAngles : List ℚ := [0, 2, 3 / 2, 4]

theorem exAngles_steps : StepsIn 3 exAngles (-1 / 2) (5 / 2) := by
  have h : ∀ i < 4, -1 / 2 ≤ angleStep 3 exAngles i ∧ angleStep 3 exAngles i ≤ 5 / 2 := by decide +kernel
  exact h

/-- They are smoothed until they increase, and until no distance is more than 3/2 of another. -/
theorem exAngles_ok : ∃ y, laplace 3 (1 / 10) 2 (some (3 / 2)) 20 exAngles = .ok y :=
  ok_of_toBool (by decide +kernel)

example : ∃ y, laplace 3 (1 / 10) 2 none 20 exAngles = .ok y := ok_of_toBool (by decide +kernel)

/-- They go round once, before and after. -/
example : ∃ y, laplace 3 (1 / 10) 2 (some (3 / 2)) 20 exAngles = .ok y ∧ y.length = 4 ∧
    StepsIn 3 y (-1 / 2) (5 / 2) ∧ totalAngle 3 y = 6 := by
  obtain ⟨y, hy⟩ := exAngles_ok
  obtain ⟨h1, h2, h3⟩ := C115_laplace 3 (1 / 10) (by norm_num) (by norm_num) (by norm_num) 2 _ (by norm_num) 20
    exAngles y hy (-1 / 2) (5 / 2) (by norm_num) exAngles_steps
  refine ⟨y, hy, h1, h2, ?_⟩
  rw [h3]
  decide +kernel

example := C114_monotonic (3 : ℚ) (1 / 10) (by norm_num) 2 _ 20 exAngles _ exAngles_ok.choose_spec

/-- With `maxfac_inner = 1` the four angles become equally spaced, but four that are equally spaced
are refused. -/
example : Equalises 3 (1 / 10) 2 20 exAngles := by
  obtain ⟨y, hy⟩ : ∃ y, laplace 3 (1 / 10) 2 (some 1) 20 exAngles = .ok y := ok_of_toBool (by decide +kernel)
  exact ⟨y, hy, C116_equal_partial 3 (1 / 10) (by norm_num) 2 20 exAngles y hy⟩

example : ¬ Equalises (3 : ℚ) (1 / 10) 2 20 [0, 3 / 2, 3, 9 / 2] := by
  have h : ∀ i < 4, angleStep (3 : ℚ) [0, 3 / 2, 3, 9 / 2] i = 3 / 2 := by decide +kernel
  exact (C116_fails 3 (1 / 10) (by norm_num) (by norm_num) (by norm_num) 2 19 [0, 3 / 2, 3, 9 / 2] (by simp)
    (3 / 2) (by norm_num) h).2

example := C113_moved_partial (3 : ℚ) exAngles (by simp [exAngles])

end Zoidberg
