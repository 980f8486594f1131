import Verif.Model.Examples
import Mathlib.Analysis.SpecialFunctions.Trigonometric.Deriv
import Mathlib.Algebra.Order.Round
import Mathlib.Tactic.FieldSimp
import Mathlib.Tactic.LinearCombination
import Mathlib.Tactic.IntervalCases
import Mathlib.Data.List.GetD

/-! # C203-C204: `calc_iota` -/

set_option linter.unusedSectionVars false

namespace Zoidberg

open Real

theorem iotaAngles_getD (i : ℕ) (hi : i < 10000) : iotaAngles.getD i 0 = π * i / 25 := by
  unfold iotaAngles linspaceOpen
  rw [List.getD_eq_getElem _ _ (by simpa using hi), List.getElem_map, List.getElem_range]
  push_cast
  ring

/-- The places found, said in words of the values. -/
theorem relMaxima_mem {K : Type} [Zero K] [LinearOrder K] (order : ℕ) (d : List K) (i : ℕ) : i ∈ relMaxima order d ↔
    i < d.length ∧ ∀ k, 1 ≤ k → k ≤ order → d.getD i 0 > d.getD (min (i + k) (d.length - 1)) 0 ∧ d.getD i 0 > d.getD (i - k) 0 := by
  unfold relMaxima
  rw [List.mem_filter, List.mem_range, List.all_eq_true]
  refine and_congr Iff.rfl ?_
  constructor
  · intro h k h1 h2
    have := h k (by unfold pyRange; rw [List.mem_range']; exact ⟨k - 1, by omega, by omega⟩)
    simpa using this
  · intro h k hk
    unfold pyRange at hk
    rw [List.mem_range'] at hk
    obtain ⟨j, hj, rfl⟩ := hk
    have := h (1 + 1 * j) (by omega) (by omega)
    simpa using this

theorem relMaxima_sorted {K : Type} [Zero K] [LinearOrder K] (order : ℕ) (d : List K) : (relMaxima order d).Pairwise (· < ·) := by
  unfold relMaxima
  exact List.Pairwise.filter _ List.pairwise_lt_range

/-- Two of the places are more than `order` apart, and none is at an end. -/
theorem relMaxima_apart {K : Type} [Zero K] [LinearOrder K] (order : ℕ) (ho : 1 ≤ order) (d : List K) (p q : ℕ) (hp : p ∈ relMaxima order d)
    (hq : q ∈ relMaxima order d) (h : p < q) : p + order < q ∧ 1 ≤ p ∧ q + 1 < d.length := by
  rw [relMaxima_mem] at hp hq
  refine ⟨?_, ?_, ?_⟩
  · by_contra hc
    have h1 := (hp.2 (q - p) (by omega) (by omega)).1
    have h2 := (hq.2 (q - p) (by omega) (by omega)).2
    rw [show min (p + (q - p)) (d.length - 1) = q by omega] at h1
    rw [show q - (q - p) = p by omega] at h2
    exact absurd h1 (not_lt.2 h2.le)
  · by_contra hc
    have := (hp.2 1 le_rfl ho).2
    rw [show p - 1 = p by omega] at this
    exact lt_irrefl _ this
  · by_contra hc
    have := (hq.2 1 le_rfl ho).1
    rw [show min (q + 1) (d.length - 1) = q by omega] at this
    exact lt_irrefl _ this

/-- **C203.** Whatever the line does, the number is `50 / m` for a whole number of steps `m` between 11 and 9997: never negative, never more than
`50 / 11`. -/
theorem C203_form (follow : List ℝ → Except Err (List ℝ)) (hf : ∀ r, follow iotaAngles = .ok r → r.length = 10000) (v : ℝ)
    (h : calcIota follow = .ok v) : ∃ m : ℕ, 11 ≤ m ∧ m ≤ 9997 ∧ v = 50 / m := by
  unfold calcIota at h
  cases hr : follow iotaAngles with
  | error e => rw [hr] at h; cases h
  | ok r =>
    have hl := hf r hr
    rw [hr] at h
    simp only [Except.bind] at h
    match hm : relMaxima 10 r, h with
    | p0 :: p1 :: t, h =>
      simp only at h
      injection h with h
      have hs := relMaxima_sorted 10 r
      rw [hm] at hs
      have hlt : p0 < p1 := by
        rw [List.pairwise_cons] at hs
        exact hs.1 p1 (by simp)
      obtain ⟨a, b, c⟩ := relMaxima_apart 10 (by norm_num) r p0 p1 (by rw [hm]; simp) (by rw [hm]; simp) hlt
      rw [hl] at c
      refine ⟨p1 - p0, by omega, by omega, ?_⟩
      rw [← h, iotaAngles_getD p0 (by omega), iotaAngles_getD p1 (by omega), Nat.cast_sub hlt.le]
      have hpos : (0 : ℝ) < (p1 : ℝ) - p0 := by
        have : (p0 : ℝ) < p1 := by exact_mod_cast hlt
        linarith
      have hpi := pi_ne_zero
      rw [show π * (p1 : ℝ) / 25 - π * p0 / 25 = π * (p1 - p0) / 25 by ring]
      field_simp
      ring

/-- With fewer than two maxima, the call is an `IndexError`. -/
theorem C203_index (follow : List ℝ → Except Err (List ℝ)) (r : List ℝ) (hr : follow iotaAngles = .ok r) :
    (∃ v, calcIota follow = .ok v) ↔ 2 ≤ (relMaxima 10 r).length := by
  unfold calcIota
  rw [hr]
  simp only [Except.bind]
  match relMaxima 10 r with
  | [] => simp
  | [_] => simp
  | p0 :: p1 :: t => simp

/-! ### A line that goes around evenly -/

/-- The radius along a line with the rotational transform `iota`, on a surface with the axis `R0` and the radius `a`. -/
noncomputable def roundLine (R0 a iota : ℝ) : List ℝ → Except Err (List ℝ) := fun ys => .ok (ys.map fun y => R0 + a * cos (iota * y))

theorem roundLine_length (R0 a iota : ℝ) (ys r : List ℝ) (h : roundLine R0 a iota ys = .ok r) : ys.length = r.length := by
  unfold roundLine at h
  injection h with h
  rw [← h, List.length_map]

theorem cos_period (P : ℝ) (hP : 0 < P) (x : ℝ) (m : ℤ) : cos (2 * π * x / P) = cos (2 * π * |x - m * P| / P) := by
  have h1 : cos (2 * π * x / P) = cos (2 * π * (x - m * P) / P) := by
    rw [show 2 * π * (x - m * P) / P = 2 * π * x / P - m * (2 * π) by field_simp]
    rw [cos_sub_int_mul_two_pi]
  rw [h1]
  rcases abs_choice (x - m * P) with h | h
  · rw [h]
  · rw [h, show 2 * π * -(x - m * P) / P = -(2 * π * (x - m * P) / P) by ring, cos_neg]

/-- Nearer to a multiple of the period means greater. -/
theorem cos_near (P : ℝ) (hP : 0 < P) (x y : ℝ) (m k : ℤ) (hy : |y - k * P| ≤ P / 2) (h : |x - m * P| < |y - k * P|) :
    cos (2 * π * y / P) < cos (2 * π * x / P) := by
  rw [cos_period P hP x m, cos_period P hP y k]
  have hpi := pi_pos
  apply cos_lt_cos_of_nonneg_of_le_pi
  · positivity
  · rw [div_le_iff₀ hP]
    nlinarith
  · apply div_lt_div_of_pos_right _ hP
    nlinarith

theorem cos_near_le (P : ℝ) (hP : 0 < P) (x y : ℝ) (m k : ℤ) (hy : |y - k * P| ≤ P / 2) (h : |x - m * P| ≤ |y - k * P|) :
    cos (2 * π * y / P) ≤ cos (2 * π * x / P) := by
  rcases h.lt_or_eq with h | h
  · exact (cos_near P hP x y m k hy h).le
  · rw [cos_period P hP x m, cos_period P hP y k, h]

theorem nearest (P : ℝ) (hP : 0 < P) (x : ℝ) : ∃ m : ℤ, |x - m * P| ≤ P / 2 := by
  refine ⟨round (x / P), ?_⟩
  have := abs_sub_round (x / P)
  have h2 : x - round (x / P) * P = (x / P - round (x / P)) * P := by field_simp
  rw [h2, abs_mul, abs_of_pos hP]
  nlinarith

theorem iotaAngles_length : iotaAngles.length = 10000 := by
  unfold iotaAngles linspaceOpen
  rw [List.length_map, List.length_range]

theorem map_getD_in (l : List ℝ) (f : ℝ → ℝ) (i : ℕ) (hi : i < l.length) : (l.map f).getD i 0 = f (l.getD i 0) := by
  rw [List.getD_eq_getElem _ _ (by rw [List.length_map]; exact hi), List.getElem_map, List.getD_eq_getElem _ _ hi]

/-- The values of the line. -/
theorem roundLine_getD (R0 a iota P : ℝ) (hP : iota * P = 50) (hP0 : 0 < P) (i : ℕ) (hi : i < 10000) :
    (iotaAngles.map fun y => R0 + a * cos (iota * y)).getD i 0 = R0 + a * cos (2 * π * i / P) := by
  have hang : ∀ x : ℝ, x = π * i / 25 → iota * x = 2 * π * i / P := by
    intro x hx
    rw [eq_div_iff hP0.ne', hx]
    linear_combination π * i / 25 * hP
  rw [map_getD_in iotaAngles _ i (by rw [iotaAngles_length]; exact hi), hang _ (iotaAngles_getD i hi)]

/-- The maxima, for at least 21 points in a turn: the points less than half a step from a whole number of turns. -/
theorem cos_maxima (d : List ℝ) (n : ℕ) (hl : d.length = n) (R0 a P : ℝ) (ha : 0 < a) (hP0 : 21 ≤ P)
    (val : ∀ j < n, d.getD j 0 = R0 + a * cos (2 * π * j / P)) (i : ℕ) (h1 : 10 ≤ i) (h2 : i + 10 < n) :
    i ∈ relMaxima 10 d ↔ ∃ m : ℤ, |(i : ℝ) - m * P| < 1 / 2 := by
  have hp : 0 < P := by linarith
  rw [relMaxima_mem, hl]
  constructor
  · rintro ⟨-, h⟩
    obtain ⟨m, hm⟩ := nearest P hp i
    refine ⟨m, ?_⟩
    by_contra hc
    push Not at hc
    obtain ⟨u, w⟩ := h 1 le_rfl (by norm_num)
    rw [show min (i + 1) (n - 1) = i + 1 by omega, val _ (by omega), val _ (by omega)] at u
    rw [val _ (by omega), val _ (by omega)] at w
    have u' : cos (2 * π * ((i + 1 : ℕ) : ℝ) / P) < cos (2 * π * (i : ℝ) / P) := by
      have := u
      nlinarith
    have w' : cos (2 * π * ((i - 1 : ℕ) : ℝ) / P) < cos (2 * π * (i : ℝ) / P) := by
      have := w
      nlinarith
    rcases le_total (i : ℝ) (m * P) with hs | hs
    · have hle := cos_near_le P hp ((i + 1 : ℕ) : ℝ) i m m hm (by
        push_cast
        rw [abs_of_nonpos (by linarith : (i : ℝ) - m * P ≤ 0)] at hc ⊢
        rw [abs_le]
        constructor <;> linarith)
      exact absurd u' (not_lt.2 hle)
    · have hle := cos_near_le P hp ((i - 1 : ℕ) : ℝ) i m m hm (by
        rw [Nat.cast_sub (by omega : 1 ≤ i)]
        push_cast
        rw [abs_of_nonneg (by linarith : 0 ≤ (i : ℝ) - m * P)] at hc ⊢
        rw [abs_le]
        constructor <;> linarith)
      exact absurd w' (not_lt.2 hle)
  · rintro ⟨m, hm⟩
    refine ⟨by omega, ?_⟩
    have far : ∀ j : ℕ, j < n → j ≠ i → |(j : ℝ) - i| ≤ 10 → cos (2 * π * (j : ℝ) / P) < cos (2 * π * (i : ℝ) / P) := by
      intro j _ hj hd
      obtain ⟨k, hk⟩ := nearest P hp j
      refine cos_near P hp i j m k hk (lt_of_lt_of_le hm ?_)
      have hji : 1 ≤ |(j : ℝ) - i| := by
        have : (1 : ℤ) ≤ |(j : ℤ) - i| := Int.one_le_abs (by omega)
        have h' : ((1 : ℤ) : ℝ) ≤ ((|(j : ℤ) - i| : ℤ) : ℝ) := by exact_mod_cast this
        push_cast at h'
        exact h'
      by_cases hkm : k = m
      · subst hkm
        have : |(j : ℝ) - i| ≤ |(j : ℝ) - k * P| + |(i : ℝ) - k * P| := by
          have := abs_sub_le (j : ℝ) (k * P) i
          rw [abs_sub_comm (k * P : ℝ) i] at this
          exact this
        linarith
      · have hkm1 : (1 : ℝ) ≤ |(k : ℝ) - m| := by
          have : (1 : ℤ) ≤ |k - m| := Int.one_le_abs (sub_ne_zero.2 hkm)
          have h' : ((1 : ℤ) : ℝ) ≤ ((|k - m| : ℤ) : ℝ) := by exact_mod_cast this
          push_cast at h'
          exact h'
        have h1 : P ≤ |(k : ℝ) * P - m * P| := by
          rw [← sub_mul, abs_mul, abs_of_pos hp]
          nlinarith
        have h2 : |(k : ℝ) * P - m * P| ≤ |(j : ℝ) - k * P| + |(j : ℝ) - i| + |(i : ℝ) - m * P| := by
          have a1 := abs_sub_le ((k : ℝ) * P) j (m * P)
          have a2 := abs_sub_le (j : ℝ) i (m * P)
          rw [abs_sub_comm ((k : ℝ) * P) j] at a1
          linarith
        linarith
    intro k hk1 hk2
    rw [show min (i + k) (n - 1) = i + k by omega, val _ (by omega), val _ (by omega), val _ (by omega)]
    have f1 := far (i + k) (by omega) (by omega) (by
      push_cast
      rw [show (i : ℝ) + k - i = k by ring, Nat.abs_cast]
      exact_mod_cast hk2)
    have f2 := far (i - k) (by omega) (by omega) (by
      rw [Nat.cast_sub (by omega), show (i : ℝ) - k - i = -k by ring, abs_neg, Nat.abs_cast]
      exact_mod_cast hk2)
    constructor
    · have := f1
      nlinarith
    · have := f2
      nlinarith

/-- No point among the first eleven counts: the first value is the greatest there is. -/
theorem cos_no_early (d : List ℝ) (n : ℕ) (hn : 11 ≤ n) (R0 a P : ℝ) (ha : 0 < a)
    (val : ∀ j < n, d.getD j 0 = R0 + a * cos (2 * π * j / P)) (i : ℕ) (h1 : i ≤ 10) : i ∉ relMaxima 10 d := by
  intro h
  rw [relMaxima_mem] at h
  have := (h.2 10 (by norm_num) le_rfl).2
  rw [show i - 10 = 0 by omega, val i (by omega), val 0 (by omega)] at this
  have hc := cos_le_one (2 * π * (i : ℝ) / P)
  have h0 : cos (2 * π * ((0 : ℕ) : ℝ) / P) = 1 := by simp
  rw [h0] at this
  nlinarith

theorem first_two (l : List ℕ) (hs : l.Pairwise (· < ·)) (p q : ℕ) (hp : p ∈ l) (hq : q ∈ l) (hpq : p < q) (h : ∀ i ∈ l, i < q → i = p) :
    ∃ t, l = p :: q :: t := by
  match l, hs, hp, hq, h with
  | [x], _, hp, hq, _ =>
    simp only [List.mem_singleton] at hp hq
    omega
  | x :: y :: t, hs, hp, hq, h =>
    rw [List.pairwise_cons, List.pairwise_cons] at hs
    have hxy : x < y := hs.1 y (by simp)
    have hyq : x = q ∨ y ≤ q := by
      rcases List.mem_cons.1 hq with e | e
      · exact Or.inl e.symm
      · rcases List.mem_cons.1 e with e | e
        · exact Or.inr e.ge
        · exact Or.inr (hs.2.1 q e).le
    have hxp : x ≤ p := by
      rcases List.mem_cons.1 hp with e | e
      · exact e.ge
      · exact (hs.1 p e).le
    have ex : x = p := h x (by simp) (by omega)
    have hy : y ≤ q := by omega
    have ey : y = q := by
      by_contra hc
      have := h y (by simp) (by omega)
      omega
    exact ⟨t, by rw [ex, ey]⟩

/-- The first two maxima, and so the number found. -/
theorem roundLine_iota (R0 a iota P : ℝ) (ha : 0 < a) (hP : iota * P = 50) (hP0 : 21 ≤ P) (p q : ℕ) (hpq : p < q) (hp : 10 < p) (hq : q + 10 < 10000)
    (mp : ∃ m : ℤ, |(p : ℝ) - m * P| < 1 / 2) (mq : ∃ m : ℤ, |(q : ℝ) - m * P| < 1 / 2)
    (h : ∀ i : ℕ, 10 < i → i < q → (∃ m : ℤ, |(i : ℝ) - m * P| < 1 / 2) → i = p) :
    calcIota (roundLine R0 a iota) = .ok (50 / ((q : ℝ) - p)) := by
  have hl : (iotaAngles.map fun y => R0 + a * cos (iota * y)).length = 10000 := by rw [List.length_map, iotaAngles_length]
  have val := fun j hj => roundLine_getD R0 a iota P hP (by linarith) j hj
  unfold calcIota roundLine
  simp only [Except.bind]
  generalize (iotaAngles.map fun y => R0 + a * cos (iota * y)) = d at hl val
  obtain ⟨t, ht⟩ := first_two (relMaxima 10 d) (relMaxima_sorted 10 d) p q
    ((cos_maxima d 10000 hl R0 a P ha hP0 val p (by omega) (by omega)).2 mp)
    ((cos_maxima d 10000 hl R0 a P ha hP0 val q (by omega) (by omega)).2 mq) hpq (by
      intro i hi hlt
      have h10 : 10 < i := by
        by_contra hc
        exact cos_no_early d 10000 (by norm_num) R0 a P ha val i (by omega) hi
      exact h i h10 hlt ((cos_maxima d 10000 hl R0 a P ha hP0 val i (by omega) (by omega)).1 hi))
  rw [ht]
  simp only
  rw [iotaAngles_getD p (by omega), iotaAngles_getD q (by omega)]
  have hpos : (0 : ℝ) < (q : ℝ) - p := by
    have : (p : ℝ) < q := by exact_mod_cast hpq
    linarith
  have hpi := pi_ne_zero
  congr 1
  rw [show π * (q : ℝ) / 25 - π * p / 25 = π * (q - p) / 25 by ring]
  field_simp
  ring

theorem near_nat (x : ℝ) (hx : 0 ≤ x) (ht : ∀ j : ℤ, |(j : ℝ) - x| ≠ 1 / 2) : ∃ p : ℕ, |(p : ℝ) - x| < 1 / 2 := by
  have h := abs_sub_round x
  have h0 : 0 ≤ round x := by
    rw [round_eq]
    exact Int.floor_nonneg.2 (by linarith)
  refine ⟨(round x).toNat, ?_⟩
  have hc : (((round x).toNat : ℕ) : ℝ) = ((round x : ℤ) : ℝ) := by
    have : (((round x).toNat : ℕ) : ℤ) = round x := Int.toNat_of_nonneg h0
    exact_mod_cast this
  rw [hc]
  exact lt_of_le_of_ne (by rw [abs_sub_comm]; exact h) (ht _)

/-- What one would like: the number is the rotational transform, as well as the points resolve it. -/
def IotaResolved : Prop := ∀ R0 a iota : ℝ, 0 < a → 1 / 50 ≤ iota → ∃ v, calcIota (roundLine R0 a iota) = .ok v ∧ |1 / v - 1 / iota| ≤ 1 / 50

/-- **C204.** With at least 21 points in a turn, two turns in the line, and no turn that ends half way between two points, the number is right to
within the distance of two points. -/
theorem C204_partial (R0 a iota : ℝ) (ha : 0 < a) (hi : 0 < iota) (h1 : 21 ≤ 50 / iota) (h2 : 2 * (50 / iota) ≤ 9989)
    (t1 : ∀ j : ℤ, |(j : ℝ) - 50 / iota| ≠ 1 / 2) (t2 : ∀ j : ℤ, |(j : ℝ) - 2 * (50 / iota)| ≠ 1 / 2) :
    ∃ v, calcIota (roundLine R0 a iota) = .ok v ∧ |1 / v - 1 / iota| < 1 / 50 := by
  have hP : iota * (50 / iota) = 50 := by field_simp
  have hinv : 1 / iota = (50 / iota) / 50 := by field_simp
  rw [hinv]
  generalize 50 / iota = P at h1 h2 t1 t2 hP
  obtain ⟨p, hp⟩ := near_nat P (by linarith) t1
  obtain ⟨q, hq⟩ := near_nat (2 * P) (by linarith) t2
  have ap := abs_lt.1 hp
  have aq := abs_lt.1 hq
  have hpq : p < q := by
    have : (p : ℝ) < q := by linarith
    exact_mod_cast this
  have hp10 : 10 < p := by
    have : ((10 : ℕ) : ℝ) < p := by push_cast; linarith
    exact_mod_cast this
  have hq10 : q < 9990 := by
    have : (q : ℝ) < ((9990 : ℕ) : ℝ) := by push_cast; linarith
    exact_mod_cast this
  refine ⟨50 / ((q : ℝ) - p), roundLine_iota R0 a iota P ha hP h1 p q hpq hp10 (by omega) ⟨1, by simpa using hp⟩ ⟨2, by simpa using hq⟩ ?_, ?_⟩
  · rintro i hi10 hiq ⟨m, hm⟩
    have am := abs_lt.1 hm
    have hi11 : (11 : ℝ) ≤ i := by exact_mod_cast hi10
    have hiq' : (i : ℝ) + 1 ≤ q := by exact_mod_cast hiq
    have m1 : 1 ≤ m := by
      by_contra hc
      have : (m : ℝ) ≤ 0 := by exact_mod_cast (by omega : m ≤ 0)
      nlinarith
    have m2 : m < 2 := by
      by_contra hc
      have : (2 : ℝ) ≤ m := by exact_mod_cast (by omega : 2 ≤ m)
      nlinarith
    have em : m = 1 := by omega
    subst em
    push_cast at am
    have u1 : (i : ℝ) < p + 1 := by linarith
    have u2 : (p : ℝ) < i + 1 := by linarith
    have v1 : i < p + 1 := by exact_mod_cast u1
    have v2 : p < i + 1 := by exact_mod_cast u2
    omega
  · have hpos : (0 : ℝ) < (q : ℝ) - p := by
      have : (p : ℝ) < q := by exact_mod_cast hpq
      linarith
    rw [one_div_div, ← sub_div, abs_div, abs_of_pos (by norm_num : (0 : ℝ) < 50)]
    apply div_lt_div_of_pos_right _ (by norm_num)
    rw [abs_lt]
    constructor <;> linarith

/-- With a half-odd number of points in a turn every other maximum is a tie, and is lost: the number is half of what it should be. -/
theorem C204_fails_half (R0 a : ℝ) (ha : 0 < a) (h : ℕ) (hodd : h % 2 = 1) (h1 : 42 ≤ h) (h2 : 2 * h ≤ 9989) :
    calcIota (roundLine R0 a (100 / h)) = .ok (100 / (h : ℝ) / 2) := by
  have hh : (0 : ℝ) < h := by
    have : 0 < h := by omega
    exact_mod_cast this
  have h42 : (42 : ℝ) ≤ h := by exact_mod_cast h1
  have hmain := roundLine_iota R0 a (100 / h) (h / 2) ha (by field_simp; norm_num) (by linarith) h (2 * h) (by omega) (by omega) (by omega)
    ⟨2, by push_cast; rw [show (h : ℝ) - 2 * (h / 2) = 0 by ring]; norm_num⟩
    ⟨4, by push_cast; rw [show (2 * h : ℝ) - 4 * (h / 2) = 0 by ring]; norm_num⟩ (by
      rintro i hi hlt ⟨m, hm⟩
      have am := abs_lt.1 hm
      have u1 : (2 * (i : ℤ) - m * h : ℤ) < 1 := by
        have : ((2 * (i : ℤ) - m * h : ℤ) : ℝ) < ((1 : ℤ) : ℝ) := by push_cast; linarith
        exact_mod_cast this
      have u2 : -1 < (2 * (i : ℤ) - m * h : ℤ) := by
        have : ((-1 : ℤ) : ℝ) < ((2 * (i : ℤ) - m * h : ℤ) : ℝ) := by push_cast; linarith
        exact_mod_cast this
      have e : 2 * (i : ℤ) = m * h := by omega
      have hm1 : 0 < m := by
        by_contra hc
        have : m * (h : ℤ) ≤ 0 := mul_nonpos_of_nonpos_of_nonneg (by omega) (by omega)
        omega
      have hm4 : m < 4 := by
        by_contra hc
        have : 4 * (h : ℤ) ≤ m * h := mul_le_mul_of_nonneg_right (by omega) (by omega)
        omega
      interval_cases m
      · omega
      · omega
      · omega)
  rw [hmain]
  have hnum : 50 / (((2 * h : ℕ) : ℝ) - h) = 100 / (h : ℝ) / 2 := by
    push_cast
    rw [show (2 : ℝ) * h - h = h by ring]
    field_simp
    norm_num
  rw [hnum]

/-- So the claim is false: for instance the transform 100/101 is given as 50/101. -/
theorem C204_fails : ¬ IotaResolved := by
  intro hc
  obtain ⟨v, hv, hr⟩ := hc 0 1 (100 / (101 : ℕ)) one_pos (by norm_num)
  rw [C204_fails_half 0 1 one_pos 101 (by norm_num) (by norm_num) (by norm_num)] at hv
  injection hv with hv
  rw [← hv] at hr
  norm_num [abs_of_nonneg] at hr

/-- The sign of the transform is not seen. -/
theorem C204_fails_sign (R0 a iota : ℝ) : calcIota (roundLine R0 a (-iota)) = calcIota (roundLine R0 a iota) := by
  have : roundLine R0 a (-iota) = roundLine R0 a iota := by
    funext ys
    unfold roundLine
    congr 2
    funext y
    rw [neg_mul, cos_neg]
  rw [this]

/-- A transform greater than `50 / 11` is never given. -/
theorem C204_fails_fast (R0 a iota : ℝ) (h : 50 / 11 < iota) (v : ℝ) (hv : calcIota (roundLine R0 a iota) = .ok v) : v < iota := by
  obtain ⟨m, hm, -, rfl⟩ := C203_form (roundLine R0 a iota) (by
    intro r hr
    rw [← roundLine_length R0 a iota iotaAngles r hr, iotaAngles_length]) v hv
  refine lt_of_le_of_lt ?_ h
  have : (11 : ℝ) ≤ m := by exact_mod_cast hm
  exact div_le_div_of_nonneg_left (by norm_num) (by norm_num) this

/-! ### The claims are not empty -/

/-- C203, C204: transform one half, a hundred points in a turn. -/
example : ∃ v, calcIota (roundLine 1 (1 / 10) (1 / 2)) = .ok v ∧ |1 / v - 1 / (1 / 2)| < 1 / 50 := by
  have far : ∀ (j : ℤ) (k : ℤ), |(j : ℝ) - k| ≠ 1 / 2 := by
    intro j k h
    have h' : ((2 * |j - k| : ℤ) : ℝ) = ((1 : ℤ) : ℝ) := by
      push_cast
      rw [h]
      norm_num
    have : 2 * |j - k| = 1 := by exact_mod_cast h'
    omega
  refine C204_partial 1 (1 / 10) (1 / 2) (by norm_num) (by norm_num) (by norm_num) (by norm_num) ?_ ?_
  · intro j
    have := far j 100
    norm_num at this ⊢
    exact this
  · intro j
    have := far j 200
    norm_num at this ⊢
    exact this

end Zoidberg
