import Verif.Model.Grid
import Mathlib.Data.List.GetD
import Mathlib.Tactic.FieldSimp
import Mathlib.Tactic.LinearCombination

/-! # C19-C26: grids -/

set_option linter.unusedSectionVars false

namespace Zoidberg

variable {K : Type} [Field K] [LinearOrder K] [IsStrictOrderedRing K] [FloorRing K]

/-! ## Auxiliary lemmas -/

theorem pyInt_intCast (n : ℤ) : pyInt (n : K) = n := by
  unfold pyInt; split <;> simp

theorem pyInt_natCast (n : ℕ) : pyInt (n : K) = n := by
  have := pyInt_intCast (K := K) (n : ℤ)
  simpa using this

/-- What a successful constructor call guarantees. -/
theorem Grid.init_many {G : Type} {size : G → ℕ × ℕ} {l : List G} {ys : List K} {Ly : K} {per : Bool}
    {g : Grid G K} (hg : Grid.init size (.many l) ys Ly per = .ok g) :
    g.polGrids = l ∧ g.ycoords = ys ∧ g.Ly = Ly ∧ g.yperiodic = per ∧ l.length = ys.length ∧
      0 < ys.length := by
  unfold Grid.init at hg
  simp only at hg
  split at hg
  · simp at hg
  · rename_i hl
    split at hg
    · simp at hg
    · rename_i p hp
      injection hg with hg
      subst hg
      have h0 : 0 < l.length := by
        by_contra h
        have : l.length = 0 := by omega
        rw [List.getElem?_eq_none (by omega)] at hp
        simp at hp
      refine ⟨rfl, rfl, rfl, rfl, ?_, ?_⟩ <;> omega

theorem Grid.at_lt {G : Type} (g : Grid G K) (hl : g.polGrids.length = g.ycoords.length) (i : ℕ)
    (hi : i < g.ycoords.length) :
    g.at (i : ℤ) = .ok (g.polGrids[i]'(by omega), g.ycoords[i]) := by
  have h1 : pyIndex g.polGrids.length (i : ℤ) = some i := by
    unfold pyIndex; rw [if_pos (by omega), if_pos (by omega)]; simp
  have h2 : pyIndex g.ycoords.length (i : ℤ) = some i := by
    unfold pyIndex; rw [if_pos (by omega), if_pos (by omega)]; simp
  unfold Grid.at
  rw [h1, h2]
  simp only [Option.bind_some]
  rw [List.getElem?_eq_getElem (by omega), List.getElem?_eq_getElem hi]

theorem Grid.getPoloidalGrid_int {G : Type} (g : Grid G K) (j : ℤ) :
    g.getPoloidalGrid (j : K) = g.getInt (j : K) := by
  unfold Grid.getPoloidalGrid
  rw [if_neg]
  rw [pyInt_intCast, sub_self, abs_zero, not_lt]
  positivity

theorem floor_div_ny (j : ℤ) (ny : ℕ) : ⌊(j : K) / (ny : K)⌋ = j / (ny : ℤ) := by
  have := Int.floor_div_natCast (j : K) ny
  rw [this]
  simp

/-- Closed form of the lookup at whole indices. -/
theorem Grid.getInt_periodic {G : Type} (g : Grid G K) (hl : g.polGrids.length = g.ycoords.length)
    (h0 : 0 < g.ycoords.length) (hp : g.yperiodic = true) (i : ℕ) (hi : i < g.ycoords.length)
    (k : ℤ) :
    g.getPoloidalGrid (((i : ℤ) + k * (g.ycoords.length : ℤ) : ℤ) : K) =
      .ok (some (g.polGrids[i]'(by omega)), g.ycoords[i] + (k : K) * g.Ly) := by
  rw [Grid.getPoloidalGrid_int]
  unfold Grid.getInt
  simp only [Grid.ny, hp, pyInt_intCast, floor_div_ny]
  have hn : (0 : ℤ) < (g.ycoords.length : ℤ) := by exact_mod_cast h0
  have hdiv : ((i : ℤ) + k * (g.ycoords.length : ℤ)) / (g.ycoords.length : ℤ) = k := by
    rw [Int.add_mul_ediv_right _ _ hn.ne', Int.ediv_eq_zero_of_lt (by omega) (by omega), zero_add]
  have hmod : pyMod ((i : ℤ) + k * (g.ycoords.length : ℤ)) (g.ycoords.length : ℤ) = (i : ℤ) := by
    unfold pyMod
    rw [Int.add_mul_emod_self_right, Int.emod_eq_of_lt (by omega) (by omega)]
  split
  · rename_i hr
    obtain ⟨a, b⟩ := hr
    have a' : 0 ≤ (i : ℤ) + k * (g.ycoords.length : ℤ) := by exact_mod_cast a
    have b' : (i : ℤ) + k * (g.ycoords.length : ℤ) < (g.ycoords.length : ℤ) := by exact_mod_cast b
    have hk : k = 0 := by
      have h1 : k * (g.ycoords.length : ℤ) < 1 * (g.ycoords.length : ℤ) := by omega
      have h2 : -1 * (g.ycoords.length : ℤ) < k * (g.ycoords.length : ℤ) := by omega
      have := lt_of_mul_lt_mul_right h1 hn.le
      have := lt_of_mul_lt_mul_right h2 hn.le
      omega
    subst hk
    rw [zero_mul, add_zero, Grid.at_lt g hl i hi]
    simp [Except.map]
  · rw [if_pos trivial, hmod, hdiv, Grid.at_lt g hl i hi]
    simp [Except.map]

/-! ## C19 -/

/-- C19: on a periodic grid index `i + k * ny` gives poloidal grid `i`, and its
y coordinate moved by `k` periods, for every integer `k`. -/
theorem C19_periodic_lookup {G : Type} (size : G → ℕ × ℕ) (l : List G) (ys : List K) (Ly : K)
    (g : Grid G K) (hg : Grid.init size (.many l) ys Ly true = .ok g) (i : ℕ) (hi : i < ys.length)
    (k : ℤ) :
    ∃ p, l[i]? = some p ∧
      g.getPoloidalGrid ((i : K) + (k : K) * (ys.length : K)) =
        .ok (some p, ys.getD i 0 + (k : K) * Ly) := by
  obtain ⟨rfl, rfl, rfl, hp, hl, h0⟩ := Grid.init_many hg
  refine ⟨g.polGrids[i]'(by omega), List.getElem?_eq_getElem _, ?_⟩
  have := Grid.getInt_periodic g hl h0 hp i hi k
  push_cast at this
  rw [this, List.getD_eq_getElem _ _ hi]

/-- The same, between any two integer indices that differ by `k` periods. -/
theorem C19_periodic_shift {G : Type} (size : G → ℕ × ℕ) (l : List G) (ys : List K) (Ly : K)
    (g : Grid G K) (hg : Grid.init size (.many l) ys Ly true = .ok g) (i k : ℤ) :
    ∃ p y, g.getPoloidalGrid (i : K) = .ok (some p, y) ∧
      g.getPoloidalGrid ((i : K) + (k : K) * (ys.length : K)) = .ok (some p, y + (k : K) * Ly) := by
  obtain ⟨_, _, _, _, _, h0⟩ := Grid.init_many hg
  have hn : (0 : ℤ) < (ys.length : ℤ) := by exact_mod_cast h0
  have hm0 := Int.emod_nonneg i hn.ne'
  have hm1 := Int.emod_lt_of_pos i hn
  obtain ⟨r, hr⟩ := Int.eq_ofNat_of_zero_le hm0
  have hi : i = (r : ℤ) + (i / (ys.length : ℤ)) * (ys.length : ℤ) := by
    have := Int.emod_add_mul_ediv i (ys.length : ℤ)
    rw [hr] at this
    rw [mul_comm (i / _)]; exact this.symm
  have hrl : r < ys.length := by omega
  obtain ⟨p, h1, h2⟩ := C19_periodic_lookup size l ys Ly g hg r hrl (i / (ys.length : ℤ))
  obtain ⟨p', h1', h2'⟩ := C19_periodic_lookup size l ys Ly g hg r hrl (i / (ys.length : ℤ) + k)
  have hpp : p = p' := by rw [h1] at h1'; exact Option.some.inj h1'
  subst hpp
  have hiK : (i : K) = (r : K) + ((i / (ys.length : ℤ) : ℤ) : K) * (ys.length : K) := by
    exact_mod_cast congrArg (Int.cast (R := K)) hi
  refine ⟨p, ys.getD r 0 + ((i / (ys.length : ℤ) : ℤ) : K) * Ly, ?_, ?_⟩
  · rw [hiK]; exact h2
  · have e : (i : K) + (k : K) * (ys.length : K) =
        (r : K) + ((i / (ys.length : ℤ) + k : ℤ) : K) * (ys.length : K) := by
      rw [hiK]; push_cast; ring
    rw [e, h2']
    congr 2
    push_cast; ring

/-- A periodic grid of three labelled slices. -/
def exGrid : Grid String ℚ := ⟨["a", "b", "c"], [0, 1, 3], 4, true, 5, 6⟩

theorem exGrid_init : Grid.init (fun _ => (5, 6)) (.many ["a", "b", "c"]) [0, 1, 3] 4 true =
    .ok exGrid := rfl

example : exGrid.getPoloidalGrid (-4) = .ok (some "c", -5) := by
  obtain ⟨p, h1, h2⟩ := C19_periodic_lookup _ _ _ _ _ exGrid_init 2 (by decide) (-2)
  have : p = "c" := by simpa using h1.symm
  subst this
  norm_num at h2
  exact h2

/-! ## C21 -/

/-- C21: lookup on a non-periodic grid. -/
theorem C21_ends {G : Type} (size : G → ℕ × ℕ) (l : List G) (ys : List K) (Ly : K)
    (g : Grid G K) (hg : Grid.init size (.many l) ys Ly false = .ok g) :
    (∀ i : ℕ, i < ys.length → ∃ p, l[i]? = some p ∧
      g.getPoloidalGrid (i : K) = .ok (some p, ys.getD i 0)) ∧
    (∀ i : ℤ, i < 0 → g.getPoloidalGrid (i : K) = .ok (none, 0)) ∧
    (∀ i : ℤ, (ys.length : ℤ) ≤ i → g.getPoloidalGrid (i : K) = .ok (none, Ly)) := by
  obtain ⟨rfl, rfl, rfl, hp, hl, h0⟩ := Grid.init_many hg
  refine ⟨?_, ?_, ?_⟩
  · intro i hi
    refine ⟨g.polGrids[i]'(by omega), List.getElem?_eq_getElem _, ?_⟩
    have := Grid.getPoloidalGrid_int g (i : ℤ)
    push_cast at this
    rw [this]
    unfold Grid.getInt
    simp only [Grid.ny, pyInt_natCast]
    rw [if_pos ⟨Nat.cast_nonneg i, by exact_mod_cast hi⟩, Grid.at_lt g hl i hi]
    simp [Except.map, hi]
  · intro i hi
    rw [Grid.getPoloidalGrid_int]
    unfold Grid.getInt
    have hi' : (i : K) < 0 := by exact_mod_cast hi
    simp only [hp]
    rw [if_neg (fun h => not_le.2 hi' h.1)]
    simp [hi']
  · intro i hi
    rw [Grid.getPoloidalGrid_int]
    unfold Grid.getInt
    have h1 : ((g.ycoords.length : ℕ) : K) ≤ (i : K) := by exact_mod_cast hi
    have h2 : ¬ (i : K) < 0 := not_lt.2 ((Nat.cast_nonneg _).trans h1)
    simp only [hp, Grid.ny]
    rw [if_neg (fun h => not_lt.2 h1 h.2)]
    simp [h2]

example : ∃ g : Grid String ℚ, Grid.init (fun _ => (5, 6)) (.many ["a", "b"]) [1, 3] 4 false = .ok g ∧
    g.getPoloidalGrid 1 = .ok (some "b", 3) ∧ g.getPoloidalGrid 2 = .ok (none, 4) := by
  refine ⟨_, rfl, ?_, ?_⟩
  · obtain ⟨p, h1, h2⟩ := (C21_ends (K := ℚ) (G := String) (fun _ => (5, 6)) ["a", "b"] [1, 3] 4 _
      rfl).1 1 (by decide)
    have : p = "b" := by simpa using h1.symm
    subst this
    simpa using h2
  · have := (C21_ends (K := ℚ) (G := String) (fun _ => (5, 6)) ["a", "b"] [1, 3] 4 _ rfl).2.2 2
      (by decide)
    simpa using this

/-! ## C20 -/

/-- y value of a lookup. -/
def Grid.HasY {G : Type} (g : Grid G K) (i : ℤ) (y : K) : Prop :=
  ∃ p, g.getPoloidalGrid (i : K) = .ok (p, y)

/-- C20: for non-decreasing coordinates that fit into a period (periodic) or into
`[0, Ly]` (not periodic) lookups exist at every integer and are ordered. -/
theorem C20_ordered {G : Type} (size : G → ℕ × ℕ) (l : List G) (ys : List K) (Ly : K) (per : Bool)
    (g : Grid G K) (hg : Grid.init size (.many l) ys Ly per = .ok g) (hmono : ys.Pairwise (· ≤ ·))
    (hper : per = true → ys.getD (ys.length - 1) 0 - ys.getD 0 0 ≤ Ly)
    (hnon : per = false → ∀ y ∈ ys, 0 ≤ y ∧ y ≤ Ly) (i : ℤ) :
    ∃ a b, g.HasY i a ∧ g.HasY (i + 1) b ∧ a ≤ b := by
  have hle : ∀ (a b : ℕ), a ≤ b → b < ys.length → ys.getD a 0 ≤ ys.getD b 0 := by
    intro a b hab hb
    rw [List.getD_eq_getElem _ _ (by omega), List.getD_eq_getElem _ _ hb]
    rcases Nat.eq_or_lt_of_le hab with rfl | hlt
    · exact le_refl _
    · exact List.pairwise_iff_getElem.1 hmono a b (by omega) hb hlt
  cases per with
  | true =>
    obtain ⟨_, _, _, _, _, h0⟩ := Grid.init_many hg
    have hn : (0 : ℤ) < (ys.length : ℤ) := by exact_mod_cast h0
    have val : ∀ (r : ℕ) (k : ℤ), r < ys.length →
        g.HasY ((r : ℤ) + k * (ys.length : ℤ)) (ys.getD r 0 + (k : K) * Ly) := by
      intro r k hr
      obtain ⟨p, _, h2⟩ := C19_periodic_lookup size l ys Ly g hg r hr k
      exact ⟨some p, by push_cast; exact h2⟩
    obtain ⟨r, hr⟩ := Int.eq_ofNat_of_zero_le (Int.emod_nonneg i hn.ne')
    have hm1 := Int.emod_lt_of_pos i hn
    have hi : i = (r : ℤ) + (i / (ys.length : ℤ)) * (ys.length : ℤ) := by
      have := Int.emod_add_mul_ediv i (ys.length : ℤ)
      rw [hr] at this
      rw [mul_comm (i / _)]; exact this.symm
    generalize i / (ys.length : ℤ) = k at hi
    have hrl : r < ys.length := by omega
    by_cases hlast : r + 1 < ys.length
    · refine ⟨_, ys.getD (r + 1) 0 + (k : K) * Ly, by rw [hi]; exact val r k hrl, ?_, ?_⟩
      · have e : i + 1 = ((r + 1 : ℕ) : ℤ) + k * (ys.length : ℤ) := by rw [hi]; push_cast; ring
        rw [e]; exact val (r + 1) k hlast
      · have := hle r (r + 1) (by omega) hlast
        linarith
    · have hr' : r = ys.length - 1 := by omega
      refine ⟨_, ys.getD 0 0 + ((k + 1 : ℤ) : K) * Ly, by rw [hi]; exact val r k hrl, ?_, ?_⟩
      · have e : i + 1 = ((0 : ℕ) : ℤ) + (k + 1) * (ys.length : ℤ) := by
          rw [hi]
          have : (r : ℤ) + 1 = (ys.length : ℤ) := by omega
          push_cast
          linarith
        rw [e]; exact val 0 (k + 1) h0
      · have := hper rfl
        rw [← hr'] at this
        push_cast
        linarith
  | false =>
    obtain ⟨c1, c2, c3⟩ := C21_ends size l ys Ly g hg
    have mem : ∀ r : ℕ, r < ys.length → 0 ≤ ys.getD r 0 ∧ ys.getD r 0 ≤ Ly := by
      intro r hr
      rw [List.getD_eq_getElem _ _ hr]
      exact hnon rfl _ (List.getElem_mem hr)
    have nat : ∀ r : ℕ, r < ys.length → g.HasY (r : ℤ) (ys.getD r 0) := by
      intro r hr
      obtain ⟨p, _, h2⟩ := c1 r hr
      exact ⟨some p, by push_cast; exact h2⟩
    obtain ⟨_, _, _, _, _, h0⟩ := Grid.init_many hg
    by_cases hneg : i < 0
    · by_cases h1 : i + 1 < 0
      · exact ⟨0, 0, ⟨none, c2 i hneg⟩, ⟨none, c2 _ h1⟩, le_refl _⟩
      · have : i + 1 = ((0 : ℕ) : ℤ) := by push_cast; omega
        exact ⟨0, _, ⟨none, c2 i hneg⟩, by rw [this]; exact nat 0 h0, (mem 0 h0).1⟩
    · obtain ⟨r, rfl⟩ := Int.eq_ofNat_of_zero_le (not_lt.1 hneg)
      by_cases hr : r < ys.length
      · by_cases hr1 : r + 1 < ys.length
        · exact ⟨_, _, nat r hr, nat (r + 1) hr1, hle r (r + 1) (by omega) hr1⟩
        · exact ⟨_, _, nat r hr, ⟨none, c3 _ (by omega)⟩, (mem r hr).2⟩
      · exact ⟨Ly, Ly, ⟨none, c3 _ (by omega)⟩, ⟨none, c3 _ (by omega)⟩, le_refl _⟩

example : ∃ a b, exGrid.HasY (-1) a ∧ exGrid.HasY (-1 + 1) b ∧ a ≤ b :=
  C20_ordered _ _ _ _ _ _ exGrid_init (by norm_num) (by norm_num) (by simp) (-1)

/-! ## C22 -/

/-- C22 as claimed: the y value at fraction `f` between neighbouring slices. -/
def C22Claim {G : Type} (g : Grid G K) (i : ℤ) (f : K) : Prop :=
  ∀ a b, g.HasY i a → g.HasY (i + 1) b →
    g.getPoloidalGrid ((i : K) + f) = .ok (none, a + f * (b - a))

/-- What the code returns: no grid, and the value at fraction `1 - f`. -/
theorem fractional_lookup {G : Type} (g : Grid G K) (i : ℤ) (f a b : K) (h1 : 1 / 10 ^ 6 < f)
    (h2 : f < 1 - 1 / 10 ^ 6) (ha : g.HasY i a) (hb : g.HasY (i + 1) b) :
    g.getPoloidalGrid ((i : K) + f) = .ok (none, a + (1 - f) * (b - a)) := by
  obtain ⟨p, ha⟩ := ha
  obtain ⟨q, hb⟩ := hb
  rw [Grid.getPoloidalGrid_int] at ha hb
  push_cast at hb
  have hsmall : (0 : K) < 1 / 10 ^ 6 := by positivity
  have hf0 : 0 < f := hsmall.trans h1
  have hf1 : f < 1 := by linarith
  have hfl : ⌊(i : K) + f⌋ = i := by
    rw [Int.floor_eq_iff]; constructor <;> linarith
  unfold Grid.getPoloidalGrid
  rw [if_pos]
  · simp only [hfl, ha, hb]
    congr 2
    ring
  · unfold pyInt
    split
    · rw [hfl, abs_sub_comm]
      have : (i : K) + f - (i : K) = f := by ring
      rw [this, abs_of_pos hf0]; exact h1
    · have hc : ⌈(i : K) + f⌉ = i + 1 := by
        rw [Int.ceil_eq_iff]; push_cast; constructor <;> linarith
      rw [hc]; push_cast
      have : (i : K) + 1 - (i + f) = 1 - f := by ring
      rw [this, abs_of_pos (by linarith)]; linarith

/-- C22, in part: half-way between slices (the only fraction `make_maps` uses).
Missing: other fractions, where it is false in general. -/
theorem C22_midpoint_partial {G : Type} (g : Grid G K) (i : ℤ) : C22Claim g i (1 / 2) := by
  intro a b ha hb
  rw [fractional_lookup g i _ a b (by norm_num) (by norm_num) ha hb]
  congr 2
  ring

/-- C22 holds at no other fraction between slices with different y. -/
theorem C22_fails_elsewhere {G : Type} (g : Grid G K) (i : ℤ) (f a b : K) (h1 : 1 / 10 ^ 6 < f)
    (h2 : f < 1 - 1 / 10 ^ 6) (ha : g.HasY i a) (hb : g.HasY (i + 1) b) (hab : a ≠ b)
    (hf : f ≠ 1 / 2) : ¬ C22Claim g i f := by
  intro h
  have e := (fractional_lookup g i f a b h1 h2 ha hb).symm.trans (h a b ha hb)
  injection e with e
  injection e with _ e
  have : (b - a) * (1 - 2 * f) = 0 := by linear_combination e
  rcases mul_eq_zero.1 this with h | h
  · exact hab (by linear_combination -h)
  · exact hf (by linear_combination -h / 2)

theorem exGrid_0 : exGrid.HasY 0 0 := by
  obtain ⟨p, _, h2⟩ := C19_periodic_lookup _ _ _ _ _ exGrid_init 0 (by decide) 0
  exact ⟨some p, by simpa using h2⟩

theorem exGrid_1 : exGrid.HasY (0 + 1) 1 := by
  obtain ⟨p, _, h2⟩ := C19_periodic_lookup _ _ _ _ _ exGrid_init 1 (by decide) 0
  exact ⟨some p, by simpa using h2⟩

example : exGrid.getPoloidalGrid (((0 : ℤ) : ℚ) + 1 / 2) = .ok (none, 1 / 2) := by
  rw [C22_midpoint_partial exGrid 0 0 1 exGrid_0 exGrid_1]; norm_num

example : ¬ C22Claim exGrid 0 (1 / 4) :=
  C22_fails_elsewhere exGrid 0 (1 / 4) 0 1 (by norm_num) (by norm_num) exGrid_0 exGrid_1 (by norm_num)
    (by norm_num)

end Zoidberg
