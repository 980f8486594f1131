import Verif.Props.Field
import Mathlib.Tactic.FieldSimp

/-!
# C240: the direction of the field and its strength
-/

set_option linter.unusedSectionVars false

namespace Zoidberg

variable {K : Type} [Field K] [LinearOrder K] [IsStrictOrderedRing K]

/-- The field `g B`: another strength, the same lines. -/
def FieldFns.scale (f : FieldFns K) (g : K → K → K → K) : FieldFns K :=
  ⟨fun x z y => g x z y * f.Bx x z y, fun x z y => g x z y * f.By x z y, fun x z y => g x z y * f.Bz x z y, f.R⟩

theorem slope_scale (f : FieldFns K) (g : K → K → K → K) (y : K) (p : K × K) (h : g p.1 p.2 y ≠ 0) : (f.scale g).slope y p = f.slope y p := by
  change (f.Rmaj p.1 p.2 y / (g p.1 p.2 y * f.By p.1 p.2 y) * (g p.1 p.2 y * f.Bx p.1 p.2 y),
    f.Rmaj p.1 p.2 y / (g p.1 p.2 y * f.By p.1 p.2 y) * (g p.1 p.2 y * f.Bz p.1 p.2 y)) =
    (f.Rmaj p.1 p.2 y / f.By p.1 p.2 y * f.Bx p.1 p.2 y, f.Rmaj p.1 p.2 y / f.By p.1 p.2 y * f.Bz p.1 p.2 y)
  by_cases hb : f.By p.1 p.2 y = 0
  · simp [hb]
  · ext <;> · dsimp only; field_simp

/-- **C240 (partial).** Where both fields are strong enough for `field_direction`, the directions of `B` and `g B` are the same.  Missing: `B` or `g B`
weaker than `1e-8` (`C240_fails`). -/
theorem C240_scale_partial (f : FieldFns K) (g : K → K → K → K) (y : K) (pos : List K)
    (h : ∀ p ∈ pairsOf pos, 1 / 100000000 ≤ |f.By p.1 p.2 y| ∧ 1 / 100000000 ≤ |g p.1 p.2 y * f.By p.1 p.2 y|) :
    (f.scale g).directionFlat pos y = f.directionFlat pos y := by
  have h0 : (0 : K) < 1 / 100000000 := by norm_num
  have hs : (f.scale g).slopes y (pairsOf pos) = f.slopes y (pairsOf pos) := by
    by_cases hne : pairsOf pos = []
    · unfold FieldFns.slopes
      rw [if_pos hne, if_pos hne]
    · rw [slopes_ok f y _ hne fun p hp => (h p hp).1, slopes_ok (f.scale g) y _ hne fun p hp => (h p hp).2]
      congr 1
      refine List.map_congr_left ?_
      intro p hp
      rw [← slope_eq, ← slope_eq]
      refine slope_scale f g y p ?_
      intro h2
      have := (h p hp).2
      rw [h2, zero_mul, abs_zero] at this
      exact absurd this (not_le.2 h0)
  unfold FieldFns.directionFlat
  rw [hs]

/-- **C240, two answers.** Whenever `field_direction` returns for `B` and for `g B`, it returns the same, with and without `flatten`. -/
theorem C240_same (f : FieldFns K) (g : K → K → K → K) (y : K) {pts : List (K × K)} {r r' : List (K × K)} (h : f.slopes y pts = .ok r)
    (h' : (f.scale g).slopes y pts = .ok r') : r' = r := by
  have h0 : (0 : K) < 1 / 100000000 := by norm_num
  obtain ⟨hne, b1⟩ := slopes_of_ok f y pts r h
  obtain ⟨_, b2⟩ := slopes_of_ok (f.scale g) y pts r' h'
  have e1 := slopes_ok f y pts hne b1
  have e2 := slopes_ok (f.scale g) y pts hne b2
  rw [h, Except.ok.injEq] at e1
  rw [h', Except.ok.injEq] at e2
  rw [e1, e2]
  refine List.map_congr_left ?_
  intro p hp
  rw [← slope_eq, ← slope_eq]
  refine slope_scale f g y p ?_
  intro h2
  have h3 := b2 p hp
  change 1 / 100000000 ≤ |g p.1 p.2 y * f.By p.1 p.2 y| at h3
  rw [h2, zero_mul, abs_zero] at h3
  exact absurd h3 (not_le.2 h0)

/-- **C240, the direction of the field.** `-B` has the directions of `B` everywhere, and is refused at the same positions. -/
theorem C240_reverse (f : FieldFns K) (y : K) (pts : List (K × K)) : (f.scale fun _ _ _ => -1).slopes y pts = f.slopes y pts := by
  unfold FieldFns.slopes
  have h1 : (fun p : K × K => decide (|(f.scale fun _ _ _ => -1).By p.1 p.2 y| < 1 / 100000000)) = fun p => decide (|f.By p.1 p.2 y| < 1 / 100000000) := by
    funext p
    simp only [FieldFns.scale, neg_mul, one_mul, abs_neg]
  rw [h1]
  have h2 : (f.scale fun _ _ _ => -1).slope y = f.slope y := by
    funext p
    exact slope_scale f _ y p (by norm_num)
  rw [h2]

/-- **C240 does not hold in full.** Every field has a weaker one, with the same lines, for which `field_direction` raises an exception: the bound
`1e-8` is in the units of the field. -/
theorem C240_fails (f : FieldFns K) (y : K) (pts : List (K × K)) (hne : pts ≠ []) :
    ∃ c : K, 0 < c ∧ (f.scale fun _ _ _ => c).slopes y pts = .error (.value "Small By") := by
  obtain ⟨p, hp⟩ := List.exists_mem_of_ne_nil pts hne
  have h1 : (0 : K) < 1 + |f.By p.1 p.2 y| := by
    have := abs_nonneg (f.By p.1 p.2 y)
    linarith
  refine ⟨1 / 100000000 / (1 + |f.By p.1 p.2 y|), by positivity, ?_⟩
  unfold FieldFns.slopes
  rw [if_neg hne, if_pos]
  rw [List.any_eq_true]
  refine ⟨p, hp, decide_eq_true ?_⟩
  change |1 / 100000000 / (1 + |f.By p.1 p.2 y|) * f.By p.1 p.2 y| < 1 / 100000000
  rw [abs_mul, abs_of_pos (by positivity), div_mul_eq_mul_div, div_lt_iff₀ h1]
  have : (0 : K) < 1 / 100000000 := by norm_num
  nlinarith

/-- A field of 2 and one of 6 in the direction of `y`. -/
example : ((slab (2 : ℚ) 1 0 1).scale fun _ _ _ => 3).directionFlat [1, 0, 2, 5] 0 = (slab (2 : ℚ) 1 0 1).directionFlat [1, 0, 2, 5] 0 := by
  refine C240_scale_partial _ _ _ _ ?_
  intro p _
  constructor <;> simp only [slab] <;> norm_num [abs_of_pos]

example : (slab (2 : ℚ) 1 0 1).slopes 0 [(1, 0), (2, 5)] = .ok [(0, 1), (0, 3 / 2)] := by
  rw [slopes_ok _ _ _ (by simp) (by intro p _; simp only [slab]; norm_num [abs_of_pos])]
  simp [slab, FieldFns.Rmaj]
  norm_num

end Zoidberg
