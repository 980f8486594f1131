import Verif.Model.Field
import Verif.Props.FieldTracer
import Mathlib.Analysis.Calculus.Deriv.Basic
import Mathlib.Analysis.Calculus.Deriv.Mul
import Mathlib.Analysis.Calculus.Deriv.Add
import Mathlib.Analysis.Calculus.MeanValue
import Mathlib.Tactic.FieldSimp

/-!
# C78, C81: `field_direction` and the field lines of the slabs
-/

set_option linter.unusedSectionVars false

namespace Zoidberg

variable {K : Type} [Field K] [LinearOrder K] [IsStrictOrderedRing K]

theorem pairsOf_interleave {α : Type} : ∀ l : List (α × α), pairsOf (interleave l) = l
  | [] => rfl
  | p :: l => by
    have := pairsOf_interleave l
    unfold interleave at this ⊢
    rw [List.flatMap_cons]
    simp only [List.cons_append, List.nil_append, pairsOf]
    rw [this]

theorem interleave_even {α : Type} (l : List (α × α)) : (interleave l).length % 2 = 0 := by
  rw [interleave_length]; omega

/-- What the statement says. -/
def DirectionRight (K : Type) [Field K] [LinearOrder K] : Prop :=
  ∀ (f : FieldFns K) (pts : List (K × K)) (y : K),
    ((∃ r, f.directionFlat (interleave pts) y = .ok r) ↔ ∀ p ∈ pts, 1 / 100000000 ≤ |f.By p.1 p.2 y|) ∧
    ∀ r, f.directionFlat (interleave pts) y = .ok r →
      r = interleave (pts.map fun p => (f.Rmaj p.1 p.2 y * f.Bx p.1 p.2 y / f.By p.1 p.2 y, f.Rmaj p.1 p.2 y * f.Bz p.1 p.2 y / f.By p.1 p.2 y))

theorem slope_eq (f : FieldFns K) (y : K) (p : K × K) :
    f.slope y p = (f.Rmaj p.1 p.2 y * f.Bx p.1 p.2 y / f.By p.1 p.2 y, f.Rmaj p.1 p.2 y * f.Bz p.1 p.2 y / f.By p.1 p.2 y) := by
  unfold FieldFns.slope
  ext <;> dsimp only <;> ring

theorem slopes_ok (f : FieldFns K) (y : K) (pts : List (K × K)) (hne : pts ≠ []) (h : ∀ p ∈ pts, 1 / 100000000 ≤ |f.By p.1 p.2 y|) :
    f.slopes y pts = .ok (pts.map fun p => (f.Rmaj p.1 p.2 y * f.Bx p.1 p.2 y / f.By p.1 p.2 y, f.Rmaj p.1 p.2 y * f.Bz p.1 p.2 y / f.By p.1 p.2 y)) := by
  unfold FieldFns.slopes
  rw [if_neg hne, if_neg]
  · congr 1
    exact List.map_congr_left fun p _ => slope_eq f y p
  · rw [List.any_eq_true]
    rintro ⟨p, hp, h2⟩
    exact absurd (of_decide_eq_true h2) (not_lt.2 (h p hp))

theorem slopes_of_ok (f : FieldFns K) (y : K) (pts : List (K × K)) (r : List (K × K)) (h : f.slopes y pts = .ok r) :
    pts ≠ [] ∧ ∀ p ∈ pts, 1 / 100000000 ≤ |f.By p.1 p.2 y| := by
  unfold FieldFns.slopes at h
  by_cases h1 : pts = []
  · rw [if_pos h1] at h; cases h
  · rw [if_neg h1] at h
    refine ⟨h1, fun p hp => ?_⟩
    by_contra hc
    rw [if_pos] at h
    · cases h
    · rw [List.any_eq_true]
      exact ⟨p, hp, decide_eq_true (not_le.1 hc)⟩

theorem directionFlat_interleave (f : FieldFns K) (pts : List (K × K)) (y : K) :
    f.directionFlat (interleave pts) y = (f.slopes y pts).map interleave := by
  unfold FieldFns.directionFlat
  rw [if_neg (by rw [interleave_even]; simp), pairsOf_interleave]

/-- **C78 (partial).** For at least one point.  Missing: no points (`C78_fails`). -/
theorem C78_direction_partial (f : FieldFns K) (pts : List (K × K)) (hne : pts ≠ []) (y : K) :
    ((∃ r, f.directionFlat (interleave pts) y = .ok r) ↔ ∀ p ∈ pts, 1 / 100000000 ≤ |f.By p.1 p.2 y|) ∧
    ∀ r, f.directionFlat (interleave pts) y = .ok r →
      r = interleave (pts.map fun p => (f.Rmaj p.1 p.2 y * f.Bx p.1 p.2 y / f.By p.1 p.2 y, f.Rmaj p.1 p.2 y * f.Bz p.1 p.2 y / f.By p.1 p.2 y)) := by
  rw [directionFlat_interleave]
  have key : ∀ r, (f.slopes y pts).map interleave = .ok r → ∀ p ∈ pts, 1 / 100000000 ≤ |f.By p.1 p.2 y| := by
    intro r h
    cases hs : f.slopes y pts with
    | error e => rw [hs] at h; cases h
    | ok s => exact (slopes_of_ok f y pts s hs).2
  refine ⟨⟨fun ⟨r, h⟩ => key r h, fun h => ?_⟩, fun r h => ?_⟩
  · rw [slopes_ok f y pts hne h]; exact ⟨_, rfl⟩
  · rw [slopes_ok f y pts hne (key r h)] at h
    exact (Except.ok.inj h).symm

/-- **C78.** Without `flatten` the same values come as two arrays, and the same positions are refused. -/
theorem C78_pair (f : FieldFns K) (x z : List K) (y : K) :
    f.directionFlat (interleave (x.zip z)) y = (f.direction x z y).map fun d => interleave (d.1.zip d.2) := by
  rw [directionFlat_interleave]
  unfold FieldFns.direction
  cases f.slopes y (x.zip z) with
  | error e => rfl
  | ok l =>
    simp only [Except.map]
    rw [← List.zip_of_prod rfl rfl]

/-- **C78.** An odd number of values is refused. -/
theorem C78_odd (f : FieldFns K) (pos : List K) (h : pos.length % 2 = 1) (y : K) : (f.directionFlat pos y).toBool = false := by
  unfold FieldFns.directionFlat
  rw [if_pos (by omega)]
  rfl

/-- **C78 (refutation).** For no points a `ValueError` is raised although there is no small `By`. -/
theorem C78_fails : ¬ DirectionRight ℚ := by
  intro h
  obtain ⟨r, hr⟩ := (h baseField [] 0).1.2 (by simp)
  cases hr

/-- Two points of a slab. -/
example : (slab (K := ℚ) 2 3 1 5).directionFlat [1, 7, 2, 8] 0 = .ok [0, 3 / 2, 0, 4] := by
  have := ((C78_direction_partial (slab (K := ℚ) 2 3 1 5) [(1, 7), (2, 8)] (by simp) 0).1.2 (by unfold slab; simp; norm_num))
  obtain ⟨r, hr⟩ := this
  have h2 := (C78_direction_partial (slab (K := ℚ) 2 3 1 5) [(1, 7), (2, 8)] (by simp) 0).2 r hr
  have h3 : interleave [((1 : ℚ), (7 : ℚ)), (2, 8)] = [1, 7, 2, 8] := rfl
  rw [h3] at hr
  rw [hr, h2]
  unfold interleave slab FieldFns.Rmaj
  norm_num

/-! ### Field lines -/

/-- A curve that follows the field for the values of `y` in `s`. -/
def FieldLineOn (f : FieldFns ℝ) (s : Set ℝ) (x z : ℝ → ℝ) : Prop :=
  ∀ y ∈ s, ∃ dx dz, f.directionFlat [x y, z y] y = .ok [dx, dz] ∧ HasDerivAt x dx y ∧ HasDerivAt z dz y

/-- At one point. -/
theorem direction_one (f : FieldFns ℝ) (x z y dx dz : ℝ) :
    f.directionFlat [x, z] y = .ok [dx, dz] ↔
      1 / 100000000 ≤ |f.By x z y| ∧ dx = f.Rmaj x z y * f.Bx x z y / f.By x z y ∧ dz = f.Rmaj x z y * f.Bz x z y / f.By x z y := by
  have e : [x, z] = interleave [(x, z)] := rfl
  rw [e]
  have h := C78_direction_partial f [(x, z)] (by simp) y
  constructor
  · intro h1
    have h2 := h.2 _ h1
    refine ⟨h.1.1 ⟨_, h1⟩ (x, z) (by simp), ?_⟩
    simpa [interleave] using h2
  · rintro ⟨h1, rfl, rfl⟩
    obtain ⟨r, hr⟩ := h.1.2 (by simpa using h1)
    rw [hr, h.2 r hr]
    simp [interleave]

theorem FieldLineOn.deriv {f : FieldFns ℝ} {s : Set ℝ} {x z : ℝ → ℝ} (h : FieldLineOn f s x z) {y : ℝ} (hy : y ∈ s) :
    1 / 100000000 ≤ |f.By (x y) (z y) y| ∧ HasDerivAt x (f.Rmaj (x y) (z y) y * f.Bx (x y) (z y) y / f.By (x y) (z y) y) y ∧
      HasDerivAt z (f.Rmaj (x y) (z y) y * f.Bz (x y) (z y) y / f.By (x y) (z y) y) y := by
  obtain ⟨dx, dz, h1, h2, h3⟩ := h y hy
  obtain ⟨h4, rfl, rfl⟩ := (direction_one _ _ _ _ _ _).1 h1
  exact ⟨h4, h2, h3⟩

/-- A function with the derivative zero in an interval has one value there. -/
theorem const_on_Icc {g : ℝ → ℝ} {a b : ℝ} (h : ∀ y ∈ Set.Icc a b, HasDerivAt g 0 y) : ∀ y ∈ Set.Icc a b, g y = g a := by
  refine constant_of_has_deriv_right_zero (fun y hy => (h y hy).continuousAt.continuousWithinAt) fun y hy => ?_
  exact (h y ⟨hy.1, hy.2.le⟩).hasDerivWithinAt

/-- A field line of a field with a constant slope of `z`, and none of `x`. -/
theorem straight_line {x z : ℝ → ℝ} {a b : ℝ} (m : ℝ → ℝ) (hx : ∀ y ∈ Set.Icc a b, HasDerivAt x 0 y)
    (hz : ∀ y ∈ Set.Icc a b, HasDerivAt z (m (x y)) y) : ∀ y ∈ Set.Icc a b, x y = x a ∧ z y = z a + m (x a) * (y - a) := by
  intro y hy
  refine ⟨const_on_Icc hx y hy, ?_⟩
  have h1 := const_on_Icc (g := fun t => z t - m (x a) * (t - a)) (a := a) (b := b) (fun t ht => by
    have h2 := hz t ht
    rw [const_on_Icc hx t ht] at h2
    have h3 : HasDerivAt (fun t : ℝ => m (x a) * (t - a)) (m (x a) * 1) t := ((hasDerivAt_id t).sub_const a).const_mul _
    have h4 := h2.sub h3
    rw [mul_one, sub_self] at h4
    exact h4) y hy
  rw [sub_self, mul_zero, sub_zero] at h1
  linarith

/-- **C81.** Every field line of a slab is straight, with this slope. -/
theorem C81_slab (By Bz xc Bp a b : ℝ) (x z : ℝ → ℝ) (h : FieldLineOn (slab By Bz xc Bp) (Set.Icc a b) x z) :
    ∀ y ∈ Set.Icc a b, x y = x a ∧ z y = z a + (Bz + (x a - xc) * Bp) / By * (y - a) := by
  refine straight_line (fun t => (Bz + (t - xc) * Bp) / By) (fun y hy => ?_) fun y hy => ?_
  · simpa [slab, FieldFns.Rmaj] using (h.deriv hy).2.1
  · simpa [slab, FieldFns.Rmaj] using (h.deriv hy).2.2

/-- **C81.** That line is a field line if `By` is not refused. -/
theorem C81_slab_exists (By Bz xc Bp a x0 z0 : ℝ) (hB : 1 / 100000000 ≤ |By|) :
    FieldLineOn (slab By Bz xc Bp) Set.univ (fun _ => x0) fun y => z0 + (Bz + (x0 - xc) * Bp) / By * (y - a) := by
  intro y _
  refine ⟨_, _, (direction_one _ _ _ _ _ _).2 ⟨hB, rfl, rfl⟩, ?_, ?_⟩
  · simpa [slab, FieldFns.Rmaj] using hasDerivAt_const y x0
  · have h3 : HasDerivAt (fun t : ℝ => (Bz + (x0 - xc) * Bp) / By * (t - a)) ((Bz + (x0 - xc) * Bp) / By * 1) y :=
      ((hasDerivAt_id y).sub_const a).const_mul _
    simpa [slab, FieldFns.Rmaj] using h3.const_add z0

/-- **C81.** The field lines of a curved slab. -/
theorem C81_curved (By Bz xc Bp Rmaj a b : ℝ) (x z : ℝ → ℝ) (h : FieldLineOn (curvedSlab By Bz xc Bp Rmaj) (Set.Icc a b) x z) :
    ∀ y ∈ Set.Icc a b, x y = x a ∧ z y = z a + Rmaj * (Bz + (x a - xc) * Bp) / By * (y - a) := by
  refine straight_line (fun t => Rmaj * (Bz + (t - xc) * Bp) / By) (fun y hy => ?_) fun y hy => ?_
  · simpa [curvedSlab, FieldFns.Rmaj] using (h.deriv hy).2.1
  · simpa [curvedSlab, FieldFns.Rmaj] using (h.deriv hy).2.2

example : FieldLineOn (slab 2 3 1 5) (Set.Icc 0 1) (fun _ => 4) fun y => 7 + (3 + (4 - 1) * 5) / 2 * (y - 0) := fun y _ =>
  C81_slab_exists 2 3 1 5 0 4 7 (by norm_num) y (Set.mem_univ y)

end Zoidberg
