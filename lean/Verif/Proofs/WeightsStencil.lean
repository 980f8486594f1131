import Verif.Proofs.WeightsCsr
import Mathlib.Tactic.FieldSimp
import Mathlib.Algebra.Order.BigOperators.Group.List

/-! Catmull-Rom stencils of `weights.py`. -/

set_option linter.unusedSectionVars false

namespace Zoidberg.Weights

variable {K : Type} [Field K] [LinearOrder K] [IsStrictOrderedRing K] [FloorRing K]

theorem sum_catmullRom (u : K) : (catmullRom u).sum = 1 := by
  simp only [catmullRom, List.sum_cons, List.sum_nil]
  ring

theorem enumerate_xOffsets : enumerate xOffsets = [(0, -1), (1, 0), (2, 1), (3, 2)] := rfl

theorem moveWeight_up0 (a b c d : K) : moveWeight [a, b, c, d] ((0 : ℕ) + 1) 0 = .ok [0, b + a, c, d] := rfl
theorem moveWeight_down3 (a b c d : K) :
    moveWeight [a, b, c, d] ((3 : ℕ) - 1) 3 = .ok [a, b, c + d, 0] := rfl
theorem moveWeight_down2 (a b c d : K) :
    moveWeight [a, b, c, d] ((2 : ℕ) - 1) 2 = .ok [a, b + c, 0, d] := rfl

/-- First loop on a full stencil whose base lies in the evolving region. -/
theorem shiftLow4 (a b c d : K) (xb : ℤ) (mxg : ℕ) (hlo : (mxg : ℤ) ≤ xb) :
    shiftLow xb mxg (enumerate xOffsets) [a, b, c, d] =
      .ok (if xb = mxg then [0, b + a, c, d] else [a, b, c, d]) := by
  rw [enumerate_xOffsets]
  have h1 : ¬ (xb + 0 < (mxg : ℤ)) := by omega
  have h2 : ¬ (xb + 1 < (mxg : ℤ)) := by omega
  have h3 : ¬ (xb + 2 < (mxg : ℤ)) := by omega
  by_cases h : xb = mxg
  · have h0 : xb + -1 < (mxg : ℤ) := by omega
    simp only [shiftLow, h0, if_true, moveWeight_up0, h1, h2, h3, if_false, if_pos h]
  · have h0 : ¬ (xb + -1 < (mxg : ℤ)) := by omega
    simp only [shiftLow, h0, h1, h2, h3, if_false, h]

/-- Second loop. -/
theorem shiftHigh4 (a b c d : K) (xb : ℤ) (nx mxg : ℕ) (hhi : xb ≤ (nx : ℤ) - mxg - 1) :
    shiftHigh xb nx mxg (enumerate xOffsets).reverse [a, b, c, d] =
      .ok (if xb = (nx : ℤ) - mxg - 1 then [a, b + (c + d), 0, 0]
        else if xb = (nx : ℤ) - mxg - 2 then [a, b, c + d, 0] else [a, b, c, d]) := by
  rw [enumerate_xOffsets]
  simp only [List.reverse_cons, List.reverse_nil, List.nil_append, List.cons_append]
  have h1 : ¬ (xb + 0 ≥ (nx : ℤ) - mxg) := by omega
  have h2 : ¬ (xb + -1 ≥ (nx : ℤ) - mxg) := by omega
  by_cases h : xb = (nx : ℤ) - mxg - 1
  · have h3 : xb + 1 ≥ (nx : ℤ) - mxg := by omega
    have h4 : xb + 2 ≥ (nx : ℤ) - mxg := by omega
    simp only [shiftHigh, h1, h2, h3, h4, if_false, if_true, moveWeight_down3, moveWeight_down2,
      if_pos h]
  · have h3 : ¬ (xb + 1 ≥ (nx : ℤ) - mxg) := by omega
    by_cases h' : xb = (nx : ℤ) - mxg - 2
    · have h4 : xb + 2 ≥ (nx : ℤ) - mxg := by omega
      simp only [shiftHigh, h1, h2, h3, h4, if_false, if_true, moveWeight_down3, if_neg h,
        if_pos h']
    · have h4 : ¬ (xb + 2 ≥ (nx : ℤ) - mxg) := by omega
      simp only [shiftHigh, h1, h2, h3, h4, if_false, if_neg h, if_neg h']

/-- The adjusted weights. -/
def shifted (a b c d : K) (xb : ℤ) (nx mxg : ℕ) : List K :=
  let a' := if xb = mxg then 0 else a
  let b' := if xb = mxg then b + a else b
  if xb = (nx : ℤ) - mxg - 1 then [a', b' + (c + d), 0, 0]
  else if xb = (nx : ℤ) - mxg - 2 then [a', b', c + d, 0] else [a', b', c, d]

theorem sum_shifted (a b c d : K) (xb : ℤ) (nx mxg : ℕ) :
    (shifted a b c d xb nx mxg).sum = a + b + c + d := by
  unfold shifted
  by_cases h1 : xb = mxg
  · simp only [if_pos h1]
    split
    · simp only [List.sum_cons, List.sum_nil]; ring
    · split <;> (simp only [List.sum_cons, List.sum_nil]; ring)
  · simp only [if_neg h1]
    split
    · simp only [List.sum_cons, List.sum_nil]; ring
    · split <;> (simp only [List.sum_cons, List.sum_nil]; ring)

theorem shiftWeights4 (a b c d : K) (xb : ℤ) (nx mxg : ℕ) (hs : a + b + c + d = 1)
    (hlo : (mxg : ℤ) ≤ xb) (hhi : xb ≤ (nx : ℤ) - mxg - 1) :
    shiftWeights [a, b, c, d] xb xOffsets nx mxg = .ok (shifted a b c d xb nx mxg) := by
  have hsum := sum_shifted a b c d xb nx mxg
  rw [hs] at hsum
  have hpos : ¬ ((1 : K) / 10 ^ 8 ≤ |(shifted a b c d xb nx mxg).sum - 1|) := by
    rw [hsum]; simp
  unfold shiftWeights
  rw [shiftLow4 a b c d xb mxg hlo]
  have e : (if xb = (mxg : ℤ) then [0, b + a, c, d] else [a, b, c, d]) =
      [if xb = (mxg : ℤ) then 0 else a, if xb = (mxg : ℤ) then b + a else b, c, d] := by
    split <;> rfl
  simp only [bind, Except.bind]
  rw [e, shiftHigh4 _ _ _ _ xb nx mxg hhi]
  exact if_neg hpos

/-- Applying adjusted weights equals applying the original ones to the field
continued constantly across the edges. -/
theorem shifted_apply (a b c d : K) (xb : ℤ) (nx mxg : ℕ)
    (hlo : (mxg : ℤ) ≤ xb) (hhi : xb ≤ (nx : ℤ) - mxg - 1) (g : ℤ → K) :
    ((xOffsets.zip (shifted a b c d xb nx mxg)).map (fun p => p.2 * g (xb + p.1))).sum =
      let cl := fun x : ℤ => max (mxg : ℤ) (min x ((nx : ℤ) - mxg - 1))
      a * g (cl (xb + -1)) + b * g (cl (xb + 0)) + c * g (cl (xb + 1)) + d * g (cl (xb + 2)) := by
  have key : ∀ o : ℤ, mxg ≤ xb + o → xb + o ≤ nx - mxg - 1 →
      max (mxg : ℤ) (min (xb + o) ((nx : ℤ) - mxg - 1)) = xb + o := by intros; omega
  have key2 : ∀ o : ℤ, (nx : ℤ) - mxg - 1 ≤ xb + o →
      max (mxg : ℤ) (min (xb + o) ((nx : ℤ) - mxg - 1)) = (nx : ℤ) - mxg - 1 := by intros; omega
  have key3 : ∀ o : ℤ, xb + o ≤ mxg →
      max (mxg : ℤ) (min (xb + o) ((nx : ℤ) - mxg - 1)) = mxg := by intros; omega
  unfold shifted xOffsets
  by_cases h1 : xb = mxg
  · by_cases h2 : xb = (nx : ℤ) - mxg - 1
    · simp only [if_pos h1, if_pos h2, List.zip_cons_cons, List.map_cons, List.sum_cons,
        List.zip_nil_right, List.map_nil, List.sum_nil]
      rw [key3 (-1) (by omega), key 0 (by omega) (by omega), key2 1 (by omega), key2 2 (by omega),
        show xb + 0 = mxg by omega, show (nx : ℤ) - mxg - 1 = mxg by omega]
      ring
    · by_cases h3 : xb = (nx : ℤ) - mxg - 2
      · simp only [if_pos h1, if_neg h2, if_pos h3, List.zip_cons_cons, List.map_cons,
          List.sum_cons, List.zip_nil_right, List.map_nil, List.sum_nil]
        rw [key3 (-1) (by omega), key 0 (by omega) (by omega), key 1 (by omega) (by omega),
          key2 2 (by omega),
          show xb + 0 = mxg by omega, show (nx : ℤ) - mxg - 1 = xb + 1 by omega]
        ring
      · simp only [if_pos h1, if_neg h2, if_neg h3, List.zip_cons_cons, List.map_cons,
          List.sum_cons, List.zip_nil_right, List.map_nil, List.sum_nil]
        rw [key3 (-1) (by omega), key 0 (by omega) (by omega), key 1 (by omega) (by omega),
          key 2 (by omega) (by omega), show xb + 0 = mxg by omega]
        ring
  · by_cases h2 : xb = (nx : ℤ) - mxg - 1
    · simp only [if_neg h1, if_pos h2, List.zip_cons_cons, List.map_cons, List.sum_cons,
        List.zip_nil_right, List.map_nil, List.sum_nil]
      rw [key (-1) (by omega) (by omega), key 0 (by omega) (by omega), key2 1 (by omega),
        key2 2 (by omega), show (nx : ℤ) - mxg - 1 = xb + 0 by omega]
      ring
    · by_cases h3 : xb = (nx : ℤ) - mxg - 2
      · simp only [if_neg h1, if_neg h2, if_pos h3, List.zip_cons_cons, List.map_cons,
          List.sum_cons, List.zip_nil_right, List.map_nil, List.sum_nil]
        rw [key (-1) (by omega) (by omega), key 0 (by omega) (by omega),
          key 1 (by omega) (by omega), key2 2 (by omega),
          show (nx : ℤ) - mxg - 1 = xb + 1 by omega]
        ring
      · simp only [if_neg h1, if_neg h2, if_neg h3, List.zip_cons_cons, List.map_cons,
          List.sum_cons, List.zip_nil_right, List.map_nil, List.sum_nil]
        rw [key (-1) (by omega) (by omega), key 0 (by omega) (by omega),
          key 1 (by omega) (by omega), key 2 (by omega) (by omega)]
        ring

/-- A non-zero adjusted weight sits on an evolving row. -/
theorem shifted_support (a b c d : K) (xb : ℤ) (nx mxg : ℕ)
    (hlo : (mxg : ℤ) ≤ xb) (hhi : xb ≤ (nx : ℤ) - mxg - 1) (p : ℤ × K)
    (hp : p ∈ xOffsets.zip (shifted a b c d xb nx mxg)) (h0 : p.2 ≠ 0) :
    (mxg : ℤ) ≤ xb + p.1 ∧ xb + p.1 < (nx : ℤ) - mxg := by
  simp only [shifted, xOffsets] at hp
  split_ifs at hp <;>
    simp only [List.zip_cons_cons, List.zip_nil_right, List.mem_cons, List.not_mem_nil, or_false]
      at hp <;>
    (rcases hp with rfl | rfl | rfl | rfl <;>
      first | (exact absurd rfl h0) | (constructor <;> dsimp only <;> omega))

/-- Adjusted weights keep their length. -/
theorem length_shifted (a b c d : K) (xb : ℤ) (nx mxg : ℕ) :
    (shifted a b c d xb nx mxg).length = 4 := by
  unfold shifted
  simp only []
  split
  · rfl
  · split <;> rfl

end Zoidberg.Weights
