import Verif.Spec.Weights

/-! A concrete map dictionary, used to show that the hypotheses of the theorems
about `weights.py` can be met: 6 x 2 x 3 cells, one guard cell, two sub-samples,
some of which escape. -/

namespace Zoidberg.Weights

/-- Forward lines drift outwards, backward lines inwards. -/
def exIn : Input ℚ where
  nx := 6
  ny := 2
  nz := 3
  mxg := 1
  n := 2
  fx := fun c s => (c.1 : ℚ) + (if s = 0 then 1 / 2 else 5 / 4)
  fz := fun c s => (c.2.2 : ℚ) + (if s = 0 then 1 / 3 else 2 / 3)
  bx := fun c s => (c.1 : ℚ) - (if s = 0 then 1 / 2 else 5 / 4)
  bz := fun c _ => (c.2.2 : ℚ) + 7 / 8
  w := [1 / 4, 3 / 4]

/-- A dictionary holding `exIn`. -/
def exMaps : MapDict ℚ := fun k =>
  if k = "R" then some (.arr3 6 2 3 fun c => (c.1 : ℚ))
  else if k = "MXG" then some (.nat 1)
  else if k = "forward_xt_primes" then some (.arr4 6 2 3 2 exIn.fx)
  else if k = "forward_zt_primes" then some (.arr4 6 2 3 2 exIn.fz)
  else if k = "backward_xt_primes" then some (.arr4 6 2 3 2 exIn.bx)
  else if k = "backward_zt_primes" then some (.arr4 6 2 3 2 exIn.bz)
  else if k = "forward_xt_prime" then some (.arr3 6 2 3 fun c => (c.1 : ℚ) + 7 / 8)
  else if k = "forward_zt_prime" then some (.arr3 6 2 3 fun c => (c.2.2 : ℚ))
  else if k = "backward_xt_prime" then some (.arr3 6 2 3 fun c => (c.1 : ℚ) - 7 / 8)
  else if k = "backward_zt_prime" then some (.arr3 6 2 3 fun c => (c.2.2 : ℚ))
  else if k = "subcell_weights" then some (.vec [1 / 4, 3 / 4])
  else none

theorem exMaps_represents : Represents exMaps exIn where
  shape := ⟨_, rfl⟩
  mxg := rfl
  fx := Or.inl rfl
  fz := Or.inl rfl
  bx := Or.inl rfl
  bz := Or.inl rfl
  w := Or.inl rfl

theorem exIn_goodWeights : exIn.GoodWeights where
  len := rfl
  sum := by norm_num [exIn]
  pos := by
    intro v hv
    simp only [exIn, List.mem_cons, List.not_mem_nil, or_false] at hv
    rcases hv with rfl | rfl <;> norm_num

theorem exIn_guards : 2 * exIn.mxg ≤ exIn.nx := by decide

/-- In the example the forward legs of cell `(3, 0, 0)` are split. -/
theorem exIn_split : exIn.Interior (3, 0, 0) ∧ exIn.SomeEscape true (3, 0, 0) ∧
    exIn.SomeStay true (3, 0, 0) := by
  refine ⟨by simp [Input.Interior, exIn], ⟨1, by decide, ?_⟩, ⟨0, by decide, ?_⟩⟩
  · norm_num [Input.Escapes, Input.xs, exIn]
  · norm_num [Input.Escapes, Input.xs, exIn]

end Zoidberg.Weights
