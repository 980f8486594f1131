import Verif.Model.Diff
import Mathlib.Analysis.SpecialFunctions.Log.Basic
import Mathlib.Analysis.SpecialFunctions.Trigonometric.Basic

/-!
# Model of `/repo/zoidberg/test_diff.py`: what the tests of `diff.py` find out

The printed lines and the plot are not modelled.  `log(a / 0)` is not a number near a positive order in numpy, and neither is it here (`log 0 = 0`).
-/

namespace Zoidberg

/-- `l2` (test_diff.py:6-7). -/
noncomputable def rms (f : List ℝ) : ℝ := Real.sqrt ((f.map fun a => a ^ 2).sum / f.length)

/-- `x` (test_diff.py:15): `np.linspace(0, xmax, nx, endpoint=False)`. -/
noncomputable def testPoints (xmax : ℝ) (nx : ℕ) : List ℝ := (List.range nx).map fun j : ℕ => (j : ℝ) * (xmax / nx)

/-- `err` (test_diff.py:16). -/
noncomputable def testErr (op : List ℝ → List ℝ) (inp ana : ℝ → ℝ) (xmax : ℝ) (nx : ℕ) : List ℝ :=
  List.zipWith (fun a b => a * nx / xmax - b) (op ((testPoints xmax nx).map inp)) ((testPoints xmax nx).map ana)

/-- A slice `slice(start, stop)` of a list; `none` is `None`, and negative numbers count from the end (test_diff.py:55, 73). -/
def testSlice {α : Type} (s : Option ℤ × Option ℤ) (l : List α) : List α :=
  let at' := fun i : ℤ => (if i < 0 then (l.length : ℤ) + i else i).toNat
  (l.take ((s.2.map at').getD l.length)).drop ((s.1.map at').getD 0)

/-- `mms` (test_diff.py:10-25): the errors of two grids for each slice. -/
noncomputable def testMms (op : List ℝ → List ℝ) (inp ana : ℝ → ℝ) (xmax : ℝ) (slices : List (Option ℤ × Option ℤ)) : List (ℝ × ℝ) :=
  slices.map fun s => (rms (testSlice s (testErr op inp ana xmax 64)), rms (testSlice s (testErr op inp ana xmax 128)))

/-- `check_l2s` (test_diff.py:28-40): every order is within the tolerances of `np.isclose`. -/
def checkL2s (l2s : List (ℝ × ℝ)) (exps : List ℝ) : Prop :=
  ∀ p ∈ l2s.zip exps, |Real.log (p.1.1 / p.1.2) / Real.log 2 - p.2| ≤ 0.25 + 1e-5 * |p.2|

/-- The slices of `test_diff_c2_np` (test_diff.py:55). -/
def c2Slices : List (Option ℤ × Option ℤ) := [(some 0, some 1), (some 1, some (-1)), (none, some (-1))]

/-- The slices of `test_diff_c4_np` (test_diff.py:73). -/
def c4Slices : List (Option ℤ × Option ℤ) := [(some 0, some 2), (some 2, some (-2)), (none, some (-2))]

/-- `test_diff_c2_np` (test_diff.py:49-58) for any difference operator. -/
def c2TestPasses (op : List ℝ → List ℝ) : Prop := checkL2s (testMms op Real.sin Real.cos 1 c2Slices) [2, 2, 2]

/-- The first half of `test_diff_c4_np` (test_diff.py:67-76). -/
def c4TestPasses (op : List ℝ → List ℝ) : Prop := checkL2s (testMms op Real.sin Real.cos 1 c4Slices) [4, 4, 4]

/-- `test_diff_c2_per` (test_diff.py:43-46) for any difference operator. -/
def c2PerTestPasses (op : List ℝ → List ℝ) : Prop := checkL2s (testMms op Real.sin Real.cos (2 * Real.pi) [(none, none)]) [2]

/-- `test_diff_c4_per` (test_diff.py:61-64) for any difference operator. -/
def c4PerTestPasses (op : List ℝ → List ℝ) : Prop := checkL2s (testMms op Real.sin Real.cos (2 * Real.pi) [(none, none)]) [4]

end Zoidberg
