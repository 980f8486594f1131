import Verif.Prelude.Numpy
import Mathlib.Analysis.SpecialFunctions.Trigonometric.Basic

/-!
# spectralline.py

Numbers are real.  `scipy.optimize.least_squares` is a parameter, which gets the residual as a function.
-/

namespace Zoidberg

/-- The sum over the modes (spectralline.py:15-18): `i` is the number of the first mode of the list.  `zip` drops a sine without a cosine. -/
noncomputable def fftModes (t : ℝ) : ℕ → List ℝ → ℝ
  | i, s :: c :: l => Real.sin ((i : ℝ) * t) * s + Real.cos ((i : ℝ) * t) * c + fftModes t (i + 1) l
  | _, _ => 0

/-- `_fft` (spectralline.py:13-19) at one angle.  `args[0]` of nothing raises an `IndexError`. -/
noncomputable def fftLine (args : List ℝ) (t : ℝ) : Except Err ℝ :=
  match args with
  | [] => .error (.index "index 0 is out of bounds")
  | a :: l => .ok (a + fftModes t 1 l)

/-- The angles of `_err` (spectralline.py:23). -/
noncomputable def errAngles (n : ℕ) : List ℝ := linspaceOpen (-Real.pi) Real.pi n

/-- `_err` (spectralline.py:22-24).  The argument `freq` is overwritten. -/
noncomputable def specErr (args data _freq : List ℝ) : Except Err (List ℝ) :=
  ((errAngles data.length).zip data).mapM fun p => (fftLine args p.1).map fun v => v - p.2

/-- The angles from the distances along the line (spectralline.py:39-40). -/
noncomputable def specFreq (dist : List ℝ) : List ℝ := dist.dropLast.map fun d => d * Real.pi * 2 / dist.getLastD 0

/-- The minimiser: coefficients and cost, from the residual and the first guess (spectralline.py:42-43). -/
abbrev LeastSquares := (List ℝ → Except Err (List ℝ)) → List ℝ → Except Err (List ℝ × ℝ)

/-- A `SpectralLine` (spectralline.py:32-46). -/
structure SpecLine where
  xR : List ℝ
  xZ : List ℝ
  cost : ℝ
  n : ℕ

/-- `SpectralLine.__init__` (spectralline.py:32-46); `dist` is `line.distance()`. -/
noncomputable def specInit (ls : LeastSquares) (R Z dist : List ℝ) (num : ℕ) : Except Err SpecLine :=
  (ls (fun x => specErr x R (specFreq dist)) (List.replicate (2 * num + 1) 0)).bind fun r =>
    (ls (fun x => specErr x Z (specFreq dist)) (List.replicate (2 * num + 1) 0)).map fun z =>
      ⟨r.1, z.1, r.2 + z.2, R.length⟩

/-- `equallySpaced` (spectralline.py:54-56): the points that are handed to `RZline`.  `num` of zero is as good as none.
Without any mode `_fft` returns one number instead of an array, and `RZline` raises a `TypeError`. -/
noncomputable def specSpaced (s : SpecLine) (num : Option ℕ) : Except Err (List (ℝ × ℝ)) :=
  let n := match num with
    | none => s.n
    | some k => if k = 0 then s.n else k
  if s.xR.length < 3 ∨ s.xZ.length < 3 then .error (.type "len() of unsized object")
  else (linspaceClosed 0 (Real.pi * 2) n).mapM fun t => (fftLine s.xR t).bind fun r => (fftLine s.xZ t).map fun z => (r, z)

end Zoidberg
