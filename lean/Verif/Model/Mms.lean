import Verif.Prelude.Basic
import Mathlib.LinearAlgebra.Matrix.Adjugate
import Mathlib.Analysis.SpecialFunctions.Log.Basic
import Mathlib.Analysis.Real.Pi.Bounds

/-!
# Model of the convergence tests (`/repo/test/mms`)

`mms-fci.py`: `fixup`, which smooths the metric of a grid file, and the angles of `test`; `mms_helper.py`: what `do_tests` makes of the errors.  The operators themselves are those of
BOUT++ and not modelled.
-/

namespace Zoidberg

section
variable {K : Type} [Field K] [LinearOrder K]

/-- `np.roll(p, 1, axis=2)` and `np.roll(p, 1, axis=1)` take the value from here (mms-fci.py:26). -/
def rollPrev (n i : ℕ) : ℕ := (i + (n - 1)) % n

/-- `np.roll(p, -1, axis=2)` and `np.roll(p, -1, axis=1)` take the value from here (mms-fci.py:26). -/
def rollNext (n i : ℕ) : ℕ := (i + 1) % n

/-- `diff2(g, 2)` (mms-fci.py:24-26) for an array with one matrix per cell. -/
def diff2Z (nz : ℕ) (g : Cell → Matrix (Fin 3) (Fin 3) K) : Cell → Matrix (Fin 3) (Fin 3) K := fun c =>
  (1 / 2 : K) • ((2 : K) • g c - g (c.1, c.2.1, rollPrev nz c.2.2) - g (c.1, c.2.1, rollNext nz c.2.2))

/-- `diff2(g, 1)` (mms-fci.py:24-26) for an array with one matrix per cell. -/
def diff2Y (ny : ℕ) (g : Cell → Matrix (Fin 3) (Fin 3) K) : Cell → Matrix (Fin 3) (Fin 3) K := fun c =>
  (1 / 2 : K) • ((2 : K) • g c - g (c.1, rollPrev ny c.2.1, c.2.2) - g (c.1, rollNext ny c.2.1, c.2.2))

/-- `np.all(np.linalg.det(g) > 0)` (mms-fci.py:56, 60, 64). -/
def detsPos (nx ny nz : ℕ) (g : Cell → Matrix (Fin 3) (Fin 3) K) : Bool := (loop3 0 nx ny nz).all fun c => decide (0 < (g c).det)

/-- `d` of one pass (mms-fci.py:58). -/
def fixD (ny nz : ℕ) (g : Cell → Matrix (Fin 3) (Fin 3) K) : Cell → Matrix (Fin 3) (Fin 3) K := fun c => diff2Z nz g c + diff2Y ny g c

/-- `fac` of one pass (mms-fci.py:59-61). -/
def fixFac (nx ny nz : ℕ) (g : Cell → Matrix (Fin 3) (Fin 3) K) : K :=
  if detsPos nx ny nz (fun c => g c - (1 / 10 : K) • fixD ny nz g c) then 10 else 10 * 2

/-- One pass of the loop (mms-fci.py:57-63); what is printed is left out. -/
def fixPass (nx ny nz : ℕ) (g : Cell → Matrix (Fin 3) (Fin 3) K) : Cell → Matrix (Fin 3) (Fin 3) K := fun c =>
  g c - (1 / fixFac nx ny nz g) • fixD ny nz g c

/-- `for _ in range(n)` (mms-fci.py:57-63). -/
def fixPasses (nx ny nz : ℕ) : ℕ → (Cell → Matrix (Fin 3) (Fin 3) K) → Cell → Matrix (Fin 3) (Fin 3) K
  | 0, g => g
  | n + 1, g => fixPasses nx ny nz n (fixPass nx ny nz g)

/-- `f"g{i + 1}{j + 1}"` (mms-fci.py:50, 75). -/
def fixName (i j : Fin 3) : String :=
  match i, j with
  | 0, 0 => "g11" | 0, 1 => "g12" | 0, 2 => "g13"
  | 1, 0 => "g21" | 1, 1 => "g22" | 1, 2 => "g23"
  | 2, 0 => "g31" | 2, 1 => "g32" | 2, 2 => "g33"

/-- `f"g_{i + 1}{j + 1}"` (mms-fci.py:75). -/
def fixName_ (i j : Fin 3) : String :=
  match i, j with
  | 0, 0 => "g_11" | 0, 1 => "g_12" | 0, 2 => "g_13"
  | 1, 0 => "g_21" | 1, 1 => "g_22" | 1, 2 => "g_23"
  | 2, 0 => "g_31" | 2, 1 => "g_32" | 2, 2 => "g_33"

/-- `g[i, j]` (mms-fci.py:47-55): the variable of the file, or zeros. -/
def fixInput (file : Dict (Cell → K)) : Cell → Matrix (Fin 3) (Fin 3) K := fun c i j =>
  match file (fixName i j) with
  | some a => a c
  | none => 0

/-- `np.linalg.inv(g)` (mms-fci.py:65). -/
def fixInv (g : Cell → Matrix (Fin 3) (Fin 3) K) : Cell → Matrix (Fin 3) (Fin 3) K := fun c => (1 / (g c).det) • (g c).adjugate

/-- The pairs `i, j` of mms-fci.py:73-74. -/
def fixPairs : List (Fin 3 × Fin 3) := [(0, 0), (0, 1), (0, 2), (1, 0), (1, 1), (1, 2), (2, 0), (2, 1), (2, 2)]

/-- The variables are put into the file (mms-fci.py:73-76): for each pair first `g_11`, ..., then `g11`, .... -/
def fixStore (g : Cell → Matrix (Fin 3) (Fin 3) K) (file : Dict (Cell → K)) : Dict (Cell → K) :=
  fixPairs.foldl (fun f p => (f.set (fixName_ p.1 p.2) fun c => fixInv g c p.1 p.2).set (fixName p.1 p.2) fun c => g c p.1 p.2) file

/-- `fixup` (mms-fci.py:33-88): the new file.  All variables are taken to have the shape `(nx, ny, nz)`; `dxn`, `dzn` and `dy` are not used. -/
def mmsFixup (nx ny nz : ℕ) (file : Dict (Cell → K)) : Except Err (Dict (Cell → K)) :=
  match file "R", file "Z" with
  | some _, some _ =>
    if detsPos nx ny nz (fixInput file) then
      let g := fixPasses nx ny nz 6 (fixInput file)
      if detsPos nx ny nz g then
        match file "g11" with
        | none => .error (.attribute "g11")
        | some _ =>
          match fixStore g file "J" with
          | none => .error (.key "J")
          | some _ => .ok ((fixStore g file).pop "J")
      else .error (.assertion "np.all(np.linalg.det(g) > 0)")
    else .error (.assertion "np.all(np.linalg.det(g) > 0)")
  | _, _ => .error (.attribute "R")

end

/-- `phi` of `test` (mms-fci.py:103-105) for the plane `j` of the arrays with one more plane at each end: entry `j` of `linspace(0, pi / 5, ny * 5, False)`, less one and a half `dy`. -/
noncomputable def mmsPhi (ny j : ℕ) : ℝ := (j : ℝ) * (Real.pi / 5 / ((ny * 5 : ℕ) : ℝ)) - 2 * Real.pi / 5 / (ny : ℝ) * 1.5

/-- `conv` (mms_helper.py:83-85): the order between the last two grids, from the errors and the numbers of points. -/
noncomputable def mmsConv (l2 : List ℝ) (lst : List ℕ) : ℝ :=
  Real.log (l2.getD (l2.length - 2) 0 / l2.getD (l2.length - 1) 0) / Real.log ((lst.getD (lst.length - 1) 0 : ℝ) / (lst.getD (lst.length - 2) 0 : ℝ))

/-- `passes` (mms_helper.py:98): `np.isclose(conv, expect, atol=0.3)` with the default `rtol` of `1e-5`. -/
def mmsPasses (conv expect : ℝ) : Prop := |conv - expect| ≤ 0.3 + 1e-5 * |expect|

open Classical in
/-- `do_tests` (mms_helper.py:77-107) for the errors and the numbers of points of each mode; at least two grids for each.  The plots and files of results are left out. -/
noncomputable def mmsDoTests (expect : ℝ) (modes : List (List ℝ × List ℕ)) : Except Err Unit :=
  if modes.all fun m => decide (mmsPasses (mmsConv m.1 m.2) expect) then .ok () else .error (.assertion "not fail")

end Zoidberg
