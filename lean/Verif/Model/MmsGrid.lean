import Verif.Prelude.Basic
import Mathlib.Analysis.SpecialFunctions.Trigonometric.Basic
import Mathlib.Analysis.SpecialFunctions.Pow.Real

/-!
# Model of the grids of the convergence tests (`/repo/test/mms/*_grid.py`) and of the files of results

The poloidal grids, the names of the files and what `do_tests` of `mms_helper.py` writes.  `make_maps` and `write_maps`, which have models of their own, are taken to
succeed here.
-/

namespace Zoidberg

/-- The five modules (parallel_grid.py:1-70, poloidal_grid.py:1-92, radial_grid.py:1-66, delp_grid.py:1-73, laplace_grid.py:1-69). -/
inductive MmsFile where
  | parallel
  | poloidal
  | radial
  | delp
  | laplace
  deriving DecidableEq, Repr

/-- The arguments of `gen_grid` and `gen_name`; negative modes, which count from the end, are left out (parallel_grid.py:22, 26). -/
structure MmsArgs (K : Type) where
  nx : ℕ
  ny : ℕ
  nz : ℕ
  R0 : K
  r0 : K
  r1 : K
  mode : ℕ
  deriving DecidableEq

/-- The beginning of the names (parallel_grid.py:23, poloidal_grid.py:41, radial_grid.py:15, delp_grid.py:21, laplace_grid.py:23). -/
def mmsPrefix : MmsFile → String
  | .parallel => "parallel"
  | .poloidal => "poloidal"
  | .radial => "radial"
  | .delp => "delp"
  | .laplace => "laplace"

/-- The names of the modes (parallel_grid.py:15-18, poloidal_grid.py:30-36, radial_grid.py:7-10, delp_grid.py:8-11, laplace_grid.py:7-13). -/
def mmsModes : MmsFile → List String
  | .parallel => ["const", "varx"]
  | .poloidal => ["const", "var1", "var2", "var3", "var4"]
  | .radial => ["const", "exp"]
  | .delp => ["const"]
  | .laplace => ["ellipse2", "ellipse", "const", "exp", "distort"]

/-- `gen_name` (parallel_grid.py:21-23, poloidal_grid.py:39-41, radial_grid.py:13-15, delp_grid.py:19-21, laplace_grid.py:21-23); `txt` is the text of a number. -/
def mmsGenName {K : Type} (txt : K → String) (f : MmsFile) (a : MmsArgs K) : Except Err String :=
  match (mmsModes f)[a.mode]? with
  | none => .error (.index "modes")
  | some m =>
    .ok (mmsPrefix f ++ "_" ++ m ++ "_" ++ toString a.nx ++ "_" ++ toString a.ny ++ "_" ++ toString a.nz ++ "_" ++ txt a.R0 ++ ".fci.nc")

/-- `nonlin` (poloidal_grid.py:6). -/
noncomputable def mmsNonlin : ℝ := 0.8

/-- `mode[1]` of `poloidal_grid.py` for one value of `linspace` (poloidal_grid.py:10-36). -/
noncomputable def mmsVar (mode : ℕ) (pos : ℝ) : ℝ :=
  match mode with
  | 1 => pos + Real.sin pos * mmsNonlin
  | 2 => pos + Real.cos pos * mmsNonlin
  | 3 => pos + Real.cos (pos * 2) / 2 * mmsNonlin
  | 4 => pos + Real.sin pos / 2 * mmsNonlin
  | _ => pos

/-- `np.linspace(r0, r1, nx)[i]` (parallel_grid.py:29, poloidal_grid.py:48, radial_grid.py:21, delp_grid.py:27, laplace_grid.py:28). -/
noncomputable def mmsLin (r0 r1 : ℝ) (nx i : ℕ) : ℝ := r0 + (i : ℝ) * ((r1 - r0) / ((nx : ℝ) - 1))

/-- `np.geomspace(r0, r1, nx)[i]` for positive radii (radial_grid.py:21, laplace_grid.py:28). -/
noncomputable def mmsGeom (r0 r1 : ℝ) (nx i : ℕ) : ℝ := r0 * (r1 / r0) ^ ((i : ℝ) / ((nx : ℝ) - 1))

/-- `r` of row `i` (parallel_grid.py:29, poloidal_grid.py:48, radial_grid.py:21, delp_grid.py:27, laplace_grid.py:28). -/
noncomputable def mmsRadius (f : MmsFile) (mode : ℕ) (r0 r1 : ℝ) (nx i : ℕ) : ℝ :=
  match f, mode with
  | .radial, 1 => mmsGeom r0 r1 nx i
  | .laplace, 1 => mmsGeom r0 r1 nx i
  | .laplace, 3 => mmsGeom r0 r1 nx i
  | _, _ => mmsLin r0 r1 nx i

/-- `np.linspace(0, 2 * np.pi, nz, False)[k]` (parallel_grid.py:30, radial_grid.py:22). -/
noncomputable def mmsAngle (nz k : ℕ) : ℝ := (k : ℝ) * (2 * Real.pi / (nz : ℝ))

/-- `a % (2 * np.pi)` (parallel_grid.py:12). -/
noncomputable def mmsMod (a : ℝ) : ℝ := a - 2 * Real.pi * (⌊a / (2 * Real.pi)⌋ : ℝ)

/-- `theta` of point `(i, k)` (parallel_grid.py:30-31, poloidal_grid.py:49, radial_grid.py:22, delp_grid.py:28, laplace_grid.py:29-31). -/
noncomputable def mmsTheta (f : MmsFile) (mode : ℕ) (r0 r1 : ℝ) (nx nz i k : ℕ) : ℝ :=
  match f, mode with
  | .parallel, 1 => mmsMod (mmsAngle nz k + mmsRadius .parallel 1 r0 r1 nx i)
  | .poloidal, m => mmsVar m (mmsAngle nz k)
  | .laplace, 1 => mmsAngle nz k + (i : ℝ) * (1 / (nx : ℝ))
  | .laplace, 4 => mmsAngle nz k + (i : ℝ) * (1 / (nx : ℝ))
  | _, _ => mmsAngle nz k

/-- The factor of `R` (laplace_grid.py:34-35). -/
noncomputable def mmsStretch (f : MmsFile) (mode : ℕ) : ℝ :=
  match f, mode with
  | .laplace, 0 => 1.5
  | .laplace, 1 => 1.5
  | _, _ => 1

/-- `R` and `Z` of point `(i, k)` (parallel_grid.py:33-34, poloidal_grid.py:51-52, radial_grid.py:24-25, delp_grid.py:30-31, laplace_grid.py:33-36). -/
noncomputable def mmsPoint (f : MmsFile) (a : MmsArgs ℝ) (i k : ℕ) : ℝ × ℝ :=
  ((a.R0 + Real.cos (mmsTheta f a.mode a.r0 a.r1 a.nx a.nz i k) * mmsRadius f a.mode a.r0 a.r1 a.nx i) * mmsStretch f a.mode,
    Real.sin (mmsTheta f a.mode a.r0 a.r1 a.nx a.nz i k) * mmsRadius f a.mode a.r0 a.r1 a.nx i)

/-- `gen_grid` (parallel_grid.py:26-56, poloidal_grid.py:44-78, radial_grid.py:18-47, delp_grid.py:24-55, laplace_grid.py:26-51): the name of the file and the points of its grid.
`glob` is the variable `args` of the module, if it has a value; only `poloidal_grid.py` has a local one.  A `NameError` is a `runtime` error here. -/
noncomputable def mmsGenGrid (txt : ℝ → String) (f : MmsFile) (glob : Option (MmsArgs ℝ)) (a : MmsArgs ℝ) : Except Err (String × (ℕ → ℕ → ℝ × ℝ)) :=
  match (mmsModes f)[a.mode]? with
  | none => .error (.index "modes")
  | some _ =>
    match f, glob with
    | .poloidal, _ => (mmsGenName txt f a).map fun fn => (fn, mmsPoint f a)
    | _, none => .error (.runtime "name 'args' is not defined")
    | _, some g => (mmsGenName txt f g).map fun fn => (fn, mmsPoint f a)

/-- The loops of the main program (parallel_grid.py:67-70, poloidal_grid.py:89-92, radial_grid.py:63-66, delp_grid.py:70-73, laplace_grid.py:66-69): `args` is the variable of the
module.  The files are collected in a dictionary. -/
noncomputable def mmsMain (txt : ℝ → String) (f : MmsFile) : List (MmsArgs ℝ) → Dict (ℕ → ℕ → ℝ × ℝ) → Except Err (Dict (ℕ → ℕ → ℝ × ℝ))
  | [], d => .ok d
  | a :: as, d =>
    match mmsGenGrid txt f (some a) a with
    | .error e => .error e
    | .ok r => mmsMain txt f as (d.set r.1 r.2)

/-- `lst` (mms_helper.py:14, delp_grid.py:5, laplace_grid.py:4). -/
def mmsLst : MmsFile → List ℕ
  | .delp => [16, 32]
  | .laplace => [16, 32]
  | _ => [4, 8, 16, 32, 64]

/-- `grids` (parallel_grid.py:63-65, poloidal_grid.py:85-87, radial_grid.py:54-61, delp_grid.py:62-64, laplace_grid.py:58-60): the arguments of each entry. -/
def mmsGrids (f : MmsFile) : List (String × List (MmsArgs ℚ)) :=
  match f with
  | .parallel => (List.range 2).map fun mode => ((mmsModes f).getD mode "", (mmsLst f).map fun n => ⟨8, n, 4, 1, 0.1, 0.5, mode⟩)
  | .poloidal => (List.range 5).map fun mode => ((mmsModes f).getD mode "", (mmsLst f).map fun n => ⟨4, 2, n, 1, 0.1, 0.5, mode⟩)
  | .radial => (List.range 2).flatMap fun mode =>
      [((mmsModes f).getD mode "" ++ "1", (mmsLst f).tail.map fun n => ⟨n, 4, 4, 1, 0.1, 0.5, mode⟩),
        ((mmsModes f).getD mode "" ++ "2", (mmsLst f).tail.map fun n => ⟨n, 4, 4, 2, 0.1, 1.1, mode⟩)]
  | .delp => (List.range 1).map fun mode => ((mmsModes f).getD mode "", (mmsLst f).map fun n => ⟨n, 2, n, 1, 0.1, 0.5, mode⟩)
  | .laplace => (List.range 5).map fun mode => ((mmsModes f).getD mode "", (mmsLst f).map fun n => ⟨n, 4, n, 1, 0.1, 0.5, mode⟩)

/-- `"_".join(info.split("_")[:2])` (mms_helper.py:87). -/
def mmsInfo (s : String) : String :=
  String.ofList (match s.toList.dropWhile (fun c => decide (c ≠ '_')) with
    | [] => s.toList
    | _ :: rest => s.toList.takeWhile (fun c => decide (c ≠ '_')) ++ '_' :: rest.takeWhile fun c => decide (c ≠ '_'))

/-- `f"result_{info}_{iname}.txt"` (mms_helper.py:86-89) for the name of the first file of a mode. -/
def mmsResultName (iname first : String) : String := "result_" ++ mmsInfo first ++ "_" ++ iname ++ ".txt"

/-- The files of results after the loop of `do_tests` (mms_helper.py:79-97): a mode is given by the name of its first file and what is written. -/
def mmsResults {V : Type} (iname : String) (modes : List (String × V)) : Dict V :=
  modes.foldl (fun d m => d.set (mmsResultName iname m.1) m.2) fun _ => none

end Zoidberg
