import Verif.Prelude.Basic

/-!
# Model of `MapWriter.add_dagp` (`/repo/zoidberg/zoidberg.py:544-582`)

Only the writes to the file matter here, and the points between them at which the
process can be stopped.
-/

namespace Zoidberg

/-- What `add_dagp` sees of the file: the variable `_dagp_generation_progress`
(absent, created without value, or a number) and the other variables, by y plane.
Planes that were never written hold the fill value, here `none` (zoidberg.py:559-582). -/
structure DagpFile (V : Type) where
  prog : Option (Option ℕ)
  vars : String → Option (ℕ → Option V)

/-- The write operations of `add_dagp` (zoidberg.py:564-566, 581-582). -/
inductive DagpOp (V : Type) where
  | createProg
  | setProg (n : ℕ)
  | create (k : String)
  | write (k : String) (ind : ℕ) (v : V)

/-- Effect of a write operation.  Operations reach the file in order (zoidberg.py:564-566, 581-582). -/
def DagpFile.apply {V : Type} (s : DagpFile V) : DagpOp V → DagpFile V
  | .createProg => { s with prog := some none }
  | .setProg n => { s with prog := some (some n) }
  | .create k => { s with vars := fun k' => if k' = k then some fun _ => none else s.vars k' }
  | .write k ind v => { s with
      vars := fun k' => if k' = k then (s.vars k').map fun a i => if i = ind then some v else a i
        else s.vars k' }

/-- A running process: after `budget` write operations it is stopped
(`none`: never).  `dead` is set by the first operation that does not happen (zoidberg.py:571-582). -/
structure DagpRun (V : Type) where
  file : DagpFile V
  budget : Option ℕ
  dead : Bool := false

/-- One write operation (zoidberg.py:564-566, 581-582). -/
def DagpRun.op {V : Type} (r : DagpRun V) (o : DagpOp V) : DagpRun V :=
  if r.dead then r
  else match r.budget with
    | none => { r with file := r.file.apply o }
    | some 0 => { r with dead := true }
    | some (n + 1) => { r with file := r.file.apply o, budget := some n }

/-- `ind < prog[0]` (zoidberg.py:574).  A variable without value is read as `masked`,
and the comparison with it counts as false. -/
def DagpFile.skips {V : Type} (s : DagpFile V) (ind : ℕ) : Bool :=
  match s.prog with
  | some (some n) => decide (ind < n)
  | _ => false

/-- `getHandle(k, ..)` (zoidberg.py:559-567), for a coefficient.  The handles kept in the
dictionary `handles` are those of variables that exist, so looking them up again does
not change anything. -/
def DagpRun.getHandle {V : Type} (r : DagpRun V) (k : String) : DagpRun V :=
  match r.file.vars k with
  | some _ => r
  | none => r.op (.create k)

/-- `getHandle("_dagp_generation_progress", .., init=0)` (zoidberg.py:570-571). -/
def DagpRun.getProg {V : Type} (r : DagpRun V) : DagpRun V :=
  match r.file.prog with
  | some _ => r
  | none => (r.op .createProg).op (.setProg 0)

/-- The coefficients of one plane (zoidberg.py:576-581). -/
def DagpRun.plane {V : Type} (r : DagpRun V) (ind : ℕ) (dagp : List (String × V)) : DagpRun V :=
  dagp.foldl (fun r p => (r.getHandle p.1).op (.write p.1 ind p.2)) r

/-- `add_dagp` (zoidberg.py:544-582) with grid, field and file set.  `doit pol` is
`doit([pol], isSlab=isSlab)` (stencil_dagp_fv.py:78-274), a dictionary of arrays for one
plane; it is taken to give the same result every time. -/
def DagpRun.addDagp {P V : Type} (doit : P → List (String × V)) (planes : List P) (r : DagpRun V) :
    DagpRun V :=
  (List.range planes.length).foldl (fun r ind =>
    match planes[ind]? with
    | none => r
    | some pol =>
      if r.file.skips ind then r else (r.plane ind (doit pol)).op (.setProg (ind + 1))) r.getProg

/-- The file after a run that is stopped after `budget` operations (zoidberg.py:569-582). -/
def dagpFile {P V : Type} (doit : P → List (String × V)) (planes : List P) (s : DagpFile V)
    (budget : Option ℕ) : DagpFile V :=
  (DagpRun.addDagp doit planes ⟨s, budget, false⟩).file

end Zoidberg
