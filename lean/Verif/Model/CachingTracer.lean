import Verif.Model.FieldTracer
import Verif.Prelude.Basic

/-!
# Model of `CachingFieldTracer` (`/repo/zoidberg/fieldtracer.py:409-455`)

The files are a dictionary from the file name to the numbers in the file.  `np.savetxt` writes 19 digits, so that
`np.loadtxt` gives back the same numbers.  The arguments are arrays (a list has no attribute `shape`).
-/

namespace Zoidberg

/-- The arguments of `follow_field_lines` that go into the name of the file (fieldtracer.py:436-437). -/
structure TraceArgs (K : Type) where
  x : FArr K
  z : FArr K
  y : FArr K
  deriving DecidableEq

/-- What `_myhash` makes the digest of (fieldtracer.py:417-431): the numbers of each array joined by `-`, one array after the other. -/
def hashInput {K : Type} (str : K → String) (a : TraceArgs K) : List Char :=
  [a.x, a.z, a.y].flatMap fun v => List.intercalate ['-'] (v.data.map fun k => (str k).toList)

/-- The name of the file (fieldtracer.py:437): the first ten characters of the digest are put into the pattern. -/
def cacheKey {K : Type} (str : K → String) (md5 : List Char → String) (a : TraceArgs K) : String :=
  "_zoidberg_cache_tracing_" ++ String.ofList ((md5 (hashInput str a)).toList.take 10)

/-- `_guess_shape` (fieldtracer.py:433-434). -/
def guessShape {K : Type} (a : TraceArgs K) : List ℕ := a.y.len :: a.x.shape ++ [2]

/-- `CachingFieldTracer.follow_field_lines` (fieldtracer.py:436-455): the files afterwards, and the result.  `tracer` is
that of the wrapped tracer with the keyword arguments `kw`. -/
def cachedFollow {K W : Type} (key : TraceArgs K → String) (tracer : TraceArgs K → W → Except Err (FArr K)) (files : Dict (List K))
    (a : TraceArgs K) (kw : W) : Dict (List K) × Except Err (FArr K) :=
  match files (key a) with
  | some dat =>
    (files, if dat.length ≠ (guessShape a).prod then .error (.value "cannot reshape array") else .ok ⟨guessShape a, dat⟩)
  | none =>
    match tracer a kw with
    | .error e => (files, .error e)
    | .ok ret => (files.set (key a) ret.data, if ret.shape ≠ guessShape a then .error (.assertion "shape") else .ok ret)

/-- A history of calls, and the result of each (fieldtracer.py:436-455). -/
def cachedCalls {K W : Type} (key : TraceArgs K → String) (tracer : TraceArgs K → W → Except Err (FArr K)) :
    Dict (List K) → List (TraceArgs K × W) → List (Except Err (FArr K))
  | _, [] => []
  | files, c :: cs =>
    let r := cachedFollow key tracer files c.1 c.2
    r.2 :: cachedCalls key tracer r.1 cs

end Zoidberg
