import Mathlib.Algebra.Order.Field.Basic
import Mathlib.Algebra.Order.Floor.Ring
import Mathlib.Data.Rat.Floor
import Mathlib.Tactic.Linarith
import Mathlib.Tactic.Ring
import Mathlib.Tactic.NormNum

/-!
# Python and numpy primitives used all over the code

Nothing in this file models zoidberg itself; it fixes the meaning of the Python
built-ins on which the models of `/repo/zoidberg/*.py` are built.
-/

namespace Zoidberg

/-- Python exceptions that the modelled code raises, directly or through
numpy.  The message is kept only to tell cases apart. -/
inductive Err where
  | key (msg : String)
  | value (msg : String)
  | index (msg : String)
  | type (msg : String)
  | assertion (msg : String)
  | runtime (msg : String)
  | attribute (msg : String)
  deriving DecidableEq, Repr

/-- Index triple `(x, y, z)` of a three dimensional array. -/
abbrev Cell := ℕ × ℕ × ℕ

/-- Python `range(a, b)` for non-negative bounds. -/
def pyRange (a b : ℕ) : List ℕ := List.range' a (b - a)

/-- Python `int(x)` of a float: truncation toward zero. -/
def pyInt {K : Type*} [Field K] [LinearOrder K] [FloorRing K] (x : K) : ℤ :=
  if 0 ≤ x then ⌊x⌋ else ⌈x⌉

/-- Python's `a % b` for integers and `b > 0` (`Int.emod` agrees with it). -/
def pyMod (a b : ℤ) : ℤ := a % b

/-- `np.clip(v, lo, hi)` for integers (`minimum(maximum(v, lo), hi)`). -/
def npClip (v lo hi : ℤ) : ℤ := min (max v lo) hi

/-- Python's index conversion for a sequence of length `n`: negative indices
count from the end, everything else out of range is an `IndexError`. -/
def pyIndex (n : ℕ) (i : ℤ) : Option ℕ :=
  if 0 ≤ i then (if i < n then some i.toNat else none)
  else (if -(n : ℤ) ≤ i then some (i + n).toNat else none)

/-- Python dictionaries with string keys (insertion order is not modelled). -/
abbrev Dict (V : Type*) := String → Option V

/-- `d[k] = v`. -/
def Dict.set {V : Type*} (d : Dict V) (k : String) (v : V) : Dict V :=
  Function.update d k (some v)

/-- `d.pop(k, None)`. -/
def Dict.pop {V : Type*} (d : Dict V) (k : String) : Dict V :=
  Function.update d k none

/-- `d[k]`, raising `KeyError`. -/
def Dict.get {V : Type*} (d : Dict V) (k : String) : Except Err V :=
  match d k with
  | some v => .ok v
  | none => .error (.key k)

/-- `for x in range(x0, x1): for y in range(ny): for z in range(nz)`: the index
triples in the order in which the three nested loops visit them. -/
def loop3 (x0 x1 ny nz : ℕ) : List Cell :=
  (pyRange x0 x1).flatMap fun x =>
    (pyRange 0 ny).flatMap fun y => (pyRange 0 nz).map fun z => (x, y, z)

end Zoidberg
