import Verif.Prelude.ODict

/-!
# numpy functions on one-dimensional arrays

Lists stand for one-dimensional arrays.  Nothing here models zoidberg itself.
-/

namespace Zoidberg

/-- `np.linspace(a, b, n, endpoint=False)`. -/
def linspaceOpen {K : Type} [Field K] (a b : K) (n : ℕ) : List K :=
  (List.range n).map fun i : ℕ => a + (i : K) * ((b - a) / (n : K))

/-- `np.linspace(a, b, n)` with the end point. -/
def linspaceClosed {K : Type} [Field K] (a b : K) (n : ℕ) : List K :=
  (List.range n).map fun i : ℕ => if n = 1 then a else a + (i : K) * ((b - a) / ((n : K) - 1))

/-- `np.remainder(x, n)` for `n > 0`. -/
def npRem {K : Type} [Field K] [LinearOrder K] [FloorRing K] (x n : K) : K := x - n * (⌊x / n⌋ : K)

/-- `np.gradient(y)` for a one-dimensional array of at least two elements
(unit spacing): central differences inside, one-sided ones at the ends.  numpy
raises `ValueError` for fewer elements. -/
def npGradient {K : Type} [Field K] (y : List K) : Except Err (List K) :=
  if y.length < 2 then .error (.value "gradient needs at least two elements")
  else .ok <| (List.range y.length).map fun i =>
    if i = 0 then y.getD 1 0 - y.getD 0 0
    else if i + 1 = y.length then y.getD i 0 - y.getD (i - 1) 0
    else (y.getD (i + 1) 0 - y.getD (i - 1) 0) / 2

/-- `a[:, y, :] = v` for a three-dimensional array `a` and a two-dimensional `v`. -/
def setSlice {K : Type} (a : Cell → K) (y : ℕ) (v : ℕ → ℕ → K) : Cell → K :=
  fun c => if c.2.1 = y then v c.1 c.2.2 else a c

end Zoidberg
