import Verif.Prelude.Numpy

/-!
# numpy arrays of any dimension

An array is its shape and its values; `reshape` goes through the flat index in C order, as
numpy does.  Nothing here models zoidberg itself.
-/

namespace Zoidberg

/-- A numpy array: `val` is only meaningful for indices inside the shape. -/
structure NdArray (K : Type) where
  shape : List ℕ
  val : List ℕ → K

/-- The position of an index in the flat array (C order). -/
def ravel : List ℕ → List ℕ → ℕ
  | _ :: s, i :: t => i * s.prod + ravel s t
  | _, _ => 0

/-- The index that belongs to a position in the flat array. -/
def unravel : List ℕ → ℕ → List ℕ
  | [], _ => []
  | _ :: s, k => k / s.prod :: unravel s (k % s.prod)

/-- `a.reshape(s)`: `ValueError` if the number of elements differs. -/
def NdArray.reshape {K : Type} (a : NdArray K) (s : List ℕ) : Except Err (NdArray K) :=
  if a.shape.prod ≠ s.prod then .error (.value "cannot reshape array")
  else .ok ⟨s, fun i => a.val (unravel a.shape (ravel s i))⟩

/-- `a.transpose(p)`: axis `j` of the result is axis `p[j]` of `a`. -/
def NdArray.transpose {K : Type} (a : NdArray K) (p : List ℕ) : NdArray K :=
  ⟨p.map fun j => a.shape.getD j 0,
    fun i => a.val ((List.range p.length).map fun ax => i.getD (p.idxOf ax) 0)⟩

/-- `a.T`. -/
def NdArray.T {K : Type} (a : NdArray K) : NdArray K := ⟨a.shape.reverse, fun i => a.val i.reverse⟩

/-- `a.flat`. -/
def NdArray.flat {K : Type} (a : NdArray K) : List K :=
  (List.range a.shape.prod).map fun k => a.val (unravel a.shape k)

/-- `a[k]` for the first axis. -/
def NdArray.row {K : Type} (a : NdArray K) (k : ℕ) : NdArray K := ⟨a.shape.tail, fun i => a.val (k :: i)⟩

/-- `np.array([a, b])` for two arrays of the same shape. -/
def NdArray.pair {K : Type} (a b : NdArray K) : NdArray K :=
  ⟨2 :: a.shape, fun i => match i with
    | 0 :: t => a.val t
    | _ :: t => b.val t
    | [] => a.val []⟩

/-- An index inside a shape. -/
def InShape : List ℕ → List ℕ → Prop
  | [], [] => True
  | n :: s, i :: t => i < n ∧ InShape s t
  | _, _ => False

end Zoidberg
