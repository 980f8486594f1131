import Verif.Model.Weights

/-!
# `modify_maps` and the memory

`Model/Weights.lean` describes `modify_maps` (weights.py:597-672) by the content of
the dictionary.  Here the dictionary and the arrays are objects with an address, so
that it can be seen what happens to arrays that the caller still holds.
-/

set_option linter.unusedSectionVars false

namespace Zoidberg.Weights

variable {K : Type} [Field K] [LinearOrder K] [IsStrictOrderedRing K] [FloorRing K]

/-- The memory as `modify_maps` sees it (weights.py:597-672): `objects` are the arrays and
numbers, `dicts` the dictionaries, which hold addresses of objects.  Addresses from `next` on
are not in use.  `calculate_parallel_map_operators` (weights.py:542-594) only reads `maps` and
makes new arrays, so it is used as it is in `Model/Weights.lean`. -/
structure Mem (K : Type) where
  objects : ℕ → Val K
  dicts : ℕ → Dict ℕ
  next : ℕ

/-- What is found in the dictionary at address `d`, key by key (weights.py:610, 615, 616,
631-634). -/
def Mem.read (w : Mem K) (d : ℕ) : MapDict K := fun k => (w.dicts d k).map w.objects

/-- The object at an address is changed in place, as by `xt[i, j, k] = -1` (weights.py:624, 650,
651, 655, 656). -/
def Mem.put (w : Mem K) (r : ℕ) (v : Val K) : Mem K :=
  { w with objects := Function.update w.objects r v }

/-- `dict(maps)`, a shallow copy at address `d'`: the same objects under the same names.
(Not in weights.py:597-672; it is what a caller can do to keep the maps.) -/
def Mem.copy (w : Mem K) (d d' : ℕ) : Mem K :=
  { w with dicts := Function.update w.dicts d' (w.dicts d) }

/-- One pass of the loop over directions for `partial_boundaries=True`
(weights.py:614-626): the array `xt` is changed in place.  The assignment of weights.py:626 puts
the same object under the same name again. -/
def markDirMem (mxg : ℕ) (d : ℕ) (w : Mem K) (dir : String) : Mem K × Except Err Unit :=
  match get4 (w.read d) (dir ++ "_xt_primes") with
  | .error e => (w, .error e)
  | .ok ((nx, ny, nz), n, xts) =>
    match get3 (w.read d) (dir ++ "_xt_prime"), w.dicts d (dir ++ "_xt_prime") with
    | .ok (_, xt), some r =>
      (w.put r (.arr3 nx ny nz ((loop3 0 nx ny nz).foldl (markStep nx mxg ⟨n, xts⟩) xt)), .ok ())
    | .error e, _ => (w, .error e)
    | _, none => (w, .error (.key (dir ++ "_xt_prime")))

/-- One pass of the loop over directions for `partial_boundaries=False`
(weights.py:630-658): `xts` and `zts` are changed in place.  It is assumed that the four arrays of
one direction are different objects. -/
def filterDirMem (mxg : ℕ) (d : ℕ) (w : Mem K) (dir : String) : Mem K × Except Err Unit :=
  match get4 (w.read d) (dir ++ "_xt_primes") with
  | .error e => (w, .error e)
  | .ok ((nx, ny, nz), n, xts) =>
    match get3 (w.read d) (dir ++ "_xt_prime") with
    | .error e => (w, .error e)
    | .ok (_, xt) =>
      match get4 (w.read d) (dir ++ "_zt_primes") with
      | .error e => (w, .error e)
      | .ok (_, _, zts) =>
        match get3 (w.read d) (dir ++ "_zt_prime") with
        | .error e => (w, .error e)
        | .ok (_, zt) =>
          match w.dicts d (dir ++ "_xt_primes"), w.dicts d (dir ++ "_zt_primes") with
          | some rx, some rz =>
            let s := (loop3 0 nx ny nz).foldl (filterStep nx mxg n xt zt) (xts, zts)
            ((w.put rx (.arr4 nx ny nz n s.1)).put rz (.arr4 nx ny nz n s.2), .ok ())
          | _, _ => (w, .error (.key (dir ++ "_xt_primes")))

/-- `maps[key] = v` for a new object `v`, as `maps.update(weight_vars)` does for every entry
(weights.py:661). -/
def Mem.addNew (d : ℕ) (w : Mem K) (e : String × Val K) : Mem K :=
  { objects := Function.update w.objects w.next e.2
    dicts := Function.update w.dicts d ((w.dicts d).set e.1 w.next)
    next := w.next + 1 }

/-- `maps.pop(key, None)` (weights.py:670). -/
def Mem.popKey (d : ℕ) (w : Mem K) (k : String) : Mem K :=
  { w with dicts := Function.update w.dicts d ((w.dicts d).pop k) }

/-- One pass of either loop over directions (weights.py:611, 614, 630). -/
def dirMem (p : Bool) (mxg : ℕ) (d : ℕ) (w : Mem K) (dir : String) : Mem K × Except Err Unit :=
  if p then markDirMem mxg d w dir else filterDirMem mxg d w dir

/-- `modify_maps(maps, partial_boundaries)` (weights.py:597-672) for the dictionary at address
`d`: the memory afterwards, and the address of the result or the exception. -/
def modifyMapsMem (junkC : ℕ → ℤ) (junkW : ℕ → K) (w : Mem K) (d : ℕ) (p : Bool) :
    Mem K × Except Err ℕ :=
  match getMXG (w.read d) with
  | .error e => (w, .error e)
  | .ok mxg =>
    match dirMem p mxg d w "forward" with
    | (w1, .error e) => (w1, .error e)
    | (w1, .ok _) =>
      match dirMem p mxg d w1 "backward" with
      | (w2, .error e) => (w2, .error e)
      | (w2, .ok _) =>
        match calculateOps junkC junkW (w2.read d) with
        | .error e => (w2, .error e)
        | .ok o => (removedKeys.foldl (Mem.popKey d) ((opsEntries o).foldl (Mem.addNew d) w2), .ok d)

end Zoidberg.Weights
