import Verif.Proofs.WeightsNumbering

/-! What the numbering loops of `weights.py` compute, as lists of owners. -/

set_option linter.unusedSectionVars false

namespace Zoidberg.Weights

variable {K : Type} [Field K] [LinearOrder K] [FloorRing K]

/-- Number of an owner in a cell space. -/
def CellSpace.number (o : CellSpace) : Owner → ℤ
  | .cell c => o.cellNumber c
  | .bnd true c => o.forwardBoundary c
  | .bnd false c => o.backwardBoundary c

/-- Boundary keys in numbering order. -/
def bndOrder (nx ny nz mxg : ℕ) (fx bx : SubArr K) : List (Bool × Cell) :=
  (loop3 mxg (nx - mxg) ny nz).flatMap (twoKeys (anyHit nx mxg bx) (anyHit nx mxg fx) false true)

/-- All owners in numbering order. -/
def ownerOrder (nx ny nz mxg : ℕ) (fx bx : SubArr K) : List Owner :=
  (cellOrder nx ny nz mxg).map .cell ++ (bndOrder nx ny nz mxg fx bx).map (fun k => .bnd k.1 k.2)

theorem assignCore_cellNumber (nx ny nz mxg : ℕ) (fx bx : SubArr K) :
    (assignCore nx ny nz mxg fx bx).cellNumber =
      (numberKeys (cellOrder nx ny nz mxg) (fun _ => -1, 0)).1 := by
  simp only [assignCore, foldl_numberCell, cellOrder, numberKeys_append]

theorem assignCore_bnd (nx ny nz mxg : ℕ) (fx bx : SubArr K) (h : 2 * mxg ≤ nx) :
    let cs := assignCore nx ny nz mxg fx bx
    let r := numberKeys (bndOrder nx ny nz mxg fx bx) (fun _ => -1, nx * (ny * nz))
    (∀ c, r.1 (false, c) = cs.backwardBoundary c) ∧ (∀ c, r.1 (true, c) = cs.forwardBoundary c) ∧
      r.2 = cs.nCells := by
  have hlen : (numberKeys (cellOrder nx ny nz mxg) (fun _ => -1, 0)).2 = nx * (ny * nz) := by
    rw [numberKeys_snd, length_cellOrder h]; simp
  have := foldl_numberBoundary nx mxg bx fx (loop3 mxg (nx - mxg) ny nz)
    ⟨fun _ => -1, fun _ => -1, nx * (ny * nz)⟩ (fun _ => -1) (fun _ => rfl) (fun _ => rfl)
  have e : ((loop3 (nx - mxg) nx ny nz).foldl numberCell
      ((loop3 0 mxg ny nz).foldl numberCell
        ((loop3 mxg (nx - mxg) ny nz).foldl numberCell ((fun _ => -1), 0)))).2 = nx * (ny * nz) := by
    rw [← hlen]; simp only [cellOrder, numberKeys_append, foldl_numberCell]
  simp only [assignCore, e]
  exact this

theorem nodup_ownerOrder (nx ny nz mxg : ℕ) (fx bx : SubArr K) (h : 2 * mxg ≤ nx) :
    (ownerOrder nx ny nz mxg fx bx).Nodup := by
  unfold ownerOrder
  rw [List.nodup_append']
  refine ⟨?_, ?_, ?_⟩
  · refine (nodup_cellOrder h).map ?_
    intro a b hab; injection hab
  · refine (nodup_twoKeys_flatMap _ _ _ (nodup_loop3 ..)).map ?_
    rintro ⟨a, a'⟩ ⟨b, b'⟩ hab
    injection hab with h1 h2
    exact Prod.ext h1 h2
  · intro o h1 h2
    rw [List.mem_map] at h1 h2
    obtain ⟨c, _, rfl⟩ := h1
    obtain ⟨k, _, hk⟩ := h2
    exact absurd hk (by simp)

theorem number_ownerOrder (nx ny nz mxg : ℕ) (fx bx : SubArr K) (h : 2 * mxg ≤ nx) (k : ℕ)
    (hk : k < (ownerOrder nx ny nz mxg fx bx).length) :
    (assignCore nx ny nz mxg fx bx).number (ownerOrder nx ny nz mxg fx bx)[k] = k := by
  obtain ⟨h1, h2, _⟩ := assignCore_bnd nx ny nz mxg fx bx h
  unfold ownerOrder at hk ⊢
  rw [List.getElem_append]
  split
  · rename_i hlt
    simp only [List.getElem_map, CellSpace.number, assignCore_cellNumber]
    rw [numberKeys_getElem _ (nodup_cellOrder h)]
    simp
  · rename_i hge
    rw [List.length_map, length_cellOrder h] at hge
    have hk' : k - nx * (ny * nz) < (bndOrder nx ny nz mxg fx bx).length := by
      simp only [List.length_append, List.length_map, length_cellOrder h] at hk; omega
    have := numberKeys_getElem (bndOrder nx ny nz mxg fx bx)
      (nodup_twoKeys_flatMap _ _ _ (nodup_loop3 ..)) (fun _ => -1, nx * (ny * nz)) _ hk'
    simp only [List.getElem_map, List.length_map, length_cellOrder h]
    generalize hg : (bndOrder nx ny nz mxg fx bx)[k - nx * (ny * nz)] = q at this
    obtain ⟨b, c⟩ := q
    cases b
    · simp only [CellSpace.number, ← h1, this]; omega
    · simp only [CellSpace.number, ← h2, this]; omega

theorem nCells_eq (nx ny nz mxg : ℕ) (fx bx : SubArr K) (h : 2 * mxg ≤ nx) :
    (assignCore nx ny nz mxg fx bx).nCells = (ownerOrder nx ny nz mxg fx bx).length := by
  obtain ⟨_, _, h3⟩ := assignCore_bnd nx ny nz mxg fx bx h
  rw [← h3, numberKeys_snd]
  simp [ownerOrder, length_cellOrder h]

theorem number_not_mem (nx ny nz mxg : ℕ) (fx bx : SubArr K) (h : 2 * mxg ≤ nx) (o : Owner)
    (ho : o ∉ ownerOrder nx ny nz mxg fx bx) :
    (assignCore nx ny nz mxg fx bx).number o = -1 := by
  obtain ⟨h1, h2, _⟩ := assignCore_bnd nx ny nz mxg fx bx h
  simp only [ownerOrder, List.mem_append, not_or, List.mem_map, not_exists, not_and] at ho
  cases o with
  | cell c =>
    simp only [CellSpace.number, assignCore_cellNumber]
    rw [numberKeys_not_mem]
    intro hc; exact ho.1 c hc rfl
  | bnd b c =>
    have hb : (b, c) ∉ bndOrder nx ny nz mxg fx bx := fun hc => ho.2 _ hc rfl
    have := numberKeys_not_mem (bndOrder nx ny nz mxg fx bx) (fun _ => -1, nx * (ny * nz)) _ hb
    cases b
    · simp only [CellSpace.number, ← h1, this]
    · simp only [CellSpace.number, ← h2, this]

theorem mem_ownerOrder_iff (nx ny nz mxg : ℕ) (fx bx : SubArr K) (h : 2 * mxg ≤ nx) (o : Owner) :
    o ∈ ownerOrder nx ny nz mxg fx bx ↔ 0 ≤ (assignCore nx ny nz mxg fx bx).number o := by
  constructor
  · intro ho
    obtain ⟨k, hk, rfl⟩ := List.getElem_of_mem ho
    rw [number_ownerOrder _ _ _ _ _ _ h]; omega
  · intro ho
    by_contra hc
    rw [number_not_mem _ _ _ _ _ _ h _ hc] at ho
    omega

/-! ### legs -/

/-- Leg keys in numbering order. -/
def legOrder (nx ny nz mxg : ℕ) (xt : SubArr K) : List (Bool × Cell) :=
  (loop3 mxg (nx - mxg) ny nz).flatMap (twoKeys (anyStay nx mxg xt) (anyHit nx mxg xt) false true)

/-- Leg number by key. -/
def LegSpace.number (l : LegSpace K) : Bool × Cell → ℤ
  | (true, c) => l.boundaryLeg c
  | (false, c) => l.interiorLeg c

theorem legCore_number (nx ny nz mxg : ℕ) (xt : SubArr K) (w : List K) (k : Bool × Cell) :
    (legCore nx ny nz mxg xt w).number k =
      (numberKeys (legOrder nx ny nz mxg xt) (fun _ => -1, 0)).1 k := by
  obtain ⟨h1, h2, _⟩ := foldl_legStep nx mxg xt w (loop3 mxg (nx - mxg) ny nz) (LegSpace.init K)
    (fun _ => -1) (fun _ => rfl) (fun _ => rfl)
  obtain ⟨b, c⟩ := k
  cases b
  · exact (h1 c).symm
  · exact (h2 c).symm

theorem legCore_nLegs (nx ny nz mxg : ℕ) (xt : SubArr K) (w : List K) :
    (legCore nx ny nz mxg xt w).nLegs = (legOrder nx ny nz mxg xt).length := by
  obtain ⟨_, _, h3⟩ := foldl_legStep nx mxg xt w (loop3 mxg (nx - mxg) ny nz) (LegSpace.init K)
    (fun _ => -1) (fun _ => rfl) (fun _ => rfl)
  rw [numberKeys_snd] at h3
  rw [legCore, ← h3]
  simp [LegSpace.init, legOrder]

theorem nodup_legOrder (nx ny nz mxg : ℕ) (xt : SubArr K) :
    (legOrder nx ny nz mxg xt).Nodup := nodup_twoKeys_flatMap _ _ _ (nodup_loop3 ..)

theorem legCore_getElem (nx ny nz mxg : ℕ) (xt : SubArr K) (w : List K) (k : ℕ)
    (hk : k < (legOrder nx ny nz mxg xt).length) :
    (legCore nx ny nz mxg xt w).number (legOrder nx ny nz mxg xt)[k] = k := by
  rw [legCore_number, numberKeys_getElem _ (nodup_legOrder ..)]
  simp

theorem legCore_not_mem (nx ny nz mxg : ℕ) (xt : SubArr K) (w : List K) (k : Bool × Cell)
    (hk : k ∉ legOrder nx ny nz mxg xt) : (legCore nx ny nz mxg xt w).number k = -1 := by
  rw [legCore_number, numberKeys_not_mem _ _ _ hk]

theorem mem_legOrder_iff (nx ny nz mxg : ℕ) (xt : SubArr K) (w : List K) (k : Bool × Cell) :
    k ∈ legOrder nx ny nz mxg xt ↔ 0 ≤ (legCore nx ny nz mxg xt w).number k := by
  constructor
  · intro ho
    obtain ⟨k, hk, rfl⟩ := List.getElem_of_mem ho
    rw [legCore_getElem]; omega
  · intro ho
    by_contra hc
    rw [legCore_not_mem _ _ _ _ _ _ _ hc] at ho
    omega

theorem leg_lt (nx ny nz mxg : ℕ) (xt : SubArr K) (w : List K) (k : Bool × Cell)
    (hk : k ∈ legOrder nx ny nz mxg xt) :
    0 ≤ (legCore nx ny nz mxg xt w).number k ∧
      (legCore nx ny nz mxg xt w).number k < (legCore nx ny nz mxg xt w).nLegs := by
  obtain ⟨j, hj, rfl⟩ := List.getElem_of_mem hk
  rw [legCore_getElem, legCore_nLegs]; omega

theorem leg_inj (nx ny nz mxg : ℕ) (xt : SubArr K) (w : List K) (k l : Bool × Cell)
    (hk : k ∈ legOrder nx ny nz mxg xt) (hl : l ∈ legOrder nx ny nz mxg xt)
    (h : (legCore nx ny nz mxg xt w).number k = (legCore nx ny nz mxg xt w).number l) : k = l := by
  obtain ⟨i, hi, rfl⟩ := List.getElem_of_mem hk
  obtain ⟨j, hj, rfl⟩ := List.getElem_of_mem hl
  rw [legCore_getElem, legCore_getElem] at h
  have : i = j := by omega
  subst this; rfl

theorem legCore_fields (nx ny nz mxg : ℕ) (xt : SubArr K) (w : List K) (c : Cell) :
    let t := legCore nx ny nz mxg xt w
    let L := loop3 mxg (nx - mxg) ny nz
    (t.hasInterior c = if c ∈ L then anyStay nx mxg xt c else false) ∧
    (t.hasBoundary c = if c ∈ L then anyHit nx mxg xt c else false) ∧
    (t.interiorFraction c = if c ∈ L then (classify (xt.row c) w nx mxg).interiorFraction
      else 0) ∧
    (t.boundaryFraction c = if c ∈ L then (classify (xt.row c) w nx mxg).boundaryFraction
      else 0) :=
  foldl_legStep_fields nx mxg xt w _ (LegSpace.init K) c

/-- The flags say exactly which keys are numbered. -/
theorem has_iff_mem (nx ny nz mxg : ℕ) (xt : SubArr K) (w : List K) (c : Cell) :
    ((legCore nx ny nz mxg xt w).hasInterior c = true ↔ (false, c) ∈ legOrder nx ny nz mxg xt) ∧
    ((legCore nx ny nz mxg xt w).hasBoundary c = true ↔ (true, c) ∈ legOrder nx ny nz mxg xt) := by
  obtain ⟨h1, h2, _, _⟩ := legCore_fields nx ny nz mxg xt w c
  simp only [h1, h2, legOrder, mem_twoKeys_flatMap]
  constructor <;> by_cases hc : c ∈ loop3 mxg (nx - mxg) ny nz <;> simp [hc]

end Zoidberg.Weights
