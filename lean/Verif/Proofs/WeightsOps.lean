import Verif.Proofs.WeightsLegWeights

/-! `calculate_parallel_map_operators`. -/

set_option linter.unusedSectionVars false

namespace Zoidberg.Weights

variable {K : Type} [Field K] [LinearOrder K] [IsStrictOrderedRing K] [FloorRing K]

/-- Cell space of an input. -/
def Input.cs (i : Input K) : CellSpace := assignCore i.nx i.ny i.nz i.mxg ⟨i.n, i.fx⟩ ⟨i.n, i.bx⟩

/-- Leg space of an input. -/
def Input.ls (i : Input K) (fwd : Bool) : LegSpace K :=
  legCore i.nx i.ny i.nz i.mxg ⟨i.n, i.xs fwd⟩ i.w

/-- Boundary numbers of a direction. -/
def Input.bn (i : Input K) (fwd : Bool) : Cell → ℤ :=
  if fwd then i.cs.forwardBoundary else i.cs.backwardBoundary

/-- Assembly of a direction. -/
def Input.dest (i : Input K) (fwd : Bool) : Except Err (Builder K) :=
  destCore (i.nx, i.ny, i.nz) i.mxg i.cs.cellNumber (i.bn fwd) (i.ls fwd) ⟨i.n, i.xs fwd⟩
    ⟨i.n, i.zs fwd⟩ i.w (if fwd then 1 else -1)

/-- Leg operators of a direction. -/
def Input.legOps (i : Input K) (jc : ℕ → ℤ) (jw : ℕ → K) (fwd : Bool) (b : Builder K)
    (ws : List K) : LegOps K :=
  ⟨(i.ls fwd).nLegs, (i.ls fwd).interiorLeg, (i.ls fwd).boundaryLeg, ws, b.toCsr jc jw⟩

/-- There are not more guard cells on a side than there are cells (or no cells at all). -/
def Input.Fits (i : Input K) : Prop := ¬ (i.nx < i.mxg ∧ 0 < i.ny ∧ 0 < i.nz)

theorem Input.fits_of_le (i : Input K) (h : i.mxg ≤ i.nx) : i.Fits := by unfold Input.Fits; omega

theorem Input.fits_of_two (i : Input K) (h : 2 * i.mxg ≤ i.nx) : i.Fits := i.fits_of_le (by omega)

theorem assign_ok (maps : MapDict K) (i : Input K) (h : Represents maps i) (hf : i.Fits) :
    assignCellSpaceNumbers maps = .ok i.cs := by
  obtain ⟨h1, h2, h3, _, h5, _⟩ := lookups maps i h
  unfold Input.Fits at hf
  simp [assignCellSpaceNumbers, h1, h2, h3, h5, bind, Except.bind, Input.cs, hf]

theorem assign_error (maps : MapDict K) (i : Input K) (h : Represents maps i) (hf : ¬ i.Fits) :
    assignCellSpaceNumbers maps = .error (.index "cell_number") := by
  obtain ⟨h1, h2, h3, _, h5, _⟩ := lookups maps i h
  unfold Input.Fits at hf
  rw [not_not] at hf
  simp [assignCellSpaceNumbers, h1, h2, bind, Except.bind, hf]

theorem fits_of_ok (jc : ℕ → ℤ) (jw : ℕ → K) (maps : MapDict K) (i : Input K)
    (h : Represents maps i) (o : Ops K) (ho : calculateOps jc jw maps = .ok o) : i.Fits := by
  by_contra hf
  obtain ⟨h1, _⟩ := lookups maps i h
  simp [calculateOps, h1, assign_error maps i h hf, bind, Except.bind] at ho

/-- What remains of `calculate_parallel_map_operators` once the look-ups are done. -/
theorem calculateOps_eq (jc : ℕ → ℤ) (jw : ℕ → K) (maps : MapDict K) (i : Input K)
    (h : Represents maps i) (hfit : i.Fits) (hw : getSubcellWeights maps i.n = .ok i.w) :
    calculateOps jc jw maps = (do
      let fo ← i.dest true
      let bo ← i.dest false
      let fw ← buildLegWeights (i.nx, i.ny, i.nz) (i.ls true)
      let bw ← buildLegWeights (i.nx, i.ny, i.nz) (i.ls false)
      .ok
        { totalCells := i.cs.nCells
          cellNumber := i.cs.cellNumber
          forwardCell := i.cs.forwardBoundary
          backwardCell := i.cs.backwardBoundary
          forward := i.legOps jc jw true fo fw
          backward := i.legOps jc jw false bo bw }) := by
  obtain ⟨h1, h2, h3, h4, h5, h6⟩ := lookups maps i h
  have hf : buildLegSpace (i.nx, i.ny, i.nz) maps forwardDirection = .ok (i.ls true) := by
    simp [buildLegSpace, h2, forwardDirection, h3, hw, bind, Except.bind, Input.ls, Input.xs]
  have hb : buildLegSpace (i.nx, i.ny, i.nz) maps backwardDirection = .ok (i.ls false) := by
    simp [buildLegSpace, h2, backwardDirection, h5, hw, bind, Except.bind, Input.ls, Input.xs]
  have hdf : buildDestOperator jc jw (i.nx, i.ny, i.nz) i.cs (i.ls true) maps forwardDirection =
      (i.dest true).bind (fun b => .ok (b.toCsr jc jw)) := by
    simp only [buildDestOperator, h2, forwardDirection, h3, h4, hw, bind, Except.bind, Input.dest,
      Input.bn, if_true, Input.xs, Input.zs]
  have hdb : buildDestOperator jc jw (i.nx, i.ny, i.nz) i.cs (i.ls false) maps backwardDirection =
      (i.dest false).bind (fun b => .ok (b.toCsr jc jw)) := by
    simp only [buildDestOperator, h2, backwardDirection, h5, h6, hw, bind, Except.bind, Input.dest,
      Input.bn, Bool.false_eq_true, if_false, Input.xs, Input.zs]
  simp only [calculateOps, h1, assign_ok maps i h hfit, hf, hb, hdf, hdb, bind, Except.bind]
  cases i.dest true with
  | error e => rfl
  | ok fo =>
    cases i.dest false with
    | error e => rfl
    | ok bo => rfl

/-- A successful call determines all exported arrays. -/
theorem calculateOps_inv (jc : ℕ → ℤ) (jw : ℕ → K) (maps : MapDict K) (i : Input K)
    (h : Represents maps i) (o : Ops K) (ho : calculateOps jc jw maps = .ok o) :
    (i.w.length = i.n ∧ |i.w.sum - 1| < 1 / 10 ^ 8) ∧
    o.totalCells = i.cs.nCells ∧ o.cellNumber = i.cs.cellNumber ∧
    o.forwardCell = i.cs.forwardBoundary ∧ o.backwardCell = i.cs.backwardBoundary ∧
    ∀ fwd, ∃ b ws, i.dest fwd = .ok b ∧ buildLegWeights (i.nx, i.ny, i.nz) (i.ls fwd) = .ok ws ∧
      o.legs fwd = i.legOps jc jw fwd b ws := by
  have hfit := fits_of_ok jc jw maps i h o ho
  have hw : ∃ w, getSubcellWeights maps i.n = .ok w := by
    obtain ⟨h1, h2, h3, h4, h5, h6⟩ := lookups maps i h
    cases hg : getSubcellWeights maps i.n with
    | ok w => exact ⟨w, rfl⟩
    | error e =>
      have hf : buildLegSpace (i.nx, i.ny, i.nz) maps forwardDirection = .error e := by
        simp [buildLegSpace, h2, forwardDirection, h3, hg, bind, Except.bind]
      simp [calculateOps, h1, assign_ok maps i h hfit, hf, bind, Except.bind] at ho
  obtain ⟨w, hw⟩ := hw
  obtain ⟨rfl, hl, hs⟩ := getSubcellWeights_cases maps i h w hw
  rw [calculateOps_eq jc jw maps i h hfit hw] at ho
  simp only [bind, Except.bind] at ho
  cases hf : i.dest true with
  | error e => simp [hf] at ho
  | ok fo =>
  cases hb : i.dest false with
  | error e => simp [hf, hb] at ho
  | ok bo =>
  cases hfw : buildLegWeights (i.nx, i.ny, i.nz) (i.ls true) with
  | error e => simp [hf, hb, hfw] at ho
  | ok fw =>
  cases hbw : buildLegWeights (i.nx, i.ny, i.nz) (i.ls false) with
  | error e => simp [hf, hb, hfw, hbw] at ho
  | ok bw =>
  simp only [hf, hb, hfw, hbw] at ho
  injection ho with ho
  subst ho
  refine ⟨⟨hl, hs⟩, rfl, rfl, rfl, rfl, ?_⟩
  intro fwd
  cases fwd
  · exact ⟨bo, bw, hb, hbw, rfl⟩
  · exact ⟨fo, fw, hf, hfw, rfl⟩

theorem ops_number (o : Ops K) (cs : CellSpace) (h1 : o.cellNumber = cs.cellNumber)
    (h2 : o.forwardCell = cs.forwardBoundary) (h3 : o.backwardCell = cs.backwardBoundary)
    (w : Owner) : o.number w = cs.number w := by
  cases w with
  | cell c => simp [Ops.number, CellSpace.number, h1]
  | bnd b c => cases b <;> simp [Ops.number, CellSpace.number, h2, h3]

theorem cs_numbered (i : Input K) (hm : 2 * i.mxg ≤ i.nx) :
    Numbered (i.nx, i.ny, i.nz) i.cs.cellNumber := by
  intro c hx hy hz
  have : Owner.cell c ∈ ownerOrder i.nx i.ny i.nz i.mxg ⟨i.n, i.fx⟩ ⟨i.n, i.bx⟩ := by
    simp only [ownerOrder, List.mem_append, List.mem_map]
    left
    exact ⟨c, (mem_cellOrder hm).2 ⟨hx, hy, hz⟩, rfl⟩
  exact (mem_ownerOrder_iff _ _ _ _ _ _ hm _).1 this

theorem bn_nonneg (i : Input K) (hm : 2 * i.mxg ≤ i.nx) (fwd : Bool) (c : Cell)
    (hc : c ∈ loop3 i.mxg (i.nx - i.mxg) i.ny i.nz)
    (hh : anyHit i.nx i.mxg ⟨i.n, i.xs fwd⟩ c = true) : 0 ≤ i.bn fwd c := by
  have : Owner.bnd fwd c ∈ ownerOrder i.nx i.ny i.nz i.mxg ⟨i.n, i.fx⟩ ⟨i.n, i.bx⟩ := by
    simp only [ownerOrder, List.mem_append, List.mem_map]
    right
    refine ⟨(fwd, c), ?_, rfl⟩
    rw [bndOrder, mem_twoKeys_flatMap]
    refine ⟨hc, ?_⟩
    cases fwd
    · simpa [Input.xs] using hh
    · simpa [Input.xs] using hh
  have := (mem_ownerOrder_iff _ _ _ _ _ _ hm _).1 this
  cases fwd
  · exact this
  · exact this

/-- Contributions to the interior row of a cell of an input. -/
def Input.contribs (i : Input K) (fwd : Bool) (c : Cell) : List (ℤ × K) :=
  Weights.contribs (i.nx, i.ny, i.nz) i.mxg i.cs.cellNumber ⟨i.n, i.xs fwd⟩ ⟨i.n, i.zs fwd⟩ i.w
    (if fwd then 1 else -1) c

theorem dest_ok (i : Input K) (hm : 2 * i.mxg ≤ i.nx) (hw : i.GoodWeights) (fwd : Bool) :
    ∃ b : Builder K, i.dest fwd = .ok b ∧ b.length = (i.ls fwd).nLegs ∧
      ∀ c, ((true, c) ∈ legOrder i.nx i.ny i.nz i.mxg ⟨i.n, i.xs fwd⟩ →
          b.getD ((i.ls fwd).boundaryLeg c).toNat [] = [(i.bn fwd c, 1)]) ∧
        ((false, c) ∈ legOrder i.nx i.ny i.nz i.mxg ⟨i.n, i.xs fwd⟩ →
          b.getD ((i.ls fwd).interiorLeg c).toNat [] = addAll [] (i.contribs fwd c)) := by
  exact destCore_eq (i.nx, i.ny, i.nz) i.mxg i.cs.cellNumber (i.bn fwd) (cs_numbered i hm)
    ⟨i.n, i.xs fwd⟩ ⟨i.n, i.zs fwd⟩ i.w (if fwd then 1 else -1) hw.len hw.pos
    (fun c hc hh => bn_nonneg i hm fwd c hc hh)

/-- Interior cells are those of the loops. -/
theorem interior_iff (i : Input K) (c : Cell) :
    i.Interior c ↔ c ∈ loop3 i.mxg (i.nx - i.mxg) i.ny i.nz := by
  rw [mem_loop3]; unfold Input.Interior; omega

theorem legKey_iff (i : Input K) (fwd b : Bool) (c : Cell) :
    (b, c) ∈ legOrder i.nx i.ny i.nz i.mxg ⟨i.n, i.xs fwd⟩ ↔
      i.Interior c ∧ (if b then i.SomeEscape fwd c else i.SomeStay fwd c) := by
  rw [legOrder, mem_twoKeys_flatMap, interior_iff]
  cases b
  · simp only [Bool.false_eq_true, if_false, anyStay_iff]
  · simp only [if_true, anyHit_iff]

end Zoidberg.Weights
